import Verif.Model.Io
/-!
# The crate's own tests of `src/io/mod.rs`, run on the model (/repo/src/io/tests.rs)
-/
namespace Verif.Tests.Io
open Verif

/-- `DummyReader`, tests.rs:34-72. -/
structure Dummy where
  available : Nat
  readCount : Nat
  deriving DecidableEq

instance : ReadByte Dummy where
  next := fun d =>
    if d.available > 0 then (.ok (UInt8.ofNat d.readCount), ⟨d.available - 1, d.readCount + 1⟩)
    else (.err .unableToReadData, d)

/-- `DummyReader::new`. -/
def dummy (n : Nat) : ByRead Dummy := ⟨⟨n, 0⟩⟩

/-- `SkipTestReader`, tests.rs:77-109: its own `skip`, the default `read_all` and `skip_u64`. -/
structure SkipTest where
  offset : Nat
  size : Nat
  deriving DecidableEq

def SkipTest.read : Act IoErr SkipTest Byte := fun s =>
  if s.offset < s.size then (.ok (UInt8.ofNat s.offset), ⟨s.offset + 1, s.size⟩) else (.err .unableToReadData, s)

def SkipTest.skip (count : Nat) : Act IoErr SkipTest Unit := fun s =>
  if s.offset + count ≤ s.size then (.ok (), ⟨s.offset + count, s.size⟩) else (.err .unableToReadData, s)

instance : Reader SkipTest where
  read := SkipTest.read
  readAll := defaultReadAll SkipTest.read
  skip := SkipTest.skip
  skipU64 := defaultSkipU64 SkipTest.skip
  readAll_len := defaultReadAll_len _

/-- `test_skiptestreader_skip`. -/
example : ((do Reader.skip 15; Reader.skip 1; Reader.skip 1 : Act IoErr SkipTest Unit) ⟨0, 16⟩)
    = (.err .unableToReadData, ⟨16, 16⟩) ∧
    ((Reader.skip 17 : Act IoErr SkipTest Unit) ⟨0, 16⟩).1 = .err .unableToReadData := by decide +kernel

/-- `test_skiptestreader_skip_u64`. -/
example : ((do Reader.skipU64 15; Reader.skipU64 1; Reader.skipU64 1 : Act IoErr SkipTest Unit) ⟨0, 16⟩)
    = (.err .unableToReadData, ⟨16, 16⟩) ∧
    ((Reader.skipU64 17 : Act IoErr SkipTest Unit) ⟨0, 16⟩).1 = .err .unableToReadData ∧
    ((do Reader.skipU64 0x8000000000000001; Reader.skipU64 1 : Act IoErr SkipTest Unit) ⟨0, 0x8000000000000001⟩)
      = (.err .unableToReadData, ⟨0x8000000000000001, 0x8000000000000001⟩) := by
  decide +kernel

/-- `test_limitedreader_can_read`. -/
example : (List.range 11).all (fun i => (Limited.canRead ⟨dummy 10, 10⟩ i).isOk) = true ∧
    Limited.canRead ⟨dummy 10, 10⟩ 11 = .err .unableToReadData := by decide +kernel

/-- Reads bytes one by one, with what `empty` says before each. -/
def readN : Nat → Act IoErr (Limited (ByRead Dummy)) (List (Bool × Byte))
  | 0 => pure []
  | n + 1 => do
    let e ← fun l => (.ok l.empty, l)
    let b ← Reader.read
    let bs ← readN n
    pure ((e, b) :: bs)

/-- `test_limitedreader_new`, `test_limitedreader_available`, `test_limitedreader_empty`, `test_limitedreader_read`. -/
example : readN 5 ⟨dummy 10, 5⟩ = (.ok [(false, 0), (false, 1), (false, 2), (false, 3), (false, 4)], ⟨⟨⟨5, 5⟩⟩, 0⟩) ∧
    (readN 5 ⟨dummy 10, 5⟩).2.empty = true ∧
    (readN 6 ⟨dummy 10, 5⟩).1 = .err .unableToReadData ∧ (readN 6 ⟨dummy 10, 5⟩).2.source.state.readCount = 5 := by
  decide +kernel

/-- `test_limitedreader_goto_end`. -/
example : (List.range 10).all (fun i =>
      Limited.gotoEnd ⟨dummy 10, i⟩ = (.ok (), ⟨⟨⟨10 - i, i⟩⟩, 0⟩)) = true ∧
    Limited.gotoEnd ⟨dummy 10, 11⟩ = (.err .unableToReadData, ⟨⟨⟨0, 10⟩⟩, 11⟩) := by decide +kernel

/-- `test_limitedreader_read_all`. -/
example : let l0 : Limited (ByRead Dummy) := ⟨dummy 10, 5⟩
    let r1 := (Reader.readAll 0 l0 : Res IoErr Bytes × Limited (ByRead Dummy))
    let r2 := (Reader.readAll 1 r1.2 : Res IoErr Bytes × Limited (ByRead Dummy))
    let r3 := (Reader.readAll 3 r2.2 : Res IoErr Bytes × Limited (ByRead Dummy))
    let r4 := (Reader.readAll 2 r3.2 : Res IoErr Bytes × Limited (ByRead Dummy))
    let r5 := (Reader.readAll 1 r4.2 : Res IoErr Bytes × Limited (ByRead Dummy))
    let r6 := (Reader.readAll 0 r5.2 : Res IoErr Bytes × Limited (ByRead Dummy))
    let r7 := (Reader.readAll 1 r6.2 : Res IoErr Bytes × Limited (ByRead Dummy))
    r1.1 = .ok [] ∧ r2.1 = .ok [0] ∧ r3.1 = .ok [1, 2, 3] ∧ r4.1 = .err .unableToReadData ∧ r5.1 = .ok [4] ∧
    r6.1 = .ok [] ∧ r7.1 = .err .unableToReadData := by decide +kernel

end Verif.Tests.Io
