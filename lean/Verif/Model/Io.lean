import Verif.Basic
/-!
# `src/io/mod.rs`: the `Reader` and `Writer` traits and `LimitedReader`
-/
namespace Verif

/-- `trait Reader`, /repo/src/io/mod.rs:74-151, over a reader state `σ`.
`readAll n` models `read_all` on a buffer of length `n`; on success it returns the content of the buffer.
Simplification: the content of the caller's buffer after a *failed* `read_all` is not part of this model; see `Verif.Model.Buffer`.
The field `readAll_len` is Rust's typing: a buffer of length `n` has length `n`. -/
class Reader (σ : Type) where
  read : Act IoErr σ Byte
  readAll : Nat → Act IoErr σ Bytes
  skip : Nat → Act IoErr σ Unit
  skipU64 : UInt64 → Act IoErr σ Unit
  readAll_len : ∀ n s bs s', readAll n s = (.ok bs, s') → bs.length = n

/-- Default `Reader::read_all`, /repo/src/io/mod.rs:94-99: `read` byte by byte, stopping at the first error. -/
def defaultReadAll {σ : Type} (read : Act IoErr σ Byte) : Nat → Act IoErr σ Bytes
  | 0 => pure []
  | n + 1 => do
    let b ← read
    let bs ← defaultReadAll read n
    pure (b :: bs)

/-- Default `Reader::skip`, /repo/src/io/mod.rs:113-122: `read_all` in chunks of at most 512 bytes
until `r` is 0. -/
def defaultSkip {σ : Type} (readAll : Nat → Act IoErr σ Bytes) (r : Nat) : Act IoErr σ Unit :=
  if _h : r = 0 then pure ()
  else do
    let _ ← readAll (min r 512)
    defaultSkip readAll (r - min r 512)
termination_by r
decreasing_by omega

/-- Default `Reader::skip_u64`, /repo/src/io/mod.rs:142-150, for a platform whose `usize::MAX` is
`usizeMax` (clamped to at least 1 so that the loop advances).  The value `remaining` is passed as a `Nat`
below 2^64. -/
def defaultSkipU64Loop {σ : Type} (usizeMax : Nat) (skip : Nat → Act IoErr σ Unit)
    (remaining : Nat) : Act IoErr σ Unit :=
  if _h : remaining = 0 then pure ()
  else do
    skip (min remaining (max usizeMax 1))
    defaultSkipU64Loop usizeMax skip (remaining - min remaining (max usizeMax 1))
termination_by remaining
decreasing_by omega

/-- `usize::MAX` of a 64-bit platform. -/
def usizeMax64 : Nat := 2 ^ 64 - 1

/-- Default `Reader::skip_u64` on a 64-bit platform, /repo/src/io/mod.rs:142-150. -/
def defaultSkipU64 {σ : Type} (skip : Nat → Act IoErr σ Unit) (count : UInt64) : Act IoErr σ Unit :=
  defaultSkipU64Loop usizeMax64 skip count.toNat

theorem defaultReadAll_len {σ : Type} (read : Act IoErr σ Byte) (n : Nat) (s : σ) (bs : Bytes) (s' : σ)
    (h : defaultReadAll read n s = (.ok bs, s')) : bs.length = n := by
  induction n generalizing s bs s' with
  | zero =>
    have := congrArg Prod.fst h
    simp only [defaultReadAll] at this
    have h2 : (.ok [] : Res IoErr Bytes) = .ok bs := this
    simp only [Res.ok.injEq] at h2
    subst h2; rfl
  | succ n ih =>
    simp only [defaultReadAll, Act.bind_apply] at h
    rcases h1 : read s with ⟨r, s₁⟩
    rw [h1] at h
    cases r with
    | ok b =>
      simp only at h
      rcases h2 : defaultReadAll read n s₁ with ⟨r2, s₂⟩
      rw [h2] at h
      cases r2 with
      | ok bs2 =>
        have := congrArg Prod.fst h
        have h3 : (.ok (b :: bs2) : Res IoErr Bytes) = .ok bs := this
        simp only [Res.ok.injEq] at h3
        subst h3
        simp [ih _ _ _ h2]
      | _ => simp at h
    | _ => simp at h

/-- A type whose author wrote only the required method `read` of `Reader`, /repo/src/io/mod.rs:80. -/
class ReadByte (σ : Type) where
  next : Act IoErr σ Byte

/-- `σ` seen as a `Reader` through the default methods. -/
structure ByRead (σ : Type) where
  state : σ
  deriving Repr, DecidableEq

/-- The required method. -/
def ByRead.read {σ : Type} [ReadByte σ] : Act IoErr (ByRead σ) Byte := fun r =>
  match ReadByte.next r.state with
  | (ret, s) => (ret, ⟨s⟩)

/-- `impl Reader` with only `read` given: the other methods are the default ones, /repo/src/io/mod.rs:94-150. -/
instance {σ : Type} [ReadByte σ] : Reader (ByRead σ) where
  read := ByRead.read
  readAll := defaultReadAll ByRead.read
  skip := defaultSkip (defaultReadAll ByRead.read)
  skipU64 := defaultSkipU64 (defaultSkip (defaultReadAll ByRead.read))
  readAll_len := defaultReadAll_len ByRead.read

/-- `trait Writer`, /repo/src/io/mod.rs:162-192, over a writer state `ω`. -/
class Writer (ω : Type) where
  write : Byte → Act IoErr ω Unit
  writeAll : Bytes → Act IoErr ω Unit

/-- Default `Writer::write_all`, /repo/src/io/mod.rs:184-189. -/
def defaultWriteAll {ω : Type} (write : Byte → Act IoErr ω Unit) : Bytes → Act IoErr ω Unit
  | [] => pure ()
  | b :: bs => do
    write b
    defaultWriteAll write bs

/-- A type whose author wrote only the required method `write` of `Writer`, /repo/src/io/mod.rs:171. -/
class WriteByte (ω : Type) where
  put : Byte → Act IoErr ω Unit

/-- `ω` seen as a `Writer` through the default method. -/
structure ByWrite (ω : Type) where
  state : ω
  deriving Repr, DecidableEq

/-- The required method. -/
def ByWrite.write {ω : Type} [WriteByte ω] (b : Byte) : Act IoErr (ByWrite ω) Unit := fun w =>
  match WriteByte.put b w.state with
  | (ret, s) => (ret, ⟨s⟩)

/-- `impl Writer` with only `write` given: `write_all` is the default one, /repo/src/io/mod.rs:184-189. -/
instance {ω : Type} [WriteByte ω] : Writer (ByWrite ω) where
  write := ByWrite.write
  writeAll := defaultWriteAll ByWrite.write

/-- `struct LimitedReader`, /repo/src/io/mod.rs:207-210, made by `new` (/repo/src/io/mod.rs:218-223); `available` is
also the accessor of that name (/repo/src/io/mod.rs:246-248).  The borrowed source is held by value: when the
limited reader is dropped the caller goes on with `source`. -/
structure Limited (σ : Type) where
  source : σ
  available : Nat
  deriving Repr, DecidableEq

namespace Limited
variable {σ : Type}

/-- `LimitedReader::can_read`, /repo/src/io/mod.rs:234-240. -/
def canRead (l : Limited σ) (size : Nat) : Res IoErr Unit :=
  if size > l.available then .err .unableToReadData else .ok ()

/-- `LimitedReader::empty`, /repo/src/io/mod.rs:273-275. -/
def empty (l : Limited σ) : Bool := l.available == 0

/-- `LimitedReader::read`, /repo/src/io/mod.rs:279-286. -/
def read [Reader σ] : Act IoErr (Limited σ) Byte := fun l =>
  match l.canRead 1 with
  | .ok () =>
    match Reader.read l.source with
    | (ret, s) => (ret, ⟨s, if ret.isOk then l.available - 1 else l.available⟩)
  | .err e => (.err e, l)
  | .panic => (.panic, l)
  | .diverge => (.diverge, l)

/-- `LimitedReader::read_all`, /repo/src/io/mod.rs:288-295. -/
def readAll [Reader σ] (n : Nat) : Act IoErr (Limited σ) Bytes := fun l =>
  match l.canRead n with
  | .ok () =>
    match Reader.readAll n l.source with
    | (ret, s) => (ret, ⟨s, if ret.isOk then l.available - n else l.available⟩)
  | .err e => (.err e, l)
  | .panic => (.panic, l)
  | .diverge => (.diverge, l)

/-- `LimitedReader::goto_end`, /repo/src/io/mod.rs:256-266. -/
def gotoEnd [Reader σ] : Act IoErr (Limited σ) Unit := fun l =>
  if l.available > 0 then
    match Reader.skip l.available l.source with
    | (ret, s) => (ret, ⟨s, if ret.isOk then 0 else l.available⟩)
  else (.ok (), l)

theorem readAll_len [Reader σ] (n : Nat) (l : Limited σ) (bs : Bytes) (l' : Limited σ)
    (h : Limited.readAll n l = (.ok bs, l')) : bs.length = n := by
  unfold Limited.readAll at h
  split at h <;> simp at h
  exact Reader.readAll_len n l.source bs (Reader.readAll n l.source).2 (by rw [← h.1])

/-- `impl Reader for LimitedReader`, /repo/src/io/mod.rs:278-296: only `read` and `read_all` are overridden,
`skip` and `skip_u64` are the default ones. -/
instance [Reader σ] : Reader (Limited σ) where
  read := Limited.read
  readAll := Limited.readAll
  skip := defaultSkip Limited.readAll
  skipU64 := defaultSkipU64 (defaultSkip Limited.readAll)
  readAll_len := Limited.readAll_len

end Limited
end Verif
