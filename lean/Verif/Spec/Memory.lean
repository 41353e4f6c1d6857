import Verif.Model.Io
/-!
# Specification of in-memory cursors and files, and of histories of operations

Written without reference to the readers and writers of the model: a cursor is a position in a fixed array, a file is
a byte string with a position.  An outcome is recorded as `Res IoErr Bytes`: the bytes obtained (none for `skip`,
`set_offset` and writes) or the error.
-/
namespace Verif.Spec

/-- A call on a reader. -/
inductive ReadOp where
  | read
  | readAll (n : Nat)
  | skip (n : Nat)
  | skipU64 (n : UInt64)
  | setOffset (n : Nat)
  deriving Repr, DecidableEq

/-- `n` bytes at position `pos` of the array: all of them and the position moves on, or an error and it does not. -/
def cursorTake (a : Bytes) (pos n : Nat) : Res IoErr Bytes × Nat :=
  if pos + n ≤ a.length then (.ok ((a.drop pos).take n), pos + n)
  else (.err (if pos = a.length then .endOfData else .unableToReadData), pos)

/-- What a cursor over the array `a` at `pos` answers to one call, and the new position. -/
def cursorStep (a : Bytes) (pos : Nat) : ReadOp → Res IoErr Bytes × Nat
  | .read => cursorTake a pos 1
  | .readAll n => cursorTake a pos n
  | .skip n => ((cursorTake a pos n).1.map fun _ => [], (cursorTake a pos n).2)
  | .skipU64 n => ((cursorTake a pos n.toNat).1.map fun _ => [], (cursorTake a pos n.toNat).2)
  | .setOffset n => (.ok [], min n a.length)

/-- The answers of a cursor to a history of calls, and its final position. -/
def cursorRun (a : Bytes) (pos : Nat) : List ReadOp → List (Res IoErr Bytes) × Nat
  | [] => ([], pos)
  | op :: ops =>
    let r := cursorStep a pos op
    let rs := cursorRun a r.2 ops
    (r.1 :: rs.1, rs.2)

/-- One call on a reader (whose `set_offset` is given), recorded in the same way. -/
def readStep {σ : Type} [Reader σ] (setOffset : Nat → σ → σ) (s : σ) : ReadOp → Res IoErr Bytes × σ
  | .read => let r := Reader.read s; (r.1.map fun b => [b], r.2)
  | .readAll n => Reader.readAll n s
  | .skip n => let r := Reader.skip n s; (r.1.map fun _ => [], r.2)
  | .skipU64 n => let r := Reader.skipU64 n s; (r.1.map fun _ => [], r.2)
  | .setOffset n => (.ok [], setOffset n s)

/-- A history of calls on a reader; the caller carries on after an error. -/
def readRun {σ : Type} [Reader σ] (setOffset : Nat → σ → σ) (s : σ) : List ReadOp → List (Res IoErr Bytes) × σ
  | [] => ([], s)
  | op :: ops =>
    let r := readStep setOffset s op
    let rs := readRun setOffset r.2 ops
    (r.1 :: rs.1, rs.2)

/-- A call on a writer. -/
inductive WriteOp where
  | write (b : Byte)
  | writeAll (bs : Bytes)
  | setOffset (n : Nat)
  | setReadOnly (b : Bool)
  deriving Repr, DecidableEq

/-- The bytes a call wants to write. -/
def WriteOp.data : WriteOp → Bytes
  | .write b => [b]
  | .writeAll bs => bs
  | .setOffset _ => []
  | .setReadOnly _ => []

/-- A growable file: content, position and write protection. -/
structure File where
  content : Bytes
  pos : Nat
  readOnly : Bool
  deriving Repr, DecidableEq

/-- The content with the bytes from `pos` on replaced (and, past the end, extended) by `bs`. -/
def overwrite (content : Bytes) (pos : Nat) (bs : Bytes) : Bytes :=
  content.take pos ++ bs ++ content.drop (pos + bs.length)

/-- What a file answers to one call, and its new state. -/
def File.step (f : File) : WriteOp → Res IoErr Unit × File
  | .setOffset n => (.ok (), { f with pos := min n f.content.length })
  | .setReadOnly b => (.ok (), { f with readOnly := b })
  | op =>
    if f.readOnly then (.err .unableToWriteData, f)
    else (.ok (), { f with content := overwrite f.content f.pos op.data, pos := f.pos + op.data.length })

/-- The same for a file of fixed length. -/
def File.stepFixed (f : File) : WriteOp → Res IoErr Unit × File
  | .setOffset n => (.ok (), { f with pos := min n f.content.length })
  | .setReadOnly _ => (.ok (), f)
  | op =>
    if f.pos + op.data.length ≤ f.content.length then
      (.ok (), { f with content := overwrite f.content f.pos op.data, pos := f.pos + op.data.length })
    else (.err .unableToWriteData, f)

/-- A history of calls on a state machine: the outcomes and the final state. -/
def runHist {σ op α : Type} (step : σ → op → α × σ) (s : σ) : List op → List α × σ
  | [] => ([], s)
  | o :: ops =>
    let r := step s o
    let rs := runHist step r.2 ops
    (r.1 :: rs.1, rs.2)

/-- One call on a writer (whose `set_offset` and `set_read_only` are given). -/
def writeStep {ω : Type} [Writer ω] (setOffset : Nat → ω → ω) (setReadOnly : Bool → ω → ω) (w : ω) :
    WriteOp → Res IoErr Unit × ω
  | .write b => Writer.write b w
  | .writeAll bs => Writer.writeAll bs w
  | .setOffset n => (.ok (), setOffset n w)
  | .setReadOnly b => (.ok (), setReadOnly b w)

end Verif.Spec

namespace Verif.Spec

/-- What a stream that can only be read forward and still holds `data` answers to one call, and what it holds
afterwards: the next bytes, or an end-of-file error that uses up the stream.  (`set_offset` does not exist.) -/
def streamStep (data : Bytes) : ReadOp → Res IoErr Bytes × Bytes
  | .read => if 1 ≤ data.length then (.ok (data.take 1), data.drop 1) else (.err (.ioError .unexpectedEof), [])
  | .readAll n => if n ≤ data.length then (.ok (data.take n), data.drop n) else (.err (.ioError .unexpectedEof), [])
  | .skip n => if n ≤ data.length then (.ok [], data.drop n) else (.err (.ioError .unexpectedEof), [])
  | .skipU64 n =>
    if n.toNat ≤ data.length then (.ok [], data.drop n.toNat) else (.err (.ioError .unexpectedEof), [])
  | .setOffset _ => (.ok [], data)

/-- The content with `bs` written at `pos`; if `pos` is past the end the gap is filled with zeros. -/
def overwriteGap (content : Bytes) (pos : Nat) (bs : Bytes) : Bytes :=
  overwrite (content ++ List.replicate (pos - content.length) 0) pos bs

/-- A reader that counts the bytes the reader below it delivers: every byte of a successful `read`, `read_all`,
`skip` or `skip_u64`. -/
structure Counting (σ : Type) where
  source : σ
  count : Nat

namespace Counting
variable {σ : Type}

/-- Runs the call on the source and adds `n` to the count if it succeeds. -/
def tick {α : Type} (n : Nat) (x : Act IoErr σ α) : Act IoErr (Counting σ) α := fun c =>
  ((x c.source).1, ⟨(x c.source).2, if (x c.source).1.isOk then c.count + n else c.count⟩)

instance [Reader σ] : Reader (Counting σ) where
  read := tick 1 Reader.read
  readAll n := tick n (Reader.readAll n)
  skip n := tick n (Reader.skip n)
  skipU64 n := tick n.toNat (Reader.skipU64 n)
  readAll_len := by
    intro n s bs s' h
    simp only [tick, Prod.mk.injEq] at h
    exact Reader.readAll_len n s.source bs (Reader.readAll n s.source).2 (by rw [← h.1])

end Counting
end Verif.Spec
