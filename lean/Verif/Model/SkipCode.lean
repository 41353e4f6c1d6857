import Verif.Model.ReadCode
import Verif.Model.Raw
/-!
# Code that reads, skips and scans
-/
namespace Verif

/-- `RawTagScanner::next_tag`, /repo/src/tags/raw/mod.rs:223-238, of a scanner over the reader that stands at `off`; returns
the offsets of the tag and where the scanner stands then. -/
def scanAt {σ : Type} [Reader σ] (m : ArithMode) (off : UInt64) : Act TagErr σ (Option RawTagOffset × UInt64) := fun s =>
  match RawTagScanner.nextTag m ⟨off, s⟩ with
  | (r, sc) => (r.map fun o => (o, sc.offset), sc.reader)

/-- `LimitedReader::new(reader, n)`, /repo/src/io/mod.rs:218-223, some code on it, then `goto_end`,
/repo/src/io/mod.rs:256-266. -/
def limitedToEnd {σ β : Type} [Reader σ] (n : Nat) (x : Act TagErr (Limited σ) β) : Act TagErr σ β := fun s =>
  match (do let b ← x; tagIo Limited.gotoEnd; pure b : Act TagErr (Limited σ) β) ⟨s, n⟩ with
  | (r, l) => (r, l.source)

/-- Code over a reader as `ReadCode`, which may also skip bytes, scan tags without reading them, and leave the rest of a
limited reader. Counts are below 2^64, as a `usize` is. -/
inductive SkipCode (P : Type) : Type → Type 1 where
  /-- Returns, or fails with an error of its own. -/
  | done {α : Type} (r : Res TagErr α) : SkipCode P α
  /-- Reads something. -/
  | get {α β : Type} (c : ReadCode P β) (k : β → SkipCode P α) : SkipCode P α
  /-- `Reader::skip`, /repo/src/io/mod.rs:113-122. -/
  | skip {α : Type} (n : UInt64) (k : SkipCode P α) : SkipCode P α
  /-- `Reader::skip_u64`, /repo/src/io/mod.rs:142-150. -/
  | skipU64 {α : Type} (n : UInt64) (k : SkipCode P α) : SkipCode P α
  /-- `RawTagScanner::next_tag` of a scanner that stands at `off`. -/
  | scan {α : Type} (off : UInt64) (k : Option RawTagOffset → UInt64 → SkipCode P α) : SkipCode P α
  /-- Other code on a limited reader; goes on with what it returned and the bytes it left of the limit. -/
  | within {α β : Type} (n : UInt64) (body : SkipCode P β) (k : β → Nat → SkipCode P α) : SkipCode P α
  /-- Other code on a limited reader, whose rest is then skipped. -/
  | withinToEnd {α β : Type} (n : UInt64) (body : SkipCode P β) (k : β → SkipCode P α) : SkipCode P α

/-- Runs the code on a reader, in a debug or a release build; a failing call ends it. -/
def SkipCode.run {P : Type} [TagPayload P] [Env] (m : ArithMode) :
    {α : Type} → SkipCode P α → (σ : Type) → [Reader σ] → Act TagErr σ α
  | _, .done r, _, _ => Act.lift r
  | _, .get c k, σ, _ => do (k (← c.run σ)).run m σ
  | _, .skip n k, σ, _ => do tagIo (Reader.skip n.toNat); k.run m σ
  | _, .skipU64 n k, σ, _ => do tagIo (Reader.skipU64 n); k.run m σ
  | _, .scan off k, σ, _ => do
    let r ← scanAt m off
    (k r.1 r.2).run m σ
  | _, .within n body k, σ, _ => do
    let r ← limitedTo n.toNat (body.run m (Limited σ))
    (k r.1 r.2).run m σ
  | _, .withinToEnd n body k, σ, _ => do (k (← limitedToEnd n.toNat (body.run m (Limited σ)))).run m σ

end Verif
