import Verif.Spec.Faults
import Verif.Spec.Raw
/-!
# Specification: an index of tags, and the uses of a seekable source between look-ups
-/
namespace Verif.Spec

/-- A reader over a source with faults whose `skip_u64` moves by as much as it is asked to, or fails. -/
structure FaultySkipView (σ : Type) [Reader σ] extends FaultyView σ where
  skipU64_any : ∀ {s bs} (n : UInt64), R s bs → n.toNat ≤ bs.length →
    (∃ s', Reader.skipU64 n s = (.ok (), s') ∧ R s' (bs.drop n.toNat)) ∨ ∃ e s', Reader.skipU64 n s = (.err e, s')

/-- What any use of a seekable source as a reader makes of it: tags read, tags scanned (from whatever offset), bytes
read or skipped, seeks, in any order and whether they succeed or not. -/
inductive Uses {P : Type} [TagPayload P] [Env] {m : ArithMode} (e : Engine P) :
    SeekStream m → SeekStream m → Prop where
  | none (s) : Uses e s s
  | tag {s s'} : Uses e s s' → Uses e s (Factory.deserialize e (SeekStream m) s').2
  | scan {s s'} (off : UInt64) : Uses e s s' → Uses e s (RawTagScanner.nextTag m ⟨off, s'⟩).2.reader
  | bytes {s s'} (n : Nat) : Uses e s s' → Uses e s (Reader.readAll n s').2
  | skip {s s'} (n : UInt64) : Uses e s s' → Uses e s (Reader.skipU64 n s').2
  | seek {s s'} (p : UInt64) : Uses e s s' → Uses e s (SeekStream.seekStart p s').2

end Verif.Spec
