import Verif.Spec.Reader
import Verif.Model.Factory
import Verif.Model.StdIo
import Verif.Spec.Tag
import Verif.Spec.Memory
/-!
# Specification: sources with faults, and attempts on a seekable source
-/
namespace Verif.Spec

/-- A reader over a source that may fail at any call, for any reason and any number of times: each call delivers exactly
the next bytes, or fails.  Nothing is said about the state after a failure. -/
structure FaultyView (σ : Type) [Reader σ] where
  /-- The reader in state `s` is at the start of the bytes `bs` of its source. -/
  R : σ → Bytes → Prop
  read_any : ∀ {s bs}, R s bs →
    (∃ b r s', bs = b :: r ∧ Reader.read s = (.ok b, s') ∧ R s' r) ∨ ∃ e s', Reader.read s = (.err e, s')
  readAll_any : ∀ {s bs} n, R s bs →
    (n ≤ bs.length ∧ ∃ s', Reader.readAll n s = (.ok (bs.take n), s') ∧ R s' (bs.drop n)) ∨
      ∃ e s', Reader.readAll n s = (.err e, s')

/-- What attempts to read tags from a seekable source and seeks, in any order and whether they succeed or not, make of
the source. -/
inductive Attempts {P : Type} [TagPayload P] [Env] {m : ArithMode} (e : Engine P) :
    SeekStream m → SeekStream m → Prop where
  | none (s) : Attempts e s s
  | read {s s'} : Attempts e s s' → Attempts e s (Factory.deserialize e (SeekStream m) s').2
  | seek {s s'} (p : UInt64) : Attempts e s s' → Attempts e s (SeekStream.seekStart p s').2

/-- What attempts to write the tag `t` at the position `pos` of a seekable destination, each after a seek to `pos` that
succeeded, and other seeks, in any order and whether they succeed or not, make of the destination. -/
inductive WriteAttempts {P : Type} [TagPayload P] {m : ArithMode} (t : Tag P) (pos : UInt64) :
    SeekStream m → SeekStream m → Prop where
  | none (s) : WriteAttempts t pos s s
  | write {s s₁ s₂ p} : WriteAttempts t pos s s₁ → SeekStream.seekStart pos s₁ = (.ok p, s₂) →
      WriteAttempts t pos s (t.serialize s₂).2
  | seek {s s'} (p : UInt64) : WriteAttempts t pos s s' → WriteAttempts t pos s (SeekStream.seekStart p s').2

end Verif.Spec
