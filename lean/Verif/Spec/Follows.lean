import Verif.Model.Io
/-!
# Specification: readers that answer as others do
-/
namespace Verif.Spec

/-- Related states answer a call in the same way and are related again, or the first reports an error, or panics if that
is allowed. -/
def AnswersAs {ε σ ρ α : Type} (panics : Prop) (Rel : σ → ρ → Prop) (x : Act ε σ α) (y : Act ε ρ α) : Prop :=
  ∀ s r, Rel s r → (∃ a s' r', x s = (.ok a, s') ∧ y r = (.ok a, r') ∧ Rel s' r') ∨ (∃ e s', x s = (.err e, s')) ∨
    panics ∧ ∃ s', x s = (.panic, s')

/-- A reader in state `s` with `Rel s r` answers every call as one in state `r` does, and goes on so, unless it reports an
error, or panics if that is allowed. -/
structure Follows (σ ρ : Type) [Reader σ] [Reader ρ] where
  panics : Prop := False
  Rel : σ → ρ → Prop
  read : AnswersAs panics Rel (Reader.read : Act IoErr σ Byte) Reader.read
  readAll : ∀ n, AnswersAs panics Rel (Reader.readAll n : Act IoErr σ Bytes) (Reader.readAll n)
  skip : ∀ n < 2 ^ 64, AnswersAs panics Rel (Reader.skip n : Act IoErr σ Unit) (Reader.skip n)
  skipU64 : ∀ n, AnswersAs panics Rel (Reader.skipU64 n : Act IoErr σ Unit) (Reader.skipU64 n)

/-- Readers that answer alike: each as the other. -/
structure Alike (σ ρ : Type) [Reader σ] [Reader ρ] where
  right : Follows σ ρ
  left : Follows ρ σ
  noPanic : ¬ right.panics ∧ ¬ left.panics
  same : ∀ s r, right.Rel s r ↔ left.Rel r s

end Verif.Spec
