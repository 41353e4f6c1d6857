import Verif.Model.Io
/-!
# Specification: readers that answer exactly as others do
-/
namespace Verif.Spec

/-- Related states answer a call with the same result, errors included, and are related again, whatever the result; or the
first panics, if that is allowed. -/
def ExactlyAs {ε σ ρ α : Type} (panics : Prop) (Rel : σ → ρ → Prop) (x : Act ε σ α) (y : Act ε ρ α) : Prop :=
  ∀ s r, Rel s r → (panics ∧ (x s).1 = .panic) ∨ ((x s).1 = (y r).1 ∧ Rel (x s).2 (y r).2)

/-- A reader in state `s` with `Rel s r` answers every call exactly as one in state `r` does, and goes on so; or it panics,
if that is allowed. -/
structure Mirror (σ ρ : Type) [Reader σ] [Reader ρ] where
  panics : Prop := False
  Rel : σ → ρ → Prop
  read : ExactlyAs panics Rel (Reader.read : Act IoErr σ Byte) Reader.read
  readAll : ∀ n, ExactlyAs panics Rel (Reader.readAll n : Act IoErr σ Bytes) (Reader.readAll n)
  skip : ∀ n < 2 ^ 64, ExactlyAs panics Rel (Reader.skip n : Act IoErr σ Unit) (Reader.skip n)
  skipU64 : ∀ n, ExactlyAs panics Rel (Reader.skipU64 n : Act IoErr σ Unit) (Reader.skipU64 n)

end Verif.Spec
