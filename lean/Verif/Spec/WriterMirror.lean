import Verif.Spec.Mirror
/-!
# Specification: writers that answer exactly as others do
-/
namespace Verif.Spec

/-- A writer in state `w` with `Rel w v` answers every call exactly as one in state `v` does, and goes on so. -/
structure WriterMirror (ω ψ : Type) [Writer ω] [Writer ψ] where
  Rel : ω → ψ → Prop
  write : ∀ b, ExactlyAs False Rel (Writer.write b : Act IoErr ω Unit) (Writer.write b)
  writeAll : ∀ bs, ExactlyAs False Rel (Writer.writeAll bs : Act IoErr ω Unit) (Writer.writeAll bs)

end Verif.Spec
