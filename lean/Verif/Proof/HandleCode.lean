import Verif.Model.HandleCode
import Verif.Spec.WriterMirror
import Verif.Proof.TryCode
import Verif.Proof.ConvCode
/-!
# Code on readers and writers that answer exactly as others do
-/
namespace Verif
open Spec
set_option linter.unusedSectionVars false

section
variable {ε ω ψ σ ρ α : Type} {p q : Prop}

theorem Spec.ExactlyAs.mono {Rel : σ → ρ → Prop} {x : Act ε σ α} {y : Act ε ρ α} (h : ExactlyAs p Rel x y) (hpq : p → q) :
    ExactlyAs q Rel x y := fun s r hr => (h s r hr).imp (fun h => ⟨hpq h.1, h.2⟩) id

theorem Spec.ExactlyAs.onReader {Rel : σ → ρ → Prop} {W : ω → ψ → Prop} {x : Act ε σ α} {y : Act ε ρ α} (h : ExactlyAs p Rel x y) :
    ExactlyAs p (fun a b => W a.1 b.1 ∧ Rel a.2 b.2) (Verif.onReader x : Act ε (ω × σ) α) (Verif.onReader y : Act ε (ψ × ρ) α) :=
  fun a b hab => (h a.2 b.2 hab.2).imp id fun h => ⟨h.1, hab.1, h.2⟩

theorem Spec.ExactlyAs.onWriter {Rel : σ → ρ → Prop} {W : ω → ψ → Prop} {x : Act ε ω α} {y : Act ε ψ α} (h : ExactlyAs p W x y) :
    ExactlyAs p (fun a b => W a.1 b.1 ∧ Rel a.2 b.2) (Verif.onWriter x : Act ε (ω × σ) α) (Verif.onWriter y : Act ε (ψ × ρ) α) :=
  fun a b hab => (h a.1 b.1 hab.1).imp id fun h => ⟨h.1, h.2, hab.2⟩
end

namespace Spec.WriterMirror
variable {ω ψ : Type} [Writer ω] [Writer ψ] (G : WriterMirror ω ψ)

theorem op (x : WOp) : ExactlyAs False G.Rel (x.run : Act TagErr ω Unit) x.run := by
  cases x with
  | byte b => exact (G.write b).io
  | all bs => exact (G.writeAll bs).io

theorem ops (xs : List WOp) : ExactlyAs False G.Rel (runOps xs : Act TagErr ω Unit) (runOps xs) := by
  induction xs with
  | nil => exact ExactlyAs.pure ()
  | cons x xs ih => exact (G.op x).bind fun _ => ih

theorem calls {m : ∀ (ω : Type) [Writer ω], Act TagErr ω Unit} (h : IsOps m) : ExactlyAs False G.Rel (m ω) (m ψ) := by
  obtain ⟨xs, r, h1, -⟩ := h
  rw [h1 ω, h1 ψ]
  exact (G.ops xs).bind fun _ => ExactlyAs.lift r

end Spec.WriterMirror

theorem HandleCode.exactly {P : Type} [TagPayload P] [Env] {α ω ψ σ ρ : Type} [Writer ω] [Writer ψ] [Reader σ] [Reader ρ]
    (c : HandleCode P α) {m m' : ArithMode} (G : WriterMirror ω ψ) (F : Mirror σ ρ) (hm : m = m' ∨ F.panics ∧ m = .checked) :
    ExactlyAs F.panics (fun a b => G.Rel a.1 b.1 ∧ F.Rel a.2 b.2) (c.run m ω σ) (c.run m' ψ ρ) := by
  induction c with
  | done r => exact ExactlyAs.lift r
  | get c k ih => exact ((c.exactly F hm).onReader).catching ih
  | put x k ih => exact (((G.calls (IsOps.out x)).mono False.elim).onWriter).catching ih

end Verif
