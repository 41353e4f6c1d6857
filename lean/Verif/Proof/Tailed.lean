import Verif.Spec.Tailed
import Verif.Proof.Schema
/-!
# Payloads that end with the rest of the bytes: the calls they make, and what they read
-/
namespace Verif
open Spec
set_option linter.unusedSectionVars false

section
variable {P σ : Type} [Reader σ] [Env] {f : FactoryDeser P} {p₀ : P}

theorem Runs.rest (hr : MemoryOk) (under : Res TagErr (Option Bytes)) {size used : Nat} (hs : size ≤ maxValue) (tail : Bool) :
    Runs f p₀ (σ := σ) (Tailed.readRest under size used tail) (Tailed.restCode p₀ under size used tail) := by
  cases tail with
  | false => exact Runs.pure none
  | true =>
    exact Runs.ite (fun _ => Runs.bind (Runs.bytes hr (Nat.le_trans (Nat.sub_le _ _) hs)) fun t => Runs.pure (some t))
      fun _ => Runs.given under

/-- What is read as the rest. -/
def RestForm (size used : Nat) (tail : Bool) (r : Option Bytes) (enc : Bytes) : Prop :=
  match tail with
  | false => r = none ∧ enc = []
  | true => used ≤ size ∧ enc.length = size - used ∧ r = some enc

theorem Reads.rest {V : View σ} (hr : MemoryOk) {under : Res TagErr (Option Bytes)} (hu : ∀ r, under ≠ .ok r) {size used : Nat}
    (hs : size ≤ maxValue) (tail : Bool) : Reads V (Tailed.readRest under size used tail) (RestForm size used tail) := by
  cases tail with
  | false => exact Reads.pure none
  | true =>
    have hlift : Reads V (Act.lift under : Act TagErr σ (Option Bytes)) fun _ _ => False :=
      ⟨fun _ _ _ _ _ h => h.elim, fun s bs a s' _ h => absurd (congrArg Prod.fst h) (hu a)⟩
    refine (Reads.ite (fun _ => Reads.bind (Reads.ofSim (Sim.bytes (size - used))
      (Acc.bytes hr (Nat.le_trans (Nat.sub_le _ _) hs))) fun t => Reads.pure (some t)) fun _ => hlift).congr fun r enc => ?_
    constructor
    · rintro (⟨h, t, u, v, rfl, h1, rfl, rfl⟩ | ⟨-, h⟩)
      · refine ⟨h, ?_, ?_⟩ <;> grind
      · exact h.elim
    · rintro ⟨h, h1, rfl⟩
      exact .inl ⟨h, enc, enc, [], by simp, by grind, rfl, rfl⟩

theorem Reads.tailed {V : View σ} (hr : MemoryOk) {under : Res TagErr (Option Bytes)} (hu : ∀ r, under ≠ .ok r) (s : Schema)
    (hb : BoundedSchema s) (tail : Bool) {size : Nat} (hs : size ≤ maxValue) :
    Reads V (Tailed.read under s tail size) fun vt enc =>
      ∃ u w, enc = u ++ w ∧ StructForm s vt.1 u ∧ RestForm size (s.size vt.1) tail vt.2 w := by
  refine (Reads.bind (Reads.read hr s hb) fun v => Reads.bind (Reads.rest hr hu hs tail) fun t => Reads.pure (v, t)).congr
    fun vt enc => ?_
  constructor
  · rintro ⟨v, u, w, rfl, h1, t, x, y, rfl, h2, rfl, rfl⟩
    exact ⟨u, x, by simp, h1, h2⟩
  · rintro ⟨u, w, rfl, h1, h2⟩
    exact ⟨vt.1, u, w, rfl, h1, vt.2, w, [], by simp, h2, rfl, rfl⟩

end
end Verif
