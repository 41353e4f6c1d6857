import Verif.Model.ReadCode
import Verif.Proof.Requests
import Verif.Proof.Deliver
/-!
# Code that reads is a program of reader calls
-/
namespace Verif
open Spec
set_option linter.unusedSectionVars false

/-- Some program of reader calls and memory requests does the same as the action, on every reader. -/
def IsCalls {α : Type} (m : Gen α) : Prop := ∃ T : Prog Unit α,
  ∀ (E : Env) (σ : Type) (i : Reader σ) (s : σ), m E σ i s = ((T.run s).1, (T.run s).2.2)

theorem IsR.calls {α : Type} {T : PS Unit α} {m : Gen α} (h : IsR T m) : IsCalls m := ⟨T (), h⟩

theorem IsCalls.bind {α β : Type} {m : Gen α} {k : α → Gen β} (h : IsCalls m) (hk : ∀ a, IsCalls (k a)) :
    IsCalls fun E σ i => m E σ i >>= fun a => k a E σ i := by
  obtain ⟨T, hT⟩ := h
  exact (IsR.bind (T := fun _ => T) (K := fun a _ => (hk a).choose) hT fun a => (hk a).choose_spec).calls

section
variable {P : Type} [TagPayload P]

theorem IsR.deserialize (e : Engine P) : IsR (PS.deserializeFuel e Factory.fuel none) fun _ σ _ => Factory.deserialize e σ :=
  IsF.deserializeFuel e Factory.fuel none

theorem IsS.deserializeInto (e : Engine P) : ∃ T, IsS T fun _ _ _ => Factory.deserializeInto (P := P) e := by
  refine ⟨_, IsS.bind (IsS.onReader IsR.ilint) fun id => (?_ : IsS (fun t =>
    if id ≠ t.id then PS.fail .unexpectedTagType t else (PS.onReader (PS.tagSize id) >>= fun size =>
      PS.tagValueInto (PS.deserializeFuel e Factory.fuel) size) t) _)⟩
  intro E σ i t s
  show (Act.get >>= _) (t, s) = _
  have hg : (Act.get : Act TagErr (Tag P × σ) _) (t, s) = (.ok (t, s), (t, s)) := rfl
  rw [Act.bind_ok hg]
  by_cases h : id ≠ t.id
  · simp only [if_pos h]; rfl
  · simp only [if_neg h]
    exact IsS.bind (IsS.onReader (IsR.tagSize id)) (fun size => IsS.tagValueInto (IsF.deserializeFuel e Factory.fuel) size)
      E σ i t s

theorem IsCalls.limited {β : Type} {m : Gen β} (n : Nat) (h : IsCalls m) :
    IsCalls fun E σ i => limitedTo n (m E (Limited σ) inferInstance) := by
  obtain ⟨T, hT⟩ := h
  refine ⟨((T.limit n).bind fun b t => .done (.ok (b, t.2)) t).mapT fun _ => (), fun E σ i s => ?_⟩
  rw [Prog.run_mapT, Prog.run_bind]
  show limitedTo n (m E (Limited σ) inferInstance) s = _
  unfold limitedTo
  rw [hT E (Limited σ) inferInstance, Prog.run_limit]
  rcases hr : (T.limit n).run s with ⟨r, t, s'⟩
  cases r <;> rfl

theorem ReadCode.calls {α : Type} (c : ReadCode P α) : IsCalls fun _ σ _ => c.run σ := by
  induction c with
  | done r => exact (IsR.lift r).calls
  | read k ih => exact IsR.read.calls.bind ih
  | readAll n k ih => exact (IsR.readAll n).calls.bind ih
  | ilint k ih => exact IsR.ilint.calls.bind ih
  | signedILInt k ih => exact IsR.signedILInt.calls.bind ih
  | bytes n k ih => exact (IsR.bytes n).calls.bind ih
  | stringTag k ih => exact IsR.stringTag.calls.bind ih
  | tag e k ih => exact (IsR.deserialize e).calls.bind ih
  | into e t k ih =>
    obtain ⟨T, hT⟩ := IsS.deserializeInto e
    exact (IsR.fill t hT).calls.bind ih
  | value e n t k ih =>
    exact (IsR.fill t (IsS.tagValue (IsF.deserializeFuel e Factory.fuel) n t)).calls.bind ih
  | within n body k ihb ih => exact (ihb.limited n).bind fun r => ih r.1 r.2

end
end Verif
