import Verif.Proof.Agree
import Verif.Proof.Deliver
import Verif.Proof.Std
import Verif.Props.Registry
/-!
# C79: what a factory that knows fewer types does
-/
namespace Verif.Props
open Verif Verif.Spec

section
variable {P : Type} [TagPayload P] [Env]

/-- The factory `e` creates the same tags as `e'`, except for ids that are unknown to it. -/
def KnowsLess (e e' : Engine P) : Prop := ∀ id, e.createTag id = e'.createTag id ∨ e.createTag id = .ok none

theorem fewer_eq {e e' : Engine P} (h : KnowsLess e e') : WkF True (Factory.methods e) (Factory.methods e') :=
  Wk.fuel (fun id => (h id).imp_right fun h => ⟨trivial, h⟩) _

/-- **C79** A factory that knows fewer types does on every reader, whatever its content and faults, exactly what the other
one does (same result, same state of the reader), or it reports an unknown tag. -/
theorem C79_knows_less {e e' : Engine P} (h : KnowsLess e e') {σ : Type} [Reader σ] (s : σ) :
    Factory.deserialize e σ s = Factory.deserialize e' σ s ∨ (Factory.deserialize e σ s).1 = .err .unknownTag :=
  (fewer_eq h σ none s).imp_right And.right

/-- **C79** Hence whatever it reads, the other one reads as the same tag. -/
theorem C79_accepted {e e' : Engine P} (h : KnowsLess e e') {σ : Type} [Reader σ] (s s' : σ) (t : Tag P)
    (ht : Factory.deserialize e σ s = (.ok t, s')) : Factory.deserialize e' σ s = (.ok t, s') := by
  rcases C79_knows_less h s with h1 | h1
  · rw [← h1, ht]
  · rw [ht] at h1; simp at h1

/-- **C79** The same for `deserialize_into` ... -/
theorem C79_into {e e' : Engine P} (h : KnowsLess e e') {σ : Type} [Reader σ] (t : Tag P) (s : σ) :
    Factory.deserializeInto e (t, s) = Factory.deserializeInto e' (t, s) ∨
      (Factory.deserializeInto e (t, s)).1 = .err .unknownTag := by
  have key : Wk True (Factory.deserializeInto e (σ := σ)) (Factory.deserializeInto e') := by
    unfold Factory.deserializeInto
    refine Wk.bind (Wk.refl _) fun id => Wk.bind (Wk.refl _) fun p => Wk.ite (Wk.refl _) ?_
    exact Wk.bind (Wk.refl _) fun n => Wk.tagValueInto (fewer_eq h) n
  exact (key (t, s)).imp_right And.right

/-- **C79** ... and `from_bytes`. -/
theorem C79_from_bytes {e e' : Engine P} (h : KnowsLess e e') (bs : Bytes) :
    Factory.fromBytes e bs = Factory.fromBytes e' bs ∨ Factory.fromBytes e bs = .err .unknownTag := by
  unfold Factory.fromBytes
  rcases C79_knows_less h (ByteArrayReader.new bs) with h1 | h1
  · rw [h1]; exact .inl rfl
  · right
    rcases hd : Factory.deserialize e ByteArrayReader (ByteArrayReader.new bs) with ⟨r, s'⟩
    rw [hd] at h1
    simp only at h1
    subst h1
    rfl

/-- **C79** Factories that create the same tags are the same, however their creators came to be registered. -/
theorem C79_same_tags {e e' : Engine P} (h : ∀ id, e.createTag id = e'.createTag id) {σ : Type} [Reader σ] :
    Factory.deserialize e σ = Factory.deserialize e' σ ∧
    Factory.fromBytes e = Factory.fromBytes e' ∧
    (Factory.deserializeInto e : Act TagErr (Tag P × σ) Unit) = Factory.deserializeInto e' := by
  have key : WkF False (Factory.methods e) (Factory.methods e') := Wk.fuel (fun id => .inl (h id)) _
  have all : ∀ {σ : Type} [Reader σ], Factory.deserialize e σ = Factory.deserialize e' σ := fun {σ} _ => by
    funext s
    rcases key σ none s with h | ⟨h, -⟩
    · exact h
    · exact h.elim
  refine ⟨all, ?_, ?_⟩
  · funext bs; unfold Factory.fromBytes; rw [all]
  · funext x
    have k2 : Wk False (Factory.deserializeInto e (σ := σ)) (Factory.deserializeInto e') := by
      unfold Factory.deserializeInto
      refine Wk.bind (Wk.refl _) fun id => Wk.bind (Wk.refl _) fun p => Wk.ite (Wk.refl _) ?_
      exact Wk.bind (Wk.refl _) fun n => Wk.tagValueInto key n
    rcases k2 x with h | ⟨h, -⟩
    · exact h
    · exact h.elim

/-- **C79** The strict factory knows less than the other one, after any history of registrations. -/
theorem C79_strict (h : List (Change P)) : KnowsLess (after true h) (after false h) := by
  intro id
  have h1 := after_get true h
  have h2 := after_get false h
  unfold Engine.createTag
  rw [h1.2 id, h2.2 id, h1.1.2]
  cases inForce h id with
  | some c => exact .inl rfl
  | none => exact .inr rfl

/-- **C79** So do the standard factories. -/
theorem C79_standard : KnowsLess (Engine.std true : Engine P) (Engine.std false) := by
  intro id
  unfold Engine.createTag
  rw [std_get, std_get, std_strict]
  cases (stdKind id).map defaultCreatorOf with
  | some c => exact .inl rfl
  | none => exact .inr rfl

/-- **C79** A type registered under an id that was unknown only adds to what is read. -/
theorem C79_register (e : Engine P) (id : UInt64) (c : Creator P) (hu : e.createTag id = .ok none) :
    KnowsLess e (e.register id c).2 := by
  intro id'
  by_cases hi : id' = id
  · subst hi; exact .inr hu
  · left
    unfold Engine.createTag Engine.register
    simp only
    rw [HMap.get_insert, if_neg hi]

end

/-! Non-vacuity: the standard factories; an unknown tag in a sequence; an unknown tag in a dictionary entry that is
overwritten (`{"k": 0x20, "k": null}`), which only the factory that is not strict accepts although no unknown tag is left in
the result. -/
attribute [local instance] bigEnv

private def outcome (bs : Bytes) (strict : Bool) : Option Kind × Bool :=
  match Factory.fromBytes (Engine.std strict : Engine Empty) bs with
  | .ok t => (some t.kind, false)
  | .err .unknownTag => (none, true)
  | _ => (none, false)

example : outcome [22, 3, 1, 1, 0] true = (some .seq, false) ∧ outcome [22, 3, 1, 1, 0] false = (some .seq, false) := by
  constructor <;> (unfold outcome Factory.fromBytes; rw [deserialize_eq]; decide +kernel)

example : outcome [22, 3, 100, 1, 7] true = (none, true) ∧ outcome [22, 3, 100, 1, 7] false = (some .seq, false) := by
  constructor <;> (unfold outcome Factory.fromBytes; rw [deserialize_eq]; decide +kernel)

example : outcome [30, 10, 2, 17, 1, 107, 100, 0, 17, 1, 107, 0] true = (none, true) ∧
    outcome [30, 10, 2, 17, 1, 107, 100, 0, 17, 1, 107, 0] false = (some .dict, false) := by
  constructor <;> (unfold outcome Factory.fromBytes; rw [deserialize_eq]; decide +kernel)


section
attribute [local instance] bigEnv
example : KnowsLess (Engine.std true : Engine Empty) ((Engine.std true).register 100 (withIdCreatorOf .string)).2 :=
  C79_register _ _ _ (std_unknown (fun k => by cases k <;> decide))

end

end Verif.Props
