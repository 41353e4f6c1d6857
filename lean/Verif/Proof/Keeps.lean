import Verif.Model.Factory
/-!
# Deserialization keeps the id and the type of the tag being filled

For every reader, every factory and whatever the outcome.
-/
namespace Verif
set_option linter.unusedSectionVars false

section
variable {ε τ τ' σ α β : Type}

/-- The action preserves `Q` of the value being filled, whatever its outcome. -/
def Inv (Q : τ → Prop) (m : Act ε (τ × σ) α) : Prop := ∀ t s, Q t → Q (m (t, s)).2.1

variable {Q : τ → Prop}

theorem Inv.lift (r : Res ε α) : Inv Q (Act.lift r : Act ε (τ × σ) α) := fun _ _ h => h
theorem Inv.pure (a : α) : Inv Q (Pure.pure a : Act ε (τ × σ) α) := fun _ _ h => h
theorem Inv.fail (e : ε) : Inv Q (Act.fail e : Act ε (τ × σ) α) := fun _ _ h => h
theorem Inv.panic : Inv Q (Act.panic : Act ε (τ × σ) α) := fun _ _ h => h
theorem Inv.set {t : τ} (h : Q t) : Inv Q (setSelf t : Act ε (τ × σ) Unit) := fun _ _ _ => h
theorem Inv.onReader (x : Act ε σ α) : Inv Q (onReader x) := fun _ _ h => h
theorem Inv.guardE (c : Prop) [Decidable c] (e : ε) : Inv Q (Act.guardE c e : Act ε (τ × σ) Unit) := by
  intro t s h
  unfold Act.guardE
  split <;> exact h

theorem Inv.bind {m : Act ε (τ × σ) α} {k : α → Act ε (τ × σ) β} (h : Inv Q m) (hk : ∀ a, Inv Q (k a)) :
    Inv Q (m >>= k) := by
  intro t s ht
  have h1 := h t s ht
  rw [Act.bind_apply]
  rcases hm : m (t, s) with ⟨r, t', s'⟩
  rw [hm] at h1
  cases r with
  | ok a => exact hk a t' s' h1
  | err e => exact h1
  | panic => exact h1
  | diverge => exact h1

theorem Inv.ite {c : Prop} [Decidable c] {m m' : Act ε (τ × σ) α} (h : Inv Q m) (h' : Inv Q m') :
    Inv Q (if c then m else m') := by split <;> assumption

theorem Inv.dite {c : Prop} [Decidable c] {m : c → Act ε (τ × σ) α} {m' : ¬ c → Act ε (τ × σ) α}
    (h : ∀ hc, Inv Q (m hc)) (h' : ∀ hc, Inv Q (m' hc)) : Inv Q (if hc : c then m hc else m' hc) := by
  split
  · exact h _
  · exact h' _

theorem Inv.zoom {Q : τ' → Prop} {wrap : τ → τ'} {t : τ} {x : Act ε (τ × σ) α} (h : ∀ t', Q (wrap t')) :
    Inv Q (zoom wrap t x) := fun _ _ _ => h _

end

section
variable {P σ : Type} [Reader σ] [Env]

theorem Atom.deserializeValue_keeps [TagPayload P] (f : FactoryDeser P) (n : Nat) (a : Atom P) :
    Inv (fun b => b.id = a.id ∧ b.kind = a.kind) (Atom.deserializeValue (σ := σ) f n a) := by
  cases a with
  | null id => exact Inv.guardE _ _
  | bool id v =>
    exact Inv.bind (Inv.guardE _ _) fun _ => Inv.bind (Inv.onReader _) fun _ =>
      Inv.ite (Inv.set ⟨rfl, rfl⟩) (Inv.ite (Inv.set ⟨rfl, rfl⟩) (Inv.fail _))
  | int8 | uint8 | int16 | uint16 | int32 | uint32 | int64 | uint64 | bin32 | bin64 =>
    exact Inv.bind (Inv.guardE _ _) fun _ => Inv.bind (Inv.onReader _) fun _ => Inv.set ⟨rfl, rfl⟩
  | bin128 id v =>
    exact Inv.bind (Inv.guardE _ _) fun _ => Inv.bind (Inv.onReader _) fun _ =>
      Inv.dite (fun _ => Inv.set ⟨rfl, rfl⟩) fun _ => Inv.panic
  | ilint | signedILInt => exact Inv.bind (Inv.onReader _) fun _ => Inv.set ⟨rfl, rfl⟩
  | string id v =>
    refine Inv.bind (Inv.onReader _) fun tmp => ?_
    cases fromUtf8 tmp
    · exact Inv.fail _
    · exact Inv.set ⟨rfl, rfl⟩
  | bigDec id sc v =>
    exact Inv.bind (Inv.guardE _ _) fun _ => Inv.bind (Inv.onReader _) fun _ =>
      Inv.bind (Inv.set ⟨rfl, rfl⟩) fun _ => Inv.zoom fun _ => ⟨rfl, rfl⟩
  | version id a b c d =>
    exact Inv.bind (Inv.guardE _ _) fun _ => Inv.bind (Inv.onReader _) fun _ => Inv.bind (Inv.set ⟨rfl, rfl⟩) fun _ =>
      Inv.bind (Inv.onReader _) fun _ => Inv.bind (Inv.set ⟨rfl, rfl⟩) fun _ => Inv.bind (Inv.onReader _) fun _ =>
      Inv.bind (Inv.set ⟨rfl, rfl⟩) fun _ => Inv.bind (Inv.onReader _) fun _ => Inv.set ⟨rfl, rfl⟩
  | raw | byteArray | bigInt | ilintArray | range | oid | strDict | payload => exact Inv.zoom fun _ => ⟨rfl, rfl⟩

theorem Tag.deserializeValue_keeps [TagPayload P] (f : FactoryDeser P) (n : Nat) (t : Tag P) :
    Inv (fun u => u.id = t.id ∧ u.kind = t.kind) (Tag.deserializeValue (σ := σ) f n t) := by
  cases t with
  | atom a =>
    intro u s hu
    exact Atom.deserializeValue_keeps f n a a s ⟨rfl, rfl⟩
  | seq | array | dict => exact Inv.zoom fun _ => ⟨rfl, rfl⟩

/-- The value being filled keeps its id and type. -/
theorem tagValueInto_keeps [TagPayload P] (f : FactoryDeser P) (n : Nat) (t : Tag P) (s : σ) :
    (Factory.deserializeTagValueInto f n (t, s)).2.1.id = t.id ∧
    (Factory.deserializeTagValueInto f n (t, s)).2.1.kind = t.kind := by
  have h := Tag.deserializeValue_keeps (σ := Limited σ) f n t t ⟨s, n⟩ ⟨rfl, rfl⟩
  unfold Factory.deserializeTagValueInto withLimited
  simp only [Act.bind_apply]
  rcases hv : Tag.deserializeValue f n t (t, (⟨s, n⟩ : Limited σ)) with ⟨r, t', l⟩
  rw [hv] at h
  cases r with
  | ok a =>
    simp only [Factory.checkEmpty]
    split <;> exact h
  | _ => exact h

end
end Verif
