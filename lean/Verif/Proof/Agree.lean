import Verif.Proof.Recursion
/-!
# Factories that differ only in what they do not know

`Wk Q m m'`: `m` behaves exactly as `m'`, or, if `Q` allows it, fails with `UnknownTag`.
-/
namespace Verif
set_option linter.unusedSectionVars false

/-- From every state `m` does what `m'` does, or reports an unknown tag (if `Q`). -/
def Wk {σ α : Type} (Q : Prop) (m m' : Act TagErr σ α) : Prop := ∀ x, m x = m' x ∨ (Q ∧ (m x).1 = .err .unknownTag)

/-- The same for the deserializers of two factories. -/
def WkF {P : Type} (Q : Prop) (f f' : FactoryDeser P) : Prop := ∀ (σ : Type) [Reader σ] (o : Option (Tag P)),
  Wk Q (f σ o) (f' σ o)

variable {Q : Prop}

theorem Wk.refl {σ α : Type} (m : Act TagErr σ α) : Wk Q m m := fun _ => .inl rfl

theorem Wk.bind {σ α β : Type} {m m' : Act TagErr σ α} {k k' : α → Act TagErr σ β} (h : Wk Q m m') (hk : ∀ a, Wk Q (k a) (k' a)) :
    Wk Q (m >>= k) (m' >>= k') := by
  intro x
  simp only [Act.bind_apply]
  rcases h x with h | ⟨hq, h⟩
  · rw [h]
    rcases m' x with ⟨r, x'⟩
    cases r with
    | ok a => exact hk a x'
    | _ => exact .inl rfl
  · refine .inr ⟨hq, ?_⟩
    rcases hm : m x with ⟨r, x'⟩
    rw [hm] at h
    simp only at h
    subst h
    rfl

theorem Wk.ite {σ α : Type} {c : Prop} [Decidable c] {m m' k k' : Act TagErr σ α} (h : Wk Q m m') (h' : Wk Q k k') :
    Wk Q (if c then m else k) (if c then m' else k') := by split <;> assumption

theorem Wk.onReader {σ τ α : Type} {m m' : Act TagErr σ α} (h : Wk Q m m') :
    Wk Q (Verif.onReader (τ := τ) m) (Verif.onReader m') := by
  intro x
  rcases h x.2 with h | ⟨hq, h⟩
  · exact .inl (by unfold Verif.onReader; simp only; rw [h])
  · exact .inr ⟨hq, by unfold Verif.onReader; simpa using h⟩

theorem Wk.zoom {σ τ τ' α : Type} {m m' : Act TagErr (τ × σ) α} (h : Wk Q m m') (wrap : τ → τ') (t₀ : τ) :
    Wk Q (Verif.zoom wrap t₀ m) (Verif.zoom wrap t₀ m') := by
  intro x
  rcases h (t₀, x.2) with h | ⟨hq, h⟩
  · exact .inl (by unfold Verif.zoom; simp only; rw [h])
  · exact .inr ⟨hq, by unfold Verif.zoom; simpa using h⟩

theorem Wk.withLimited {σ τ α : Type} {m m' : Act TagErr (τ × Limited σ) α} (h : Wk Q m m') (n : Nat) :
    Wk Q (Verif.withLimited n m) (Verif.withLimited n m') := by
  intro x
  rcases h (x.1, ⟨x.2, n⟩) with h | ⟨hq, h⟩
  · exact .inl (by unfold Verif.withLimited; simp only; rw [h])
  · exact .inr ⟨hq, by unfold Verif.withLimited; simpa using h⟩

section
variable {P σ : Type} [Reader σ] [E : Env] {f f' : FactoryDeser P}

theorem Wk.rprog (hf : WkF Q f f') (r : RProg P) : Wk Q (RProg.run (σ := σ) f r) (RProg.run f' r) := by
  induction r with
  | done r p => exact Wk.refl _
  | read k ih => exact Wk.bind (Wk.refl _) fun b => ih b
  | readAll n k ih => exact Wk.bind (Wk.refl _) fun b => ih b
  | deser k ih => exact Wk.bind (Wk.onReader (hf σ none)) fun b => ih b
  | into t k ih => exact Wk.bind (Wk.onReader (hf σ (some t))) fun b => ih b

theorem Wk.atomValue [TagPayload P] (hf : WkF Q f f') (vs : Nat) (a : Atom P) :
    Wk Q (Atom.deserializeValue (σ := σ) f vs a) (Atom.deserializeValue f' vs a) := by
  by_cases hp : a.kind = .payload
  · cases a with
    | payload id p => exact Wk.zoom (Wk.rprog hf _) _ _
    | _ => simp [Atom.kind] at hp
  · rw [Atom.factory_free hp f f']
    exact Wk.refl _

theorem Wk.pushWhile (hf : WkF Q f f') (n : Nat) :
    Wk Q (Tag.pushWhileNotEmpty (σ := σ) f n) (Tag.pushWhileNotEmpty f' n) := by
  induction n with
  | zero => exact Wk.refl _
  | succ n ih =>
    intro x
    simp only [Tag.pushWhileNotEmpty]
    split
    · exact .inl rfl
    · exact Wk.bind (Wk.onReader (hf (Limited σ) none)) (fun v => Wk.bind (Wk.refl _) fun _ => ih) x

theorem Wk.pushTags (hf : WkF Q f f') (n : Nat) : Wk Q (Tag.pushTags (σ := σ) f n) (Tag.pushTags f' n) := by
  induction n with
  | zero => exact Wk.refl _
  | succ n ih => exact Wk.bind (Wk.onReader (hf σ none)) fun v => Wk.bind (Wk.refl _) fun _ => ih

theorem Wk.insertEntries (hf : WkF Q f f') (n : Nat) :
    Wk Q (Tag.insertEntries (σ := σ) f n) (Tag.insertEntries f' n) := by
  induction n with
  | zero => exact Wk.refl _
  | succ n ih =>
    exact Wk.bind (Wk.refl _) fun k => Wk.bind (Wk.onReader (hf σ none)) fun v => Wk.bind (Wk.refl _) fun _ => ih

theorem Wk.tagValue [TagPayload P] (hf : WkF Q f f') (vs : Nat) (t : Tag P) :
    Wk Q (Tag.deserializeValue (σ := σ) f vs t) (Tag.deserializeValue f' vs t) := by
  cases t with
  | atom a => exact Wk.zoom (Wk.atomValue hf vs a) _ _
  | seq id ts =>
    exact Wk.zoom (m := Tag.deserializeSeq f vs) (m' := Tag.deserializeSeq f' vs)
      (Wk.withLimited (Wk.bind (Wk.refl _) fun _ => Wk.pushWhile hf _) _) _ _
  | array id ts =>
    refine Wk.zoom (Wk.withLimited (Wk.bind (Wk.refl _) fun c => ?_) _) _ _
    exact Wk.ite (Wk.refl _) (Wk.bind (m := setSelf []) (Wk.refl _) fun _ =>
      Wk.bind (Wk.refl _) fun _ => Wk.bind (Wk.pushTags hf _) fun _ => Wk.refl _)
  | dict id es =>
    refine Wk.zoom (Wk.withLimited (Wk.bind (Wk.refl _) fun c => ?_) _) _ _
    exact Wk.bind (m := setSelf []) (Wk.refl _) fun _ => Wk.bind (Wk.insertEntries hf _) fun _ => Wk.refl _

theorem Wk.tagValueInto [TagPayload P] (hf : WkF Q f f') (vs : Nat) :
    Wk Q (Factory.deserializeTagValueInto (σ := σ) f vs) (Factory.deserializeTagValueInto f' vs) := by
  unfold Factory.deserializeTagValueInto
  refine Wk.withLimited ?_ vs
  intro x
  exact Wk.bind (Wk.tagValue hf vs x.1) (fun _ => Wk.refl _) x

theorem Wk.fill [TagPayload P] (hf : WkF Q f f') (vs : Nat) (t : Tag P) :
    Wk Q (Verif.fill (σ := σ) f vs t) (Verif.fill f' vs t) := by
  intro s
  unfold Verif.fill
  simp only
  rcases Wk.tagValueInto (σ := σ) hf vs (t, s) with h | ⟨hq, h⟩
  · exact .inl (by rw [h])
  · refine .inr ⟨hq, ?_⟩
    rcases hm : Factory.deserializeTagValueInto f vs (t, s) with ⟨r, x'⟩
    rw [hm] at h
    simp only at h
    subst h
    rfl

theorem Wk.afterHeader [TagPayload P] {e e' : Engine P}
    (he : ∀ id, e.createTag id = e'.createTag id ∨ (Q ∧ e.createTag id = .ok none)) (hf : WkF Q f f') (id : UInt64) (vs : Nat) :
    Wk Q (Verif.afterHeader (σ := σ) e f id vs) (Verif.afterHeader e' f' id vs) := by
  intro s
  unfold Verif.afterHeader
  simp only [Act.bind_apply, Act.lift]
  rcases he id with h | ⟨hq, h⟩
  · rw [h]
    cases e'.createTag id with
    | ok o =>
      cases o with
      | none => exact .inl rfl
      | some t => exact Wk.fill hf vs t s
    | _ => exact .inl rfl
  · refine .inr ⟨hq, ?_⟩
    rw [h]
    rfl

theorem Wk.afterId [TagPayload P] {e e' : Engine P}
    (he : ∀ id, e.createTag id = e'.createTag id ∨ (Q ∧ e.createTag id = .ok none)) (hf : WkF Q f f')
    (o : Option (Tag P)) (id : UInt64) : Wk Q (Verif.afterId (σ := σ) e f o id) (Verif.afterId e' f' o id) := by
  cases o with
  | none => exact Wk.bind (Wk.refl _) fun n => Wk.afterHeader he hf id n
  | some t => exact Wk.ite (Wk.refl _) (Wk.bind (Wk.refl _) fun n => Wk.fill hf n t)

theorem Wk.fuel [TagPayload P] {e e' : Engine P}
    (he : ∀ id, e.createTag id = e'.createTag id ∨ (Q ∧ e.createTag id = .ok none)) (k : Nat) :
    WkF Q (Factory.deserializeFuel e k) (Factory.deserializeFuel e' k) := by
  induction k with
  | zero => exact fun σ _ _ => Wk.refl _
  | succ k ih =>
    intro σ _ o s
    rw [deserializeFuel_succ, deserializeFuel_succ]
    exact Wk.bind (Wk.refl _) (fun id => Wk.afterId he ih o id) s

end
end Verif
