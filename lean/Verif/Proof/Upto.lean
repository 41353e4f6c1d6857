import Verif.Proof.Recursion
/-!
# More room for nested calls changes nothing

A call of `deserialize` that returns within `k` nested calls gives the same result with more room, and from the same
factory without a limit.
-/
namespace Verif
set_option linter.unusedSectionVars false

/-- Where `m` returns, `m'` does the same. -/
def Upto {σ α : Type} (m m' : Act TagErr σ α) : Prop := ∀ s, (m s).1 ≠ .diverge → m' s = m s
/-- The same for factories, on every reader. -/
def UptoF {P : Type} (f f' : FactoryDeser P) : Prop := ∀ (σ : Type) [Reader σ] (o : Option (Tag P)), Upto (f σ o) (f' σ o)

namespace Upto
section
variable {σ τ τ' α β : Type}

theorem rfl' {m : Act TagErr σ α} : Upto m m := fun _ _ => rfl

theorem bind {m m' : Act TagErr σ α} {k k' : α → Act TagErr σ β} (h : Upto m m') (hk : ∀ a, Upto (k a) (k' a)) :
    Upto (m >>= k) (m' >>= k') := by
  intro s hs
  simp only [Act.bind_apply] at hs ⊢
  have h1 := h s
  rcases hm : m s with ⟨r, s'⟩
  rw [hm] at hs h1
  cases r with
  | ok a => rw [h1 (by simp)]; exact hk a s' hs
  | err e => rw [h1 (by simp)]
  | panic => rw [h1 (by simp)]
  | diverge => simp at hs

theorem onReader {m m' : Act TagErr σ α} (h : Upto m m') : Upto (Verif.onReader (τ := τ) m) (Verif.onReader m') := by
  rintro ⟨t, s⟩ hs
  unfold Verif.onReader at hs ⊢
  simp only at hs ⊢
  rw [h s hs]

theorem zoom {m m' : Act TagErr (τ × σ) α} (h : Upto m m') (wrap : τ → τ') (t₀ : τ) :
    Upto (Verif.zoom wrap t₀ m) (Verif.zoom wrap t₀ m') := by
  rintro ⟨t, s⟩ hs
  unfold Verif.zoom at hs ⊢
  simp only at hs ⊢
  rw [h (t₀, s) hs]

theorem withLimited {m m' : Act TagErr (τ × Limited σ) α} {n : Nat} (h : Upto m m') :
    Upto (Verif.withLimited n m) (Verif.withLimited n m') := by
  rintro ⟨t, s⟩ hs
  unfold Verif.withLimited at hs ⊢
  simp only at hs ⊢
  rw [h (t, ⟨s, n⟩) hs]

theorem ite {c : Prop} [Decidable c] {m m' k k' : Act TagErr σ α} (h : Upto m m') (h' : Upto k k') :
    Upto (if c then m else k) (if c then m' else k') := by split <;> assumption
end

variable {P σ : Type} [Reader σ] {f f' : FactoryDeser P}

theorem rprog (hf : UptoF f f') (r : RProg P) : Upto (RProg.run (σ := σ) f r) (RProg.run f' r) := by
  induction r with
  | done r p => exact rfl'
  | read k ih => exact bind rfl' fun b => ih b
  | readAll n k ih => exact bind rfl' fun b => ih b
  | deser k ih => exact bind (onReader (hf σ none)) fun b => ih b
  | into t k ih => exact bind (onReader (hf σ (some t))) fun b => ih b

variable [Env]

theorem atomValue [TagPayload P] (hf : UptoF f f') (vs : Nat) (a : Atom P) :
    Upto (Atom.deserializeValue (σ := σ) f vs a) (Atom.deserializeValue f' vs a) := by
  by_cases hp : a.kind = .payload
  · cases a with
    | payload id p => exact zoom (rprog hf _) _ _
    | _ => simp [Atom.kind] at hp
  · rw [Atom.factory_free hp f f']; exact rfl'

theorem pushWhile (hf : UptoF f f') (n : Nat) :
    Upto (Tag.pushWhileNotEmpty (σ := σ) f n) (Tag.pushWhileNotEmpty f' n) := by
  induction n with
  | zero => exact rfl'
  | succ n ih =>
    rintro ⟨t, s⟩ hs
    simp only [Tag.pushWhileNotEmpty] at hs ⊢
    by_cases he : s.empty = true
    · simp only [he, if_true]
    · simp only [he] at hs ⊢
      exact bind (onReader (hf (Limited σ) none)) (fun v => bind rfl' fun _ => ih) (t, s) hs

theorem pushTags (hf : UptoF f f') (n : Nat) : Upto (Tag.pushTags (σ := σ) f n) (Tag.pushTags f' n) := by
  induction n with
  | zero => exact rfl'
  | succ n ih => exact bind (onReader (hf σ none)) fun v => bind rfl' fun _ => ih

theorem insertEntries (hf : UptoF f f') (n : Nat) :
    Upto (Tag.insertEntries (σ := σ) f n) (Tag.insertEntries f' n) := by
  induction n with
  | zero => exact rfl'
  | succ n ih => exact bind rfl' fun k => bind (onReader (hf σ none)) fun v => bind rfl' fun _ => ih

theorem tagValue [TagPayload P] (hf : UptoF f f') (vs : Nat) (t : Tag P) :
    Upto (Tag.deserializeValue (σ := σ) f vs t) (Tag.deserializeValue f' vs t) := by
  cases t with
  | atom a => exact zoom (atomValue hf vs a) _ _
  | seq id ts =>
    refine zoom (m := Tag.deserializeSeq f vs) (m' := Tag.deserializeSeq f' vs) ?_ _ _
    unfold Tag.deserializeSeq
    exact withLimited (bind rfl' fun _ => pushWhile hf _)
  | array id ts =>
    refine zoom (withLimited (bind rfl' fun c => ?_)) _ _
    exact ite rfl' (bind (m := setSelf []) rfl' fun _ => bind rfl' fun _ => bind (pushTags hf _) fun _ => rfl')
  | dict id es =>
    refine zoom (withLimited (bind rfl' fun c => ?_)) _ _
    exact bind (m := setSelf []) rfl' fun _ => bind (insertEntries hf _) fun _ => rfl'

theorem tagValueInto [TagPayload P] (hf : UptoF f f') (vs : Nat) :
    Upto (Factory.deserializeTagValueInto (σ := σ) f vs) (Factory.deserializeTagValueInto f' vs) := by
  unfold Factory.deserializeTagValueInto
  refine withLimited ?_
  rintro ⟨t, s⟩ hs
  exact bind (tagValue hf vs t) (fun _ => rfl') (t, s) hs

theorem fill [TagPayload P] (hf : UptoF f f') (vs : Nat) (t : Tag P) :
    Upto (Verif.fill (σ := σ) f vs t) (Verif.fill f' vs t) := by
  intro s hs
  unfold Verif.fill at hs ⊢
  simp only at hs ⊢
  rw [tagValueInto hf vs (t, s)]
  intro h
  rw [h] at hs
  exact hs rfl

theorem afterId [TagPayload P] (e : Engine P) (hf : UptoF f f') (o : Option (Tag P)) (id : UInt64) :
    Upto (Verif.afterId (σ := σ) e f o id) (Verif.afterId e f' o id) := by
  cases o with
  | none =>
    refine bind rfl' fun n => bind rfl' fun t => ?_
    cases t with
    | none => exact rfl'
    | some t => exact fill hf n t
  | some t => exact ite rfl' (bind rfl' fun n => fill hf n t)

/-- Whatever returns within `k` nested calls of a factory is what the factory does. -/
theorem methods [TagPayload P] (e : Engine P) (k : Nat) : UptoF (Factory.deserializeFuel e k) (Factory.methods e) := by
  induction k with
  | zero => intro σ _ o s hs; exact absurd rfl hs
  | succ k ih =>
    intro σ _ o s hs
    rw [deserializeFuel_succ] at hs ⊢
    rw [methods_rec]
    exact bind rfl' (fun id => afterId e ih o id) s hs

/-- More room changes nothing. -/
theorem more [TagPayload P] (e : Engine P) (k : Nat) :
    UptoF (Factory.deserializeFuel e k) (Factory.deserializeFuel e (k + 1)) := by
  induction k with
  | zero => intro σ _ o s hs; exact absurd rfl hs
  | succ k ih =>
    intro σ _ o s hs
    rw [deserializeFuel_succ] at hs
    rw [deserializeFuel_succ e (k + 1), deserializeFuel_succ e k]
    exact bind rfl' (fun id => afterId e ih o id) s hs

theorem le [TagPayload P] (e : Engine P) {k n : Nat} (h : k ≤ n) :
    UptoF (Factory.deserializeFuel e k) (Factory.deserializeFuel e n) := by
  induction h with
  | refl => exact fun _ _ _ => rfl'
  | @step n _ ih =>
    intro σ _ o s hs
    have h1 := ih σ o s hs
    rw [more e n σ o s (by rw [h1]; exact hs), h1]

end Upto
end Verif
