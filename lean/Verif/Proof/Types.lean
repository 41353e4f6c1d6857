import Verif.Spec.Types
import Verif.Spec.Tag
import Verif.Proof.Keeps
import Verif.Proof.Header
import Verif.Proof.Scan
/-!
# Deserialization keeps payload types, and what is put into containers comes from the factory
-/
namespace Verif
open Verif.Spec
variable {P σ : Type} [TagPayload P] [PayloadTypes P] [Env]

omit [TagPayload P] [PayloadTypes P] [Env] in
theorem RProg.run_leaves [Reader σ] (f : FactoryDeser P) (q : P → Prop) (g : RProg P) (h : g.Leaves q) :
    ∀ p, q p.1 → q (RProg.run (σ := σ) f g p).2.1 := by
  induction g with
  | done r p => exact fun _ _ => h
  | read k ih =>
    intro p hp
    exact Inv.bind (Q := q) (m := onReader (tagIo Reader.read)) (k := fun b => RProg.run f (k b)) (Inv.onReader _)
      (fun b t s ht => ih b (h b) (t, s) ht) p.1 p.2 hp
  | readAll n k ih =>
    intro p hp
    exact Inv.bind (Q := q) (m := onReader (tagIo (Reader.readAll n))) (k := fun b => RProg.run f (k b)) (Inv.onReader _)
      (fun b t s ht => ih b (h b) (t, s) ht) p.1 p.2 hp
  | deser k ih =>
    intro p hp
    exact Inv.bind (Q := q) (m := onReader (f σ none)) (k := fun b => RProg.run f (k b)) (Inv.onReader _)
      (fun b t s ht => ih b (h b) (t, s) ht) p.1 p.2 hp
  | into t k ih =>
    intro p hp
    exact Inv.bind (Q := q) (m := onReader (f σ (some t))) (k := fun b => RProg.run f (k b)) (Inv.onReader _)
      (fun b t s ht => ih b (h b) (t, s) ht) p.1 p.2 hp

theorem typeOf_of_kind {t u : Tag P} (h : t.kind = u.kind) (hp : ∀ id p, u ≠ .atom (.payload id p)) :
    typeOf t = typeOf u := by
  have hk : u.kind ≠ .payload := by
    intro hk
    cases u with
    | atom a => cases a with
      | payload i p => exact hp i p rfl
      | _ => exact nomatch hk
    | _ => exact nomatch hk
  have : ∀ v : Tag P, v.kind ≠ .payload → typeOf v = .crate v.kind := by
    intro v hv
    cases v with
    | atom a => cases a with
      | payload i p => exact absurd rfl hv
      | _ => rfl
    | _ => rfl
  rw [this u hk, this t (h ▸ hk), h]

/-- The value being filled keeps its type, payload types included. -/
theorem tagValueInto_type [Reader σ] (f : FactoryDeser P) (n : Nat) (t : Tag P) (s : σ) :
    typeOf (Factory.deserializeTagValueInto f n (t, s)).2.1 = typeOf t := by
  by_cases hp : ∃ id p, t = .atom (.payload id p)
  · obtain ⟨id, p, rfl⟩ := hp
    have hl := RProg.run_leaves (σ := Limited σ) f _ _ (PayloadTypes.keeps p n) (p, ⟨s, n⟩) rfl
    unfold Factory.deserializeTagValueInto withLimited
    simp only [Act.bind_apply]
    rw [show Tag.deserializeValue f n (.atom (.payload id p)) (.atom (.payload id p), (⟨s, n⟩ : Limited σ)) =
      ((RProg.run f (TagPayload.deserialize p n) (p, (⟨s, n⟩ : Limited σ))).1,
        (.atom (.payload id (RProg.run f (TagPayload.deserialize p n) (p, (⟨s, n⟩ : Limited σ))).2.1),
          (RProg.run f (TagPayload.deserialize p n) (p, (⟨s, n⟩ : Limited σ))).2.2)) from rfl]
    rcases hr : RProg.run f (TagPayload.deserialize p n) (p, (⟨s, n⟩ : Limited σ)) with ⟨r, p', l⟩
    rw [hr] at hl
    have goal : typeOf (.atom (.payload id p') : Tag P) = typeOf (.atom (.payload id p)) := by
      simp only [typeOf]; rw [hl]
    cases r with
    | ok a =>
      simp only [Factory.checkEmpty]
      split <;> exact goal
    | _ => exact goal
  · exact typeOf_of_kind (tagValueInto_keeps f n t s).2 fun id p h => hp ⟨id, p, h⟩

/-! ### What is inside -/

/-- Every tag the factory returns satisfies `D`. -/
def Gives (D : Tag P → Prop) (f : FactoryDeser P) : Prop :=
  ∀ (σ : Type) [Reader σ] (s s' : σ) (t : Tag P), f σ none s = (.ok t, s') → D t

omit [TagPayload P] [PayloadTypes P] [Env] in
theorem onReader_ok {ε τ α : Type} {x : Act ε σ α} {p p' : τ × σ} {a : α} (h : onReader x p = (.ok a, p')) :
    x p.2 = (.ok a, p'.2) ∧ p'.1 = p.1 := by
  unfold onReader at h
  rcases hx : x p.2 with ⟨r, s⟩
  rw [hx] at h
  simp only [Prod.mk.injEq] at h
  obtain ⟨rfl, rfl⟩ := h
  exact ⟨rfl, rfl⟩

variable {D : Tag P → Prop} {f : FactoryDeser P}

omit [TagPayload P] [PayloadTypes P] [Env] in
theorem Gives.whileNotEmpty [Reader σ] (hf : Gives D f) (fuel : Nat) (p p' : List (Tag P) × Limited σ)
    (hp : ∀ t ∈ p.1, D t) (h : Tag.pushWhileNotEmpty f fuel p = (.ok (), p')) : ∀ t ∈ p'.1, D t := by
  induction fuel generalizing p with
  | zero => simp [Tag.pushWhileNotEmpty, Act.diverge] at h
  | succ fuel ih =>
    rw [Tag.pushWhileNotEmpty] at h
    simp only at h
    split at h
    · simp only [Prod.mk.injEq, true_and] at h; exact h ▸ hp
    · obtain ⟨t, p₁, h1, h⟩ := RawTagScanner.bind_ok_inv h
      obtain ⟨_, p₂, h2, h⟩ := RawTagScanner.bind_ok_inv h
      obtain ⟨h1, e1⟩ := onReader_ok h1
      simp only [modifySelf, Prod.mk.injEq, true_and] at h2
      refine ih p₂ ?_ h
      subst h2
      intro u hu
      rcases List.mem_append.mp hu with hu | hu
      · exact hp u (e1 ▸ hu)
      · rw [List.mem_singleton.mp hu]; exact hf _ _ _ _ h1

omit [TagPayload P] [PayloadTypes P] [Env] in
theorem Gives.push [Reader σ] (hf : Gives D f) (n : Nat) (p p' : List (Tag P) × σ) (hp : ∀ t ∈ p.1, D t)
    (h : Tag.pushTags f n p = (.ok (), p')) : ∀ t ∈ p'.1, D t := by
  induction n generalizing p with
  | zero => rw [Tag.pushTags] at h; exact (Prod.mk.inj h).2 ▸ hp
  | succ n ih =>
    rw [Tag.pushTags] at h
    obtain ⟨t, p₁, h1, h⟩ := RawTagScanner.bind_ok_inv h
    obtain ⟨_, p₂, h2, h⟩ := RawTagScanner.bind_ok_inv h
    obtain ⟨h1, e1⟩ := onReader_ok h1
    simp only [modifySelf, Prod.mk.injEq, true_and] at h2
    refine ih p₂ ?_ h
    subst h2
    intro u hu
    rcases List.mem_append.mp hu with hu | hu
    · exact hp u (e1 ▸ hu)
    · rw [List.mem_singleton.mp hu]; exact hf _ _ _ _ h1

omit [TagPayload P] [PayloadTypes P] in
theorem Gives.insert [Reader σ] (hf : Gives D f) (n : Nat) (p p' : List (String × Tag P) × σ) (hp : ∀ e ∈ p.1, D e.2)
    (h : Tag.insertEntries f n p = (.ok (), p')) : ∀ e ∈ p'.1, D e.2 := by
  induction n generalizing p with
  | zero => rw [Tag.insertEntries] at h; exact (Prod.mk.inj h).2 ▸ hp
  | succ n ih =>
    rw [Tag.insertEntries] at h
    obtain ⟨k, p₀, h0, h⟩ := RawTagScanner.bind_ok_inv h
    obtain ⟨t, p₁, h1, h⟩ := RawTagScanner.bind_ok_inv h
    obtain ⟨_, p₂, h2, h⟩ := RawTagScanner.bind_ok_inv h
    obtain ⟨-, e0⟩ := onReader_ok h0
    obtain ⟨h1, e1⟩ := onReader_ok h1
    simp only [modifySelf, Prod.mk.injEq, true_and] at h2
    refine ih p₂ ?_ h
    subst h2
    rw [e1, e0]
    intro e he
    have : ∀ es : List (String × Tag P), (∀ e ∈ es, D e.2) → ∀ e ∈ HMap.insert k t es, D e.2 := by
      intro es
      induction es with
      | nil => intro _ e he; simp only [HMap.insert, List.mem_singleton] at he; subst he; exact hf _ _ _ _ h1
      | cons x es ih =>
        obtain ⟨k', v'⟩ := x
        intro hes e he
        rw [HMap.insert] at he
        split at he
        · rcases List.mem_cons.mp he with rfl | he
          · exact hf _ _ _ _ h1
          · exact hes e (by simp [he])
        · rcases List.mem_cons.mp he with rfl | he
          · exact hes _ (by simp)
          · exact ih (fun e he => hes e (by simp [he])) e he
    exact this p.1 hp e he

omit [TagPayload P] [PayloadTypes P] [Env] in
theorem withLimited_ok {ε τ α : Type} {n : Nat} {x : Act ε (τ × Limited σ) α} {p p' : τ × σ} {a : α}
    (h : withLimited n x p = (.ok a, p')) : ∃ l, x (p.1, ⟨p.2, n⟩) = (.ok a, (p'.1, l)) ∧ p'.2 = l.source := by
  unfold withLimited at h
  rcases hx : x (p.1, ⟨p.2, n⟩) with ⟨r, t, l⟩
  rw [hx] at h
  simp only [Prod.mk.injEq] at h
  obtain ⟨rfl, rfl⟩ := h
  exact ⟨l, rfl, rfl⟩

omit [TagPayload P] [PayloadTypes P] [Env] in
theorem ensureEmpty_ok {τ : Type} {p p' : τ × Limited σ} (h : ensureEmpty p = (.ok (), p')) : p' = p := by
  unfold ensureEmpty at h
  split at h
  · exact (Prod.mk.inj h).2.symm
  · simp at h

omit [TagPayload P] [PayloadTypes P] [Env] in
theorem Gives.seq [Reader σ] (hf : Gives D f) (n : Nat) (p p' : List (Tag P) × σ)
    (h : Tag.deserializeSeq f n p = (.ok (), p')) : ∀ t ∈ p'.1, D t := by
  unfold Tag.deserializeSeq at h
  obtain ⟨l, h, -⟩ := withLimited_ok h
  obtain ⟨_, p₁, h1, h⟩ := RawTagScanner.bind_ok_inv h
  refine hf.whileNotEmpty _ p₁ (p'.1, l) ?_ h
  simp only [setSelf, Prod.mk.injEq, true_and] at h1
  subst h1
  simp

omit [TagPayload P] [PayloadTypes P] in
theorem Gives.array [Reader σ] (hf : Gives D f) (n : Nat) (p p' : List (Tag P) × σ)
    (h : Tag.deserializeArray f n p = (.ok (), p')) : ∀ t ∈ p'.1, D t := by
  unfold Tag.deserializeArray at h
  obtain ⟨l, h, -⟩ := withLimited_ok h
  obtain ⟨c, p₁, -, h⟩ := RawTagScanner.bind_ok_inv h
  split at h
  · simp [Act.fail] at h
  · obtain ⟨_, p₂, h2, h⟩ := RawTagScanner.bind_ok_inv h
    obtain ⟨_, p₃, h3, h⟩ := RawTagScanner.bind_ok_inv h
    obtain ⟨_, p₄, h4, h⟩ := RawTagScanner.bind_ok_inv h
    have e5 := ensureEmpty_ok h
    have e3 : p₃ = p₂ := by
      unfold Data.alloc at h3
      split at h3
      · exact (Prod.mk.inj h3).2.symm
      · simp [Act.panic] at h3
    rw [show p'.1 = p₄.1 from congrArg Prod.fst e5]
    refine hf.push _ p₃ p₄ ?_ h4
    simp only [setSelf, Prod.mk.injEq, true_and] at h2
    rw [e3, ← h2]
    simp

omit [TagPayload P] [PayloadTypes P] in
theorem Gives.dict [Reader σ] (hf : Gives D f) (n : Nat) (p p' : List (String × Tag P) × σ)
    (h : Tag.deserializeDict f n p = (.ok (), p')) : ∀ e ∈ p'.1, D e.2 := by
  unfold Tag.deserializeDict at h
  obtain ⟨l, h, -⟩ := withLimited_ok h
  obtain ⟨c, p₁, -, h⟩ := RawTagScanner.bind_ok_inv h
  obtain ⟨_, p₂, h2, h⟩ := RawTagScanner.bind_ok_inv h
  obtain ⟨_, p₄, h4, h⟩ := RawTagScanner.bind_ok_inv h
  have e5 := ensureEmpty_ok h
  rw [show p'.1 = p₄.1 from congrArg Prod.fst e5]
  refine hf.insert _ p₂ p₄ ?_ h4
  simp only [setSelf, Prod.mk.injEq, true_and] at h2
  rw [← h2]
  simp

omit [PayloadTypes P] in
/-- Of a tag whose value has been read, everything properly inside was made by the factory. -/
theorem Gives.inside [Reader σ] (hf : Gives D f) (n : Nat) (t t' : Tag P) (s s' : σ)
    (h : Factory.deserializeTagValueInto f n (t, s) = (.ok (), (t', s'))) :
    ∀ u, Within u t' → u = t' ∨ ∃ v, D v ∧ Within u v := by
  unfold Factory.deserializeTagValueInto at h
  obtain ⟨l, h, -⟩ := withLimited_ok h
  obtain ⟨_, ⟨t₁, l₁⟩, h1, h⟩ := RawTagScanner.bind_ok_inv h
  have e : t' = t₁ := by
    unfold Factory.checkEmpty at h
    split at h
    · simp at h
    · exact (congrArg Prod.fst (Prod.mk.inj h).2).symm
  subst e
  simp only at h1
  cases t with
  | atom a =>
    intro u hu
    have : ∃ a', t' = .atom a' := by
      have := congrArg (fun r => r.2.1) h1
      exact ⟨_, this.symm⟩
    obtain ⟨a', rfl⟩ := this
    cases hu
    exact .inl rfl
  | seq id ts =>
    intro u hu
    rcases hx : Tag.deserializeSeq f n (ts, (⟨s, n⟩ : Limited σ)) with ⟨r, ts', l'⟩
    rw [Tag.deserializeValue, zoom, hx] at h1
    simp only [Prod.mk.injEq] at h1
    obtain ⟨rfl, rfl, rfl⟩ := h1
    cases hu with
    | refl => exact .inl rfl
    | seq hv hu => exact .inr ⟨_, hf.seq n _ _ hx _ hv, hu⟩
  | array id ts =>
    intro u hu
    rcases hx : Tag.deserializeArray f n (ts, (⟨s, n⟩ : Limited σ)) with ⟨r, ts', l'⟩
    rw [Tag.deserializeValue, zoom, hx] at h1
    simp only [Prod.mk.injEq] at h1
    obtain ⟨rfl, rfl, rfl⟩ := h1
    cases hu with
    | refl => exact .inl rfl
    | array hv hu => exact .inr ⟨_, hf.array n _ _ hx _ hv, hu⟩
  | dict id es =>
    intro u hu
    rcases hx : Tag.deserializeDict f n (es, (⟨s, n⟩ : Limited σ)) with ⟨r, es', l'⟩
    rw [Tag.deserializeValue, zoom, hx] at h1
    simp only [Prod.mk.injEq] at h1
    obtain ⟨rfl, rfl, rfl⟩ := h1
    cases hu with
    | refl => exact .inl rfl
    | dict hv hu => exact .inr ⟨_, hf.dict n _ _ hx _ hv, hu⟩

/-- All tags inside are as the factory makes them. -/
def AsMade (e : Engine P) (t : Tag P) : Prop := ∀ u, Within u t → Makes e u.id (typeOf u)

theorem gives_asMade (e : Engine P) (he : ∀ id t, e.createTag id = .ok (some t) → t.id = id) (k : Nat) :
    Gives (AsMade e) (Factory.deserializeFuel e k) := by
  induction k with
  | zero => intro σ _ s s' t h; simp [Factory.deserializeFuel, Act.diverge] at h
  | succ k ih =>
    intro σ _ s s' t h
    rw [Factory.deserializeFuel] at h
    obtain ⟨id, s₁, -, h⟩ := RawTagScanner.bind_ok_inv h
    obtain ⟨size, s₂, -, h⟩ := RawTagScanner.bind_ok_inv h
    obtain ⟨tag, s₃, h3, h⟩ := RawTagScanner.bind_ok_inv h
    obtain ⟨hc, -⟩ := RawTagScanner.lift_ok_inv h3
    cases tag with
    | none => simp [Act.fail] at h
    | some t₀ =>
      simp only at h
      rcases hv : Factory.deserializeTagValueInto (Factory.deserializeFuel e k) size (t₀, s₃) with ⟨r, t₁, s₄⟩
      rw [hv] at h
      cases r with
      | ok a =>
        simp only [Res.map, Prod.mk.injEq, Res.ok.injEq] at h
        obtain ⟨rfl, rfl⟩ := h
        have hid := (tagValueInto_keeps (Factory.deserializeFuel e k) size t₀ s₃).1
        have hty := tagValueInto_type (Factory.deserializeFuel e k) size t₀ s₃
        rw [hv] at hid hty
        intro u hu
        rcases ih.inside size t₀ t₁ s₃ s₄ hv u hu with rfl | ⟨v, hv, hu⟩
        · refine ⟨t₀, ?_, hty.symm⟩
          rw [show u.id = id from hid.trans (he id t₀ hc), hc]
        · exact hv u hu
      | _ => simp [Res.map] at h

end Verif
