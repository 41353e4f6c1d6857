import Verif.Proof.Recursion
import Verif.Proof.Deliver
import Verif.Proof.Std
/-!
# `deserialize` after its header, and properties of engines
-/
namespace Verif
open Spec
set_option linter.unusedSectionVars false

section
variable {P : Type} [TagPayload P] [Env] {σ : Type} [Reader σ]

omit [Env] in
theorem header_size {id : UInt64} {size : Nat} {s s' : σ} (h : Header s id size s') :
    ∃ s₁, (Ser.deserializeILInt : Act TagErr σ UInt64) s = (.ok id, s₁) ∧
      (Factory.deserializeTagSize id : Act TagErr σ Nat) s₁ =
        (if size ≤ maxValue then .ok size else .err .tagTooLarge, s') := by
  obtain ⟨s₁, h1, h2⟩ := h
  refine ⟨s₁, h1, ?_⟩
  unfold Factory.deserializeTagSize
  rcases h2 with ⟨hi, rfl, rfl⟩ | ⟨hi, n, h3, rfl⟩
  · have hi' : isImplicitTag id = true := isImplicitTag_iff.mpr hi
    have hl : implicitLen id.toNat ≤ maxValue := by
      have : ∀ n : Fin 16, implicitLen n.1 ≤ maxValue := by decide
      exact this ⟨id.toNat, by omega⟩
    simp only [hi', if_true, Act.pure_bind, Act.lift, implicitTagSize_eq hi, if_pos hl]
  · have hi' : isImplicitTag id = false := by
      rcases Bool.eq_false_or_eq_true (isImplicitTag id) with h | h
      · have := isImplicitTag_iff.mp h; omega
      · exact h
    simp only [hi', Bool.false_eq_true, if_false, Act.bind_apply, h3, Act.lift, tagSizeToUsize]
    have : maxTagSize = maxValue := rfl
    by_cases hs : n.toNat ≤ maxValue
    · rw [if_neg (by omega), if_pos hs]
    · rw [if_pos (by omega), if_neg hs]

theorem deserialize_header (e : Engine P) {id : UInt64} {size : Nat} {s s' : σ} (h : Header s id size s')
    (hs : size ≤ maxValue) : Factory.deserialize e σ s = afterHeader e (Factory.methods e) id size s' := by
  obtain ⟨s₁, h1, h2⟩ := header_size h
  rw [if_pos hs] at h2
  rw [deserialize_rec]
  show (Ser.deserializeILInt >>= fun id => Factory.deserializeTagSize id >>= fun size =>
    afterHeader e (Factory.methods e) id size) s = _
  rw [Act.bind_ok h1, Act.bind_ok h2]

theorem deserialize_too_large (e : Engine P) {id : UInt64} {size : Nat} {s s' : σ} (h : Header s id size s')
    (hs : maxValue < size) : Factory.deserialize e σ s = (.err .tagTooLarge, s') := by
  obtain ⟨s₁, h1, h2⟩ := header_size h
  rw [if_neg (by omega)] at h2
  rw [deserialize_rec]
  show (Ser.deserializeILInt >>= fun id => Factory.deserializeTagSize id >>= fun size =>
    afterHeader e (Factory.methods e) id size) s = _
  rw [Act.bind_ok h1, Act.bind_err h2]

/-- What was read is a header. -/
theorem header_of_size {id : UInt64} {n : Nat} {s s₁ s₂ : σ}
    (h1 : (Ser.deserializeILInt : Act TagErr σ UInt64) s = (.ok id, s₁))
    (h2 : (Factory.deserializeTagSize id : Act TagErr σ Nat) s₁ = (.ok n, s₂)) : Header s id n s₂ := by
  refine ⟨s₁, h1, ?_⟩
  unfold Factory.deserializeTagSize at h2
  by_cases hi : isImplicitTag id = true
  · simp only [hi, if_true, Act.pure_bind, Act.lift, Prod.mk.injEq, implicitTagSize_eq (isImplicitTag_iff.mp hi),
      Res.ok.injEq] at h2
    exact .inl ⟨isImplicitTag_iff.mp hi, h2.1.symm, h2.2.symm⟩
  · have hi16 : ¬ id.toNat ≤ 15 := fun hc => hi (isImplicitTag_iff.mpr hc)
    simp only [hi, Bool.false_eq_true, if_false, Act.bind_apply] at h2
    rcases h3 : (Ser.deserializeILInt : Act TagErr σ UInt64) s₁ with ⟨r3, s₃⟩
    rw [h3] at h2
    cases r3 with
    | ok v =>
      simp only [Act.lift, Prod.mk.injEq] at h2
      obtain ⟨hv, rfl⟩ := h2
      exact .inr ⟨by omega, v, rfl, (tagSizeToUsize_ok hv).1⟩
    | _ => simp at h2

/-- A tag comes back only after an acceptable header. -/
theorem header_of_ok (e : Engine P) {t : Tag P} {s s' : σ} (h : Factory.deserialize e σ s = (.ok t, s')) :
    ∃ id size s₂, Header s id size s₂ ∧ size ≤ maxValue ∧
      afterHeader e (Factory.methods e) id size s₂ = (.ok t, s') := by
  rw [deserialize_rec] at h
  replace h : (Ser.deserializeILInt >>= fun id => Factory.deserializeTagSize id >>= fun size =>
    afterHeader e (Factory.methods e) id size) s = (.ok t, s') := h
  rw [Act.bind_apply] at h
  rcases h1 : (Ser.deserializeILInt : Act TagErr σ UInt64) s with ⟨r, s₁⟩
  rw [h1] at h
  cases r with
  | ok id =>
    simp only [Act.bind_apply] at h
    rcases h2 : (Factory.deserializeTagSize id : Act TagErr σ Nat) s₁ with ⟨r2, s₂⟩
    rw [h2] at h
    cases r2 with
    | ok n =>
      exact ⟨id, n, s₂, header_of_size h1 h2, (tagSize_le h2).1, h⟩
    | _ => simp at h
  | _ => simp at h

/-- What happens after the header. -/
theorem afterHeader_ok {e : Engine P} {f : FactoryDeser P} {id : UInt64} {size : Nat} {s s' : σ} {t : Tag P}
    (h : afterHeader e f id size s = (.ok t, s')) :
    ∃ t₀, e.createTag id = .ok (some t₀) ∧ Factory.deserializeTagValueInto f size (t₀, s) = (.ok (), (t, s')) := by
  unfold afterHeader at h
  simp only [Act.bind_apply, Act.lift] at h
  cases hc : e.createTag id with
  | ok o =>
    rw [hc] at h
    cases o with
    | none => simp [Act.fail] at h
    | some t₀ =>
      refine ⟨t₀, rfl, ?_⟩
      simp only at h
      rcases hv : Factory.deserializeTagValueInto f size (t₀, s) with ⟨r, t', s''⟩
      rw [hv] at h
      cases r <;> simp [Res.map] at h ⊢
      exact h
  | _ => rw [hc] at h; simp at h

theorem afterHeader_some {e : Engine P} (f : FactoryDeser P) {id : UInt64} (size : Nat) (s : σ) {t₀ : Tag P}
    (h : e.createTag id = .ok (some t₀)) : afterHeader e f id size s =
      (((Factory.deserializeTagValueInto f size (t₀, s)).1.map fun _ =>
        (Factory.deserializeTagValueInto f size (t₀, s)).2.1), (Factory.deserializeTagValueInto f size (t₀, s)).2.2) := by
  unfold afterHeader
  simp only [Act.bind_apply, Act.lift, h]

theorem value_allowance' (e : Engine P) (w : Watched σ) (t : Tag P) {n : Nat} (hn : n ≤ maxTagSize) :
    ∃ left, (Factory.deserializeTagValueInto (Factory.methods e) n (t, w)).2.2.log.length + left
        = w.log.length + n ∧
      ((Factory.deserializeTagValueInto (Factory.methods e) n (t, w)).1.isOk = true →
        left = 0 ∨ (Factory.deserializeTagValueInto (Factory.methods e) n (t, w)).2.1.id = Id.ilint ∨
          (Factory.deserializeTagValueInto (Factory.methods e) n (t, w)).2.1.id = Id.signedILInt) :=
  value_allowance e Factory.fuel w t hn

theorem deserializeInto_header (e : Engine P) {id : UInt64} {size : Nat} {s s' : σ} (h : Header s id size s')
    (hs : size ≤ maxValue) (t : Tag P) (hid : t.id = id) : Factory.deserializeInto e (t, s) =
      Factory.deserializeTagValueInto (Factory.methods e) size (t, s') := by
  obtain ⟨s₁, h1, h2⟩ := header_size h
  rw [if_pos hs] at h2
  unfold Factory.deserializeInto
  have h1' : (onReader Ser.deserializeILInt : Act TagErr (Tag P × σ) UInt64) (t, s) = (.ok id, (t, s₁)) := by
    unfold onReader; simp only [h1]
  have h2' : (onReader (Factory.deserializeTagSize id) : Act TagErr (Tag P × σ) Nat) (t, s₁) = (.ok size, (t, s')) := by
    unfold onReader; simp only [h2]
  rw [Act.bind_ok h1', Act.bind_apply]
  simp only [Act.get]
  rw [if_neg (by simp [hid]), Act.bind_ok h2']

theorem deserializeInto_too_large (e : Engine P) {id : UInt64} {size : Nat} {s s' : σ} (h : Header s id size s')
    (hs : maxValue < size) (t : Tag P) (hid : t.id = id) : Factory.deserializeInto e (t, s) =
      (.err .tagTooLarge, (t, s')) := by
  obtain ⟨s₁, h1, h2⟩ := header_size h
  rw [if_neg (by omega)] at h2
  unfold Factory.deserializeInto
  have h1' : (onReader Ser.deserializeILInt : Act TagErr (Tag P × σ) UInt64) (t, s) = (.ok id, (t, s₁)) := by
    unfold onReader; simp only [h1]
  have h2' : (onReader (Factory.deserializeTagSize id) : Act TagErr (Tag P × σ) Nat) (t, s₁) =
      (.err .tagTooLarge, (t, s')) := by
    unfold onReader; simp only [h2]
  rw [Act.bind_ok h1', Act.bind_apply]
  simp only [Act.get]
  rw [if_neg (by simp [hid]), Act.bind_err h2']

end
end Verif
