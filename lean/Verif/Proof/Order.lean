import Verif.Proof.ILInt
/-!
# Order of ILInt encodings
-/
namespace Verif
open Spec ILInt

theorem beVal_lex {xs ys : Bytes} (h : xs.length = ys.length) : xs < ys ↔ beVal xs < beVal ys := by
  induction xs generalizing ys with
  | nil => cases ys with
    | nil => simp [beVal]
    | cons y ys => simp at h
  | cons x xs ih =>
    cases ys with
    | nil => simp at h
    | cons y ys =>
      simp only [List.length_cons, Nat.add_right_cancel_iff] at h
      have ih := ih h
      have h1 := beVal_lt xs
      have h2 := beVal_lt ys
      rw [List.cons_lt_cons_iff, ih]
      simp only [beVal]
      rw [h] at h1 ⊢
      generalize hp : 256 ^ ys.length = p at *
      constructor
      · rintro (hlt | ⟨rfl, hlt⟩)
        · have hlt : x.toNat + 1 ≤ y.toNat := hlt
          have := Nat.mul_le_mul_right p hlt
          rw [Nat.add_mul] at this
          omega
        · omega
      · intro hlt
        rcases Nat.lt_trichotomy x.toNat y.toNat with hc | hc | hc
        · exact .inl hc
        · have := UInt8.toNat_inj.mp hc
          subst this
          exact .inr ⟨rfl, by omega⟩
        · have := Nat.mul_le_mul_right p (show y.toNat + 1 ≤ x.toNat from hc)
          rw [Nat.add_mul] at this
          omega

theorem ilintExtra_mono {v w : Nat} (h : v ≤ w) (hw : w < 2 ^ 64) : ilintExtra v ≤ ilintExtra w := by
  by_cases hv : v < 248
  · rw [ilintExtra_eq_zero.mpr hv]; exact Nat.zero_le _
  · obtain ⟨-, -, h3⟩ := ilintExtra_spec (v := v) (Nat.le_of_not_lt hv) (Nat.lt_of_le_of_lt h hw)
    obtain ⟨h4, h5, -⟩ := ilintExtra_spec (v := w) (Nat.le_trans (Nat.le_of_not_lt hv) h) hw
    apply Nat.le_of_not_lt
    intro hlt
    have h6 := h3 (Nat.lt_of_le_of_lt h5 hlt)
    have h7 : 256 ^ ilintExtra w ≤ 256 ^ (ilintExtra v - 1) := Nat.pow_le_pow_right (by decide) (Nat.le_sub_one_of_lt hlt)
    exact absurd (Nat.lt_of_lt_of_le h4 h7) (Nat.not_lt.mpr (Nat.le_trans h6 (Nat.sub_le_sub_right h 248)))

theorem ilint_lt {v w : Nat} (h : v < w) (hw : w < 2 ^ 64) : ilint v < ilint w := by
  have hm := ilintExtra_mono (Nat.le_of_lt h) hw
  have e8v := ilintExtra_le v
  have e8w := ilintExtra_le w
  unfold ilint
  by_cases hv : v < 248
  · have e0 := ilintExtra_eq_zero.mpr hv
    by_cases hw2 : w < 248
    · rw [if_pos hv, if_pos hw2, List.cons_lt_cons_iff]
      left
      rw [UInt8.lt_iff_toNat_lt]; simp; omega
    · rw [if_pos hv, if_neg hw2, List.cons_lt_cons_iff]
      left
      have : ilintExtra w ≠ 0 := fun hc => hw2 (ilintExtra_eq_zero.mp hc)
      rw [UInt8.lt_iff_toNat_lt]; simp; omega
  · have hw2 : ¬ w < 248 := by omega
    rw [if_neg hv, if_neg hw2, List.cons_lt_cons_iff]
    rcases Nat.lt_or_eq_of_le hm with hlt | heq
    · left
      rw [UInt8.lt_iff_toNat_lt]; simp; omega
    · right
      refine ⟨by rw [heq], ?_⟩
      have s1 := (ilintExtra_spec (v := v) (by omega) (by omega)).1
      have s2 := (ilintExtra_spec (v := w) (by omega) (by omega)).1
      rw [beVal_lex (by simp [heq]), beVal_be, beVal_be, Nat.mod_eq_of_lt s1, Nat.mod_eq_of_lt s2]
      exact Nat.sub_lt_sub_right (Nat.le_of_not_lt hv) h

theorem ilint_lt_iff {v w : Nat} (hv : v < 2 ^ 64) (hw : w < 2 ^ 64) : ilint v < ilint w ↔ v < w := by
  constructor
  · intro h
    rcases Nat.lt_trichotomy v w with hc | hc | hc
    · exact hc
    · subst hc; exact absurd h (List.lt_irrefl _)
    · exact absurd (ilint_lt hc hv) (List.lt_asymm h)
  · intro h; exact ilint_lt h hw

end Verif
