import Verif.Proof.Bytes
/-!
# The ILInt codec against its specification
-/
namespace Verif
open Spec

namespace ILInt

theorem encodedSize_eq (v : UInt64) : encodedSize v = 1 + ilintExtra v.toNat := by
  have h : v.toNat < 2 ^ 64 := v.toNat_lt
  unfold encodedSize ilintExtra base
  simp only [UInt64.lt_iff_toNat_lt, UInt64.le_iff_toNat_le, UInt64.reduceAdd, UInt64.reduceToNat,
    Nat.reducePow, Nat.reduceAdd, ← Nat.lt_succ_iff, Nat.succ_eq_add_one]
  repeat' (split; · rfl)
  rfl

theorem fill_eq (n : Nat) (v : UInt64) : fill n v = be n v.toNat := by
  induction n generalizing v with
  | zero => rfl
  | succ n ih =>
    rw [fill, be_succ, ih]
    congr 1
    · congr 1
      simp [UInt64.toNat_shiftRight, Nat.shiftRight_eq_div_pow]
    · congr 1
      apply UInt8.toNat_inj.mp
      simp
      have := Nat.and_two_pow_sub_one_eq_mod (v.toNat % 256) 8
      simp at this
      omega

/-- The bytes `encode` hands to the writer. -/
def bytes (v : UInt64) : Bytes :=
  if encodedSize v = 1 then [v.toUInt8] else encodeBuffer v

theorem ilintExtra_le (v : Nat) : ilintExtra v ≤ 8 := by
  unfold ilintExtra; repeat' split
  all_goals omega

theorem ilintExtra_eq_zero {v : Nat} : ilintExtra v = 0 ↔ v < 248 := by
  unfold ilintExtra; repeat' split
  all_goals omega

theorem ilintExtra_spec {v : Nat} (h : 248 ≤ v) (hv : v < 2 ^ 64) :
    v - 248 < 256 ^ ilintExtra v ∧ 1 ≤ ilintExtra v ∧
      (2 ≤ ilintExtra v → 256 ^ (ilintExtra v - 1) ≤ v - 248) := by
  unfold ilintExtra; repeat' split
  all_goals omega

theorem bytes_eq (v : UInt64) : bytes v = ilint v.toNat := by
  have hv := v.toNat_lt
  unfold bytes ilint encodeBuffer
  simp only [encodedSize_eq]
  by_cases h : v.toNat < 248
  · simp [ilintExtra_eq_zero.mpr h, h]
  · have h0 : ilintExtra v.toNat ≠ 0 := fun hc => h (ilintExtra_eq_zero.mp hc)
    have h8 := ilintExtra_le v.toNat
    rw [if_neg (by omega), if_neg h, fill_eq]
    refine List.cons_eq_cons.mpr ⟨?_, ?_⟩
    · apply UInt8.toNat_inj.mp
      simp
      omega
    · have : (v - base).toNat = v.toNat - 248 := by
        rw [UInt64.toNat_sub_of_le]
        · rfl
        · rw [UInt64.le_iff_toNat_le]; simp [base]; omega
      rw [this, show 1 + ilintExtra v.toNat - 1 = ilintExtra v.toNat by omega]

theorem length_ilint (v : Nat) : (ilint v).length = 1 + ilintExtra v := by
  unfold ilint
  split
  · rename_i h; simp [ilintExtra_eq_zero.mpr h]
  · simp; omega

theorem encodedSize_eq_length (v : UInt64) : encodedSize v = (ilint v.toNat).length := by
  rw [encodedSize_eq, length_ilint]

theorem accumulate_eq (body : Bytes) (v : UInt64) (h : v.toNat * 256 ^ body.length + beVal body < 2 ^ 64) :
    accumulate v body = .ok (UInt64.ofNat (v.toNat * 256 ^ body.length + beVal body)) := by
  induction body generalizing v with
  | nil => simp [accumulate, beVal]
  | cons x xs ih =>
    have hx := x.toNat_lt
    have hps : 256 ^ (xs.length + 1) = 256 ^ xs.length * 256 := Nat.pow_succ ..
    simp only [beVal, List.length_cons, hps] at h
    have hpos : 0 < 256 ^ xs.length := Nat.pow_pos (by omega)
    have h1 : (v.toNat * 256 + x.toNat) * 256 ^ xs.length < 2 ^ 64 := by
      have : (v.toNat * 256 + x.toNat) * 256 ^ xs.length
        = v.toNat * (256 ^ xs.length * 256) + x.toNat * 256 ^ xs.length := by grind
      omega
    have h2 : v.toNat * 256 + x.toNat < 2 ^ 64 :=
      Nat.lt_of_le_of_lt (Nat.le_mul_of_pos_right _ hpos) h1
    have h3 : (v <<< 8).toNat = v.toNat * 256 := by
      rw [UInt64.toNat_shiftLeft]
      simp [Nat.shiftLeft_eq]
      exact Nat.lt_of_le_of_lt (Nat.le_add_right _ _) h2
    have h4 : (x.toUInt64).toNat = x.toNat := by simp
    have h5 : (v <<< 8 + x.toUInt64).toNat = v.toNat * 256 + x.toNat := by
      rw [UInt64.toNat_add, h3, h4]; omega
    simp only [accumulate, addU64, h3, h4, h2, if_true]
    simp only [Res.ok_bind]
    have h6 : (v.toNat * 256 + x.toNat) * 256 ^ xs.length + beVal xs
        = v.toNat * (256 ^ xs.length * 256) + (x.toNat * 256 ^ xs.length + beVal xs) := by grind
    rw [ih]
    · rw [h5]; simp only [beVal, List.length_cons, hps]; rw [h6]
    · rw [h5, h6]; exact h

theorem decodeBody_eq (body : Bytes) (h1 : 1 ≤ body.length) (h8 : body.length ≤ 8) :
    decodeBody body = if 248 + beVal body < 2 ^ 64 then .ok (UInt64.ofNat (248 + beVal body))
      else .err .valueOverflow := by
  have hlt := beVal_lt body
  have hp : 256 ^ body.length ≤ 256 ^ 8 := Nat.pow_le_pow_right (by omega) h8
  have hne : body ≠ [] := by intro h; simp [h] at h1
  unfold decodeBody
  rw [if_neg (by simp [hne]; omega), accumulate_eq _ _ (by simp; omega)]
  simp only [Res.ok_bind, UInt64.toNat_zero, Nat.zero_mul, Nat.zero_add]
  have hn : (UInt64.ofNat (beVal body)).toNat = beVal body := by simp; omega
  simp only [gt_iff_lt, UInt64.lt_iff_toNat_lt, hn, addU64, base]
  simp only [UInt64.reduceToNat]
  by_cases hc : 248 + beVal body < 2 ^ 64
  · rw [if_neg (by omega), if_pos (by omega), if_pos hc]
    congr 1
    apply UInt64.toNat_inj.mp
    rw [UInt64.toNat_add, hn]; simp; omega
  · rw [if_pos (by omega), if_neg hc]

theorem decodeBody_ne_panic (body : Bytes) : decodeBody body ≠ .panic ∧ decodeBody body ≠ .diverge := by
  by_cases h : 1 ≤ body.length ∧ body.length ≤ 8
  · rw [decodeBody_eq _ h.1 h.2]; split <;> simp
  · unfold decodeBody
    rw [if_pos (by simp; by_cases hb : body = []; · simp [hb]
                   · right; have := List.length_pos_iff.mpr hb; omega)]
    simp

theorem decodedSize_eq (h : Byte) :
    decodedSize h = if h.toNat < 248 then 1 else h.toNat - 246 := by
  have hl := h.toNat_lt
  unfold decodedSize
  simp only [UInt8.lt_iff_toNat_lt, UInt8.reduceToNat]
  split
  · rfl
  · have hle : (0xF8 : UInt8) ≤ h := by rw [UInt8.le_iff_toNat_le]; simp; omega
    rw [UInt8.toNat_add, UInt8.toNat_sub_of_le _ _ hle]; simp; omega

theorem decodedSize_ge_one (h : Byte) : 1 ≤ decodedSize h ∧ decodedSize h ≤ 9 := by
  have hl := h.toNat_lt
  rw [decodedSize_eq]; split <;> omega

/-! ### Facts about the specification -/

theorem isILInt_ilint {v : Nat} (hv : v < 2 ^ 64) : IsILInt (ilint v) v := by
  refine ⟨hv, ?_⟩
  unfold ilint
  by_cases h : v < 248
  · left; refine ⟨UInt8.ofNat v, ?_, ?_, ?_⟩ <;> simp [h] <;> omega
  · right
    obtain ⟨h1, h2, -⟩ := ilintExtra_spec (by omega : 248 ≤ v) hv
    have h8 := ilintExtra_le v
    refine ⟨UInt8.ofNat (247 + ilintExtra v), be (ilintExtra v) (v - 248), ?_, ?_, ?_, ?_, ?_⟩
    · simp [h]
    · simp; omega
    · simp; omega
    · simp; omega
    · rw [beVal_be, Nat.mod_eq_of_lt h1]; omega

theorem isILInt_unique {bs : Bytes} {v w : Nat} (h : IsILInt bs v) (h' : IsILInt bs w) : v = w := by
  obtain ⟨-, h⟩ := h
  obtain ⟨-, h'⟩ := h'
  rcases h with ⟨b, rfl, hb, rfl⟩ | ⟨h, body, rfl, h1, h8, hh, rfl⟩ <;>
    rcases h' with ⟨b', hb', hb2, rfl⟩ | ⟨h', body', hb', h1', h8', hh', rfl⟩ <;> simp at hb'
  · simp [hb']
  · obtain ⟨rfl, rfl⟩ := hb'; simp at h1'
  · obtain ⟨rfl, rfl⟩ := hb'; simp at h1
  · obtain ⟨rfl, rfl⟩ := hb'; rfl

/-- No ILInt of `v` is shorter than the canonical one, and the canonical one is the only one of its length. -/
theorem ilint_shortest {bs : Bytes} {v : Nat} (h : IsILInt bs v) :
    (ilint v).length ≤ bs.length ∧ (bs.length = (ilint v).length → bs = ilint v) := by
  obtain ⟨hv, h⟩ := h
  rcases h with ⟨b, rfl, hb, rfl⟩ | ⟨h, body, rfl, h1, h8, hh, rfl⟩
  · have : ilint b.toNat = [b] := by simp [ilint, hb]
    simp [this]
  · have hs := ilintExtra_spec (v := 248 + beVal body) (by omega) hv
    have hle : ilintExtra (248 + beVal body) ≤ body.length := by
      by_cases hc : 2 ≤ ilintExtra (248 + beVal body)
      · have h3 := hs.2.2 hc
        have h4 := beVal_lt body
        have h5 : 256 ^ (ilintExtra (248 + beVal body) - 1) < 256 ^ body.length := by omega
        have := (Nat.pow_lt_pow_iff_right (by omega : 1 < 256)).mp h5
        omega
      · omega
    rw [length_ilint]
    refine ⟨by simp; omega, fun he => ?_⟩
    simp at he
    have hk : ilintExtra (248 + beVal body) = body.length := by omega
    simp only [ilint, hk]
    rw [if_neg (by omega), show 248 + beVal body - 248 = beVal body by omega, be_beVal]
    congr 1
    apply UInt8.toNat_inj.mp
    simp; omega

end ILInt
end Verif
