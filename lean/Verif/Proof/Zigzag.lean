import Verif.Model.ILInt
import Verif.Spec.ILInt
/-!
# The sign mapping
-/
namespace Verif
open Spec
namespace ILInt

/-- The two's complement reading of a `u64`. -/
theorem toInt64_toInt (t : UInt64) :
    t.toInt64.toInt = if t.toNat < 2 ^ 63 then (t.toNat : Int) else (t.toNat : Int) - 2 ^ 64 := by
  have h := BitVec.toInt_eq_toNat_cond t.toBitVec
  have h1 : t.toInt64.toInt = t.toBitVec.toInt := rfl
  have h2 : t.toNat = t.toBitVec.toNat := rfl
  rw [h1, h, ← h2]
  split <;> split <;> omega

theorem and_high (t : UInt64) : (t &&& 0x8000000000000000 = 0) ↔ t.toNat < 2 ^ 63 := by
  have ht := t.toNat_lt
  rw [← UInt64.toNat_inj, UInt64.toNat_and]
  have h63 : (0x8000000000000000 : UInt64).toNat = 2 ^ 63 := by rfl
  have h0 : (0 : UInt64).toNat = 0 := rfl
  rw [h63, h0]
  have hb : t.toNat.testBit 63 = decide (t.toNat / 2 ^ 63 % 2 = 1) := Nat.testBit_eq_decide_div_mod_eq
  constructor
  · intro h
    have h1 : (t.toNat &&& 2 ^ 63).testBit 63 = false := by rw [h]; exact Nat.zero_testBit 63
    rw [Nat.testBit_and, Nat.testBit_two_pow_self, Bool.and_true, hb] at h1
    simp only [decide_eq_false_iff_not] at h1
    omega
  · intro h
    apply Nat.eq_of_testBit_eq
    intro i
    rw [Nat.testBit_and, Nat.zero_testBit, Nat.testBit_two_pow]
    by_cases hi : 63 = i
    · subst hi
      have : t.toNat / 2 ^ 63 = 0 := Nat.div_eq_of_lt h
      rw [hb, this]; rfl
    · simp [hi]

theorem and_one (t : UInt64) : (t &&& 0x1 = 0) ↔ t.toNat % 2 = 0 := by
  rw [← UInt64.toNat_inj, UInt64.toNat_and]
  have h1 : (1 : UInt64).toNat = 1 := rfl
  have h0 : (0 : UInt64).toNat = 0 := rfl
  rw [h1, h0, Nat.and_one_is_mod]

theorem shl_one (t : UInt64) : (t <<< 1).toNat = t.toNat * 2 % 2 ^ 64 := by
  rw [UInt64.toNat_shiftLeft]
  have h1 : (1 : UInt64).toNat % 64 = 1 := rfl
  rw [h1, Nat.shiftLeft_eq]

theorem shr_one (t : UInt64) : (t >>> 1).toNat = t.toNat / 2 := by
  rw [UInt64.toNat_shiftRight]
  have h1 : (1 : UInt64).toNat % 64 = 1 := rfl
  rw [h1, Nat.shiftRight_eq_div_pow]

theorem not_toNat (t : UInt64) : (~~~t).toNat = 2 ^ 64 - 1 - t.toNat := by
  rw [UInt64.toNat_not]

theorem encodeSign_eq (v : Int64) : (encodeSign v).toNat = zigzag v.toInt := by
  obtain ⟨t, rfl⟩ : ∃ t : UInt64, v = t.toInt64 := ⟨v.toUInt64, rfl⟩
  have hi := toInt64_toInt t
  have ht := t.toNat_lt
  have hu : t.toInt64.toUInt64 = t := rfl
  unfold encodeSign zigzag
  simp only [hu, and_high, hi]
  by_cases h : t.toNat < 2 ^ 63
  · rw [if_pos h, if_pos h, if_pos (by omega), shl_one]; omega
  · rw [if_neg h, if_neg h, if_neg (by omega), not_toNat, shl_one]; omega

theorem decodeSign_eq (u : UInt64) :
    (decodeSign u).toInt = if u.toNat % 2 = 0 then ((u.toNat / 2 : Nat) : Int) else -((u.toNat / 2 : Nat) : Int) - 1 := by
  have ht := u.toNat_lt
  unfold decodeSign
  simp only [and_one]
  by_cases h : u.toNat % 2 = 0
  · rw [if_pos h, if_pos h, toInt64_toInt, shr_one, if_pos (by omega)]
  · rw [if_neg h, if_neg h, toInt64_toInt, not_toNat, shr_one, if_neg (by omega)]; omega

theorem toInt_bounds (v : Int64) : -2 ^ 63 ≤ v.toInt ∧ v.toInt < 2 ^ 63 := by
  obtain ⟨t, rfl⟩ : ∃ t : UInt64, v = t.toInt64 := ⟨v.toUInt64, rfl⟩
  have ht := t.toNat_lt
  rw [toInt64_toInt]; split <;> omega

theorem decodeSign_encodeSign (v : Int64) : decodeSign (encodeSign v) = v := by
  apply Int64.toInt_inj.mp
  have hb := toInt_bounds v
  rw [decodeSign_eq, encodeSign_eq]
  unfold zigzag
  split <;> split <;> omega

theorem encodeSign_decodeSign (u : UInt64) : encodeSign (decodeSign u) = u := by
  apply UInt64.toNat_inj.mp
  rw [encodeSign_eq, decodeSign_eq]
  unfold zigzag
  split <;> split <;> omega

end ILInt
end Verif
