import Verif.Spec.Data
import Verif.Model.Data
import Verif.Proof.Bytes
/-!
# Facts about fixed-width values and UTF-8
-/
namespace Verif
open Spec

theorem utf8EncodeChar_eq (c : Char) : String.utf8EncodeChar c = utf8Char c := by
  have hc : c.toNat < 0x110000 := by
    have := c.valid
    simp only [UInt32.isValidChar, Nat.isValidChar] at this
    show c.val.toNat < _
    omega
  have h : c.val.toNat = c.toNat := rfl
  unfold String.utf8EncodeChar utf8Char
  simp only [h]
  generalize c.toNat = v at hc
  by_cases h1 : v < 0x80
  · rw [if_pos (by omega), if_pos h1]
  · rw [if_neg (by omega), if_neg h1]
    by_cases h2 : v < 0x800
    · have : v / 64 % 32 = v / 64 := by omega
      rw [if_pos (by omega), if_pos h2, this, Nat.add_comm, Nat.add_comm (v % 64)]
    · rw [if_neg (by omega), if_neg h2]
      by_cases h3 : v < 0x10000
      · have : v / 4096 % 16 = v / 4096 := by omega
        rw [if_pos (by omega), if_pos h3, this, Nat.add_comm, Nat.add_comm (v % 64), Nat.add_comm (v / 64 % 64)]
      · have : v / 262144 % 8 = v / 262144 := by omega
        rw [if_neg (by omega), if_neg h3, this, Nat.add_comm, Nat.add_comm (v % 64), Nat.add_comm (v / 64 % 64),
          Nat.add_comm (v / 4096 % 64)]

theorem utf8_eq (s : String) : Verif.utf8 s = Spec.utf8 s := by
  have h : s.toByteArray = s.toList.utf8Encode := by simp
  unfold Verif.utf8 Spec.utf8
  rw [String.toUTF8_eq_toByteArray, h]
  unfold List.utf8Encode
  simp only [List.data_toByteArray, List.toList_toArray]
  congr 1
  funext c
  exact utf8EncodeChar_eq c

theorem utf8_inj {s t : String} (h : Verif.utf8 s = Verif.utf8 t) : s = t := by
  unfold Verif.utf8 at h
  rw [String.toUTF8_eq_toByteArray, String.toUTF8_eq_toByteArray] at h
  have := Array.toList_inj.mp h
  exact String.toByteArray_inj.mp (ByteArray.ext this)

theorem fromUtf8_eq_some {bs : Bytes} {s : String} : fromUtf8 bs = some s ↔ Verif.utf8 s = bs := by
  unfold fromUtf8 String.fromUTF8?
  constructor
  · intro h
    split at h
    · simp only [Option.some.injEq] at h
      subst h
      simp [Verif.utf8, String.fromUTF8]
    · simp at h
  · intro h
    have hv : (⟨bs.toArray⟩ : ByteArray) = s.toByteArray := by
      rw [← h]; unfold Verif.utf8; simp
    have hd : ByteArray.IsValidUTF8 ⟨bs.toArray⟩ := by
      rw [hv]; exact s.isValidUTF8
    rw [dif_pos hd]
    simp only [Option.some.injEq]
    apply String.toByteArray_inj.mp
    simp [String.fromUTF8, hv]

theorem fromUtf8_utf8 (s : String) : fromUtf8 (Verif.utf8 s) = some s := fromUtf8_eq_some.mpr rfl

theorem fromUtf8_eq_none {bs : Bytes} : fromUtf8 bs = none ↔ ∀ s, Verif.utf8 s ≠ bs := by
  constructor
  · intro h s hs
    rw [fromUtf8_eq_some.mpr hs] at h; simp at h
  · intro h
    cases hf : fromUtf8 bs with
    | none => rfl
    | some s => exact absurd (fromUtf8_eq_some.mp hf) (h s)

theorem twos_int8 (v : Int8) : v.toUInt8.toNat = twos 1 v.toInt := by
  have h := v.toBitVec.toInt_eq_toNat_cond
  have hl := v.toBitVec.isLt
  show v.toBitVec.toNat = (v.toBitVec.toInt % _).toNat
  simp only [Nat.mul_one]
  split at h <;> omega
theorem twos_int16 (v : Int16) : v.toUInt16.toNat = twos 2 v.toInt := by
  have h := v.toBitVec.toInt_eq_toNat_cond
  have hl := v.toBitVec.isLt
  show v.toBitVec.toNat = (v.toBitVec.toInt % _).toNat
  simp only [Nat.reduceMul]
  split at h <;> omega
theorem twos_int32 (v : Int32) : v.toUInt32.toNat = twos 4 v.toInt := by
  have h := v.toBitVec.toInt_eq_toNat_cond
  have hl := v.toBitVec.isLt
  show v.toBitVec.toNat = (v.toBitVec.toInt % _).toNat
  simp only [Nat.reduceMul]
  split at h <;> omega
theorem twos_int64 (v : Int64) : v.toUInt64.toNat = twos 8 v.toInt := by
  have h := v.toBitVec.toInt_eq_toNat_cond
  have hl := v.toBitVec.isLt
  show v.toBitVec.toNat = (v.toBitVec.toInt % _).toNat
  simp only [Nat.reduceMul]
  split at h <;> omega

end Verif
