import Verif.Model.Data
import Verif.Spec.ILInt
/-!
# Big-endian bytes: the model against the specification
-/
namespace Verif
open Spec

theorem be_zero (v : Nat) : be 0 v = [] := rfl

theorem be_succ (k v : Nat) : be (k + 1) v = be k (v / 256) ++ [UInt8.ofNat (v % 256)] := by
  simp only [be, List.range_succ, List.map_append, List.map_cons, List.map_nil]
  congr 1
  · apply List.map_congr_left
    intro i hi
    simp at hi
    have : k + 1 - 1 - i = (k - 1 - i) + 1 := by omega
    rw [this, Nat.pow_succ, Nat.mul_comm, Nat.div_div_eq_div_mul]
  · simp

@[simp] theorem be_length (k v : Nat) : (be k v).length = k := by simp [be]

theorem toBE_eq_be (k v : Nat) : toBE k v = be k v := by
  induction k generalizing v with
  | zero => rfl
  | succ k ih => rw [toBE, be_succ, ih]

theorem beVal_append (xs : Bytes) (b : Byte) : beVal (xs ++ [b]) = beVal xs * 256 + b.toNat := by
  induction xs with
  | nil => simp [beVal]
  | cons x xs ih =>
    simp only [List.cons_append, beVal, ih, List.length_append, List.length_cons, List.length_nil]
    rw [Nat.pow_succ]
    grind

theorem beVal_lt (xs : Bytes) : beVal xs < 256 ^ xs.length := by
  induction xs with
  | nil => simp [beVal]
  | cons x xs ih =>
    simp only [beVal, List.length_cons, Nat.pow_succ]
    have hx : x.toNat < 256 := x.toNat_lt
    have : x.toNat * 256 ^ xs.length ≤ 255 * 256 ^ xs.length := Nat.mul_le_mul_right _ (by omega)
    omega

theorem beVal_be (k v : Nat) : beVal (be k v) = v % 256 ^ k := by
  induction k generalizing v with
  | zero => simp [be_zero, beVal, Nat.mod_one]
  | succ k ih =>
    rw [be_succ, beVal_append, ih]
    have h1 : (UInt8.ofNat (v % 256)).toNat = v % 256 := by simp
    rw [h1, Nat.pow_succ, Nat.mul_comm (256 ^ k) 256, Nat.mod_mul]
    omega

theorem be_beVal (xs : Bytes) : be xs.length (beVal xs) = xs := by
  induction hn : xs.length generalizing xs with
  | zero => simp [List.length_eq_zero_iff.mp hn, be_zero]
  | succ n ih =>
    have hne : xs ≠ [] := by intro h; simp [h] at hn
    have hx := (List.dropLast_concat_getLast hne).symm
    have hl : xs.dropLast.length = n := by simp [hn]
    rw [hx, beVal_append, be_succ]
    have hb : (xs.getLast hne).toNat < 256 := UInt8.toNat_lt _
    congr 1
    · rw [show (beVal xs.dropLast * 256 + (xs.getLast hne).toNat) / 256 = beVal xs.dropLast by omega]
      exact ih _ hl
    · rw [show (beVal xs.dropLast * 256 + (xs.getLast hne).toNat) % 256 = (xs.getLast hne).toNat by omega]
      simp

theorem beVal_inj {xs ys : Bytes} (hl : xs.length = ys.length) (h : beVal xs = beVal ys) : xs = ys := by
  rw [← be_beVal xs, ← be_beVal ys, hl, h]

theorem fromBE_eq_beVal (xs : Bytes) : fromBE xs = beVal xs := by
  have : ∀ (a : Nat), xs.foldl (fun a b => a * 256 + b.toNat) a = a * 256 ^ xs.length + beVal xs := by
    induction xs with
    | nil => intro a; simp [beVal]
    | cons x xs ih =>
      intro a
      rw [List.foldl_cons, ih, beVal, List.length_cons, Nat.pow_succ]
      grind
  rw [fromBE, this]; simp

theorem be_mod (k v : Nat) : be k (v % 256 ^ k) = be k v := by
  apply beVal_inj (by simp)
  rw [beVal_be, beVal_be, Nat.mod_mod]

end Verif
