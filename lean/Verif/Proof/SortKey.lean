import Verif.Proof.Order
import Verif.Spec.SortKey
import Verif.Props.ILInt
import Verif.Proof.RoundTrip
/-!
# The order of serializations
-/
namespace Verif
open Spec

theorem lex_left (xs : Bytes) {a b : Bytes} : xs ++ a < xs ++ b ↔ a < b := by
  induction xs with
  | nil => rfl
  | cons x xs ih => simp only [List.cons_append, List.cons_lt_cons_iff, UInt8.lt_irrefl, ih, false_or, true_and]

theorem lex_apart {xs ys a b : Bytes} (h1 : ¬ xs <+: ys) (h2 : ¬ ys <+: xs) : xs ++ a < ys ++ b ↔ xs < ys := by
  induction xs generalizing ys with
  | nil => exact absurd List.nil_prefix h1
  | cons x xs ih =>
    cases ys with
    | nil => exact absurd List.nil_prefix h2
    | cons y ys =>
      simp only [List.cons_append, List.cons_lt_cons_iff]
      by_cases hxy : x = y
      · subst hxy
        simp only [List.cons_prefix_cons, true_and] at h1 h2
        rw [ih h1 h2]
      · simp [hxy]

theorem lex_len {xs ys a b : Bytes} (h : xs.length = ys.length) : xs ++ a < ys ++ b ↔ xs < ys ∨ xs = ys ∧ a < b := by
  by_cases he : xs = ys
  · subst he
    rw [lex_left]
    simp [List.lt_irrefl]
  · rw [lex_apart (fun hp => he (hp.eq_of_length h)) (fun hp => he (hp.eq_of_length h.symm).symm)]
    simp [he]

theorem ilint_not_prefix {v w : Nat} (hv : v < 2 ^ 64) (hw : w < 2 ^ 64) (h : v ≠ w) : ¬ ilint v <+: ilint w := by
  intro hp
  have := Props.C06_prefix_free.1 (UInt64.ofNat v) (UInt64.ofNat w)
  rw [Props.encoded_eq, Props.encoded_eq, UInt64.toNat_ofNat_of_lt' hv, UInt64.toNat_ofNat_of_lt' hw] at this
  have := congrArg UInt64.toNat (this hp)
  rw [UInt64.toNat_ofNat_of_lt' hv, UInt64.toNat_ofNat_of_lt' hw] at this
  exact h this

theorem lex_ilint {v w : Nat} (hv : v < 2 ^ 64) (hw : w < 2 ^ 64) {a b : Bytes} :
    ilint v ++ a < ilint w ++ b ↔ v < w ∨ v = w ∧ a < b := by
  by_cases h : v = w
  · subst h
    rw [lex_left]
    simp
  · rw [lex_apart (ilint_not_prefix hv hw h) (ilint_not_prefix hw hv (Ne.symm h)), ilint_lt_iff hv hw]
    simp [h]

theorem lex_be {k v w : Nat} (hv : v < 256 ^ k) (hw : w < 256 ^ k) : be k v < be k w ↔ v < w := by
  rw [beVal_lex (by simp), beVal_be, beVal_be, Nat.mod_eq_of_lt hv, Nat.mod_eq_of_lt hw]

theorem lex_wrap {id id' : UInt64} {v w : Bytes} (hv : v.length < 2 ^ 64) (hw : w.length < 2 ^ 64) :
    wrap id v < wrap id' w ↔ id < id' ∨ id = id' ∧ (if id.toNat ≤ 15 then v < w else ShortLex v w) := by
  unfold wrap
  rw [List.append_assoc, List.append_assoc, lex_ilint id.toNat_lt id'.toNat_lt, ← UInt64.lt_iff_toNat_lt, UInt64.toNat_inj]
  refine or_congr Iff.rfl (and_congr_right ?_)
  rintro rfl
  by_cases h : id.toNat ≤ 15
  · simp only [if_pos h, List.nil_append]
  · simp only [if_neg h]; rw [lex_ilint hv hw]; rfl

/-- Values of the same length. -/
theorem lex_wrap_len {id : UInt64} {v w : Bytes} (h : v.length = w.length) (hw : w.length < 2 ^ 64) :
    wrap id v < wrap id w ↔ v < w := by
  rw [lex_wrap (h ▸ hw) hw]
  unfold ShortLex
  simp [h, UInt64.lt_irrefl]

theorem ilint_length_le {v w : Nat} (h : v ≤ w) (hw : w < 2 ^ 64) : (ilint v).length ≤ (ilint w).length := by
  have := ilintExtra_mono h hw
  rw [ILInt.length_ilint, ILInt.length_ilint]; omega

/-- Values that begin with an ILInt and go on with bytes of the same length. -/
theorem lex_wrap_ilint {id : UInt64} {v w : Nat} {a b : Bytes} (hv : v < 2 ^ 64) (hw : w < 2 ^ 64)
    (h : a.length = b.length) (hb : b.length < 2 ^ 63) :
    wrap id (ilint v ++ a) < wrap id (ilint w ++ b) ↔ v < w ∨ v = w ∧ a < b := by
  have h1 := ilint_le9 v
  have h2 := ilint_le9 w
  rw [lex_wrap (by simp only [List.length_append]; omega) (by simp only [List.length_append]; omega)]
  simp only [UInt64.lt_irrefl, false_or, true_and]
  by_cases hi : id.toNat ≤ 15
  · rw [if_pos hi, lex_ilint hv hw]
  · rw [if_neg hi]
    unfold ShortLex
    rw [lex_ilint hv hw]
    simp only [List.length_append, h]
    constructor
    · rintro (hlt | ⟨-, hlt⟩)
      · left
        apply Nat.lt_of_not_le
        intro hc
        have := ilint_length_le hc hv
        omega
      · exact hlt
    · rintro (hlt | ⟨rfl, hlt⟩)
      · have := ilint_length_le (Nat.le_of_lt hlt) hw
        rcases Nat.lt_or_eq_of_le this with h3 | h3
        · left; omega
        · right; exact ⟨by omega, .inl hlt⟩
      · right; exact ⟨rfl, .inr ⟨rfl, hlt⟩⟩

theorem twos_order {k : Nat} {v w : Int} (h : Int) (hd : (2 : Int) ^ (8 * k) = 2 * h) (hv : -h ≤ v) (hv' : v < h)
    (hw : -h ≤ w) (hw' : w < h) : twos k v < twos k w ↔ UnsignedOrder v w := by
  unfold twos UnsignedOrder
  rw [hd]
  have he : ∀ v, -h ≤ v → v < h → v % (2 * h) = if 0 ≤ v then v else v + 2 * h := by
    intro v h1 h2
    split
    · exact Int.emod_eq_of_lt (by omega) (by omega)
    · rw [← Int.add_emod_right, Int.emod_eq_of_lt (by omega) (by omega)]
  rw [he v hv hv', he w hw hw']
  split <;> split <;> omega

theorem magnitude_lt {m a b : Nat} (h : a < b) : magnitude m a < magnitude m b := by
  unfold magnitude
  have hp : 0 < 2 ^ m := Nat.pow_pos (by decide)
  have ha := Nat.div_add_mod a (2 ^ m)
  have hb := Nat.div_add_mod b (2 ^ m)
  have ha' := Nat.mod_lt a hp
  have hb' := Nat.mod_lt b hp
  have hle : a / 2 ^ m ≤ b / 2 ^ m := Nat.div_le_div_right (Nat.le_of_lt h)
  generalize a / 2 ^ m = ea at *
  generalize b / 2 ^ m = eb at *
  generalize a % 2 ^ m = ma at *
  generalize b % 2 ^ m = mb at *
  rcases Nat.lt_or_eq_of_le hle with hlt | rfl
  · rw [if_neg (by omega : ¬ eb = 0)]
    have h1 : 2 ^ m * 2 ^ (eb - 1) ≤ (2 ^ m + mb) * 2 ^ (eb - 1) := Nat.mul_le_mul_right _ (by omega)
    refine Nat.lt_of_lt_of_le ?_ h1
    split
    · exact Nat.lt_of_lt_of_le ha' (Nat.le_mul_of_pos_right _ (Nat.pow_pos (by decide)))
    · next h0 =>
      have h2 : (2 ^ m + ma) * 2 ^ (ea - 1) < (2 ^ m + 2 ^ m) * 2 ^ (ea - 1) :=
        Nat.mul_lt_mul_of_pos_right (by omega) (Nat.pow_pos (by decide))
      have h3 : (2 ^ m + 2 ^ m) * 2 ^ (ea - 1) = 2 ^ m * 2 ^ ea := by
        obtain ⟨e, rfl⟩ := Nat.exists_eq_succ_of_ne_zero h0
        rw [Nat.succ_eq_add_one, Nat.add_sub_cancel, Nat.pow_succ, ← Nat.two_mul]
        ac_rfl
      rw [h3] at h2
      exact Nat.lt_of_lt_of_le h2 (Nat.mul_le_mul_left _ (Nat.pow_le_pow_right (by decide) (by omega)))
  · have : ma < mb := by omega
    split
    · exact this
    · exact Nat.mul_lt_mul_of_pos_right (by omega) (Nat.pow_pos (by decide))

theorem magnitude_lt_iff {m a b : Nat} : magnitude m a < magnitude m b ↔ a < b := by
  refine ⟨fun h => ?_, magnitude_lt⟩
  rcases Nat.lt_trichotomy a b with hc | rfl | hc
  · exact hc
  · omega
  · have := magnitude_lt (m := m) hc; omega

theorem floatOrder_iff (m : Nat) {w a b : Nat} (ha : a < 2 ^ w + 2 ^ w) (hb : b < 2 ^ w + 2 ^ w) :
    a < b ↔ FloatOrder m w a b := by
  unfold FloatOrder
  rw [magnitude_lt_iff]
  generalize 2 ^ w = d at *
  have he : ∀ a, a < d + d → a % d = if a < d then a else a - d := by
    intro a h
    split
    · next h => exact Nat.mod_eq_of_lt h
    · rw [Nat.mod_eq_sub_mod (by omega), Nat.mod_eq_of_lt (by omega)]
  rw [he a ha, he b hb]
  split <;> split <;> omega

end Verif
