import Verif.Spec.Utf8
import Verif.Proof.Data
/-!
# The encodings of characters are the sequences of the table
-/
namespace Verif
open Spec

theorem inRange_ofNat {lo hi v : Nat} (h1 : lo ≤ v) (h2 : v ≤ hi) (h3 : v < 256) : InRange lo hi (UInt8.ofNat v) := by
  unfold InRange
  rw [UInt8.toNat_ofNat', Nat.mod_eq_of_lt h3]
  exact ⟨h1, h2⟩

theorem char_valid (c : Char) : c.toNat < 0xD800 ∨ (0xDFFF < c.toNat ∧ c.toNat < 0x110000) := c.valid

theorem utf8Seq_char (c : Char) : Utf8Seq (utf8Char c) := by
  have hv := char_valid c
  unfold utf8Char
  simp only
  generalize c.toNat = v at hv
  by_cases h1 : v < 0x80
  · rw [if_pos h1]
    exact .ascii (inRange_ofNat (by omega) (by omega) (by omega))
  · rw [if_neg h1]
    by_cases h2 : v < 0x800
    · rw [if_pos h2]
      exact .two (inRange_ofNat (by omega) (by omega) (by omega)) (inRange_ofNat (by omega) (by omega) (by omega))
    · rw [if_neg h2]
      by_cases h3 : v < 0x10000
      · rw [if_pos h3]
        have r2 : InRange 0x80 0xBF (UInt8.ofNat (0x80 + v % 64)) := inRange_ofNat (by omega) (by omega) (by omega)
        have r1 : InRange 0x80 0xBF (UInt8.ofNat (0x80 + v / 64 % 64)) := inRange_ofNat (by omega) (by omega) (by omega)
        by_cases g1 : v < 0x1000
        · exact .e0 (inRange_ofNat (by omega) (by omega) (by omega)) (inRange_ofNat (by omega) (by omega) (by omega)) r2
        · by_cases g2 : v < 0xD000
          · exact .e1 (inRange_ofNat (by omega) (by omega) (by omega)) r1 r2
          · by_cases g3 : v < 0xE000
            · exact .ed (inRange_ofNat (by omega) (by omega) (by omega))
                (inRange_ofNat (by omega) (by omega) (by omega)) r2
            · exact .ee (inRange_ofNat (by omega) (by omega) (by omega)) r1 r2
      · rw [if_neg h3]
        have r3 : InRange 0x80 0xBF (UInt8.ofNat (0x80 + v % 64)) := inRange_ofNat (by omega) (by omega) (by omega)
        have r2 : InRange 0x80 0xBF (UInt8.ofNat (0x80 + v / 64 % 64)) := inRange_ofNat (by omega) (by omega) (by omega)
        have r1 : InRange 0x80 0xBF (UInt8.ofNat (0x80 + v / 4096 % 64)) :=
          inRange_ofNat (by omega) (by omega) (by omega)
        by_cases g1 : v < 0x40000
        · exact .f0 (inRange_ofNat (by omega) (by omega) (by omega)) (inRange_ofNat (by omega) (by omega) (by omega))
            r2 r3
        · by_cases g2 : v < 0x100000
          · exact .f1 (inRange_ofNat (by omega) (by omega) (by omega)) r1 r2 r3
          · exact .f4 (inRange_ofNat (by omega) (by omega) (by omega)) (inRange_ofNat (by omega) (by omega) (by omega))
              r2 r3

theorem charOf (v : Nat) (h : v < 0xD800 ∨ (0xDFFF < v ∧ v < 0x110000)) : ∃ c : Char, c.toNat = v := by
  refine ⟨Char.ofNat v, ?_⟩
  have hv : Nat.isValidChar v := h
  unfold Char.ofNat
  rw [dif_pos hv]
  rfl

theorem ofNat_eq {a : Byte} {v : Nat} (h : v = a.toNat) : UInt8.ofNat v = a := by
  subst h; exact UInt8.ofNat_toNat

theorem utf8Seq_iff (bs : Bytes) : Utf8Seq bs ↔ ∃ c, utf8Char c = bs := by
  constructor
  · intro h
    have two {a b : Byte} (ha : 0xC2 ≤ a.toNat) (ha' : a.toNat ≤ 0xDF) (hb : InRange 0x80 0xBF b) :
        ∃ c, utf8Char c = [a, b] := by
      obtain ⟨h1, h2⟩ := hb
      obtain ⟨c, hc⟩ := charOf ((a.toNat - 0xC0) * 64 + (b.toNat - 0x80)) (by omega)
      refine ⟨c, ?_⟩
      unfold utf8Char
      simp only [hc]
      rw [if_neg (by omega), if_pos (by omega), ofNat_eq (a := a) (by omega), ofNat_eq (a := b) (by omega)]
    have three {a b c : Byte} (hb : InRange 0x80 0xBF b) (hc : InRange 0x80 0xBF c) (ha : 0xE0 ≤ a.toNat)
        (ha' : a.toNat ≤ 0xEF) (h0 : a.toNat = 0xE0 → 0xA0 ≤ b.toNat) (hd : a.toNat = 0xED → b.toNat ≤ 0x9F) :
        ∃ ch, utf8Char ch = [a, b, c] := by
      obtain ⟨h1, h2⟩ := hb
      obtain ⟨h3, h4⟩ := hc
      obtain ⟨ch, hch⟩ := charOf ((a.toNat - 0xE0) * 4096 + (b.toNat - 0x80) * 64 + (c.toNat - 0x80)) (by omega)
      refine ⟨ch, ?_⟩
      unfold utf8Char
      simp only [hch]
      rw [if_neg (by omega), if_neg (by omega), if_pos (by omega), ofNat_eq (a := a) (by omega),
        ofNat_eq (a := b) (by omega), ofNat_eq (a := c) (by omega)]
    have four {a b c d : Byte} (hb : InRange 0x80 0xBF b) (hc : InRange 0x80 0xBF c) (hd : InRange 0x80 0xBF d)
        (ha : 0xF0 ≤ a.toNat) (ha' : a.toNat ≤ 0xF4) (h0 : a.toNat = 0xF0 → 0x90 ≤ b.toNat)
        (h4 : a.toNat = 0xF4 → b.toNat ≤ 0x8F) : ∃ ch, utf8Char ch = [a, b, c, d] := by
      obtain ⟨h1, h2⟩ := hb
      obtain ⟨h3, h5⟩ := hc
      obtain ⟨h6, h7⟩ := hd
      obtain ⟨ch, hch⟩ := charOf ((a.toNat - 0xF0) * 262144 + (b.toNat - 0x80) * 4096 + (c.toNat - 0x80) * 64 +
        (d.toNat - 0x80)) (by omega)
      refine ⟨ch, ?_⟩
      unfold utf8Char
      simp only [hch]
      rw [if_neg (by omega), if_neg (by omega), if_neg (by omega), ofNat_eq (a := a) (by omega),
        ofNat_eq (a := b) (by omega), ofNat_eq (a := c) (by omega), ofNat_eq (a := d) (by omega)]
    cases h with
    | @ascii a ha =>
      obtain ⟨h1, h2⟩ := ha
      obtain ⟨c, hc⟩ := charOf a.toNat (by omega)
      refine ⟨c, ?_⟩
      unfold utf8Char
      simp only [hc]
      rw [if_pos (by omega), ofNat_eq rfl]
    | two ha hb => exact two ha.1 ha.2 hb
    | e0 ha hb hc => unfold InRange at ha hb; exact three (by unfold InRange; omega) hc (by omega) (by omega) (by omega) (by omega)
    | e1 ha hb hc => unfold InRange at ha; exact three hb hc (by omega) (by omega) (by omega) (by omega)
    | ed ha hb hc => unfold InRange at ha hb; exact three (by unfold InRange; omega) hc (by omega) (by omega) (by omega) (by omega)
    | ee ha hb hc => unfold InRange at ha; exact three hb hc (by omega) (by omega) (by omega) (by omega)
    | f0 ha hb hc hd => unfold InRange at ha hb; exact four (by unfold InRange; omega) hc hd (by omega) (by omega) (by omega) (by omega)
    | f1 ha hb hc hd => unfold InRange at ha; exact four hb hc hd (by omega) (by omega) (by omega) (by omega)
    | f4 ha hb hc hd => unfold InRange at ha hb; exact four (by unfold InRange; omega) hc hd (by omega) (by omega) (by omega) (by omega)
  · rintro ⟨c, rfl⟩
    exact utf8Seq_char c

theorem utf8Text_iff (bs : Bytes) : Utf8Text bs ↔ ∃ s, Spec.utf8 s = bs := by
  constructor
  · intro h
    suffices ∃ cs : List Char, cs.flatMap utf8Char = bs by
      obtain ⟨cs, hcs⟩ := this
      exact ⟨String.ofList cs, by rw [← hcs]; unfold Spec.utf8; rw [String.toList_ofList]⟩
    induction h with
    | nil => exact ⟨[], rfl⟩
    | cons hc _ ih =>
      obtain ⟨c, rfl⟩ := (utf8Seq_iff _).mp hc
      obtain ⟨cs, rfl⟩ := ih
      exact ⟨c :: cs, rfl⟩
  · rintro ⟨s, rfl⟩
    unfold Spec.utf8
    induction s.toList with
    | nil => exact .nil
    | cons c cs ih => rw [List.flatMap_cons]; exact .cons (utf8Seq_char c) ih

/-! ### Order -/

theorem ofNat_lt {v w : Nat} (h : v < w) (hw : w < 256) : UInt8.ofNat v < UInt8.ofNat w := by
  rw [UInt8.lt_iff_toNat_lt, UInt8.toNat_ofNat', UInt8.toNat_ofNat', Nat.mod_eq_of_lt hw, Nat.mod_eq_of_lt (by omega)]
  exact h

theorem lt_step {v w : Nat} {xs ys : Bytes} (hw : w < 256) (h : v < w ∨ (v = w ∧ xs < ys)) :
    UInt8.ofNat v :: xs < UInt8.ofNat w :: ys := by
  rw [List.cons_lt_cons_iff]
  rcases h with h | ⟨h, h'⟩
  · exact .inl (ofNat_lt h hw)
  · exact .inr ⟨by rw [h], h'⟩

theorem utf8Char_lt {c d : Char} (h : c.toNat < d.toNat) (xs ys : Bytes) : utf8Char c ++ xs < utf8Char d ++ ys := by
  have hc := char_valid c
  have hd := char_valid d
  unfold utf8Char
  simp only
  generalize c.toNat = v at h hc
  generalize d.toNat = w at h hd
  by_cases a1 : v < 0x80
  · rw [if_pos a1]
    repeat' split
    all_goals
      apply lt_step (by omega)
      left
      omega
  · rw [if_neg a1, if_neg (c := w < 0x80) (by omega)]
    by_cases a2 : v < 0x800
    · rw [if_pos a2]
      by_cases b2 : w < 0x800
      · rw [if_pos b2]
        apply lt_step (by omega)
        by_cases e1 : v / 64 = w / 64
        · refine .inr ⟨by omega, ?_⟩
          apply lt_step (by omega)
          left; omega
        · left; omega
      · rw [if_neg b2]
        split
        all_goals
          apply lt_step (by omega)
          left
          omega
    · rw [if_neg a2, if_neg (c := w < 0x800) (by omega)]
      by_cases a3 : v < 0x10000
      · rw [if_pos a3]
        by_cases b3 : w < 0x10000
        · rw [if_pos b3]
          apply lt_step (by omega)
          by_cases e1 : v / 4096 = w / 4096
          · refine .inr ⟨by omega, ?_⟩
            apply lt_step (by omega)
            by_cases e2 : v / 64 = w / 64
            · refine .inr ⟨by omega, ?_⟩
              apply lt_step (by omega)
              left; omega
            · left; omega
          · left; omega
        · rw [if_neg b3]
          apply lt_step (by omega)
          left
          omega
      · rw [if_neg a3, if_neg (c := w < 0x10000) (by omega)]
        apply lt_step (by omega)
        by_cases e1 : v / 262144 = w / 262144
        · refine .inr ⟨by omega, ?_⟩
          apply lt_step (by omega)
          by_cases e2 : v / 4096 = w / 4096
          · refine .inr ⟨by omega, ?_⟩
            apply lt_step (by omega)
            by_cases e3 : v / 64 = w / 64
            · refine .inr ⟨by omega, ?_⟩
              apply lt_step (by omega)
              left; omega
            · left; omega
          · left; omega
        · left; omega

theorem utf8Char_ne_nil (c : Char) : utf8Char c ≠ [] := by
  unfold utf8Char
  simp only
  repeat' split
  all_goals simp

theorem append_lt_append {xs ys : Bytes} (zs : Bytes) : zs ++ xs < zs ++ ys ↔ xs < ys := by
  induction zs with
  | nil => rfl
  | cons z zs ih => rw [List.cons_append, List.cons_append, List.cons_lt_cons_iff]; simp [ih]

theorem utf8_lt_iff (a b : List Char) :
    a.flatMap utf8Char < b.flatMap utf8Char ↔ a.map Char.toNat < b.map Char.toNat := by
  induction a generalizing b with
  | nil =>
    cases b with
    | nil => simp
    | cons d ds =>
      have : ∃ x xs, utf8Char d = x :: xs := by
        cases h : utf8Char d with
        | nil => exact absurd h (utf8Char_ne_nil d)
        | cons x xs => exact ⟨x, xs, rfl⟩
      obtain ⟨x, xs, hx⟩ := this
      simp [hx]
  | cons c cs ih =>
    cases b with
    | nil => simp
    | cons d ds =>
      rw [List.flatMap_cons, List.flatMap_cons, List.map_cons, List.map_cons, List.cons_lt_cons_iff]
      rcases Nat.lt_trichotomy c.toNat d.toNat with h | h | h
      · exact ⟨fun _ => .inl h, fun _ => utf8Char_lt h _ _⟩
      · have : c = d := Char.toNat_inj.mp h
        subst this
        rw [append_lt_append, ih]
        simp
      · constructor
        · intro hh
          exact absurd (utf8Char_lt h (ds.flatMap utf8Char) (cs.flatMap utf8Char)) (List.lt_asymm hh)
        · rintro (hh | ⟨hh, _⟩) <;> omega

end Verif
