import Verif.Spec.CustomDepth
import Verif.Proof.Custom
import Verif.Proof.Renew
/-!
# The forms read within a number of nested calls
-/
namespace Verif
open Spec
set_option linter.unusedSectionVars false
variable {P : Type} [TagPayload P] [Env]

theorem payloadReadsAt_iff (e : Engine P) (k : Nat) (p₀ p : P) (v : Bytes) :
    PayloadReadsAt e k p₀ p v ↔ Parser.rprog (Parser.tag e k) (TagPayload.deserialize p₀ v.length) v = .ok p [] := by
  have hs := sim_rprog (V := ByteArrayReader.view.toView)
    (sim_deserializeFuel e k ByteArrayReader ByteArrayReader.view.toView)
    (TagPayload.deserialize p₀ v.length) p₀ (ByteArrayReader.new v) v (ByteArrayReader.view_new _)
  simp only [] at hs
  have hav : ∀ (s : ByteArrayReader) (rest : Bytes), ByteArrayReader.view.toView.R s rest → (s.available = 0 ↔ rest = []) := by
    intro s rest h
    have h3 := h.2
    unfold ByteArrayReader.available ByteArrayReader.len
    rw [h3, List.drop_eq_nil_iff]
    omega
  unfold PayloadReadsAt
  cases hq : Parser.rprog (Parser.tag e k) (TagPayload.deserialize p₀ v.length) v with
  | ok a rest =>
    rw [hq] at hs
    obtain ⟨s', hs1, hs2⟩ := hs
    rw [hs1]
    simp only [Prod.mk.injEq, true_and, PRes.ok.injEq]
    constructor
    · rintro ⟨r, ⟨rfl, rfl⟩, h⟩; exact ⟨rfl, (hav _ _ hs2).mp h⟩
    · rintro ⟨rfl, rfl⟩; exact ⟨s', ⟨rfl, rfl⟩, (hav _ _ hs2).mpr rfl⟩
  | short => rw [hq] at hs; obtain ⟨_, _, _, hs, _⟩ := hs; simp [hs]
  | fail e => rw [hq] at hs; obtain ⟨_, _, hs⟩ := hs; simp [hs]
  | panic => rw [hq] at hs; obtain ⟨_, _, hs⟩ := hs; simp [hs]
  | diverge => rw [hq] at hs; obtain ⟨_, _, hs⟩ := hs; simp [hs]

theorem fAt_in (e : Engine P) (k : Nat) (t : Tag P) (x : Bytes) : Acc.FAt e k t x ↔ CustomFormIn Acc.made e k t x := by
  induction k generalizing t x with
  | zero => exact Iff.rfl
  | succ k ih =>
    have hv : ∀ v, ValueForm Acc.made (Acc.FAt e k) t v ↔ ValueForm Acc.made (CustomFormIn Acc.made e k) t v := fun v =>
      ⟨valueForm_mono (fun _ _ _ h => h) (fun u y => (ih u y).mp) t v,
        valueForm_mono (fun _ _ _ h => h) (fun u y => (ih u y).mpr) t v⟩
    unfold Acc.FAt CustomFormIn Acc.PayAt
    simp only [hv, payloadReadsAt_iff]

theorem customFormIn_mono {M M' : MapMaking} (hM : ∀ α ws es, M α ws es → M' α ws es) (e : Engine P) (k : Nat) (t : Tag P)
    (x : Bytes) (h : CustomFormIn M e k t x) : CustomFormIn M' e k t x := by
  induction k generalizing t x with
  | zero => exact h.elim
  | succ k ih =>
    obtain ⟨t₀, hd, v, h1, h2, h3, h4, h5⟩ := h
    exact ⟨t₀, hd, v, h1, h2, h3, h4.imp (valueForm_mono hM ih t v) id, h5⟩

theorem customFormIn_made {e : Engine P} {k : Nat} (t : Tag P) (x : Bytes) (h : CustomFormIn (fun _ => Latest) e k t x) :
    ∃ t', CustomFormIn Acc.made e k t' x ∧ Same t' t := by
  induction k generalizing t x with
  | zero => exact h.elim
  | succ k ih =>
    obtain ⟨t₀, hd, v, h1, h2, h3, h4, h5⟩ := h
    rcases h4 with h4 | h4
    · obtain ⟨t', h6, h7⟩ := valueForm_made ih t v h4
      obtain ⟨hk, hi⟩ := same_kind_id h7
      exact ⟨t', ⟨t₀, hd, v, by rw [hi]; exact h1, by rw [hk]; exact h2, by rw [hi]; exact h3, .inl h6, by rw [hi]; exact h5⟩, h7⟩
    · exact ⟨t, ⟨t₀, hd, v, h1, h2, h3, .inr h4, h5⟩, by obtain ⟨_, _, _, -, rfl, -⟩ := h4; exact .atom _⟩

theorem customFormIn_mapsOk {e : Engine P} {k : Nat} (t : Tag P) (x : Bytes) (h : CustomFormIn (fun _ => Latest) e k t x) :
    MapsOk t := by
  induction k generalizing t x with
  | zero => exact h.elim
  | succ k ih =>
    obtain ⟨t₀, hd, v, -, -, -, h4 | h4, -⟩ := h
    · exact valueForm_within ih t v h4 (valueForm_mapOk t v h4)
    · obtain ⟨_, _, _, -, rfl, -⟩ := h4
      intro w hw
      cases hw
      trivial

/-- A tag written again and read with as many nested calls. -/
theorem customFormIn_renew {e : Engine P} (he : Regular e) (ht : TidyAt e) (k : Nat) (t : Tag P) (x : Bytes)
    (h : CustomFormIn (fun _ => Latest) e k t x) :
    ∃ u, (CustomFormIn (fun _ => Latest) e k u x ∧ ∀ w, Within w u → ∀ id p, w = .atom (.payload id p) → PayloadOk p) ∧
      CustomFormIn (fun _ => Latest) e k t (enc u) ∧ (enc u).length ≤ x.length := by
  induction k generalizing t x with
  | zero => exact h.elim
  | succ k ih =>
    obtain ⟨t₀, hd, v, h1, h2, h3, h4, h5, h6⟩ := h
    have hhd := (Snug.ilint (D := False) h3).1
    have hback : ∀ u : Tag P, u.id = t.id → (encValue u).length ≤ v.length →
        (ValueForm (fun _ => Latest) (CustomFormIn (fun _ => Latest) e k) t (encValue u) ∨
          ∃ id p₀ p, t₀ = .atom (.payload id p₀) ∧ t = .atom (.payload id p) ∧ PayloadReadsAt e k p₀ p (encValue u)) →
        CustomFormIn (fun _ => Latest) e (k + 1) t (enc u) ∧ (enc u).length ≤ x.length := by
      intro u g2 g5 g4
      have hwrap : enc u = wrap t.id (encValue u) := by unfold enc; rw [g2]
      refine ⟨⟨t₀, Spec.ilint t.id.toNat, encValue u, h1, h2, ILInt.isILInt_ilint h3.1, g4, Nat.le_trans g5 h5, ?_⟩, ?_⟩
      · rw [hwrap]
        unfold wrap
        rcases h6 with ⟨h15, -⟩ | ⟨h16, l, hl, -⟩
        · rw [if_pos h15]; exact .inl ⟨h15, by simp⟩
        · rw [if_neg (by omega)]
          exact .inr ⟨h16, _, ILInt.isILInt_ilint (by have := hl.1; omega), rfl⟩
      · rw [hwrap]
        unfold wrap
        rcases h6 with ⟨h15, rfl⟩ | ⟨h16, l, hl, rfl⟩
        · rw [if_pos h15, List.append_nil]
          simp only [List.length_append]; omega
        · rw [if_neg (by omega)]
          have h8 := (Snug.ilint (D := False) hl).1
          have h9 := Snug.ilint_length g5 hl.1
          simp only [List.length_append]; omega
    rcases h4 with h4 | ⟨i, p₀, p, rfl, rfl, g2⟩
    · obtain ⟨u, g1, g2, g3, g4⟩ := Relay.value (S := fun x w => w.length ≤ x.length) ih t v h4
      have g5 : (encValue u).length ≤ v.length := Renew.value_le g3 fun _ _ h => h.2
      have hk : u.kind ≠ .payload := by
        intro hk
        rw [g1] at hk
        cases t with
        | atom a => cases a <;> first | exact h4.elim | cases hk
        | _ => cases hk
      refine ⟨u, ⟨⟨t₀, hd, v, by rw [g2]; exact h1, by rw [g1]; exact h2, by rw [g2]; exact h3,
          .inl (valueForm_mono (fun _ _ _ h => h) (fun _ _ h => h.1.1) u v g3), h5, by rw [g2]; exact h6⟩,
          valueForm_within (Q := fun w => ∀ id p, w = .atom (.payload id p) → PayloadOk p) (fun _ _ h => h.1.2) u v g3 ?_⟩,
        hback u g2 g5 (.inl g4)⟩
      rintro id p rfl
      exact absurd rfl hk
    · obtain ⟨g4, g5, g6⟩ := ht k i p₀ p v h1 h5 g2
      refine ⟨.atom (.payload i p), ⟨⟨_, hd, v, h1, rfl, h3, .inr ⟨i, p₀, p, rfl, rfl, g2⟩, h5, h6⟩, fun w hw => ?_⟩,
        hback (.atom (.payload i p)) rfl g5 (.inr ⟨i, p₀, p, rfl, rfl, g6⟩)⟩
      cases hw
      rintro _ _ h
      cases h
      exact g4

end Verif
