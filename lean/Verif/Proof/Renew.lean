import Verif.Proof.Relay
import Verif.Spec.Renew
/-!
# Payloads that are read and written again
-/
namespace Verif
open Spec
set_option linter.unusedSectionVars false

namespace Renew

theorem listed {α : Type} {L : α → Bytes → Prop} {f : α → Bytes} :
    ∀ (as : List α) (x : Bytes), (∀ a ∈ as, ∀ x, L a x → (f a).length ≤ x.length) → Listed L as x →
      (as.flatMap f).length ≤ x.length
  | [], x, _, h => by have h : x = [] := h; subst h; simp
  | a :: as, x, hL, ⟨y, z, e, h1, h2⟩ => by
    subst e
    have h3 := hL a (by simp) _ h1
    have h4 := listed as z (fun b hb => hL b (by simp [hb])) h2
    rw [List.flatMap_cons]
    simp only [List.length_append]
    omega

variable {P : Type} [TagPayload P]

/-- A value is no longer than any form of it, if that holds for what is inside. -/
theorem value_le {L : Tag P → Bytes → Prop} {t : Tag P} {v : Bytes} (hf : ValueForm (fun _ => Latest) L t v)
    (hn : ∀ u x, L u x → (enc u).length ≤ x.length) : (encValue t).length ≤ v.length := by
  letI : Env := Props.bigEnv
  cases t with
  | seq i ts =>
    rw [encValue, encTags_eq]
    exact listed ts v (fun a _ x hx => hn a x hx) hf
  | array i ts =>
    rw [encValue, encTags_eq]
    obtain ⟨c, x, rfl, hc, hx⟩ := hf
    have h1 := listed ts x (fun a _ x hx => hn a x hx) hx
    have h2 := (Snug.ilint (D := False) hc).1
    simp only [List.length_append]
    omega
  | dict i es =>
    rw [encValue, encSorted_tags]
    obtain ⟨ws, ⟨c, x, rfl, hc, hL⟩, hl⟩ := hf
    have hx : (ws.flatMap fun e => Spec.stringTag e.1 ++ enc e.2).length ≤ x.length := by
      refine listed ws x ?_ hL
      rintro e - y ⟨k, w, rfl, hk, hw⟩
      have h1 := (Snug.string (D := False) hk).1
      have h2 := hn _ _ hw
      simp only [List.length_append]
      omega
    obtain ⟨rest, hr⟩ := Snug.split_subset (nodup_of_nodup_keys hl.1) (ws := ws) (fun e he => by
      obtain ⟨l, r, rfl, -⟩ := (hl.2 e.1 e.2).mp he
      simp)
    have hperm : (ws.flatMap fun e => Spec.stringTag e.1 ++ enc e.2).Perm
        (((sortByKey es).flatMap fun e => Spec.stringTag e.1 ++ enc e.2) ++
          rest.flatMap fun e => Spec.stringTag e.1 ++ enc e.2) := by
      rw [← List.flatMap_append]
      exact (hr.trans ((sortByKey_perm es).symm.append_right rest)).flatMap_right _
    have hpl := hperm.length_eq
    have hlr := hr.length_eq
    rw [List.length_append] at hpl hlr
    have h1 := (Snug.ilint (D := False) hc).1
    have h2 := Snug.ilint_length (m := es.length) (n := ws.length) (by omega) hc.1
    simp only [List.length_append]
    omega
  | atom a => exact (Snug.value (D := False) (L := fun _ _ => False) (t := .atom a) hf (fun h => h.elim) (fun _ _ h => h.elim)
      fun _ _ _ h => h.elim).1

/-- A tag read and written again by a factory whose payloads carry those of the receiver. -/
theorem form [Env] {e E : Engine P} (hE : Regular E) (hrel : PayloadRelayFor e E) (k : Nat) (t : Tag P) (x : Bytes)
    (h : CustomFormAt (fun _ => Latest) E k t x) :
    ∃ u, (CustomFormAt (fun _ => Latest) e k u x ∧ ∀ w, Within w u → ∀ id p, w = .atom (.payload id p) → PayloadOk p) ∧
      CustomFormAt (fun _ => Latest) E k t (enc u) ∧ (enc u).length ≤ x.length := by
  induction k generalizing t x with
  | zero => exact h.elim
  | succ k ih =>
    obtain ⟨t₀, hd, v, h1, h2, h3, h4, h5, h6⟩ := h
    obtain ⟨t₁, h7, h8⟩ := hrel _ _ h1
    have hhd := (Snug.ilint (D := False) h3).1
    -- a value that is written again in no more bytes
    have hback : ∀ u : Tag P, u.id = t.id → (encValue u).length ≤ v.length →
        (ValueForm (fun _ => Latest) (CustomFormAt (fun _ => Latest) E k) t (encValue u) ∨ PayloadForm E t₀ t (encValue u)) →
        CustomFormAt (fun _ => Latest) E (k + 1) t (enc u) ∧ (enc u).length ≤ x.length := by
      intro u g2 g5 g4
      have hwrap : enc u = wrap t.id (encValue u) := by unfold enc; rw [g2]
      refine ⟨⟨t₀, Spec.ilint t.id.toNat, encValue u, h1, h2, ILInt.isILInt_ilint h3.1, g4, Nat.le_trans g5 h5, ?_⟩, ?_⟩
      · rw [hwrap]
        unfold wrap
        rcases h6 with ⟨h15, -⟩ | ⟨h16, l, hl, -⟩
        · rw [if_pos h15]; exact .inl ⟨h15, by simp⟩
        · rw [if_neg (by omega)]
          exact .inr ⟨h16, _, ILInt.isILInt_ilint (by have := hl.1; omega), rfl⟩
      · rw [hwrap]
        unfold wrap
        rcases h6 with ⟨h15, rfl⟩ | ⟨h16, l, hl, rfl⟩
        · rw [if_pos h15, List.append_nil]
          simp only [List.length_append]; omega
        · rw [if_neg (by omega)]
          have h8 := (Snug.ilint (D := False) hl).1
          have h9 := Snug.ilint_length g5 hl.1
          simp only [List.length_append]; omega
    rcases h8 with hsame | ⟨h16, hraw⟩ | ⟨p₀, p₁, rfl, rfl, hc⟩
    · -- a type of the library that both know
      have h4 : ValueForm (fun _ => Latest) (CustomFormAt (fun _ => Latest) E k) t v := h4.resolve_right (by
        rintro ⟨_, _, _, rfl, -, -⟩
        exact hsame.2 rfl)
      obtain ⟨u, g1, g2, g3, g4⟩ := Relay.value (S := fun x w => w.length ≤ x.length) ih t v h4
      have g5 : (encValue u).length ≤ v.length := value_le g3 fun _ _ h => h.2
      have hk : u.kind ≠ .payload := by rw [g1, ← h2]; exact hsame.2
      refine ⟨u, ⟨⟨t₁, hd, v, by rw [g2]; exact h7, by rw [g1, ← h2]; exact hsame.1, by rw [g2]; exact h3,
          .inl (valueForm_mono (fun _ _ _ h => h) (fun _ _ h => h.1.1) u v g3), h5, by rw [g2]; exact h6⟩,
          valueForm_within (Q := fun w => ∀ id p, w = .atom (.payload id p) → PayloadOk p) (fun _ _ h => h.1.2) u v g3 ?_⟩,
        hback u g2 g5 (.inl g4)⟩
      rintro id p rfl
      exact absurd rfl hk
    · -- an id the relay does not know
      have h16' := h16
      obtain ⟨h15, -⟩ | ⟨-, l, hl, -⟩ := id h6
      · omega
      refine ⟨.atom (.raw t.id v), ⟨⟨t₁, hd, v, h7, hraw, h3, .inl rfl, h5, h6⟩, fun w hw => ?_⟩,
        hback (.atom (.raw t.id v)) rfl (Nat.le_refl _) h4⟩
      cases hw
      intro _ _ h
      cases h
    · -- a payload
      have h4 : PayloadForm E (.atom (.payload t.id p₀)) t v := h4.resolve_left (by
        intro h
        cases t with
        | atom a => cases a <;> first | exact h.elim | cases h2
        | _ => cases h2)
      obtain ⟨i, p₀', p, g1, rfl, g2⟩ := h4
      obtain ⟨q, g3, g4, g5, g6⟩ := hc p v h5 (by cases g1; exact g2)
      refine ⟨.atom (.payload i q), ⟨⟨_, hd, v, h7, rfl, h3, .inr ⟨i, p₁, q, rfl, rfl, g3⟩, h5, h6⟩, fun w hw => ?_⟩,
        hback (.atom (.payload i q)) rfl g5 (.inr ⟨i, p₀, p, rfl, rfl, g6⟩)⟩
      cases hw
      rintro _ _ h
      cases h
      exact g4

end Renew
end Verif
