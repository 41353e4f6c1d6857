import Verif.Spec.BulkCustom
import Verif.Proof.Bulk
import Verif.Proof.Renew
/-!
# The content of a tag with payloads and the length of the bytes it was read from
-/
namespace Verif
open Spec
set_option linter.unusedSectionVars false

namespace Hold
variable {P : Type}

/-- Payloads written as so many zeros as they hold: a measure in the shape of an encoding. -/
def blank (m : P → Nat) : TagPayload P where
  serializedSize := m
  serialize p := ([.all (List.replicate (m p) 0)], .ok ())
  deserialize p _ := .done (.ok ()) p

theorem blank_bytes (m : P → Nat) (p : P) : (@payloadBytes P (blank m) p).length = m p := by
  show ([WOp.all (List.replicate (m p) 0)].flatMap opBytes).length = m p
  simp [opBytes]

/-- The forms of values do not depend on what payloads write. -/
theorem form_blank (i j : TagPayload P) {M : MapMaking} {L : Tag P → Bytes → Prop} {t : Tag P} {v : Bytes}
    (h : @ValueForm P i M L t v) : @ValueForm P j M L t v := by
  cases t with
  | atom a => cases a <;> exact h
  | _ => exact h

theorem contents_eq (m : P → Nat) (ts : List (Tag P)) : payloadContents m ts = (ts.map (payloadContent m)).sum := by
  induction ts with
  | nil => rfl
  | cons t ts ih => rw [payloadContents, ih]; rfl

theorem entries_eq (m : P → Nat) (es : List (String × Tag P)) :
    payloadEntries m es = (es.map fun e => payloadContent m e.2).sum := by
  induction es with
  | nil => rfl
  | cons e es ih => rw [payloadEntries, ih]; rfl

theorem sum_add {α : Type} (f g : α → Nat) (as : List α) : (as.map fun a => f a + g a).sum = (as.map f).sum + (as.map g).sum := by
  induction as with
  | nil => rfl
  | cons a as ih => simp only [List.map_cons, List.sum_cons, ih]; omega

theorem bulk (m : P → Nat) (t : Tag P) : tagCount t + content t + payloadContent m t ≤ (@enc P (blank m) t).length := by
  letI : Env := Props.bigEnv
  letI : TagPayload P := blank m
  show _ ≤ (enc t).length
  induction t using Tag.ind with
  | atom a =>
    have h1 := enc_ge (.atom a : Tag P)
    have h3 : encValue (.atom a : Tag P) = encAtom a := by rw [encValue]
    rw [h3] at h1
    have h2 : atomContent a + payloadContent m (.atom a) ≤ (encAtom a).length := by
      by_cases hp : a.kind = .payload
      · cases a with
        | payload i p =>
          rw [payloadContent]
          show 0 + m p ≤ (payloadBytes p).length
          have := blank_bytes m p
          omega
        | _ => cases hp
      · have := atomContent_le a
        have hz : payloadContent m (.atom a) = 0 := by
          cases a with
          | payload => exact absurd rfl hp
          | _ => rfl
        omega
    rw [tagCount, content]
    omega
  | seq i ts ih =>
    have h1 := enc_ge (.seq i ts : Tag P)
    have h2 := sum_le_flatMap (f := tagCount) (g := fun t => content t + payloadContent m t) (h := enc)
      (fun t ht => by have := ih t ht; omega)
    rw [sum_add] at h2
    rw [encValue, encTags_eq] at h1
    rw [tagCount, content, payloadContent, tagCounts_eq, Verif.contents_eq, contents_eq]
    omega
  | array i ts ih =>
    have h1 := enc_ge (.array i ts : Tag P)
    have h2 := sum_le_flatMap (f := tagCount) (g := fun t => content t + payloadContent m t) (h := enc)
      (fun t ht => by have := ih t ht; omega)
    rw [sum_add] at h2
    rw [encValue, encTags_eq, List.length_append] at h1
    rw [tagCount, content, payloadContent, tagCounts_eq, Verif.contents_eq, contents_eq]
    omega
  | dict i es ih =>
    have h1 := enc_ge (.dict i es : Tag P)
    have h2 := sum_le_flatMap (f := fun e : String × Tag P => tagCount e.2)
      (g := fun e => (1 + (Spec.utf8 e.1).length + content e.2) + payloadContent m e.2)
      (h := fun e => Spec.stringTag e.1 ++ enc e.2) (as := es)
      (fun e he => by
        have := ih e.1 e.2 he
        have := stringTag_ge e.1
        rw [List.length_append]; omega)
    rw [sum_add] at h2
    rw [encValue, encSorted_tags, List.length_append, length_sorted] at h1
    rw [tagCount, content, payloadContent, entryCounts_eq, entryContents_eq, entries_eq]
    omega

/-- Tags that hold tags have explicit ids. -/
def Explicit (t : Tag P) : Prop := (∀ a, t ≠ .atom a) → 16 ≤ t.id.toNat

theorem height_le [TagPayload P] (t : Tag P) (hs : ∀ u, Within u t → Explicit u) : 2 * height t ≤ (enc t).length := by
  letI : Env := Props.bigEnv
  induction t using Tag.ind with
  | atom a => exact Nat.zero_le _
  | seq i ts ih =>
    have h1 := wrap_explicit_ge (id := i) (hs _ (.refl _) (by simp)) (encValue (.seq i ts : Tag P))
    have h2 : heights ts ≤ (encValue (.seq i ts : Tag P)).length / 2 := heights_le fun t ht => by
      have := ih t ht fun u hu => hs u (hu.trans (within_seq ht))
      have := Look.length_mem enc ht
      rw [encValue, encTags_eq]
      omega
    rw [height]
    show _ ≤ (wrap i _).length
    omega
  | array i ts ih =>
    have h1 := wrap_explicit_ge (id := i) (hs _ (.refl _) (by simp)) (encValue (.array i ts : Tag P))
    have h2 : heights ts ≤ (encValue (.array i ts : Tag P)).length / 2 := heights_le fun t ht => by
      have := ih t ht fun u hu => hs u (hu.trans (within_array ht))
      have := Look.length_mem enc ht
      rw [encValue, encTags_eq, List.length_append]
      omega
    rw [height]
    show _ ≤ (wrap i _).length
    omega
  | dict i es ih =>
    have h1 := wrap_explicit_ge (id := i) (hs _ (.refl _) (by simp)) (encValue (.dict i es : Tag P))
    have h2 : entryHeights es ≤ (encValue (.dict i es : Tag P)).length / 2 := entryHeights_le fun e he => by
      have := ih e.1 e.2 he fun u hu => hs u (hu.trans (within_dict he))
      have := Look.length_mem (fun e : String × Tag P => Spec.stringTag e.1 ++ enc e.2) he
      rw [encValue, encSorted_tags, List.length_append, length_sorted]
      rw [List.length_append] at this
      omega
    rw [height]
    show _ ≤ (wrap i _).length
    omega

variable [TagPayload P] [Env]

/-- The measure is no longer than the bytes that were read. -/
theorem form {m : P → Nat} {e : Engine P} (he : Regular e) (hm : Thrifty m e) (k : Nat) (t : Tag P) (x : Bytes)
    (h : CustomFormAt (fun _ => Latest) e k t x) :
    (@enc P (blank m) t).length ≤ x.length ∧ ∀ u, Within u t → Explicit u := by
  induction k generalizing t x with
  | zero => exact h.elim
  | succ k ih =>
    obtain ⟨t₀, hd, v, h1, h2, h3, h4, h5, h6⟩ := h
    have hexp : Explicit t := by
      intro hn
      refine Classical.byContradiction fun hlt => ?_
      have := he.implicit _ _ h1 (by omega)
      rw [h2] at this
      cases t with
      | atom a => exact hn a rfl
      | _ => simp only [Tag.kind, standardId, Option.some.injEq] at this; simp only [Tag.id] at this hlt; omega
    have hv : (@encValue P (blank m) t).length ≤ v.length ∧ ∀ u, Within u t → Explicit u := by
      rcases h4 with h4 | ⟨i, p₀, p, rfl, rfl, h4⟩
      · exact ⟨@Renew.value_le P (blank m) _ _ _ (form_blank _ _ h4) fun u y h => (ih u y h).1,
          valueForm_within (fun u y h => (ih u y h).2) t v h4 hexp⟩
      · refine ⟨?_, fun u hu => ?_⟩
        · show (@payloadBytes P (blank m) p).length ≤ v.length
          rw [blank_bytes]
          exact hm i p₀ p v h1 h5 h4
        · cases hu
          exact hexp
    refine ⟨?_, hv.2⟩
    have hhd := (Snug.ilint (D := False) h3).1
    show (wrap t.id _).length ≤ _
    unfold wrap
    rcases h6 with ⟨h15, rfl⟩ | ⟨h16, l, hl, rfl⟩
    · rw [if_pos h15, List.append_nil]
      have := hv.1
      simp only [List.length_append]; omega
    · rw [if_neg (by omega)]
      have h8 := (Snug.ilint (D := False) hl).1
      have h9 := Snug.ilint_length hv.1 hl.1
      have := hv.1
      simp only [List.length_append]; omega

end Hold
end Verif
