import Verif.Spec.Bulk
import Verif.Proof.Canonical
/-!
# The content of a tag and the length of its encoding
-/
namespace Verif
open Spec
section
variable {P : Type} [TagPayload P]

omit [TagPayload P] in
theorem tagCounts_eq (ts : List (Tag P)) : tagCounts ts = (ts.map tagCount).sum := by
  induction ts with
  | nil => rfl
  | cons t ts ih => rw [tagCounts, ih]; rfl

omit [TagPayload P] in
theorem entryCounts_eq (es : List (String × Tag P)) : entryCounts es = (es.map fun e => tagCount e.2).sum := by
  induction es with
  | nil => rfl
  | cons e es ih => rw [entryCounts, ih]; rfl

omit [TagPayload P] in
theorem contents_eq (ts : List (Tag P)) : contents ts = (ts.map content).sum := by
  induction ts with
  | nil => rfl
  | cons t ts ih => rw [contents, ih]; rfl

omit [TagPayload P] in
theorem entryContents_eq (es : List (String × Tag P)) :
    entryContents es = (es.map fun e => 1 + (Spec.utf8 e.1).length + content e.2).sum := by
  induction es with
  | nil => rfl
  | cons e es ih => rw [entryContents, ih]; rfl

theorem sum_le_flatMap {α : Type} {f g : α → Nat} {h : α → Bytes} {as : List α} (hl : ∀ a ∈ as, f a + g a ≤ (h a).length) :
    (as.map f).sum + (as.map g).sum ≤ (as.flatMap h).length := by
  induction as with
  | nil => simp
  | cons a as ih =>
    have h1 := hl a (by simp)
    have h2 := ih fun b hb => hl b (by simp [hb])
    rw [List.flatMap_cons, List.length_append, List.map_cons, List.map_cons, List.sum_cons, List.sum_cons]
    omega

theorem length_sorted {α : Type} (h : String × α → Bytes) (es : List (String × α)) :
    ((sortByKey es).flatMap h).length = (es.flatMap h).length :=
  ((sortByKey_perm es).flatMap_right h).length_eq

theorem stringTag_ge (s : String) : (Spec.utf8 s).length + 2 ≤ (Spec.stringTag s).length := by
  letI : Env := Props.bigEnv
  rw [Look.stringTag_eq]
  have := ilint_pos 17
  have := ilint_pos (Spec.utf8 s).length
  simp only [List.length_append]
  omega

theorem encILInts_ge (vs : List UInt64) : vs.length ≤ (encILInts vs).length := by
  letI : Env := Props.bigEnv
  have := length_le_flatMap_ge (fun v : UInt64 => Spec.ilint v.toNat) (fun v => ilint_pos _) vs
  unfold encILInts
  rw [List.length_append]
  omega

theorem atomContent_le (a : Atom P) : atomContent a ≤ (encAtom a).length := by
  cases a <;> try exact Nat.zero_le _
  case raw => exact Nat.le_refl _
  case byteArray => exact Nat.le_refl _
  case string => exact Nat.le_refl _
  case bigInt => exact Nat.le_refl _
  case bigDec => show _ ≤ List.length (_ ++ _); rw [List.length_append]; exact Nat.le_add_left _ _
  case ilintArray => exact encILInts_ge _
  case oid => exact encILInts_ge _
  case strDict i es =>
    letI : Env := Props.bigEnv
    rw [encAtom, encSorted_eq, List.length_append, length_sorted]
    have := sum_le_flatMap (f := fun _ : String × String => 0) (g := fun e => 2 + (Spec.utf8 e.1).length + (Spec.utf8 e.2).length)
      (h := fun e => Spec.stringTag e.1 ++ Spec.stringTag e.2) (as := es) (fun e _ => by
        have := stringTag_ge e.1
        have := stringTag_ge e.2
        rw [List.length_append]; omega)
    show (es.map fun e => 2 + (Spec.utf8 e.1).length + (Spec.utf8 e.2).length).sum ≤ _
    omega

theorem bulk_le (t : Tag P) : tagCount t + content t ≤ (enc t).length := by
  letI : Env := Props.bigEnv
  induction t using Tag.ind with
  | atom a =>
    have h1 := enc_ge (.atom a : Tag P)
    have h2 := atomContent_le a
    have h3 : encValue (.atom a : Tag P) = encAtom a := by rw [encValue]
    rw [h3] at h1
    rw [tagCount, content]
    omega
  | seq i ts ih =>
    have h1 := enc_ge (.seq i ts : Tag P)
    have h2 := sum_le_flatMap (f := tagCount) (g := content) (h := enc) ih
    rw [encValue, encTags_eq] at h1
    rw [tagCount, content, tagCounts_eq, contents_eq]
    omega
  | array i ts ih =>
    have h1 := enc_ge (.array i ts : Tag P)
    have h2 := sum_le_flatMap (f := tagCount) (g := content) (h := enc) ih
    rw [encValue, encTags_eq, List.length_append] at h1
    rw [tagCount, content, tagCounts_eq, contents_eq]
    omega
  | dict i es ih =>
    have h1 := enc_ge (.dict i es : Tag P)
    have h2 := sum_le_flatMap (f := fun e : String × Tag P => tagCount e.2)
      (g := fun e => 1 + (Spec.utf8 e.1).length + content e.2) (h := fun e => Spec.stringTag e.1 ++ enc e.2) (as := es)
      (fun e he => by
        have := ih e.1 e.2 he
        have := stringTag_ge e.1
        rw [List.length_append]; omega)
    rw [encValue, encSorted_tags, List.length_append, length_sorted] at h1
    rw [tagCount, content, entryCounts_eq, entryContents_eq]
    omega

omit [TagPayload P] in
theorem heights_le {ts : List (Tag P)} {n : Nat} (h : ∀ t ∈ ts, height t ≤ n) : heights ts ≤ n := by
  induction ts with
  | nil => exact Nat.zero_le _
  | cons t ts ih =>
    rw [heights]
    exact Nat.max_le.mpr ⟨h t (by simp), ih fun u hu => h u (by simp [hu])⟩

omit [TagPayload P] in
theorem entryHeights_le {es : List (String × Tag P)} {n : Nat} (h : ∀ e ∈ es, height e.2 ≤ n) : entryHeights es ≤ n := by
  induction es with
  | nil => exact Nat.zero_le _
  | cons e es ih =>
    rw [entryHeights]
    exact Nat.max_le.mpr ⟨h e (by simp), ih fun u hu => h u (by simp [hu])⟩

theorem wrap_explicit_ge {id : UInt64} (h : 16 ≤ id.toNat) (v : Bytes) : v.length + 2 ≤ (wrap id v).length := by
  letI : Env := Props.bigEnv
  unfold wrap
  rw [if_neg (by omega)]
  have := ilint_pos id.toNat
  have := ilint_pos v.length
  simp only [List.length_append]
  omega

theorem height_le {strict : Bool} (t : Tag P) (hs : ∀ u, Within u t → StdTag strict u) :
    2 * height t ≤ (enc t).length := by
  letI : Env := Props.bigEnv
  induction t using Tag.ind with
  | atom a => exact Nat.zero_le _
  | seq i ts ih =>
    have h1 := wrap_explicit_ge (id := i) (by have := Look.kind_seq (hs _ (.refl _)); omega) (encValue (.seq i ts : Tag P))
    have h2 : heights ts ≤ (encValue (.seq i ts : Tag P)).length / 2 := heights_le fun t ht => by
      have := ih t ht fun u hu => hs u (hu.trans (within_seq ht))
      have := Look.length_mem enc ht
      rw [encValue, encTags_eq]
      omega
    rw [height]
    show _ ≤ (wrap i _).length
    omega
  | array i ts ih =>
    have h1 := wrap_explicit_ge (id := i) (by have := Look.kind_array (hs _ (.refl _)); omega) (encValue (.array i ts : Tag P))
    have h2 : heights ts ≤ (encValue (.array i ts : Tag P)).length / 2 := heights_le fun t ht => by
      have := ih t ht fun u hu => hs u (hu.trans (within_array ht))
      have := Look.length_mem enc ht
      rw [encValue, encTags_eq, List.length_append]
      omega
    rw [height]
    show _ ≤ (wrap i _).length
    omega
  | dict i es ih =>
    have h1 := wrap_explicit_ge (id := i) (by have := Look.kind_dict (hs _ (.refl _)); omega) (encValue (.dict i es : Tag P))
    have h2 : entryHeights es ≤ (encValue (.dict i es : Tag P)).length / 2 := entryHeights_le fun e he => by
      have := ih e.1 e.2 he fun u hu => hs u (hu.trans (within_dict he))
      have := Look.length_mem (fun e : String × Tag P => Spec.stringTag e.1 ++ enc e.2) he
      rw [encValue, encSorted_tags, List.length_append, length_sorted]
      rw [List.length_append] at this
      omega
    rw [height]
    show _ ≤ (wrap i _).length
    omega
end
end Verif
