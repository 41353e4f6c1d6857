import Verif.Spec.Tag
/-!
# Induction over tags, sorting, maps as lists
-/
namespace Verif
open Spec
variable {P : Type}

theorem Tag.ind {motive : Tag P → Prop} (atom : ∀ a, motive (.atom a))
    (seq : ∀ id ts, (∀ t ∈ ts, motive t) → motive (.seq id ts))
    (array : ∀ id ts, (∀ t ∈ ts, motive t) → motive (.array id ts))
    (dict : ∀ id (es : List (String × Tag P)), (∀ k t, (k, t) ∈ es → motive t) → motive (.dict id es)) :
    ∀ t, motive t := by
  intro t
  refine Tag.rec (motive_1 := motive) (motive_2 := fun ts => ∀ t ∈ ts, motive t)
    (motive_3 := fun es => ∀ k t, (k, t) ∈ es → motive t) (motive_4 := fun e => motive e.2)
    atom seq array dict ?_ ?_ ?_ ?_ ?_ t
  · simp
  · intro t ts ht hts u hu
    rcases List.mem_cons.mp hu with rfl | hu
    · exact ht
    · exact hts u hu
  · simp
  · intro e es he hes k u hu
    rcases List.mem_cons.mp hu with rfl | hu
    · exact he
    · exact hes k u hu
  · intro k t ht; exact ht

theorem Spec.Within.trans {t u v : Tag P} (h : Within t u) (h' : Within u v) : Within t v := by
  induction h' with
  | refl => exact h
  | seq hm _ ih => exact .seq hm ih
  | array hm _ ih => exact .array hm ih
  | dict hm _ ih => exact .dict hm ih

theorem Spec.MapsOk.self {t : Tag P} (h : MapsOk t) : MapOk t := h _ (.refl _)
theorem Spec.MapsOk.of {t u : Tag P} (h : MapsOk t) (hw : Within u t) : MapsOk u := fun _ hv => h _ (hv.trans hw)
theorem Spec.PayloadsOk.of [TagPayload P] {t u : Tag P} (h : PayloadsOk t) (hw : Within u t) : PayloadsOk u :=
  fun _ _ hv => h _ _ (hv.trans hw)

theorem within_seq {id : UInt64} {ts : List (Tag P)} {t : Tag P} (h : t ∈ ts) : Within t (.seq id ts) :=
  .seq h (.refl _)
theorem within_array {id : UInt64} {ts : List (Tag P)} {t : Tag P} (h : t ∈ ts) : Within t (.array id ts) :=
  .array h (.refl _)
theorem within_dict {id : UInt64} {es : List (String × Tag P)} {k : String} {t : Tag P} (h : (k, t) ∈ es) :
    Within t (.dict id es) := .dict h (.refl _)

/-! ### Encoding of lists -/

theorem encTags_eq [TagPayload P] (ts : List (Tag P)) : encTags ts = ts.flatMap enc := by
  induction ts with
  | nil => simp [encTags]
  | cons t ts ih => simp [encTags, ih, enc]

theorem encEntries_eq [TagPayload P] (es : List (String × Tag P)) : encEntries es = es.map fun e => (e.1, enc e.2) := by
  induction es with
  | nil => simp [encEntries]
  | cons e es ih => obtain ⟨k, t⟩ := e; simp [encEntries, ih, enc]

/-! ### Bytewise order -/

theorem bytes_le_trans {a b c : Bytes} (h : a ≤ b) (h' : b ≤ c) : a ≤ c := List.le_trans h h'
theorem bytes_le_total (a b : Bytes) : a ≤ b ∨ b ≤ a := List.le_total a b
theorem bytes_le_antisymm {a b : Bytes} (h : a ≤ b) (h' : b ≤ a) : a = b := List.le_antisymm h h'

/-! ### Maps as lists of entries -/
namespace HMap
variable {K V W : Type} [DecidableEq K]

theorem get_eq_some_of_mem {es : List (K × V)} (hn : (es.map (·.1)).Nodup) {k : K} {v : V} (h : (k, v) ∈ es) :
    get k es = some v := by
  induction es with
  | nil => simp at h
  | cons e es ih =>
    obtain ⟨k', v'⟩ := e
    simp only [List.map_cons, List.nodup_cons] at hn
    rcases List.mem_cons.mp h with heq | h
    · obtain ⟨rfl, rfl⟩ := Prod.mk.inj heq; simp [get]
    · have : k' ≠ k := by
        rintro rfl
        exact hn.1 (List.mem_map.mpr ⟨_, h, rfl⟩)
      simp [get, this, ih hn.2 h]

theorem mem_of_get {es : List (K × V)} {k : K} {v : V} (h : get k es = some v) : (k, v) ∈ es := by
  induction es with
  | nil => simp [get] at h
  | cons e es ih =>
    obtain ⟨k', v'⟩ := e
    simp only [get] at h
    split at h
    · simp at h; simp_all
    · exact List.mem_cons_of_mem _ (ih h)

theorem get_eq_none {es : List (K × V)} {k : K} : get k es = none ↔ k ∉ es.map (·.1) := by
  induction es with
  | nil => simp [get]
  | cons e es ih =>
    obtain ⟨k', v'⟩ := e
    simp only [get]
    split
    · simp_all
    · rename_i h
      simp [ih, Ne.symm h]

theorem get_map (es : List (K × V)) (g : V → W) (k : K) : get k (es.map fun e => (e.1, g e.2)) = (get k es).map g := by
  induction es with
  | nil => rfl
  | cons e es ih => simp only [List.map_cons, get]; split <;> simp [ih]

theorem insert_new {es : List (K × V)} {k : K} (v : V) (h : k ∉ es.map (·.1)) : insert k v es = es ++ [(k, v)] := by
  induction es with
  | nil => rfl
  | cons e es ih =>
    obtain ⟨k', v'⟩ := e
    simp only [List.map_cons, List.mem_cons, not_or] at h
    simp [insert, Ne.symm h.1, ih h.2]

theorem keys_insert (es : List (K × V)) (k : K) (v : V) :
    (insert k v es).map (·.1) = if k ∈ es.map (·.1) then es.map (·.1) else es.map (·.1) ++ [k] := by
  induction es with
  | nil => simp [insert]
  | cons e es ih =>
    obtain ⟨k', v'⟩ := e
    simp only [insert]
    split
    · simp_all
    · rename_i h
      simp only [List.map_cons, ih, List.mem_cons, Ne.symm h, false_or]
      split <;> simp

theorem nodup_insert {es : List (K × V)} (h : (es.map (·.1)).Nodup) (k : K) (v : V) :
    ((insert k v es).map (·.1)).Nodup := by
  rw [keys_insert]
  split
  · exact h
  · rename_i hk
    rw [List.nodup_append]
    refine ⟨h, by simp, ?_⟩
    intro a ha b hb
    simp only [List.mem_singleton] at hb
    subst hb
    rintro rfl
    exact hk ha

theorem get_insert (es : List (K × V)) (k k' : K) (v : V) :
    get k' (insert k v es) = if k' = k then some v else get k' es := by
  induction es with
  | nil => simp only [insert, get]; split <;> simp_all [eq_comm]
  | cons e es ih =>
    obtain ⟨k'', v''⟩ := e
    simp only [insert]
    split
    · rename_i h
      subst h
      simp only [get]
      split <;> simp_all [eq_comm]
    · rename_i h
      simp only [get, ih]
      split
      · rename_i h2
        subst h2
        rw [if_neg h]
      · rfl

theorem get_remove {es : List (K × V)} (hn : (es.map (·.1)).Nodup) (k k' : K) :
    get k' (remove k es) = if k' = k then none else get k' es := by
  induction es with
  | nil => simp [remove, get]
  | cons e es ih =>
    obtain ⟨k'', v''⟩ := e
    simp only [List.map_cons, List.nodup_cons] at hn
    simp only [remove]
    split
    · rename_i h
      subst h
      simp only [get]
      split
      · rename_i h2; subst h2; exact get_eq_none.mpr hn.1
      · rename_i h2; rw [if_neg (Ne.symm h2)]
    · rename_i h
      simp only [get, ih hn.2]
      split
      · rename_i h2
        subst h2
        rw [if_neg h]
      · rfl

theorem keys_remove_subset (es : List (K × V)) (k : K) : (remove k es).Sublist es := by
  induction es with
  | nil => exact .slnil
  | cons e es ih =>
    obtain ⟨k'', v''⟩ := e
    simp only [remove]
    split
    · exact List.sublist_cons_self _ _
    · exact ih.cons_cons _

theorem nodup_remove {es : List (K × V)} (h : (es.map (·.1)).Nodup) (k : K) : ((remove k es).map (·.1)).Nodup :=
  ((keys_remove_subset es k).map _).nodup h

end HMap

/-! ### Sorting by key -/

section
variable {α β : Type}

theorem insertByKey_perm (e : String × α) (es : List (String × α)) : (insertByKey e es).Perm (e :: es) := by
  induction es with
  | nil => exact .refl _
  | cons x xs ih =>
    simp only [insertByKey]
    split
    · exact .refl _
    · exact (ih.cons x).trans (.swap e x xs)

theorem sortByKey_perm (es : List (String × α)) : (sortByKey es).Perm es := by
  induction es with
  | nil => exact .refl _
  | cons e es ih => exact (insertByKey_perm e _).trans (ih.cons e)

theorem sortByKey_length (es : List (String × α)) : (sortByKey es).length = es.length := (sortByKey_perm es).length_eq

theorem mem_sortByKey {es : List (String × α)} {e : String × α} : e ∈ sortByKey es ↔ e ∈ es :=
  (sortByKey_perm es).mem_iff

theorem insertByKey_pairwise_le (e : String × α) {es : List (String × α)}
    (h : es.Pairwise fun a b => Spec.utf8 a.1 ≤ Spec.utf8 b.1) :
    (insertByKey e es).Pairwise fun a b => Spec.utf8 a.1 ≤ Spec.utf8 b.1 := by
  induction es with
  | nil => simp [insertByKey]
  | cons x xs ih =>
    rw [List.pairwise_cons] at h
    simp only [insertByKey]
    split
    · next hle =>
      refine List.pairwise_cons.mpr ⟨fun y hy => ?_, List.pairwise_cons.mpr h⟩
      rcases List.mem_cons.mp hy with rfl | hy
      · exact hle
      · exact bytes_le_trans hle (h.1 y hy)
    · next hle =>
      refine List.pairwise_cons.mpr ⟨fun y hy => ?_, ih h.2⟩
      rcases List.mem_cons.mp ((insertByKey_perm e xs).mem_iff.mp hy) with rfl | hy
      · exact (bytes_le_total _ _).resolve_left hle
      · exact h.1 y hy

theorem sortByKey_pairwise_le (es : List (String × α)) :
    (sortByKey es).Pairwise fun a b => Spec.utf8 a.1 ≤ Spec.utf8 b.1 := by
  induction es with
  | nil => exact .nil
  | cons e es ih => exact insertByKey_pairwise_le e ih

theorem sortByKey_map (es : List (String × α)) (g : α → β) :
    sortByKey (es.map fun e => (e.1, g e.2)) = (sortByKey es).map fun e => (e.1, g e.2) := by
  have hins : ∀ (e : String × α) (l : List (String × α)),
      insertByKey (e.1, g e.2) (l.map fun e => (e.1, g e.2)) = (insertByKey e l).map fun e => (e.1, g e.2) := by
    intro e l
    induction l with
    | nil => rfl
    | cons x xs ih =>
      simp only [List.map_cons, insertByKey]
      split <;> simp [ih]
  induction es with
  | nil => rfl
  | cons e es ih => simp only [List.map_cons, sortByKey, ih, hins]

end
end Verif
