import Verif.Proof.TagInd
import Verif.Proof.Data
/-!
# Equality of content and the canonical order of maps
-/
namespace Verif
open Spec
variable {P : Type}

theorem spec_utf8_inj {a b : String} (h : Spec.utf8 a = Spec.utf8 b) : a = b :=
  utf8_inj (by rw [utf8_eq, utf8_eq]; exact h)

theorem nodup_of_nodup_keys {α : Type} {es : List (String × α)} (h : (es.map (·.1)).Nodup) : es.Nodup :=
  List.Pairwise.of_map _ (fun _ _ h hc => h (by rw [hc])) h

theorem key_unique {α : Type} {es : List (String × α)} (h : (es.map (·.1)).Nodup) {k : String} {a b : α}
    (ha : (k, a) ∈ es) (hb : (k, b) ∈ es) : a = b := by
  have h1 := HMap.get_eq_some_of_mem h ha
  rw [HMap.get_eq_some_of_mem h hb] at h1
  simpa using h1.symm

theorem sortByKey_congr {α : Type} {es fs : List (String × α)} (he : (es.map (·.1)).Nodup) (hf : (fs.map (·.1)).Nodup)
    (h : ∀ e, e ∈ es ↔ e ∈ fs) : sortByKey es = sortByKey fs := by
  have hp : es.Perm fs := (List.perm_ext_iff_of_nodup (nodup_of_nodup_keys he) (nodup_of_nodup_keys hf)).mpr h
  refine List.Perm.eq_of_pairwise (le := fun a b : String × α => Spec.utf8 a.1 ≤ Spec.utf8 b.1) ?_
    (sortByKey_pairwise_le es) (sortByKey_pairwise_le fs)
    ((sortByKey_perm es).trans (hp.trans (sortByKey_perm fs).symm))
  rintro ⟨k, a⟩ ⟨k', b⟩ ha hb h1 h2
  have := spec_utf8_inj (bytes_le_antisymm h1 h2)
  subst this
  have hb' : (k, b) ∈ es := (h _).mpr (mem_sortByKey.mp hb)
  rw [key_unique he (mem_sortByKey.mp ha) hb']

theorem sortByKey_keys_nodup {α : Type} {es : List (String × α)} (h : (es.map (·.1)).Nodup) :
    ((sortByKey es).map (·.1)).Nodup := ((sortByKey_perm es).map (·.1)).symm.nodup h

/-- Sorted keys without duplicates are strictly increasing. -/
theorem sortByKey_pairwise_lt {α : Type} {es : List (String × α)} (h : (es.map (·.1)).Nodup) :
    (sortByKey es).Pairwise fun a b => Spec.utf8 a.1 < Spec.utf8 b.1 := by
  have h1 := sortByKey_pairwise_le es
  have h2 : (sortByKey es).Pairwise fun a b => a.1 ≠ b.1 := List.pairwise_map.mp (sortByKey_keys_nodup h)
  refine (h1.and h2).imp ?_
  rintro a b ⟨hle, hne⟩
  rcases Classical.em (Spec.utf8 a.1 < Spec.utf8 b.1) with hl | hl
  · exact hl
  · exact absurd (spec_utf8_inj (bytes_le_antisymm hle hl)) hne

/-! ### Same content -/

theorem Spec.Same.refl {t : Tag P} : MapsOk t → Same t t := by
  induction t using Tag.ind with
  | atom a => intro _; exact .atom a
  | seq id ts ih =>
    intro hm
    exact .seq id rfl fun i h h' => ih _ (by simp) (hm.of (within_seq (by simp)))
  | array id ts ih =>
    intro hm
    exact .array id rfl fun i h h' => ih _ (by simp) (hm.of (within_array (by simp)))
  | dict id es ih =>
    intro hm
    refine .dict id (fun _ => Iff.rfl) fun k t u ht hu => ?_
    have := key_unique (show (es.map (·.1)).Nodup from hm.self) ht hu
    subst this
    exact ih k t ht (hm.of (within_dict ht))

theorem Spec.Same.symm {t u : Tag P} (h : Same t u) : Same u t := by
  induction h with
  | atom a => exact .atom a
  | strDict id h => exact .strDict id fun e => (h e).symm
  | seq id hl _ ih => exact .seq id hl.symm fun i h h' => ih i h' h
  | array id hl _ ih => exact .array id hl.symm fun i h h' => ih i h' h
  | dict id hk _ ih => exact .dict id (fun k => (hk k).symm) fun k t u ht hu => ih k u t hu ht

theorem Spec.Same.trans {t u v : Tag P} (h : Same t u) : Same u v → Same t v := by
  induction h generalizing v with
  | atom a => exact fun h => h
  | strDict id h =>
    intro h'
    cases h' with
    | atom => exact .strDict id h
    | strDict _ h' => exact .strDict id fun e => (h e).trans (h' e)
  | seq id hl _ ih =>
    intro h'
    cases h' with
    | seq _ hl' h' => exact .seq id (hl.trans hl') fun i h1 h2 => ih i h1 (by omega) (h' i (by omega) h2)
  | array id hl _ ih =>
    intro h'
    cases h' with
    | array _ hl' h' => exact .array id (hl.trans hl') fun i h1 h2 => ih i h1 (by omega) (h' i (by omega) h2)
  | dict id hk _ ih =>
    intro h'
    cases h' with
    | dict _ hk' h' =>
      refine .dict id (fun k => (hk k).trans (hk' k)) fun k t v ht hv => ?_
      have : k ∈ _ := (hk k).mp (List.mem_map.mpr ⟨_, ht, rfl⟩)
      obtain ⟨⟨k', u⟩, hu, rfl⟩ := List.mem_map.mp this
      exact ih _ t u ht hu (h' _ u v hu hv)

theorem Spec.Same.id_eq {t u : Tag P} (h : Same t u) : t.id = u.id := by
  cases h <;> rfl

/-- Tags with the same content have the same value bytes. -/
theorem Spec.Same.encValue_eq [TagPayload P] {t u : Tag P} (h : Same t u) : MapsOk t → MapsOk u →
    encValue t = encValue u := by
  induction h with
  | atom a => intros; rfl
  | @strDict id es fs h =>
    intro hm hm'
    have he : (es.map (·.1)).Nodup := hm.self
    have hf : (fs.map (·.1)).Nodup := hm'.self
    have hp : es.Perm fs := (List.perm_ext_iff_of_nodup (nodup_of_nodup_keys he) (nodup_of_nodup_keys hf)).mpr h
    simp only [encValue, encAtom, encSorted, hp.length_eq, sortByKey_map, sortByKey_congr he hf h]
  | @seq id ts us hl h ih =>
    intro hm hm'
    simp only [encValue, encTags_eq, List.flatMap_def]
    congr 1
    apply List.ext_getElem (by simpa using hl)
    intro i h1 h2
    simp only [List.length_map] at h1 h2
    simp only [List.getElem_map, enc, (h i h1 h2).id_eq,
      ih i h1 h2 (hm.of (within_seq (by simp))) (hm'.of (within_seq (by simp)))]
  | @array id ts us hl h ih =>
    intro hm hm'
    simp only [encValue, encTags_eq, List.flatMap_def, hl]
    congr 2
    apply List.ext_getElem (by simpa using hl)
    intro i h1 h2
    simp only [List.length_map] at h1 h2
    simp only [List.getElem_map, enc, (h i h1 h2).id_eq,
      ih i h1 h2 (hm.of (within_array (by simp))) (hm'.of (within_array (by simp)))]
  | @dict id es fs hk h ih =>
    intro hm hm'
    have he : (es.map (·.1)).Nodup := hm.self
    have hf : (fs.map (·.1)).Nodup := hm'.self
    have hlen : es.length = fs.length := by
      have := ((List.perm_ext_iff_of_nodup he hf).mpr hk).length_eq
      simpa using this
    have hkm : ∀ l : List (String × Tag P), (l.map fun e => (e.1, enc e.2)).map (·.1) = l.map (·.1) := by
      intro l; simp
    have henc : ∀ k t u, (k, t) ∈ es → (k, u) ∈ fs → enc t = enc u := by
      intro k t u ht hu
      simp only [enc, (h k t u ht hu).id_eq, ih k t u ht hu (hm.of (within_dict ht)) (hm'.of (within_dict hu))]
    simp only [encValue, encSorted, encEntries_eq, hlen]
    rw [sortByKey_congr (by rw [hkm]; exact he) (by rw [hkm]; exact hf)]
    rintro ⟨k, bs⟩
    simp only [List.mem_map, Prod.mk.injEq]
    constructor
    · rintro ⟨⟨k', t⟩, ht, rfl, rfl⟩
      obtain ⟨⟨k'', u⟩, hu, rfl⟩ := List.mem_map.mp ((hk k').mp (List.mem_map.mpr ⟨_, ht, rfl⟩))
      exact ⟨_, hu, rfl, (henc _ t u ht hu).symm⟩
    · rintro ⟨⟨k', u⟩, hu, rfl, rfl⟩
      obtain ⟨⟨k'', t⟩, ht, rfl⟩ := List.mem_map.mp ((hk k').mpr (List.mem_map.mpr ⟨_, hu, rfl⟩))
      exact ⟨_, ht, rfl, henc _ t u ht hu⟩

theorem Spec.Same.enc_eq [TagPayload P] {t u : Tag P} (h : Same t u) (hm : MapsOk t) (hm' : MapsOk u) :
    enc t = enc u := by
  simp only [enc, h.id_eq, h.encValue_eq hm hm']

/-- A tag nested in one of two tags of the same content has a counterpart in the other. -/
theorem Spec.Same.within {t u v : Tag P} (h : Same t u) (hv : Within v t) : ∃ w, Within w u ∧ Same v w := by
  induction hv generalizing u with
  | refl => exact ⟨u, .refl _, h⟩
  | @seq w id ts hmem hw ih =>
    cases h with
    | @seq _ _ us hl h =>
      obtain ⟨i, hi, rfl⟩ := List.getElem_of_mem hmem
      obtain ⟨x, hx, hs⟩ := ih (h i hi (by omega))
      exact ⟨x, .seq (List.getElem_mem _) hx, hs⟩
  | @array w id ts hmem hw ih =>
    cases h with
    | @array _ _ us hl h =>
      obtain ⟨i, hi, rfl⟩ := List.getElem_of_mem hmem
      obtain ⟨x, hx, hs⟩ := ih (h i hi (by omega))
      exact ⟨x, .array (List.getElem_mem _) hx, hs⟩
  | @dict k w id es hmem hw ih =>
    cases h with
    | @dict _ _ fs hk h =>
      obtain ⟨⟨k', x⟩, hx, rfl⟩ := List.mem_map.mp ((hk k).mp (List.mem_map.mpr ⟨_, hmem, rfl⟩))
      obtain ⟨y, hy, hs⟩ := ih (h _ w x hmem hx)
      exact ⟨y, .dict hx hy, hs⟩

theorem Spec.Same.payloadsOk [TagPayload P] {t u : Tag P} (h : Same t u) (hp : PayloadsOk t) : PayloadsOk u := by
  intro id p hw
  obtain ⟨w, hw', hs⟩ := h.symm.within hw
  cases hs
  exact hp id p hw'

/-! ### Canonical order -/

mutual
/-- The same tag with every map in key order. -/
def canon : Tag P → Tag P
  | .atom (.strDict id es) => .atom (.strDict id (sortByKey es))
  | .atom a => .atom a
  | .seq id ts => .seq id (canonTags ts)
  | .array id ts => .array id (canonTags ts)
  | .dict id es => .dict id (sortByKey (canonEntries es))
def canonTags : List (Tag P) → List (Tag P)
  | [] => []
  | t :: ts => canon t :: canonTags ts
def canonEntries : List (String × Tag P) → List (String × Tag P)
  | [] => []
  | (k, t) :: es => (k, canon t) :: canonEntries es
end

theorem canonTags_eq (ts : List (Tag P)) : canonTags ts = ts.map canon := by
  induction ts with
  | nil => simp [canonTags]
  | cons t ts ih => simp [canonTags, ih]

theorem canonEntries_eq (es : List (String × Tag P)) : canonEntries es = es.map fun e => (e.1, canon e.2) := by
  induction es with
  | nil => simp [canonEntries]
  | cons e es ih => obtain ⟨k, t⟩ := e; simp [canonEntries, ih]

theorem canon_id (t : Tag P) : (canon t).id = t.id := by
  cases t with
  | atom a => cases a <;> rfl
  | _ => rfl

theorem same_canon {t : Tag P} : MapsOk t → Same t (canon t) := by
  induction t using Tag.ind with
  | atom a =>
    intro hm
    cases a <;> first | exact .atom _ | skip
    case strDict id es => exact .strDict id fun e => mem_sortByKey.symm
  | seq id ts ih =>
    intro hm
    simp only [canon, canonTags_eq]
    exact .seq id (by simp) fun i h h' => by
      simp only [List.getElem_map]
      exact ih _ (by simp) (hm.of (within_seq (by simp)))
  | array id ts ih =>
    intro hm
    simp only [canon, canonTags_eq]
    exact .array id (by simp) fun i h h' => by
      simp only [List.getElem_map]
      exact ih _ (by simp) (hm.of (within_array (by simp)))
  | dict id es ih =>
    intro hm
    simp only [canon, canonEntries_eq, sortByKey_map]
    refine .dict id (fun k => ?_) fun k t u ht hu => ?_
    · simp [mem_sortByKey]
    · simp only [List.mem_map, mem_sortByKey, Prod.mk.injEq] at hu
      obtain ⟨⟨k', t'⟩, ht', rfl, rfl⟩ := hu
      have := key_unique (show (es.map (·.1)).Nodup from hm.self) ht ht'
      subst this
      exact ih _ t ht (hm.of (within_dict ht))

theorem mapsOk_canon {t : Tag P} : MapsOk t → MapsOk (canon t) := by
  induction t using Tag.ind with
  | atom a =>
    intro hm
    cases a <;> first | exact hm | skip
    case strDict id es =>
      intro u hu
      cases hu with
      | refl => exact sortByKey_keys_nodup (show (es.map (·.1)).Nodup from hm.self)
  | seq id ts ih =>
    intro hm u hu
    simp only [canon, canonTags_eq] at hu
    cases hu with
    | refl => trivial
    | seq hv hu =>
      obtain ⟨w, hw, rfl⟩ := List.mem_map.mp hv
      exact ih w hw (hm.of (within_seq hw)) _ hu
  | array id ts ih =>
    intro hm u hu
    simp only [canon, canonTags_eq] at hu
    cases hu with
    | refl => trivial
    | array hv hu =>
      obtain ⟨w, hw, rfl⟩ := List.mem_map.mp hv
      exact ih w hw (hm.of (within_array hw)) _ hu
  | dict id es ih =>
    intro hm u hu
    simp only [canon, canonEntries_eq] at hu
    cases hu with
    | refl =>
      refine sortByKey_keys_nodup ?_
      have : ((es.map fun e => (e.1, canon e.2)).map (·.1)) = es.map (·.1) := by simp
      rw [this]
      exact hm.self
    | dict hv hu =>
      obtain ⟨⟨k, w⟩, hw, he⟩ := List.mem_map.mp (mem_sortByKey.mp hv)
      simp only [Prod.mk.injEq] at he
      obtain ⟨rfl, rfl⟩ := he
      exact ih k w hw (hm.of (within_dict hw)) _ hu

theorem enc_canon [TagPayload P] {t : Tag P} (hm : MapsOk t) : enc (canon t) = enc t :=
  ((same_canon hm).enc_eq hm (mapsOk_canon hm)).symm

/-- Tags with the same content have the same canonical form. -/
theorem Spec.Same.canon_eq {t u : Tag P} (h : Same t u) : MapsOk t → MapsOk u → canon t = canon u := by
  induction h with
  | atom a => intros; rfl
  | @strDict id es fs h =>
    intro hm hm'
    simp only [canon, sortByKey_congr (show (es.map (·.1)).Nodup from hm.self)
      (show (fs.map (·.1)).Nodup from hm'.self) h]
  | @seq id ts us hl h ih =>
    intro hm hm'
    simp only [canon, canonTags_eq]
    congr 1
    apply List.ext_getElem (by simpa using hl)
    intro i h1 h2
    simp only [List.length_map] at h1 h2
    simp only [List.getElem_map, ih i h1 h2 (hm.of (within_seq (by simp))) (hm'.of (within_seq (by simp)))]
  | @array id ts us hl h ih =>
    intro hm hm'
    simp only [canon, canonTags_eq]
    congr 1
    apply List.ext_getElem (by simpa using hl)
    intro i h1 h2
    simp only [List.length_map] at h1 h2
    simp only [List.getElem_map, ih i h1 h2 (hm.of (within_array (by simp))) (hm'.of (within_array (by simp)))]
  | @dict id es fs hk h ih =>
    intro hm hm'
    have he : (es.map (·.1)).Nodup := hm.self
    have hf : (fs.map (·.1)).Nodup := hm'.self
    have hkm : ∀ l : List (String × Tag P), (l.map fun e => (e.1, canon e.2)).map (·.1) = l.map (·.1) := by
      intro l; simp
    simp only [canon, canonEntries_eq]
    rw [sortByKey_congr (by rw [hkm]; exact he) (by rw [hkm]; exact hf)]
    rintro ⟨k, c⟩
    simp only [List.mem_map, Prod.mk.injEq]
    constructor
    · rintro ⟨⟨k', t⟩, ht, rfl, rfl⟩
      obtain ⟨⟨k'', u⟩, hu, rfl⟩ := List.mem_map.mp ((hk k').mp (List.mem_map.mpr ⟨_, ht, rfl⟩))
      exact ⟨_, hu, rfl, (ih _ t u ht hu (hm.of (within_dict ht)) (hm'.of (within_dict hu))).symm⟩
    · rintro ⟨⟨k', u⟩, hu, rfl, rfl⟩
      obtain ⟨⟨k'', t⟩, ht, rfl⟩ := List.mem_map.mp ((hk k').mpr (List.mem_map.mpr ⟨_, hu, rfl⟩))
      exact ⟨_, ht, rfl, ih _ t u ht hu (hm.of (within_dict ht)) (hm'.of (within_dict hu))⟩

/-! ### Deciding `MapsOk` for concrete tags -/

mutual
def mapsOkB : Tag P → Bool
  | .atom (.strDict _ es) => decide (es.map (·.1)).Nodup
  | .atom _ => true
  | .seq _ ts => mapsOkTagsB ts
  | .array _ ts => mapsOkTagsB ts
  | .dict _ es => decide (es.map (·.1)).Nodup && mapsOkEntriesB es
def mapsOkTagsB : List (Tag P) → Bool
  | [] => true
  | t :: ts => mapsOkB t && mapsOkTagsB ts
def mapsOkEntriesB : List (String × Tag P) → Bool
  | [] => true
  | (_, t) :: es => mapsOkB t && mapsOkEntriesB es
end

theorem mapsOkTagsB_eq (ts : List (Tag P)) : mapsOkTagsB ts = ts.all mapsOkB := by
  induction ts with
  | nil => simp [mapsOkTagsB]
  | cons t ts ih => simp [mapsOkTagsB, ih]

theorem mapsOkEntriesB_eq (es : List (String × Tag P)) : mapsOkEntriesB es = es.all fun e => mapsOkB e.2 := by
  induction es with
  | nil => simp [mapsOkEntriesB]
  | cons e es ih => obtain ⟨k, t⟩ := e; simp [mapsOkEntriesB, ih]

theorem mapsOk_of_B {t : Tag P} : mapsOkB t = true → MapsOk t := by
  induction t using Tag.ind with
  | atom a =>
    intro h u hu
    cases hu
    cases a <;> first | trivial | skip
    case strDict id es =>
      show (es.map (·.1)).Nodup
      simpa [mapsOkB] using h
  | seq id ts ih =>
    intro h u hu
    simp only [mapsOkB, mapsOkTagsB_eq, List.all_eq_true] at h
    cases hu with
    | refl => trivial
    | seq hv hu => exact ih _ hv (h _ hv) _ hu
  | array id ts ih =>
    intro h u hu
    simp only [mapsOkB, mapsOkTagsB_eq, List.all_eq_true] at h
    cases hu with
    | refl => trivial
    | array hv hu => exact ih _ hv (h _ hv) _ hu
  | dict id es ih =>
    intro h u hu
    simp only [mapsOkB, mapsOkEntriesB_eq, Bool.and_eq_true, List.all_eq_true, decide_eq_true_eq] at h
    cases hu with
    | refl => exact h.1
    | dict hv hu => exact ih _ _ hv (h.2 _ hv) _ hu

theorem payloadsOk_empty (t : Tag Empty) : PayloadsOk t := fun _ p => nomatch p

end Verif
