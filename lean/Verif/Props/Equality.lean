import Verif.Props.Normal
import Verif.Spec.Clone
import Verif.Model.Util
/-!
# C53, C54: `iltag_are_equal`, `iltag_clone` and `iltag_clone_with_factory`
-/
namespace Verif.Props
open Verif Verif.Spec
variable {P : Type}
set_option linter.unusedSectionVars false

/-! ### C53 -/

section
variable [TagPayload P] [Env]

theorem equal_iff (a b : Tag P) :
    tagsAreEqual a b = .ok true ↔ ∃ bs, a.toBytes = .ok bs ∧ b.toBytes = .ok bs := by
  unfold tagsAreEqual
  cases ha : a.toBytes with
  | ok sa =>
    cases hb : b.toBytes with
    | ok sb => simp only [Res.ok.injEq, beq_iff_eq, exists_eq_left']; exact eq_comm
    | _ => simp
  | _ => simp

/-- **C53** A tag is equal to itself exactly when it can be serialized. -/
theorem C53_refl (a : Tag P) : tagsAreEqual a a = .ok true ↔ ∃ bs, a.toBytes = .ok bs := by
  rw [equal_iff]; simp

/-- **C53** Symmetric. -/
theorem C53_symm (a b : Tag P) (h : tagsAreEqual a b = .ok true) : tagsAreEqual b a = .ok true := by
  rw [equal_iff] at h ⊢
  obtain ⟨bs, h1, h2⟩ := h
  exact ⟨bs, h2, h1⟩

/-- **C53** Transitive. -/
theorem C53_trans (a b c : Tag P) (h : tagsAreEqual a b = .ok true) (h' : tagsAreEqual b c = .ok true) :
    tagsAreEqual a c = .ok true := by
  rw [equal_iff] at h h' ⊢
  obtain ⟨bs, h1, h2⟩ := h
  obtain ⟨bs', h3, h4⟩ := h'
  rw [h2, Res.ok.injEq] at h3
  subst h3
  exact ⟨bs, h1, h4⟩

/-- **C53** On tags a factory supports: an answer is always given, and it is `true` exactly when type, id and content
are the same at every level. -/
theorem C53_content (hr : MemoryOk) (e : Engine P) (a b : Tag P) (ha : MapsOk a ∧ PayloadsOk a ∧ Supported e a)
    (hb : MapsOk b ∧ PayloadsOk b ∧ Supported e b) :
    (tagsAreEqual a b = .ok true ↔ Same a b) ∧ (tagsAreEqual a b = .ok false ↔ ¬ Same a b) := by
  have h1 := toBytes_eq_enc hr ha.1 ha.2.1 ha.2.2
  have h2 := toBytes_eq_enc hr hb.1 hb.2.1 hb.2.2
  have h : tagsAreEqual a b = .ok true ↔ Same a b := by
    rw [equal_iff]
    constructor
    · rintro ⟨bs, h3, h4⟩
      exact C32_injective hr e a b ha hb (by rw [h3, h4])
    · intro hs
      exact ⟨enc a, h1, by rw [h2, hs.enc_eq ha.1 hb.1]⟩
  refine ⟨h, ?_⟩
  rw [← h]
  unfold tagsAreEqual
  rw [h1, h2]
  simp

/-- **C53** In general, for any tags that can be serialized, equality is equality of the bytes: the types may differ. -/
theorem C53_bytes (a b : Tag P) {x y : Bytes} (hx : a.toBytes = .ok x) (hy : b.toBytes = .ok y) :
    tagsAreEqual a b = .ok (decide (x = y)) := by
  unfold tagsAreEqual
  rw [hx, hy]
  simp only [Res.ok.injEq]
  rcases Decidable.em (x = y) with h | h <;> simp [h]

end

section examples
attribute [local instance] bigEnv

example : tagsAreEqual sample sample' = .ok true := by
  rw [(C53_content bigEnv_ok sampleEngine sample sample' ⟨sample_maps, sample_payloads _, sample_supported⟩
    ⟨mapsOk_of_B (by decide +kernel), sample_payloads _, supported_of_B (by decide +kernel)⟩).1]
  exact C32_injective bigEnv_ok sampleEngine sample sample' ⟨sample_maps, sample_payloads _, sample_supported⟩
    ⟨mapsOk_of_B (by decide +kernel), sample_payloads _, supported_of_B (by decide +kernel)⟩ (by decide +kernel)

example : tagsAreEqual (.atom (.uint8 3 5) : Tag Empty) (.atom (.uint8 3 6)) = .ok false := by decide +kernel

/-- Different types, same bytes. -/
example : tagsAreEqual (.atom (.raw 1000 [5]) : Tag Empty) (.atom (.ilint 1000 5)) = .ok true := by decide +kernel

/-- A payload that refuses to be written. -/
structure Refusing where

instance : TagPayload Refusing where
  serializedSize _ := 0
  serialize _ := ([], .err .corruptedData)
  deserialize p _ := .done (.ok ()) p

/-- **C53** For a tag that cannot be serialized equality is not reflexive (as documented in the code). -/
theorem C53_not_reflexive : tagsAreEqual (.atom (.payload 1000 ⟨⟩) : Tag Refusing) (.atom (.payload 1000 ⟨⟩)) = .ok false := by
  decide +kernel

end examples

/-! ### C54 -/

section
variable [TagPayload P] [Env]

/-- **C54** Every tag a factory supports is cloned by it: same type, id and content, and equal to the original. -/
theorem C54_supported (hr : MemoryOk) (e : Engine P) (t : Tag P) (hm : MapsOk t) (hp : PayloadsOk t)
    (hs : Supported e t) : ∃ c, tagCloneWithFactory e t = .ok c ∧ Same t c ∧ tagsAreEqual t c = .ok true := by
  obtain ⟨bs, c, h1, h2, h3⟩ := C30_round_trip hr e t hm hp hs
  refine ⟨c, ?_, h3, ?_⟩
  · unfold tagCloneWithFactory; rw [h1]; exact h2
  · have hb := toBytes_eq_enc hr hm hp hs
    rw [hb, Res.ok.injEq] at h1
    subst h1
    rw [fromBytes_ok_iff] at h2
    have := top_enc hr e t hm hs []
    rw [List.append_nil, h2, PRes.ok.injEq] at this
    obtain ⟨rfl, -⟩ := this
    rw [equal_iff]
    have hl := enc_length_le hs
    refine ⟨enc t, hb, ?_⟩
    have h29 := C29_to_bytes (canon t) (mapsOk_canon hm) (h3.payloadsOk hp) (by rw [enc_canon hm]; have : maxValue = 536870912 := rfl; omega)
      (by rw [enc_canon hm]; unfold MemoryOk at hr; have : maxValue = 536870912 := rfl; omega)
    rw [h29]
    exact congrArg Res.ok (enc_canon hm)

theorem flatMap_congr' {α : Type} {l : List α} {f g : α → Bytes} (h : ∀ x ∈ l, f x = g x) : l.flatMap f = l.flatMap g := by
  induction l with
  | nil => rfl
  | cons x l ih => simp only [List.flatMap_cons, h x (by simp), ih fun y hy => h y (by simp [hy])]

theorem asRawTags_eq (ts : List (Tag P)) : asRawTags ts = ts.map asRaw := by
  induction ts with
  | nil => simp [asRawTags]
  | cons t ts ih => simp [asRawTags, ih]

theorem asRawEntries_eq (es : List (String × Tag P)) : asRawEntries es = es.map fun e => (e.1, asRaw e.2) := by
  induction es with
  | nil => simp [asRawEntries]
  | cons e es ih => obtain ⟨k, t⟩ := e; simp [asRawEntries, ih]

theorem asRaw_id (t : Tag P) : (asRaw t).id = t.id := by
  cases t <;> simp only [asRaw] <;> split <;> rfl

/-- Same bytes. -/
theorem asRaw_encValue (t : Tag P) : encValue (asRaw t) = encValue t := by
  have key : ∀ t : Tag P, encValue (asRaw t) = encValue t → enc (asRaw t) = enc t := by
    intro t h; unfold enc; rw [h, asRaw_id]
  induction t using Tag.ind with
  | atom a => simp only [asRaw]; split <;> rfl
  | seq id ts ih =>
    simp only [asRaw]
    split
    · simp only [encValue, asRawTags_eq, encTags_eq, List.flatMap_map]
      exact flatMap_congr' fun t ht => key t (ih t ht)
    · rfl
  | array id ts ih =>
    simp only [asRaw]
    split
    · simp only [encValue, asRawTags_eq, encTags_eq, List.flatMap_map, List.length_map]
      congr 1
      exact flatMap_congr' fun t ht => key t (ih t ht)
    · rfl
  | dict id es ih =>
    simp only [asRaw]
    split
    · simp only [encValue, asRawEntries_eq, encEntries_eq, List.map_map, List.length_map]
      congr 2
      refine List.map_congr_left fun e he => ?_
      simp only [Function.comp_apply, key e.2 (ih e.1 e.2 he)]
    · rfl

theorem asRaw_enc (t : Tag P) : enc (asRaw t) = enc t := by unfold enc; rw [asRaw_encValue, asRaw_id]

theorem asRaw_kind (t : Tag P) : (asRaw t).kind = if Standard t then t.kind else .raw := by
  cases t <;> simp only [asRaw] <;> split <;> rfl

/-- What is inside `asRaw t` is what is visible in `t`. -/
theorem within_asRaw {t u : Tag P} (h : Within u (asRaw t)) : ∃ v, Visible v t ∧ u = asRaw v := by
  induction t using Tag.ind with
  | atom a => 
    refine ⟨.atom a, .refl _, ?_⟩
    revert h
    simp only [asRaw]
    split <;> (intro h; cases h; rfl)
  | seq id ts ih =>
    by_cases hs : Standard (.seq id ts)
    · have he : asRaw (.seq id ts) = .seq id (ts.map asRaw) := by simp only [asRaw, if_pos hs, asRawTags_eq]
      rw [he] at h
      cases h with
      | refl => exact ⟨_, .refl _, he.symm⟩
      | seq hm hw =>
        obtain ⟨w, hw', rfl⟩ := List.mem_map.mp hm
        obtain ⟨v, hv, e⟩ := ih w hw' hw
        exact ⟨v, .seq hs hw' hv, e⟩
    · have he : asRaw (.seq id ts) = .atom (.raw id (encValue (.seq id ts))) := by simp only [asRaw, if_neg hs]
      rw [he] at h
      cases h
      exact ⟨_, .refl _, he.symm⟩
  | array id ts ih =>
    by_cases hs : Standard (.array id ts)
    · have he : asRaw (.array id ts) = .array id (ts.map asRaw) := by simp only [asRaw, if_pos hs, asRawTags_eq]
      rw [he] at h
      cases h with
      | refl => exact ⟨_, .refl _, he.symm⟩
      | array hm hw =>
        obtain ⟨w, hw', rfl⟩ := List.mem_map.mp hm
        obtain ⟨v, hv, e⟩ := ih w hw' hw
        exact ⟨v, .array hs hw' hv, e⟩
    · have he : asRaw (.array id ts) = .atom (.raw id (encValue (.array id ts))) := by simp only [asRaw, if_neg hs]
      rw [he] at h
      cases h
      exact ⟨_, .refl _, he.symm⟩
  | dict id es ih =>
    by_cases hs : Standard (.dict id es)
    · have he : asRaw (.dict id es) = .dict id (es.map fun e => (e.1, asRaw e.2)) := by
        simp only [asRaw, if_pos hs, asRawEntries_eq]
      rw [he] at h
      cases h with
      | refl => exact ⟨_, .refl _, he.symm⟩
      | dict hm hw =>
        obtain ⟨⟨k, w⟩, hw', hkw⟩ := List.mem_map.mp hm
        simp only [Prod.mk.injEq] at hkw
        obtain ⟨rfl, rfl⟩ := hkw
        obtain ⟨v, hv, e⟩ := ih k w hw' hw
        exact ⟨v, .dict hs hw' hv, e⟩
    · have he : asRaw (.dict id es) = .atom (.raw id (encValue (.dict id es))) := by simp only [asRaw, if_neg hs]
      rw [he] at h
      cases h
      exact ⟨_, .refl _, he.symm⟩

theorem visible_within {u t : Tag P} (h : Visible u t) : Within u t := by
  induction h with
  | refl => exact .refl _
  | seq _ hm _ ih => exact .seq hm ih
  | array _ hm _ ih => exact .array hm ih
  | dict _ hm _ ih => exact .dict hm ih

theorem asRaw_mapOk {t : Tag P} (h : MapOk t) : MapOk (asRaw t) := by
  cases t with
  | atom a => simp only [asRaw]; split; · exact h
              · trivial
  | seq id ts => simp only [asRaw]; split <;> trivial
  | array id ts => simp only [asRaw]; split <;> trivial
  | dict id es =>
    simp only [asRaw]
    split
    · simp only [MapOk, asRawEntries_eq, List.map_map]; exact h
    · trivial

/-- **C54** `iltag_clone` of a tag in which everything that is visible is a standard type under its standard id or has
an explicit id that is not standard, whatever its type (custom payloads, standard types under other ids) and whatever
it contains: the clone is the tag with the latter replaced by raw tags with the same bytes, and
`iltag_are_equal` holds between the two. -/
theorem C54_custom (hr : MemoryOk) (t : Tag P) (hm : MapsOk t) (hp : PayloadsOk t)
    (h : ∀ u, Visible u t → (Standard u ∨ CustomId u.id) ∧ (encValue u).length ≤ maxValue) :
    ∃ c, tagClone t = .ok c ∧ Same (asRaw t) c ∧ tagsAreEqual t c = .ok true := by
  have hm' : MapsOk (asRaw t) := by
    intro u hu
    obtain ⟨v, hv, rfl⟩ := within_asRaw hu
    exact asRaw_mapOk (hm v (visible_within hv))
  have hstd : ∀ u, Within u (asRaw t) → StdTag false u ∧ (encValue u).length ≤ maxValue := by
    intro u hu
    obtain ⟨v, hv, rfl⟩ := within_asRaw hu
    obtain ⟨h1, h2⟩ := h v hv
    refine ⟨?_, by rw [asRaw_encValue]; exact h2⟩
    unfold StdTag
    rw [asRaw_kind, asRaw_id]
    by_cases hs : Standard v
    · rw [if_pos hs]; exact .inl hs
    · rw [if_neg hs]
      rcases h1 with h1 | h1
      · exact absurd h1 hs
      · exact .inr ⟨rfl, rfl, h1.1, h1.2⟩
  have hp' : PayloadsOk (asRaw t) := by
    intro id p hu
    rcases (hstd _ hu).1 with h | ⟨-, h, -⟩
    · simp [Tag.kind, Atom.kind, standardId] at h
    · simp [Tag.kind, Atom.kind] at h
  obtain ⟨c, h1, h2, h3⟩ := C54_supported hr (Engine.std false) (asRaw t) hm' hp' (std_supported hstd)
  have hb' := toBytes_eq_enc hr hm' hp' (std_supported hstd)
  have hl := enc_length_le (std_supported hstd)
  rw [asRaw_enc] at hb' hl
  have hb : t.toBytes = .ok (enc t) := by
    refine C29_to_bytes t hm hp ?_ ?_
    · have : maxValue = 536870912 := rfl; omega
    · unfold MemoryOk at hr; have : maxValue = 536870912 := rfl; omega
  refine ⟨c, ?_, h2, ?_⟩
  · unfold tagClone tagCloneWithFactory
    unfold tagCloneWithFactory at h1
    rw [hb'] at h1
    rw [hb]
    exact h1
  · rw [equal_iff] at h3 ⊢
    rw [hb'] at h3
    rw [hb]
    exact h3

/-- **C54** Only the bytes matter: tags that are equal have the same clone. -/
theorem C54_same_clone (e : Engine P) (a b : Tag P) (h : tagsAreEqual a b = .ok true) :
    tagCloneWithFactory e a = tagCloneWithFactory e b := by
  rw [equal_iff] at h
  obtain ⟨bs, h1, h2⟩ := h
  unfold tagCloneWithFactory
  rw [h1, h2]

/-- **C54** Whatever the tag: if `iltag_clone` succeeds, cloning the clone succeeds with the same types, ids and content,
equal to the clone. -/
theorem C54_clone_of_clone (hr : MemoryOk) (t c : Tag P) (h : tagClone t = .ok c) :
    ∃ c', tagClone c = .ok c' ∧ Same c c' ∧ tagsAreEqual c c' = .ok true := by
  unfold tagClone tagCloneWithFactory at h
  cases hb : t.toBytes with
  | ok bs =>
    rw [hb] at h
    obtain ⟨bs', c', h1, -, h3, h4, h5⟩ := C35_normalise hr false bs c h
    refine ⟨c', ?_, h4, ?_⟩
    · unfold tagClone tagCloneWithFactory; rw [h1]; exact h3
    · rw [equal_iff]; exact ⟨bs', h1, h5⟩
  | _ => rw [hb] at h; cases h

end

section examples
attribute [local instance] bigEnv

example : ∃ c, tagCloneWithFactory sampleEngine sample = .ok c ∧ Same sample c ∧ tagsAreEqual sample c = .ok true :=
  C54_supported bigEnv_ok sampleEngine sample sample_maps (sample_payloads _) sample_supported

/-- A sequence with a custom tag holding an id that the standard factory could not read by itself. -/
def customSample : Tag Empty :=
  .seq 22 [.atom (.uint8 3 7), .seq 1000 [.atom (.null 15)], .atom (.ilint 300 5)]

example : ∃ c, tagClone customSample = .ok c ∧ Same (asRaw customSample) c ∧ tagsAreEqual customSample c = .ok true := by
  refine C54_custom bigEnv_ok customSample (mapsOk_of_B (by decide +kernel)) (sample_payloads _) ?_
  have hc : ∀ id : UInt64, (16 ≤ id.toNat ∧ ∀ k ∈ standardKinds, standardId k ≠ some id.toNat) → CustomId id := by
    intro id h
    refine ⟨h.1, fun k hk => h.2 k ?_ hk⟩
    exact (C45_standard_ids.2.1 k).mpr (by rw [hk]; rfl)
  intro u hu
  unfold customSample at hu
  cases hu with
  | refl => exact ⟨.inl (by decide), by decide +kernel⟩
  | seq _ hm hu =>
    simp only [List.mem_cons, List.not_mem_nil, or_false] at hm
    rcases hm with rfl | rfl | rfl
    · cases hu; exact ⟨.inl (by decide), by decide +kernel⟩
    · cases hu with
      | refl => exact ⟨.inr (hc _ (by decide)), by decide +kernel⟩
      | seq hs _ _ => exact absurd hs (by decide)
    · cases hu; exact ⟨.inr (hc _ (by decide)), by decide +kernel⟩

/-- A standard type under the implicit id of another type: the clone is equal, but of another type. -/
example : (match tagClone (.atom (.int8 3 (-1)) : Tag Empty) with
    | .ok (.atom (.uint8 3 255)) => true
    | _ => false) = true := by
  unfold tagClone tagCloneWithFactory Factory.fromBytes
  rw [deserialize_eq]
  decide +kernel

end examples
end Verif.Props
