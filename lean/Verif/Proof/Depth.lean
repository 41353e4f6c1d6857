import Verif.Model.Depth
import Verif.Spec.Depth
import Verif.Proof.Types
import Verif.Proof.Relay
/-!
# How deep the calls nest
-/
namespace Verif
open Spec
variable {P : Type}

namespace Deep
set_option linter.unusedSectionVars false

theorem levels_pos (t : Tag P) : 1 ≤ levels t := by
  cases t <;> simp only [levels] <;> omega

theorem listLevels_le {ts : List (Tag P)} {k : Nat} : listLevels ts ≤ k ↔ ∀ t ∈ ts, levels t ≤ k := by
  induction ts with
  | nil => simp [listLevels]
  | cons t ts ih => simp only [listLevels, Nat.max_le, List.forall_mem_cons, ih]

theorem entryLevels_le {es : List (String × Tag P)} {k : Nat} : entryLevels es ≤ k ↔ ∀ e ∈ es, levels e.2 ≤ k := by
  induction es with
  | nil => simp [entryLevels]
  | cons e es ih =>
    obtain ⟨_, t⟩ := e
    simp only [entryLevels, Nat.max_le, List.forall_mem_cons, ih]

/-! ### Sizes -/

theorem sizeFromAt_ok (id v : UInt64) : sizeFromAt id (.ok v) = .ok (sizeFrom id v) := by
  unfold sizeFromAt sizeFrom
  split <;> rfl

theorem sizeFromAt_diverge (id : UInt64) : sizeFromAt id .diverge = .diverge := by
  unfold sizeFromAt
  split <;> rfl

theorem ok_bind {ε α β : Type} (a : α) (f : α → Res ε β) : ((.ok a : Res ε α) >>= f) = f a := rfl
theorem diverge_bind {ε α β : Type} (f : α → Res ε β) : ((.diverge : Res ε α) >>= f) = .diverge := rfl

variable [TagPayload P]

theorem sizeSum_at {k : Nat} (ih : ∀ t : Tag P, t.valueSizeAt k = if levels t ≤ k then .ok t.valueSize else .diverge)
    (ts : List (Tag P)) (acc : UInt64) :
    Tag.sizeSumAt (Tag.valueSizeAt k) acc ts = if listLevels ts ≤ k then .ok (Tag.sizeSum acc ts) else .diverge := by
  induction ts generalizing acc with
  | nil => simp [Tag.sizeSumAt, Tag.sizeSum, listLevels]
  | cons t ts ih' =>
    rw [Tag.sizeSumAt, ih t]
    simp only [listLevels, Nat.max_le]
    by_cases h : levels t ≤ k
    · rw [if_pos h, sizeFromAt_ok, ok_bind, ih', Tag.sizeSum]
      simp only [h, true_and]
    · rw [if_neg h, sizeFromAt_diverge, diverge_bind, if_neg (fun h' => h h'.1)]

theorem entriesSum_at {k : Nat} (ih : ∀ t : Tag P, t.valueSizeAt k = if levels t ≤ k then .ok t.valueSize else .diverge)
    (es : List (String × Tag P)) (acc : UInt64) :
    Tag.entriesSumAt (Tag.valueSizeAt k) acc es = if entryLevels es ≤ k then .ok (Tag.entriesSum acc es) else .diverge := by
  induction es generalizing acc with
  | nil => simp [Tag.entriesSumAt, Tag.entriesSum, entryLevels]
  | cons e es ih' =>
    obtain ⟨key, t⟩ := e
    rw [Tag.entriesSumAt, ih t]
    simp only [entryLevels, Nat.max_le]
    by_cases h : levels t ≤ k
    · rw [if_pos h, sizeFromAt_ok, ok_bind, ih', Tag.entriesSum]
      simp only [h, true_and]
    · rw [if_neg h, sizeFromAt_diverge, diverge_bind, if_neg (fun h' => h h'.1)]

theorem valueSize_at (k : Nat) (t : Tag P) :
    t.valueSizeAt k = if levels t ≤ k then .ok t.valueSize else .diverge := by
  induction k generalizing t with
  | zero => rw [if_neg (by have := levels_pos t; omega)]; rfl
  | succ k ih =>
    cases t with
    | atom a => rw [if_pos (by simp [levels])]; rfl
    | seq id ts =>
      have e : (levels (.seq id ts) ≤ k + 1) = (listLevels ts ≤ k) := by
        rw [levels]; apply propext; omega
      rw [Tag.valueSizeAt, sizeSum_at ih, Tag.valueSize]
      simp only [e]
    | array id ts =>
      have e : (levels (.array id ts) ≤ k + 1) = (listLevels ts ≤ k) := by
        rw [levels]; apply propext; omega
      rw [Tag.valueSizeAt, sizeSum_at ih, Tag.valueSize]
      simp only [e]
      split <;> rfl
    | dict id es =>
      have e : (levels (.dict id es) ≤ k + 1) = (entryLevels es ≤ k) := by
        rw [levels]; apply propext; omega
      rw [Tag.valueSizeAt, entriesSum_at ih, Tag.valueSize]
      simp only [e]
      split <;> rfl

theorem size_at (k : Nat) (t : Tag P) : t.sizeAt k = if levels t ≤ k then .ok t.size else .diverge := by
  rw [Tag.sizeAt, valueSize_at]
  split
  · exact sizeFromAt_ok _ _
  · exact sizeFromAt_diverge _

/-! ### Writing -/

section
variable {ω : Type} [Writer ω]

theorem serializeWith_at (id v : UInt64) (value : Act TagErr ω Unit) :
    Tag.serializeWithAt id (.ok v) value = Tag.serializeWith id v value := by
  funext w
  unfold Tag.serializeWithAt Tag.serializeWith
  split
  · rfl
  · simp only [Act.bind_apply]
    rfl

theorem serializeSeq_at {ser : Tag P → Act TagErr ω Unit} (ts : List (Tag P))
    (h : ∀ t ∈ ts, ser t = Tag.serializeWith t.id t.valueSize t.serializeValue) :
    Tag.serializeSeqAt ser ts = Tag.serializeSeq ts := by
  induction ts with
  | nil => simp only [Tag.serializeSeqAt, Tag.serializeSeq]
  | cons t ts ih =>
    rw [Tag.serializeSeqAt, Tag.serializeSeq, h t (by simp), ih fun u hu => h u (by simp [hu])]

theorem entrySerializers_at {ser : Tag P → Act TagErr ω Unit} (es : List (String × Tag P))
    (h : ∀ e ∈ es, ser e.2 = Tag.serializeWith e.2.id e.2.valueSize e.2.serializeValue) :
    Tag.entrySerializersAt ser es = Tag.entrySerializers es := by
  induction es with
  | nil => simp only [Tag.entrySerializersAt, Tag.entrySerializers]
  | cons e es ih =>
    obtain ⟨k, t⟩ := e
    rw [Tag.entrySerializersAt, Tag.entrySerializers, h (k, t) (by simp), ih fun u hu => h u (by simp [hu])]

theorem serializeValue_at {k : Nat} {t : Tag P} (h : levels t ≤ k) :
    (t.serializeValueAt k : Act TagErr ω Unit) = t.serializeValue := by
  induction k generalizing t with
  | zero => have := levels_pos t; omega
  | succ k ih =>
    have hs : ∀ u : Tag P, levels u ≤ k → (Tag.serializeWithAt u.id (u.valueSizeAt k) (u.serializeValueAt k) : Act TagErr ω Unit) =
        Tag.serializeWith u.id u.valueSize u.serializeValue := by
      intro u hu
      rw [valueSize_at, if_pos hu, serializeWith_at, ih hu]
    cases t with
    | atom a => rfl
    | seq id ts =>
      rw [levels] at h
      have := (listLevels_le (ts := ts) (k := k)).mp (by omega)
      rw [Tag.serializeValueAt, Tag.serializeValue, serializeSeq_at ts fun t ht => hs t (this t ht)]
    | array id ts =>
      rw [levels] at h
      have := (listLevels_le (ts := ts) (k := k)).mp (by omega)
      rw [Tag.serializeValueAt, Tag.serializeValue, serializeSeq_at ts fun t ht => hs t (this t ht)]
    | dict id es =>
      rw [levels] at h
      have := (entryLevels_le (es := es) (k := k)).mp (by omega)
      rw [Tag.serializeValueAt, Tag.serializeValue, entrySerializers_at es fun t ht => hs t.2 (this t ht)]

theorem serialize_at {k : Nat} {t : Tag P} (h : levels t ≤ k) : (t.serializeAt k : Act TagErr ω Unit) = t.serialize := by
  have := levels_pos t
  rw [Tag.serializeAt, if_neg (by omega), valueSize_at, if_pos h, serializeWith_at, serializeValue_at h, Tag.serialize]

/-- Never succeeds. -/
def Never (x : Act TagErr ω Unit) : Prop := ∀ w w', x w ≠ (.ok (), w')

theorem never_bind {α : Type} {x : Act TagErr ω α} {f : α → Act TagErr ω Unit} (h : ∀ a, Never (f a)) : Never (x >>= f) := by
  intro w w' hw
  obtain ⟨a, w₁, -, h2⟩ := RawTagScanner.bind_ok_inv hw
  exact h a _ _ h2

theorem never_first {x : Act TagErr ω Unit} {f : Unit → Act TagErr ω Unit} (h : Never x) : Never (x >>= f) := by
  intro w w' hw
  obtain ⟨a, w₁, h1, -⟩ := RawTagScanner.bind_ok_inv hw
  exact h _ _ h1

theorem never_with {id : UInt64} {v : Res TagErr UInt64} {value : Act TagErr ω Unit} (h : Never value) :
    Never (Tag.serializeWithAt id v value) := by
  refine never_bind fun _ => ?_
  split
  · exact h
  · exact never_bind fun _ => never_bind fun _ => h

theorem never_seq {ser : Tag P → Act TagErr ω Unit} {ts : List (Tag P)} (h : ∃ t ∈ ts, Never (ser t)) :
    Never (Tag.serializeSeqAt ser ts) := by
  induction ts with
  | nil => simp at h
  | cons t ts ih =>
    rw [Tag.serializeSeqAt]
    by_cases h1 : Never (ser t)
    · exact never_first h1
    · refine never_bind fun _ => ih ?_
      obtain ⟨u, hu, hn⟩ := h
      rcases List.mem_cons.mp hu with rfl | hu
      · exact absurd hn h1
      · exact ⟨u, hu, hn⟩

theorem never_entries {sers : List (String × Act TagErr ω Unit)} {keys : List String}
    (h : ∃ key ∈ keys, ∃ x, HMap.get key sers = some x ∧ Never x) : Never (Tag.serializeEntries sers keys) := by
  induction keys with
  | nil => simp at h
  | cons key keys ih =>
    rw [Tag.serializeEntries]
    cases hg : HMap.get key sers with
    | none => intro w w' hw; simp [Act.fail] at hw
    | some x =>
      by_cases h1 : Never x
      · exact never_bind fun _ => never_first h1
      · refine never_bind fun _ => never_bind fun _ => ih ?_
        obtain ⟨key', hk, y, hy, hn⟩ := h
        rcases List.mem_cons.mp hk with rfl | hk
        · rw [hg] at hy; cases hy; exact absurd hn h1
        · exact ⟨key', hk, y, hy, hn⟩

theorem entrySerializersAt_eq (ser : Tag P → Act TagErr ω Unit) (es : List (String × Tag P)) :
    Tag.entrySerializersAt ser es = es.map fun e => (e.1, ser e.2) := by
  induction es with
  | nil => rfl
  | cons e es ih => obtain ⟨k, t⟩ := e; rw [Tag.entrySerializersAt, ih]; rfl

theorem never_value {k : Nat} {t : Tag P} (hm : MapsOk t) (h : k < levels t) :
    Never (t.serializeValueAt k : Act TagErr ω Unit) := by
  induction k generalizing t with
  | zero => intro w w' hw; simp [Tag.serializeValueAt, Act.diverge] at hw
  | succ k ih =>
    cases t with
    | atom a => simp only [levels] at h; omega
    | seq id ts =>
      rw [levels] at h
      have : ¬ ∀ t ∈ ts, levels t ≤ k := fun h' => by have := listLevels_le.mpr h'; omega
      simp only [Classical.not_forall] at this
      obtain ⟨u, hu, hl⟩ := this
      rw [Tag.serializeValueAt]
      exact never_seq ⟨u, hu, never_with (ih (hm.of (within_seq hu)) (by omega))⟩
    | array id ts =>
      rw [levels] at h
      have : ¬ ∀ t ∈ ts, levels t ≤ k := fun h' => by have := listLevels_le.mpr h'; omega
      simp only [Classical.not_forall] at this
      obtain ⟨u, hu, hl⟩ := this
      rw [Tag.serializeValueAt]
      exact never_bind fun _ => never_seq ⟨u, hu, never_with (ih (hm.of (within_array hu)) (by omega))⟩
    | dict id es =>
      rw [levels] at h
      have : ¬ ∀ e ∈ es, levels e.2 ≤ k := fun h' => by have := entryLevels_le.mpr h'; omega
      simp only [Classical.not_forall] at this
      obtain ⟨e, he, hl⟩ := this
      rw [Tag.serializeValueAt]
      refine never_bind fun _ => never_entries ⟨e.1, ?_,
        Tag.serializeWithAt e.2.id (e.2.valueSizeAt k) (e.2.serializeValueAt k), ?_, never_with (ih (hm.of (within_dict he)) (by omega))⟩
      · rw [sortKeys_eq]; exact List.mem_map.mpr ⟨e, (sortByKey_perm es).mem_iff.mpr he, rfl⟩
      · rw [entrySerializersAt_eq]
        exact (HMap.get_map es (fun t : Tag P => Tag.serializeWithAt t.id (t.valueSizeAt k) (t.serializeValueAt k)) e.1).trans
          (by rw [HMap.get_eq_some_of_mem hm.self he]; rfl)

theorem never_serialize {k : Nat} {t : Tag P} (hm : MapsOk t) (h : k < levels t) :
    Never (t.serializeAt k : Act TagErr ω Unit) := by
  rw [Tag.serializeAt]
  split
  · intro w w' hw; simp [Act.diverge] at hw
  · exact never_with (never_value hm h)

end

/-! ### Reading -/

theorem levels_of_within {D : Tag P → Prop} {t : Tag P} {k : Nat} (hD : ∀ v, D v → levels v ≤ k)
    (h : ∀ u, Within u t → u = t ∨ ∃ v, D v ∧ Within u v) : levels t ≤ k + 1 := by
  have hw : ∀ u v : Tag P, Within u v → levels u ≤ levels v := by
    intro u v h
    induction h with
    | refl => exact Nat.le_refl _
    | seq hm _ ih => have := listLevels_le.mp (Nat.le_refl _) _ hm; rw [levels]; omega
    | array hm _ ih => have := listLevels_le.mp (Nat.le_refl _) _ hm; rw [levels]; omega
    | dict hm _ ih => have := entryLevels_le.mp (Nat.le_refl _) _ hm; rw [levels]; simp only at this; omega
  have hlt : ∀ u : Tag P, Within u t → levels u < levels t → levels u ≤ k := by
    intro u hu hl
    rcases h u hu with rfl | ⟨v, hv, hu⟩
    · omega
    · exact Nat.le_trans (hw _ _ hu) (hD v hv)
  cases t with
  | atom a => simp [levels]
  | seq id ts =>
    rw [levels]
    have : listLevels ts ≤ k := listLevels_le.mpr fun u hu => by
      refine hlt u (within_seq hu) ?_
      have := listLevels_le.mp (Nat.le_refl _) _ hu; rw [levels]; omega
    omega
  | array id ts =>
    rw [levels]
    have : listLevels ts ≤ k := listLevels_le.mpr fun u hu => by
      refine hlt u (within_array hu) ?_
      have := listLevels_le.mp (Nat.le_refl _) _ hu; rw [levels]; omega
    omega
  | dict id es =>
    rw [levels]
    have : entryLevels es ≤ k := entryLevels_le.mpr fun e he => by
      refine hlt e.2 (within_dict he) ?_
      have := entryLevels_le.mp (Nat.le_refl _) _ he; rw [levels]; omega
    omega

theorem gives_levels [Env] (e : Engine P) (k : Nat) : Gives (fun t => levels t ≤ k) (Factory.deserializeFuel e k) := by
  induction k with
  | zero => intro σ _ s s' t h; simp [Factory.deserializeFuel, Act.diverge] at h
  | succ k ih =>
    intro σ _ s s' t h
    rw [Factory.deserializeFuel] at h
    obtain ⟨id, s₁, -, h⟩ := RawTagScanner.bind_ok_inv h
    obtain ⟨size, s₂, -, h⟩ := RawTagScanner.bind_ok_inv h
    obtain ⟨tag, s₃, h3, h⟩ := RawTagScanner.bind_ok_inv h
    cases tag with
    | none => simp [Act.fail] at h
    | some t₀ =>
      simp only at h
      rcases hv : Factory.deserializeTagValueInto (Factory.deserializeFuel e k) size (t₀, s₃) with ⟨r, t₁, s₄⟩
      rw [hv] at h
      cases r with
      | ok a =>
        simp only [Res.map, Prod.mk.injEq, Res.ok.injEq] at h
        obtain ⟨rfl, rfl⟩ := h
        exact levels_of_within (fun v hv => hv) (ih.inside size t₀ t₁ s₃ s₄ hv)
      | _ => simp [Res.map] at h

/-! ### Forms -/

/-- The value bytes that `serialize` writes are a value form too, with the forms of the tags inside that `serialize` gives
them. -/
theorem value_form {L L' : Tag P → Bytes → Prop} (t : Tag P) (v : Bytes) (h : ValueForm (fun _ => Latest) L t v)
    (hi : ∀ u x, levels u < levels t → Within u t → L u x → L' u (enc u)) :
    ValueForm (fun _ => Latest) L' t (encValue t) := by
  letI : Env := Props.bigEnv
  cases t with
  | atom a => exact Relay.atom h
  | seq id ts =>
    rw [encValue, encTags_eq]
    refine Relay.listed_enc ts fun u hu => ?_
    obtain ⟨y, hy⟩ := Relay.listed_mem h u hu
    exact hi u y (by have := listLevels_le.mp (Nat.le_refl _) _ hu; rw [levels]; omega) (within_seq hu) hy
  | array id ts =>
    obtain ⟨c, x, rfl, hc, h⟩ := h
    rw [encValue, encTags_eq]
    refine ⟨_, _, rfl, ILInt.isILInt_ilint hc.1, Relay.listed_enc ts fun u hu => ?_⟩
    obtain ⟨y, hy⟩ := Relay.listed_mem h u hu
    exact hi u y (by have := listLevels_le.mp (Nat.le_refl _) _ hu; rw [levels]; omega) (within_array hu) hy
  | dict id es =>
    obtain ⟨ws, ⟨c, x, rfl, h1, h2⟩, h3⟩ := h
    have hsub : ∀ e ∈ es, e ∈ ws := fun e he => by
      obtain ⟨l, r, rfl, -⟩ := (h3.2 e.1 e.2).mp he
      simp
    obtain ⟨rest, hr⟩ := Snug.split_subset (nodup_of_nodup_keys h3.1) hsub
    have hl := hr.length_eq
    rw [List.length_append] at hl
    have h64 := h1.1
    rw [encValue, encSorted_tags]
    refine ⟨sortByKey es, ⟨_, _, rfl, ?_, ?_⟩, Relay.latest_sorted h3.1⟩
    · rw [(sortByKey_perm es).length_eq]; exact ILInt.isILInt_ilint (by omega)
    · refine Relay.listed_enc (f := fun e : String × Tag P => Spec.stringTag e.1 ++ enc e.2) _ fun e he => ?_
      have he := (sortByKey_perm es).mem_iff.mp he
      obtain ⟨y, a, b, rfl, h4, h5⟩ := Relay.listed_mem h2 e (hsub e he)
      refine ⟨_, _, rfl, Relay.string h4, hi e.2 b ?_ (within_dict he) h5⟩
      have := entryLevels_le.mp (Nat.le_refl _) _ he; rw [levels]; omega

/-- What `serialize` writes for a tag that can be read has no more levels than the tag. -/
theorem enc_formAt {strict : Bool} (n k : Nat) (t : Tag P) (x : Bytes) (hn : levels t ≤ n)
    (h : FormAt (fun _ => Latest) strict k t x) (hv : ∀ u, Within u t → (encValue u).length ≤ maxValue) :
    FormAt (fun _ => Latest) strict n t (enc t) := by
  induction n generalizing k t x with
  | zero => have := levels_pos t; omega
  | succ n ih =>
    cases k with
    | zero => exact h.elim
    | succ k =>
      obtain ⟨h1, hd, v, h2, h3, h4, h5⟩ := h
      refine ⟨h1, Spec.ilint t.id.toNat, encValue t, ILInt.isILInt_ilint h2.1, ?_, hv t (.refl _), ?_⟩
      · exact value_form t v h3 fun u y hl hu hy => ih k u y (by omega) hy fun w hw => hv w (hw.trans hu)
      · have h9 : maxValue = 536870912 := rfl
        have := hv t (.refl _)
        rcases h5 with ⟨h5, -⟩ | ⟨h5, -⟩
        · exact .inl ⟨h5, by unfold enc wrap; rw [if_pos h5]; simp⟩
        · exact .inr ⟨h5, _, ILInt.isILInt_ilint (by omega), by unfold enc wrap; rw [if_neg (by omega)]⟩

theorem same_levels {t u : Tag P} (h : Same t u) : levels t ≤ levels u := by
  induction h with
  | atom a => exact Nat.le_refl _
  | strDict id _ => exact Nat.le_refl _
  | seq id hl _ ih =>
    have : listLevels _ ≤ listLevels _ := listLevels_le.mpr fun t ht => by
      obtain ⟨i, hi, rfl⟩ := List.getElem_of_mem ht
      exact Nat.le_trans (ih i hi (by omega)) (listLevels_le.mp (Nat.le_refl _) _ (List.getElem_mem (by omega)))
    simp only [levels]; omega
  | array id hl _ ih =>
    have : listLevels _ ≤ listLevels _ := listLevels_le.mpr fun t ht => by
      obtain ⟨i, hi, rfl⟩ := List.getElem_of_mem ht
      exact Nat.le_trans (ih i hi (by omega)) (listLevels_le.mp (Nat.le_refl _) _ (List.getElem_mem (by omega)))
    simp only [levels]; omega
  | dict id hk _ ih =>
    have : entryLevels _ ≤ entryLevels _ := entryLevels_le.mpr fun e he => by
      obtain ⟨f, hf, hfe⟩ := List.mem_map.mp ((hk e.1).mp (List.mem_map.mpr ⟨e, he, rfl⟩))
      exact Nat.le_trans (ih e.1 e.2 f.2 he (by rw [← hfe]; exact hf)) (entryLevels_le.mp (Nat.le_refl _) _ hf)
    simp only [levels]; omega

end Deep
end Verif
