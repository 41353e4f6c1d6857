import Verif.Proof.FromBytes
/-!
# The standard engine
-/
namespace Verif
open Spec
variable {P : Type}

/-- The type registered for an id. -/
def stdKind (id : UInt64) : Option Kind := standardKinds.find? fun k => standardId k == some id.toNat

theorem std_kinds (strict : Bool) : (Engine.std strict : Engine P).creators =
    standardKinds.map fun k => (UInt64.ofNat ((standardId k).getD 0), defaultCreatorOf k) := by
  simp [Engine.std, Engine.registerDefault, Engine.register, Engine.new, HMap.insert, standardKinds, standardId,
    Id.null, Id.bool, Id.int8, Id.uint8, Id.int16, Id.uint16, Id.int32, Id.uint32, Id.int64, Id.uint64, Id.ilint, Id.bin32, Id.bin64, Id.bin128, Id.signedILInt, Id.bytes, Id.string, Id.bigInt, Id.bigDec, Id.ilintArray, Id.tagArray, Id.tagSeq, Id.range, Id.version, Id.oid, Id.dict, Id.strDict]

theorem std_strict (strict : Bool) : (Engine.std strict : Engine P).strict = strict := rfl

theorem get_kinds (ks : List Kind) (hk : ∀ k ∈ ks, ∃ n, standardId k = some n ∧ n < 32) (id : UInt64) :
    HMap.get id (ks.map fun k => (UInt64.ofNat ((standardId k).getD 0), (defaultCreatorOf k : Creator P))) =
      (ks.find? fun k => standardId k == some id.toNat).map defaultCreatorOf := by
  induction ks with
  | nil => rfl
  | cons k ks ih =>
    obtain ⟨n, hn, hlt⟩ := hk k (by simp)
    simp only [List.map_cons, HMap.get, List.find?_cons, hn, Option.getD_some]
    by_cases h : UInt64.ofNat n = id
    · subst h
      rw [if_pos rfl, show (some n == some (UInt64.ofNat n).toNat) = true from by
        simp; omega]
      rfl
    · rw [if_neg h, show (some n == some id.toNat) = false from by
        simp only [beq_eq_false_iff_ne, ne_eq, Option.some.injEq]
        rintro rfl
        exact h (by simp)]
      exact ih fun k hk' => hk k (by simp [hk'])

theorem std_get (strict : Bool) (id : UInt64) :
    HMap.get id (Engine.std strict : Engine P).creators = (stdKind id).map defaultCreatorOf := by
  rw [std_kinds, get_kinds]
  · rfl
  · intro k hk
    cases k <;> first | exact ⟨_, rfl, by decide⟩ | (exact absurd hk (by decide))

theorem stdKind_some {id : UInt64} {k : Kind} : stdKind id = some k ↔ standardId k = some id.toNat := by
  constructor
  · intro h
    simpa using List.find?_some h
  · intro h
    unfold stdKind
    have hmem : k ∈ standardKinds := by cases k <;> first | decide | simp [standardId] at h
    cases hf : standardKinds.find? fun k => standardId k == some id.toNat with
    | none => have := List.find?_eq_none.mp hf k hmem; simp [h] at this
    | some k' =>
      have h' : standardId k' = some id.toNat := by simpa using List.find?_some hf
      rw [← h'] at h
      revert h
      have : ∀ k k' : Kind, standardId k' ≠ none → standardId k = standardId k' → k' = k := by
        intro k k' hn h
        cases k' <;> cases k <;> first | rfl | (simp [standardId] at h; done) | (simp [standardId] at hn; done)
      intro h
      rw [this k k' (by rw [h']; simp) h]

theorem stdKind_none {id : UInt64} : stdKind id = none ↔ ∀ k, standardId k ≠ some id.toNat := by
  constructor
  · intro h k hk
    rw [stdKind_some.mpr hk] at h; simp at h
  · intro h
    cases hs : stdKind id with
    | none => rfl
    | some k => exact absurd (stdKind_some.mp hs) (h k)

/-- A standard id gives a tag of its type with that id, holding no payload. -/
theorem std_create {strict : Bool} {id : UInt64} {k : Kind} (h : standardId k = some id.toNat) :
    ∃ t₀ : Tag P, (Engine.std strict).createTag id = .ok (some t₀) ∧ t₀.kind = k ∧ t₀.id = id := by
  have hid : id = UInt64.ofNat ((standardId k).getD 0) := by rw [h]; simp
  have hg : HMap.get id (Engine.std strict : Engine P).creators = some (defaultCreatorOf k) := by
    rw [std_get, stdKind_some.mpr h]; rfl
  unfold Engine.createTag
  rw [hg]
  subst hid
  cases k <;> first | (simp [standardId] at h; done) | exact ⟨_, rfl, rfl, rfl⟩

theorem std_unknown {strict : Bool} {id : UInt64} (h : ∀ k, standardId k ≠ some id.toNat) :
    (Engine.std strict : Engine P).createTag id =
      if strict = false ∧ 16 ≤ id.toNat then .ok (some (.atom (.raw id []))) else .ok none := by
  have hg : HMap.get id (Engine.std strict : Engine P).creators = none := by
    rw [std_get, stdKind_none.mpr h]; rfl
  unfold Engine.createTag
  rw [hg, std_strict]
  rcases Bool.eq_false_or_eq_true (isImplicitTag id) with hi | hi
  · have := isImplicitTag_iff.mp hi
    simp [hi]; omega
  · have : ¬ id.toNat ≤ 15 := fun hc => by rw [isImplicitTag_iff.mpr hc] at hi; simp at hi
    cases strict
    · rw [if_pos (And.intro rfl (by omega))]
      simp [hi, newRaw, Res.map]
    · rw [if_neg (by simp)]
      simp

theorem std_calm [TagPayload P] (strict : Bool) : CalmCreators (Engine.std strict : Engine P) := by
  intro id
  cases hk : stdKind id with
  | some k =>
    have hs := stdKind_some.mp hk
    obtain ⟨t₀, h, h', -⟩ := std_create (P := P) (strict := strict) hs
    rw [h]
    refine ⟨by simp, by simp, ?_⟩
    intro t ht
    simp only [Res.ok.injEq, Option.some.injEq] at ht
    subst ht
    refine calmTag_other ?_
    rintro _ _ rfl
    rw [← h'] at hs
    simp [Tag.kind, Atom.kind, standardId] at hs
  | none =>
    rw [std_unknown (stdKind_none.mp hk)]
    split
    · refine ⟨by simp, by simp, ?_⟩
      intro t ht
      simp only [Res.ok.injEq, Option.some.injEq] at ht
      subst ht
      exact calmTag_other fun _ _ h => by simp at h
    · simp

section
variable [TagPayload P] [Env]

omit [Env] in
/-- The value of a standard implicit tag has the size of the table. -/
theorem std_sized {u : Tag P} (h : standardId u.kind = some u.id.toNat) (hi : u.id.toNat ≤ 15) :
    (encValue u).length = implicitLen u.id.toNat ∨ (u.id = 10 ∨ u.id = 14) ∧ oneILInt u.kind := by
  have hid : u.id = UInt64.ofNat ((standardId u.kind).getD 0) := by rw [h]; simp
  cases u with
  | atom a =>
    cases a <;> simp only [Tag.kind, Atom.kind, standardId, Option.getD_some, Option.some.injEq] at h hid <;>
      first | (omega) | skip
    all_goals first | (simp at h; done) | rw [← h]
    all_goals first
      | (right; exact ⟨.inl hid, trivial⟩)
      | (right; exact ⟨.inr hid, trivial⟩)
      | (left; simp [encValue, encAtom, implicitLen]; done)
      | (left; next v => exact v.2)
      | (simp at h; done)
  | _ => simp only [Tag.kind, standardId, Option.some.injEq] at h; omega

/-- Tags made of standard tags are supported by the standard factory. -/
theorem std_supported {strict : Bool} {t : Tag P} (h : ∀ u, Within u t → StdTag strict u ∧ (encValue u).length ≤ maxValue) :
    Supported (Engine.std strict) t := by
  intro u hu
  obtain ⟨hstd, hfits⟩ := h u hu
  rcases hstd with hstd | ⟨rfl, hraw, hid, hn⟩
  · obtain ⟨t₀, h1, h2, h3⟩ := std_create (P := P) (strict := strict) hstd
    refine ⟨⟨t₀, h1, h2, h3, ?_⟩, hfits, std_sized hstd⟩
    rintro _ _ _ _ _ rfl
    simp [Tag.kind, Atom.kind, standardId] at hstd
  · refine ⟨⟨.atom (.raw u.id []), ?_, ?_, rfl, ?_⟩, hfits, fun hi => by omega⟩
    · rw [std_unknown hn, if_pos ⟨rfl, hid⟩]
    · rw [hraw]; rfl
    · rintro _ _ _ _ h; simp at h

end

/-! ### Checking concrete tags -/

mutual
/-- All tags within a tag. -/
def nested : Tag P → List (Tag P)
  | .atom a => [.atom a]
  | .seq id ts => .seq id ts :: nestedTags ts
  | .array id ts => .array id ts :: nestedTags ts
  | .dict id es => .dict id es :: nestedEntries es
def nestedTags : List (Tag P) → List (Tag P)
  | [] => []
  | t :: ts => nested t ++ nestedTags ts
def nestedEntries : List (String × Tag P) → List (Tag P)
  | [] => []
  | (_, t) :: es => nested t ++ nestedEntries es
end

theorem nestedTags_eq (ts : List (Tag P)) : nestedTags ts = ts.flatMap nested := by
  induction ts with
  | nil => simp [nestedTags]
  | cons t ts ih => simp [nestedTags, ih]

theorem nestedEntries_eq (es : List (String × Tag P)) : nestedEntries es = es.flatMap fun e => nested e.2 := by
  induction es with
  | nil => simp [nestedEntries]
  | cons e es ih => obtain ⟨k, t⟩ := e; simp [nestedEntries, ih]

theorem Within.mem_nested {u t : Tag P} (h : Within u t) : u ∈ nested t := by
  induction h with
  | refl => cases u <;> simp [nested]
  | seq hm _ ih => simp only [nested, nestedTags_eq, List.mem_cons, List.mem_flatMap]; exact .inr ⟨_, hm, ih⟩
  | array hm _ ih => simp only [nested, nestedTags_eq, List.mem_cons, List.mem_flatMap]; exact .inr ⟨_, hm, ih⟩
  | dict hm _ ih => simp only [nested, nestedEntries_eq, List.mem_cons, List.mem_flatMap]; exact .inr ⟨_, hm, ih⟩

/-- A test for `Supported` without payloads. -/
def supportedHereB [TagPayload P] (e : Engine P) (u : Tag P) : Bool :=
  (match e.createTag u.id with
    | .ok (some t₀) => t₀.kind == u.kind && t₀.id == u.id
    | _ => false) &&
  u.kind != .payload && decide ((encValue u).length ≤ maxValue) &&
  (decide (16 ≤ u.id.toNat) || decide ((encValue u).length = implicitLen u.id.toNat) ||
    ((u.id == 10 || u.id == 14) && (u.kind == .ilint || u.kind == .signedILInt)))

theorem supported_of_B [TagPayload P] [Env] {e : Engine P} {t : Tag P}
    (h : (nested t).all (supportedHereB e) = true) : Supported e t := by
  intro u hu
  have := List.all_eq_true.mp h u (Within.mem_nested hu)
  unfold supportedHereB at this
  simp only [Bool.and_eq_true, Bool.or_eq_true, decide_eq_true_eq, bne_iff_ne, beq_iff_eq] at this
  obtain ⟨⟨⟨h1, h2⟩, h3⟩, h4⟩ := this
  refine ⟨?_, h3, ?_⟩
  · revert h1
    cases hc : e.createTag u.id with
    | ok o =>
      cases o with
      | none => simp
      | some t₀ =>
        intro h1
        simp only [Bool.and_eq_true, beq_iff_eq] at h1
        refine ⟨t₀, rfl, h1.1, h1.2, ?_⟩
        rintro _ _ _ _ _ rfl
        exact absurd rfl h2
    | _ => simp
  · intro hi
    rcases h4 with (h4 | h4) | h4
    · omega
    · exact .inl h4
    · refine .inr ⟨h4.1, ?_⟩
      rcases h4.2 with h | h <;> rw [h] <;> trivial

end Verif
