import Verif.Props.Equality
import Verif.Props.Dicts
/-!
# C66 (custom payloads) and C67 (downcasts)
-/
namespace Verif.Props
open Verif Verif.Spec
variable {P : Type}
set_option linter.unusedSectionVars false

/-! ### C66 -/

section
variable [TagPayload P] [Env]

/-- The standard engine with the creator of a payload type registered under an id; `p₀` is the default payload. -/
def withPayload (strict : Bool) (id : UInt64) (p₀ : P) : Engine P :=
  ((Engine.std strict).register id (payloadCreator p₀)).2

theorem withPayload_here (strict : Bool) (id : UInt64) (p₀ : P) :
    (withPayload strict id p₀).createTag id = .ok (some (.atom (.payload id p₀))) := by
  simp only [withPayload, Engine.register, Engine.createTag, HMap.get_insert, if_pos, payloadCreator, Res.map]

theorem withPayload_other (strict : Bool) {id id' : UInt64} (p₀ : P) (h : id' ≠ id) :
    (withPayload strict id p₀).createTag id' = (Engine.std strict).createTag id' := by
  unfold withPayload
  generalize (Engine.std strict : Engine P) = e
  simp only [Engine.register, Engine.createTag, HMap.get_insert, if_neg h]
  rfl

/-- **C66** Payloads that keep the contract (`serialized_size` is what is written, and reading what was written gives
the payload back) under an explicit id, anywhere in a tree of standard tags: `size()` is the number of bytes written
and the tag is read back with the same types, ids and content. -/
theorem C66_round_trip (hr : MemoryOk) (strict : Bool) (id : UInt64) (hid : 16 ≤ id.toNat) (p₀ : P) (t : Tag P)
    (hm : MapsOk t)
    (h : ∀ u, Within u t → (encValue u).length ≤ maxValue ∧
      ((∃ p, u = .atom (.payload id p) ∧ PayloadOk p ∧ ReadsBack (withPayload strict id p₀) p₀ p) ∨
        u.id ≠ id ∧ StdTag strict u)) :
    ∃ bs t', t.toBytes = .ok bs ∧ t.size.toNat = bs.length ∧
      Factory.fromBytes (withPayload strict id p₀) bs = .ok t' ∧ Same t t' := by
  have hp : PayloadsOk t := by
    intro id' p hu
    rcases (h _ hu).2 with ⟨p', he, h1, -⟩ | ⟨-, h1 | ⟨-, h1, -⟩⟩
    · cases he; exact h1
    · simp [Tag.kind, Atom.kind, standardId] at h1
    · simp [Tag.kind, Atom.kind] at h1
  have hs : Supported (withPayload strict id p₀) t := by
    intro u hu
    rcases h u hu with ⟨hl, ⟨p, rfl, -, hb⟩ | ⟨hne, hstd⟩⟩
    · refine ⟨⟨_, withPayload_here strict id p₀, rfl, rfl, ?_⟩, hl, fun hi => absurd hi (by
        simp only [Tag.id, Atom.id]; omega)⟩
      intro id₀ q₀ id' q h1 h2
      cases h1; cases h2
      exact hb
    · rcases hstd with hstd | ⟨rfl, hraw, h16, hn⟩
      · obtain ⟨t₀, h1, h2, h3⟩ := std_create (P := P) (strict := strict) hstd
        refine ⟨⟨t₀, by rw [withPayload_other _ _ hne]; exact h1, h2, h3, ?_⟩, hl, std_sized hstd⟩
        rintro _ _ _ _ _ rfl
        simp [Tag.kind, Atom.kind, standardId] at hstd
      · refine ⟨⟨.atom (.raw u.id []), ?_, hraw.symm, rfl, ?_⟩, hl, fun hi => by omega⟩
        · rw [withPayload_other _ _ hne, std_unknown hn, if_pos ⟨rfl, h16⟩]
        · rintro _ _ _ _ h1
          cases h1
  obtain ⟨bs, t', h1, h2, h3⟩ := C30_round_trip hr _ t hm hp hs
  refine ⟨bs, t', h1, ?_, h2, h3⟩
  have hb := toBytes_eq_enc hr hm hp hs
  have hl := enc_length_le hs
  rw [hb, Res.ok.injEq] at h1
  have h64 : (enc t).length < 2 ^ 64 := by have : maxValue = 536870912 := rfl; omega
  rw [t.size_eq hp h64, ← h1]
  exact lenU64_toNat h64

end

section examples
attribute [local instance] bigEnv

/-- A payload with a number, kept in a nested ILInt tag, and the bytes after it. -/
structure Reading where
  value : UInt64
  note : Bytes
  deriving DecidableEq

/-- Its code: the number is written as a tag and read back through the factory. -/
instance : TagPayload Reading where
  serializedSize p := 1 + (Spec.ilint p.value.toNat).length + p.note.length
  serialize p := ([.all (wrap 10 (Spec.ilint p.value.toNat)), .all p.note], .ok ())
  deserialize p n := .deser fun t =>
    match t with
    | .atom (.ilint _ v) => .readAll (n - (1 + (Spec.ilint v.toNat).length)) fun bs => .done (.ok ()) ⟨v, bs⟩
    | _ => .done (.err .unexpectedTagType) p

theorem reading_bytes (p : Reading) : payloadBytes p = wrap 10 (Spec.ilint p.value.toNat) ++ p.note := by
  simp [payloadBytes, TagPayload.serialize, opsBytes, opBytes]

theorem reading_ok (p : Reading) : PayloadOk p := by
  refine ⟨rfl, ?_⟩
  simp only [reading_bytes, List.length_append, wrap_length]
  rw [if_pos (by decide)]
  show 1 + _ + _ = _ + _ + _ + _
  rw [show (Spec.ilint (10 : UInt64).toNat).length = 1 from by decide]

theorem reading_back (strict : Bool) (p₀ p : Reading) : ReadsBack (withPayload strict 5000 p₀) p₀ p := by
  have hs : Supported (withPayload strict 5000 p₀) (.atom (.ilint 10 p.value)) := by
    intro u hu
    cases hu
    have hstd : standardId (Tag.atom (.ilint 10 p.value) : Tag Reading).kind = some (10 : UInt64).toNat := rfl
    obtain ⟨t₀, h1, h2, h3⟩ := std_create (P := Reading) (strict := strict) (id := 10) hstd
    refine ⟨⟨t₀, by rw [withPayload_other _ _ (by show (10 : UInt64) ≠ 5000; decide)]; exact h1, h2, h3, ?_⟩, ?_,
      std_sized hstd⟩
    · intro _ _ _ _ _ h; cases h
    · have := ilint_le9 p.value.toNat
      have h9 : maxValue = 536870912 := rfl
      simp only [encValue, encAtom]
      omega
  have htop := top_enc bigEnv_ok _ _ (mapsOk_of_B (by rfl)) hs p.note
  obtain ⟨s₁, h1, h2⟩ := deserialize_ok_of_top ByteArrayReader.view.toView
    (ByteArrayReader.view_new (wrap 10 (Spec.ilint p.value.toNat) ++ p.note)) htop
  obtain ⟨s₂, h3, h4⟩ := ByteArrayReader.view.readAll_ok h2 (Nat.le_refl _)
  rw [List.take_length] at h3
  rw [List.drop_length] at h4
  refine ⟨s₂, ?_, ?_⟩
  · rw [reading_bytes]
    have hb : (onReader (Factory.deserialize (withPayload strict 5000 p₀) ByteArrayReader) :
        Act TagErr (Reading × ByteArrayReader) (Tag Reading))
        (p₀, ByteArrayReader.new (wrap 10 (Spec.ilint p.value.toNat) ++ p.note)) =
        (.ok (.atom (.ilint 10 p.value)), (p₀, s₁)) := onReader_eq h1
    show (onReader (Factory.deserialize (withPayload strict 5000 p₀) ByteArrayReader) >>= _) _ = _
    rw [Act.bind_ok hb]
    have hn : (wrap 10 (Spec.ilint p.value.toNat) ++ p.note).length - (1 + (Spec.ilint p.value.toNat).length) =
        p.note.length := by
      simp only [List.length_append, wrap_length]
      rw [if_pos (by decide), show (Spec.ilint (10 : UInt64).toNat).length = 1 from by decide]
      omega
    simp only [hn]
    have hc : (onReader (tagIo (Reader.readAll p.note.length)) : Act TagErr (Reading × ByteArrayReader) Bytes) (p₀, s₁) =
        (.ok p.note, (p₀, s₂)) := onReader_eq (by simp only [tagIo, Act.mapErr, h3, Res.mapErr])
    show (onReader (tagIo (Reader.readAll p.note.length)) >>= _) _ = _
    rw [Act.bind_ok hc]
    rfl
  · have := congrArg List.length h4.2
    simp only [List.length_nil, List.length_drop] at this
    unfold ByteArrayReader.available ByteArrayReader.len
    omega

/-- Any two readings and a raw tag in an array. -/
def readings (p q : Reading) : Tag Reading :=
  .array 21 [.atom (.payload 5000 p), .atom (.raw 300 [1]), .atom (.payload 5000 q)]

theorem reading_length (p : Reading) (h : p.note.length ≤ 1000) : (payloadBytes p).length ≤ 1010 := by
  have := ilint_le9 p.value.toNat
  rw [← (reading_ok p).2]
  show 1 + _ + _ ≤ _
  omega

example (p q : Reading) (hp : p.note.length ≤ 1000) (hq : q.note.length ≤ 1000) :
    ∃ bs t', (readings p q).toBytes = .ok bs ∧ (readings p q).size.toNat = bs.length ∧
      Factory.fromBytes (withPayload false 5000 ⟨0, []⟩) bs = .ok t' ∧ Same (readings p q) t' := by
  have h9 : maxValue = 536870912 := rfl
  have h1 := reading_length p hp
  have h2 := reading_length q hq
  have h5 := ilint_le9 5000
  refine C66_round_trip bigEnv_ok false 5000 (by decide) _ _ (mapsOk_of_B rfl) ?_
  intro u hu
  unfold readings at hu
  cases hu with
  | refl =>
    refine ⟨?_, .inr ⟨by show (21 : UInt64) ≠ 5000; decide, .inl rfl⟩⟩
    have h6 := ilint_le9 (payloadBytes p).length
    have h7 := ilint_le9 (payloadBytes q).length
    have h8 : (wrap 300 [1]).length = 4 := by decide
    simp only [encValue, encTags, encAtom, List.length_append, Tag.id, Atom.id, List.length_nil, h8]
    simp only [wrap_length, show (5000 : UInt64).toNat = 5000 from rfl, if_neg (show ¬ 5000 ≤ 15 by decide)]
    have := ilint_le9 [Tag.atom (.payload 5000 p), .atom (.raw 300 [1]), .atom (.payload 5000 q)].length
    omega
  | array hm hu =>
    simp only [List.mem_cons, List.not_mem_nil, or_false] at hm
    rcases hm with rfl | rfl | rfl
    · cases hu
      exact ⟨by simp only [encValue, encAtom]; omega, .inl ⟨p, rfl, reading_ok p, reading_back _ _ p⟩⟩
    · cases hu
      refine ⟨by decide +kernel, .inr ⟨by decide, .inr ⟨rfl, rfl, by decide, ?_⟩⟩⟩
      intro k; cases k <;> decide
    · cases hu
      exact ⟨by simp only [encValue, encAtom]; omega, .inl ⟨q, rfl, reading_ok q, reading_back _ _ q⟩⟩

/-- A payload that is a date kept as two tags it owns, filled in place with `deserialize_into`. -/
structure Stamp where
  day : UInt64
  label : Bytes
  deriving DecidableEq

instance : TagPayload Stamp where
  serializedSize p := 1 + (Spec.ilint p.day.toNat).length + 2 + p.label.length
  serialize p := ([.all (wrap 10 (Spec.ilint p.day.toNat)), .all (wrap 16 p.label)], .ok ())
  deserialize p _ := .into (.atom (.ilint 10 p.day)) fun t =>
    match t with
    | .atom (.ilint _ v) => .into (.atom (.byteArray p.label)) fun u =>
      match u with
      | .atom (.byteArray bs) => .done (.ok ()) ⟨v, bs⟩
      | _ => .done (.err .unexpectedTagType) p
    | _ => .done (.err .unexpectedTagType) p

/-- The stamp is written, read back, and refused when the second tag has another id. -/
example :
    (match Factory.fromBytes (withPayload true 5000 (⟨7, [9, 9]⟩ : Stamp)) (wrap 5000 (wrap 10 [200] ++ wrap 16 [1, 2, 3])) with
      | .ok (.atom (.payload 5000 p)) => decide (p = ⟨200, [1, 2, 3]⟩)
      | _ => false) = true ∧
    (match Tag.toBytes (.atom (.payload 5000 (⟨200, [1, 2, 3]⟩ : Stamp))) with
      | .ok bs => decide (bs = wrap 5000 (wrap 10 [200] ++ wrap 16 [1, 2, 3]))
      | _ => false) = true ∧
    (match Factory.fromBytes (withPayload true 5000 (⟨7, [9, 9]⟩ : Stamp)) (wrap 5000 (wrap 10 [200] ++ wrap 17 [65])) with
      | .err .unexpectedTagType => true
      | _ => false) = true := by
  simp only [Factory.fromBytes]
  rw [deserialize_eq]
  decide +kernel

end examples

/-! ### C67 -/

/-- **C67** `tag_downcast_ref/mut`: the same tag exactly when the type is the one asked for. -/
theorem C67_downcast (k : Kind) (t u : Tag P) :
    (downcast k t = some u ↔ t.kind = k ∧ u = t) ∧ (downcast k t = none ↔ t.kind ≠ k) := by
  unfold downcast
  split <;> simp_all [eq_comm]

/-- **C67** `tag_downcast_ref/mut_with_id`: the same, and the id. -/
theorem C67_with_id (k : Kind) (id : UInt64) (t u : Tag P) :
    (downcastWithId k id t = some u ↔ t.id = id ∧ t.kind = k ∧ u = t) ∧
    (downcastWithId k id t = none ↔ ¬ (t.id = id ∧ t.kind = k)) := by
  unfold downcastWithId
  split
  · next h => simp [(C67_downcast k t u).1, (C67_downcast k t u).2, h]
  · next h => simp [h]

/-- **C67** `tag_id_downcast_ref/mut`: the same with `UnexpectedTagType` in the other cases. -/
theorem C67_id_downcast (k : Kind) (id : UInt64) (t : Tag P) :
    idDowncast k id t = if t.id = id ∧ t.kind = k then .ok t else .err .unexpectedTagType := by
  unfold idDowncast downcast
  by_cases h1 : t.id = id <;> by_cases h2 : t.kind = k <;> simp [h1, h2]

/-- **C67** `assert_tag_id_and_type` and `assert_tag_id_and_type_or_error`: success in exactly the same cases, otherwise
`UnexpectedTagType` or the error given. -/
theorem C67_assert (k : Kind) (id : UInt64) (t : Tag P) (e : TagErr) :
    (assertIdAndTypeOrError k id t e = if t.id = id ∧ t.kind = k then .ok () else .err e) ∧
    (assertIdAndType k id t = if t.id = id ∧ t.kind = k then .ok () else .err .unexpectedTagType) := ⟨rfl, rfl⟩

/-- **C67** What the standard factory returns: looking at the id is enough, a tag with the id of a standard type can be
downcast to that type. -/
theorem C67_from_bytes [TagPayload P] [Env] (strict : Bool) (bs : Bytes) (t : Tag P)
    (h : Factory.fromBytes (Engine.std strict) bs = .ok t) (k : Kind) (n : Nat) (hk : standardId k = some n) :
    downcast k t = some t ↔ t.id.toNat = n := by
  rw [(C67_downcast k t t).1]
  simp only [and_true]
  rcases ((C35_accepted_tags strict bs t h).2 t (.refl t)).1 with hs | ⟨-, hs, -, hn⟩
  · constructor
    · rintro rfl
      rw [hs] at hk
      exact Option.some.inj hk
    · rintro rfl
      exact C45_standard_ids.2.2 _ _ _ hs hk
  · constructor
    · rintro rfl
      rw [hs] at hk
      simp [standardId] at hk
    · rintro rfl
      exact absurd hk (hn k)

example : downcast .dict looseTag = some looseTag :=
  (@C67_from_bytes Empty _ bigEnv true loose looseTag loose_accepted .dict 30 rfl).mpr rfl
example : downcast .ilint (.atom (.ilint 1000 5) : Tag Empty) = some (.atom (.ilint 1000 5)) := rfl
example : (match idDowncast .ilint 10 (.atom (.ilint 1000 5) : Tag Empty) with
  | .err .unexpectedTagType => true
  | _ => false) = true := rfl

end Verif.Props
