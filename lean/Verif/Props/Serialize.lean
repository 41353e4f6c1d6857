import Verif.Proof.ConvCode
import Verif.Proof.Size
import Verif.Proof.Canon
import Verif.Proof.Views
import Verif.Props.Memory
/-!
# Serialization of tags (C28, C29, C38, C39, C40, C52, C68, C69)
-/
namespace Verif.Props
open Verif Verif.Spec
variable {P : Type}

/-! ### Auxiliary: running a list of calls -/

theorem runOps_succeed {ω : Type} [Writer ω] {ops : List WOp} {w w' : ω} (h : Succeed ops w w') :
    runOps ops w = (.ok (), w') := by
  induction h with
  | nil => rfl
  | @cons op ops w w₁ w' h1 _ ih =>
    have : op.run w = ((.ok (), w₁) : Res TagErr Unit × ω) := by
      cases op <;> simp only [call] at h1 <;> simp [WOp.run, tagIo, Act.mapErr_apply, h1, Res.mapErr]
    rw [runOps, Act.bind_ok this, ih]

theorem runOps_cases {ω : Type} [Writer ω] (ops : List WOp) (w : ω) :
    (∃ w', Succeed ops w w') ∨
    ∃ done op rest w₁, ops = done ++ op :: rest ∧ Succeed done w w₁ ∧ (call op w₁).1.isOk = false ∧
      runOps ops w = ((call op w₁).1.mapErr .ioError, (call op w₁).2) := by
  induction ops generalizing w with
  | nil => exact .inl ⟨w, .nil w⟩
  | cons op ops ih =>
    have hrun : op.run w = (((call op w).1.mapErr .ioError, (call op w).2) : Res TagErr Unit × ω) := by
      cases op <;> rfl
    rcases hc : call op w with ⟨r, w₁⟩
    rw [hc] at hrun
    cases r with
    | ok u =>
      rcases ih w₁ with ⟨w', h⟩ | ⟨done, o, rest, w₂, rfl, h1, h2, h3⟩
      · exact .inl ⟨w', .cons hc h⟩
      · refine .inr ⟨op :: done, o, rest, w₂, rfl, .cons hc h1, h2, ?_⟩
        rw [runOps, Act.bind_ok hrun, h3]
    | err e =>
      refine .inr ⟨[], op, ops, w, rfl, .nil w, by rw [hc]; rfl, ?_⟩
      rw [runOps, Act.bind_err hrun, hc]; rfl
    | panic =>
      refine .inr ⟨[], op, ops, w, rfl, .nil w, by rw [hc]; rfl, ?_⟩
      rw [runOps, Act.bind_panic hrun, hc]; rfl
    | diverge =>
      refine .inr ⟨[], op, ops, w, rfl, .nil w, by rw [hc]; rfl, ?_⟩
      rw [runOps, Act.bind_diverge hrun, hc]; rfl

theorem succeed_sink {ω : Type} [Writer ω] (S : Sink ω) {w : ω} {pre : Bytes} (ops : List WOp) (h : S.W w pre) :
    ∃ w', Succeed ops w w' ∧ S.W w' (pre ++ opsBytes ops) := by
  induction ops generalizing w pre with
  | nil => exact ⟨w, .nil w, by simpa [opsBytes] using h⟩
  | cons op ops ih =>
    have : ∃ w₁, call op w = (.ok (), w₁) ∧ S.W w₁ (pre ++ opBytes op) := by
      cases op with
      | byte b => exact S.write_ok b h
      | all bs => exact S.writeAll_ok bs h
    obtain ⟨w₁, h1, h2⟩ := this
    obtain ⟨w', h3, h4⟩ := ih h2
    exact ⟨w', .cons h1 h3, by simpa [opsBytes] using h4⟩

theorem Writes.ops {C : Prop} {m : ∀ (ω : Type) [Writer ω], Act TagErr ω Unit} {bs : Bytes} (h : WritesIf C m bs)
    (hc : C) : ∃ ops, opsBytes ops = bs ∧ ∀ (ω : Type) [Writer ω], m ω = runOps ops := by
  obtain ⟨ops, r, h1, h2⟩ := h
  obtain ⟨rfl, h3⟩ := h2 hc
  refine ⟨ops, h3, fun ω _ => ?_⟩
  rw [h1]
  exact Act.bind_pure _

theorem serializeValue_ops [TagPayload P] {t : Tag P} (hm : MapsOk t) (hp : PayloadsOk t)
    (hl : (enc t).length < 2 ^ 64) : ∃ ops, opsBytes ops = encValue t ∧
      ∀ (ω : Type) [Writer ω], (t.serializeValue : Act TagErr ω Unit) = runOps ops :=
  Writes.ops (Tag.writesValue t hm) ⟨hp, by have := encValue_lt t; omega⟩

theorem serialize_ops [TagPayload P] {t : Tag P} (hm : MapsOk t) (hp : PayloadsOk t) (hl : (enc t).length < 2 ^ 64) :
    ∃ ops, opsBytes ops = enc t ∧ ∀ (ω : Type) [Writer ω], (t.serialize : Act TagErr ω Unit) = runOps ops :=
  Writes.ops (Tag.writes t hm) ⟨hp, hl⟩

theorem vec_runOps (ops : List WOp) : ∃ w', runOps ops VecWriter.new = (.ok (), w') ∧ w'.vector = opsBytes ops := by
  obtain ⟨w', h1, h2⟩ := succeed_sink VecWriter.sink ops VecWriter.sink_new
  exact ⟨w', runOps_succeed h1, by simpa using h2.2.2⟩

/-! ### A sample -/

/-- A dictionary around a string dictionary, a sequence, a tag array and a raw tag of an unknown id; its maps list
their keys out of order. -/
def sample : Tag Empty :=
  .dict Id.dict [("b", .seq Id.tagSeq [.atom (.int16 Id.int16 (-2)), .atom (.raw 300 [1, 2, 3])]),
    ("a", .atom (.strDict Id.strDict [("y", "é"), ("x", "")])),
    ("", .array Id.tagArray [.atom (.bool Id.bool true), .atom (.ilint 1000 70000)])]

theorem sample_maps : MapsOk sample := mapsOk_of_B (by decide +kernel)

/-- The sample as `HashMap`s might list it in another run. -/
def sample' : Tag Empty :=
  .dict Id.dict [("", .array Id.tagArray [.atom (.bool Id.bool true), .atom (.ilint 1000 70000)]),
    ("b", .seq Id.tagSeq [.atom (.int16 Id.int16 (-2)), .atom (.raw 300 [1, 2, 3])]),
    ("a", .atom (.strDict Id.strDict [("x", ""), ("y", "é")]))]

theorem sample_len : (enc sample).length = 50 := by decide +kernel

theorem sample_small : (enc sample).length < 2 ^ 64 := by rw [sample_len]; decide

/-! ### C28, C29 -/

/-- **C28** For every tag whose serialization is shorter than 2^64 bytes: serializing it into a vector succeeds and
`size()` is the number of bytes written; serializing its value succeeds and `value_size()` is the number of bytes
written; and neither computation overflows (in a build with overflow checks it returns the same number). -/
theorem C28_size [TagPayload P] (t : Tag P) (hm : MapsOk t) (hp : PayloadsOk t) (hl : (enc t).length < 2 ^ 64) :
    (∃ w, t.serialize VecWriter.new = (.ok (), w) ∧ t.size.toNat = w.vector.length) ∧
    (∃ w, t.serializeValue VecWriter.new = (.ok (), w) ∧ t.valueSize.toNat = w.vector.length) ∧
    ∀ m, t.sizeM m = .ok t.size ∧ t.valueSizeM m = .ok t.valueSize := by
  have hv := encValue_lt t
  obtain ⟨ops, h1, h2⟩ := serialize_ops hm hp hl
  obtain ⟨ops', h1', h2'⟩ := serializeValue_ops hm hp hl
  obtain ⟨w, h3, h4⟩ := vec_runOps ops
  obtain ⟨w', h3', h4'⟩ := vec_runOps ops'
  refine ⟨⟨w, by rw [h2, h3], ?_⟩, ⟨w', by rw [h2', h3'], ?_⟩, fun m => ⟨?_, ?_⟩⟩
  · rw [t.size_eq hp hl, h4, h1]; exact lenU64_toNat hl
  · rw [t.valueSize_eq hp (by omega), h4', h1']; exact lenU64_toNat (by omega)
  · rw [t.sizeM_eq m hp hl, t.size_eq hp hl]
  · rw [t.valueSizeM_eq m hp (by omega), t.valueSize_eq hp (by omega)]

example : sample.size = 50 ∧ sample.valueSize = 48 ∧ sample.sizeM .checked = .ok 50 := by decide +kernel

/-- **C29** `to_bytes` succeeds (when the vector can be allocated) and yields the layout of the standard: the ILInt of
the id, for an explicit id the ILInt of the value length, and the value bytes of the type. -/
theorem C29_to_bytes [Env] [TagPayload P] (t : Tag P) (hm : MapsOk t) (hp : PayloadsOk t)
    (hl : (enc t).length < 2 ^ 64) (ha : (enc t).length ≤ Env.allocMax) :
    t.toBytes = .ok (ilint t.id.toNat ++ (if t.id.toNat ≤ 15 then [] else ilint (encValue t).length) ++ encValue t) := by
  obtain ⟨ops, h1, h2⟩ := serialize_ops hm hp hl
  obtain ⟨w, h3, h4⟩ := vec_runOps ops
  unfold Tag.toBytes
  rw [t.size_eq hp hl, show (UInt64.ofNat (enc t).length).toNat = (enc t).length from lenU64_toNat hl, if_pos ha, h2, h3]
  simp only [h4, h1]
  rfl

/-- **C29** Serializing into any writer is one fixed series of calls, the same for all writers, that carry exactly the
bytes of the serialization in order: if the writer accepts these calls the result is `Ok` with the writer as the calls
left it, and it is `Ok` only then. -/
theorem C29_any_writer [TagPayload P] (t : Tag P) (hm : MapsOk t) (hp : PayloadsOk t) (hl : (enc t).length < 2 ^ 64) :
    ∃ ops, opsBytes ops = enc t ∧
      ∀ (ω : Type) [Writer ω] (w w' : ω), t.serialize w = (.ok (), w') ↔ Succeed ops w w' := by
  obtain ⟨ops, h1, h2⟩ := serialize_ops hm hp hl
  refine ⟨ops, h1, fun ω _ w w' => ?_⟩
  rw [h2]
  refine ⟨fun h => ?_, runOps_succeed⟩
  rcases runOps_cases ops w with ⟨w₁, hs⟩ | ⟨done, op, rest, w₁, -, -, hno, hr⟩
  · rw [runOps_succeed hs, Prod.mk.injEq] at h
    rw [← h.2]; exact hs
  · rw [hr, Prod.mk.injEq] at h
    have h' := h.1
    cases hc : (call op w₁).1 <;> simp [hc, Res.mapErr, Res.isOk] at h' hno

/-- **C29** Any writer that collects what it is given ends up with the serialization after what it had. -/
theorem C29_any_sink [TagPayload P] {ω : Type} [Writer ω] (S : Sink ω) (t : Tag P) (hm : MapsOk t) (hp : PayloadsOk t)
    (hl : (enc t).length < 2 ^ 64) (w : ω) (pre : Bytes) (hw : S.W w pre) :
    ∃ w', t.serialize w = (.ok (), w') ∧ S.W w' (pre ++ enc t) := by
  obtain ⟨ops, h1, h2⟩ := C29_any_writer t hm hp hl
  obtain ⟨w', h3, h4⟩ := succeed_sink S ops hw
  exact ⟨w', (h2 ω w w').mpr h3, h1 ▸ h4⟩

example : @Tag.toBytes Empty ⟨1000⟩ _ sample = .ok (
    [30, 48, 3] ++                                                             -- dictionary with 3 entries
    [17, 0] ++ [21, 11, 2, 1, 1, 249, 2, 240, 4, 250, 1, 16, 120] ++            -- "" : tag array
    [17, 1, 97] ++ [31, 13, 2, 17, 1, 120, 17, 0, 17, 1, 121, 17, 2, 195, 169] ++ -- "a" : string dictionary
    [17, 1, 98] ++ [22, 9, 4, 255, 254, 248, 52, 3, 1, 2, 3]) := by decide +kernel -- "b" : sequence

/-! ### C38, C39, C40: dictionaries -/

/-- **C38** Two tags with the same content, however their maps are iterated at any level, serialize to the same bytes
and report the same sizes. -/
theorem C38_hash_order [Env] [TagPayload P] (t u : Tag P) (h : Same t u) (ht : MapsOk t) (hu : MapsOk u)
    (hp : PayloadsOk t) (hl : (enc t).length < 2 ^ 64) :
    t.size = u.size ∧ t.valueSize = u.valueSize ∧ t.toBytes = u.toBytes ∧
    (∃ w w', t.serialize VecWriter.new = (.ok (), w) ∧ u.serialize VecWriter.new = (.ok (), w') ∧
      w.vector = w'.vector) := by
  have he := h.enc_eq ht hu
  have hev := h.encValue_eq ht hu
  have hp' := h.payloadsOk hp
  have hl' : (enc u).length < 2 ^ 64 := he ▸ hl
  have hv := encValue_lt t
  have hv' := encValue_lt u
  obtain ⟨ops, h1, h2⟩ := serialize_ops ht hp hl
  obtain ⟨ops', h1', h2'⟩ := serialize_ops hu hp' hl'
  obtain ⟨w, h3, h4⟩ := vec_runOps ops
  obtain ⟨w', h3', h4'⟩ := vec_runOps ops'
  have hs : t.size = u.size := by rw [t.size_eq hp hl, u.size_eq hp' hl', he]
  have hw : w.vector = w'.vector := by rw [h4, h4', h1, h1', he]
  refine ⟨hs, ?_, ?_, w, w', by rw [h2, h3], by rw [h2', h3'], hw⟩
  · rw [t.valueSize_eq hp (by omega), u.valueSize_eq hp' (by omega), hev]
  · unfold Tag.toBytes
    rw [hs, h2, h3, h2', h3']
    simp only [hw]

theorem sample_same : Same sample sample' := by
  refine .dict _ ?_ ?_
  · intro k; simp; constructor <;> (rintro (h | h | h) <;> simp [h])
  · intro k t u ht hu
    simp only [List.mem_cons, Prod.mk.injEq, List.not_mem_nil, or_false] at ht hu
    rcases ht with ⟨rfl, rfl⟩ | ⟨rfl, rfl⟩ | ⟨rfl, rfl⟩ <;> rcases hu with ⟨hk, rfl⟩ | ⟨hk, rfl⟩ | ⟨hk, rfl⟩ <;>
      first
      | exact absurd hk (by decide +kernel)
      | exact Same.refl (mapsOk_of_B (by decide +kernel))
      | exact .strDict _ (by intro e; simp [or_comm])

example : sample ≠ sample' ∧ MapsOk sample' := ⟨(by intro h; simp [sample, sample'] at h), mapsOk_of_B (by decide +kernel)⟩

/-- **C39** A dictionary writes the number of its entries and then its entries in strictly increasing order of the
bytes of the keys, each entry of the map exactly once: the key as a string tag and its own value. -/
theorem C39_dict_sorted [TagPayload P] (id : UInt64) (es : List (String × Tag P)) (hm : MapsOk (.dict id es))
    (hp : PayloadsOk (.dict id es)) (hl : (enc (.dict id es)).length < 2 ^ 64) :
    ∃ sorted : List (String × Tag P), (∀ e, e ∈ sorted ↔ e ∈ es) ∧
      sorted.Pairwise (fun a b => Spec.utf8 a.1 < Spec.utf8 b.1) ∧
      ∃ w, (Tag.dict id es).serializeValue VecWriter.new = (.ok (), w) ∧
        w.vector = ilint es.length ++ sorted.flatMap fun e => stringTag e.1 ++ enc e.2 := by
  obtain ⟨ops, h1, h2⟩ := serializeValue_ops hm hp hl
  obtain ⟨w, h3, h4⟩ := vec_runOps ops
  refine ⟨sortByKey es, fun e => mem_sortByKey, sortByKey_pairwise_lt hm.self, w, by rw [h2, h3], ?_⟩
  rw [h4, h1]
  simp only [encValue, encSorted, encEntries_eq, sortByKey_map, List.flatMap_map]

/-- **C39** The same for a string dictionary. -/
theorem C39_strDict_sorted [TagPayload P] (id : UInt64) (es : List (String × String))
    (hn : (es.map (·.1)).Nodup) (hl : (enc (.atom (.strDict id es) : Tag P)).length < 2 ^ 64) :
    ∃ sorted : List (String × String), (∀ e, e ∈ sorted ↔ e ∈ es) ∧
      sorted.Pairwise (fun a b => Spec.utf8 a.1 < Spec.utf8 b.1) ∧
      ∃ w, (Tag.atom (.strDict id es) : Tag P).serializeValue VecWriter.new = (.ok (), w) ∧
        w.vector = ilint es.length ++ sorted.flatMap fun e => stringTag e.1 ++ stringTag e.2 := by
  have hm : MapsOk (.atom (.strDict id es) : Tag P) := by intro u hu; cases hu; exact hn
  have hp : PayloadsOk (.atom (.strDict id es) : Tag P) := by intro i p hu; cases hu
  obtain ⟨ops, h1, h2⟩ := serializeValue_ops hm hp hl
  obtain ⟨w, h3, h4⟩ := vec_runOps ops
  refine ⟨sortByKey es, fun e => mem_sortByKey, sortByKey_pairwise_lt hn, w, by rw [h2, h3], ?_⟩
  rw [h4, h1]
  simp only [encValue, encAtom, encSorted, sortByKey_map, List.flatMap_map]

example : MapsOk (Tag.dict (P := Empty) 30 [("b", .atom (.null 0)), ("a", .atom (.bool 1 true))]) ∧
    (Tag.dict (P := Empty) 30 [("b", .atom (.null 0)), ("a", .atom (.bool 1 true))]).serializeValue VecWriter.new =
      (.ok (), ⟨[2, 17, 1, 97, 1, 1, 17, 1, 98, 0], 10, false⟩) :=
  ⟨mapsOk_of_B (by decide +kernel), by decide +kernel⟩

/-- **C52** The size helper is the size of the string tag with the standard id, and the serialization helper makes the
same calls on every writer. -/
theorem C52_size_and_serialize [TagPayload P] (s : String) :
    stringTagSize s = (.atom (.string Id.string s) : Tag P).size ∧
    ∀ (ω : Type) [Writer ω], (serializeStringTag s : Act TagErr ω Unit) = (.atom (.string Id.string s) : Tag P).serialize := by
  have hi : isImplicitTag Id.string = false := by decide
  have h1 : ilSize Id.string = 1 := by decide
  constructor
  · simp only [stringTagSize, Tag.size, sizeFrom, Tag.id, Atom.id, Tag.valueSize, Atom.valueSize, hi, h1,
      Bool.false_eq_true, if_false]
  · intro ω _
    simp only [serializeStringTag, Tag.serialize, Tag.serializeWith, Tag.id, Atom.id, Tag.valueSize, Atom.valueSize,
      Tag.serializeValue, Atom.serializeValue, hi, Bool.false_eq_true, if_false]

/-- **C40** A string dictionary has the value size, and makes the same calls on every writer to serialize its value,
as a dictionary with the same entries in which each string is a standard string tag. -/
theorem C40_same_value_bytes [TagPayload P] (id id' : UInt64) (es : List (String × String)) :
    let d : Tag P := .dict id' (es.map fun e => (e.1, .atom (.string Id.string e.2)))
    (.atom (.strDict id es) : Tag P).valueSize = d.valueSize ∧
    ∀ (ω : Type) [Writer ω], ((.atom (.strDict id es) : Tag P).serializeValue : Act TagErr ω Unit) = d.serializeValue := by
  refine ⟨?_, fun ω _ => ?_⟩
  · simp only [Tag.valueSize, Atom.valueSize, Atom.strDictSize, Tag.entriesSum_eq, List.length_map, List.foldl_map,
      (C52_size_and_serialize (P := P) _).1, Tag.size]
  · have hent : ∀ l : List (String × String), Tag.entrySerializers (ω := ω)
        (l.map fun e => (e.1, (.atom (.string Id.string e.2) : Tag P))) = l.map fun e => (e.1, serializeStringTag e.2) := by
      intro l
      induction l with
      | nil => rfl
      | cons e l ih => simp only [List.map_cons, Tag.entrySerializers, ih,
        (C52_size_and_serialize (P := P) _).2 ω, Tag.serialize]
    simp only [Tag.serializeValue, Atom.serializeValue, hent, List.length_map, List.map_map]
    congr 1
    funext _
    have : ∀ keys : List String, (Atom.serializeStrEntries es keys : Act TagErr ω Unit) =
        Tag.serializeEntries (es.map fun e => (e.1, serializeStringTag e.2)) keys := by
      intro keys
      induction keys with
      | nil => rfl
      | cons k keys ih =>
        simp only [Atom.serializeStrEntries, Tag.serializeEntries, HMap.get_map, ih]
        cases HMap.get k es <;> simp only [Option.map_none, Option.map_some]
    rw [this]
    rfl

example : ((.atom (.strDict 31 [("b", "x"), ("a", "")]) : Tag Empty)).serializeValue VecWriter.new =
    (.ok (), ⟨[2, 17, 1, 97, 17, 0, 17, 1, 98, 17, 1, 120], 12, false⟩) := by decide +kernel

/-! ### C52: string helpers -/

example : stringTagSize "é" = 4 ∧ serializeStringTag "é" VecWriter.new = (.ok (), ⟨[17, 2, 195, 169], 4, false⟩) := by
  decide +kernel

/-! ### C68: bounded buffers -/

theorem overwrite_append (v : Bytes) (off : Nat) (a b : Bytes) (h : off ≤ v.length) :
    overwrite (overwrite v off a) (off + a.length) b = overwrite v off (a ++ b) := by
  unfold overwrite
  have ht : (v.take off).length = off := by simp; omega
  have e1 : (v.take off ++ a ++ v.drop (off + a.length)).take (off + a.length) = v.take off ++ a := by
    rw [List.take_append_of_le_length (by simp; omega)]
    exact List.take_of_length_le (by simp; omega)
  have e2 : (v.take off ++ a ++ v.drop (off + a.length)).drop (off + a.length + b.length)
      = v.drop (off + (a ++ b).length) := by
    rw [List.drop_append, List.drop_of_length_le (by simp; omega)]
    simp only [List.nil_append, List.drop_drop, List.length_append, ht]
    congr 1
    omega
  rw [e1, e2]
  simp

theorem array_call (w : ByteArrayWriter) (h : w.offset ≤ w.array.length) (op : WOp) :
    call op w = if w.offset + (opBytes op).length ≤ w.array.length then
      (.ok (), ⟨overwrite w.array w.offset (opBytes op), w.offset + (opBytes op).length⟩)
    else (.err .unableToWriteData, w) := by
  cases op with
  | byte b =>
    simp only [call, Writer.write, ByteArrayWriter.write, opBytes, List.length_singleton]
    by_cases hf : w.offset + 1 ≤ w.array.length
    · have hlt : w.offset < w.array.length := by omega
      simp only [canWrite_fits hf, if_true, hlt, hf]
      simp [overwrite, List.set_eq_take_append_cons_drop, hlt]
    · simp only [canWrite_refused h (Nat.lt_of_not_le hf), if_false, hf]
  | all bs =>
    simp only [call, Writer.writeAll, ByteArrayWriter.writeAll, opBytes]
    by_cases hf : w.offset + bs.length ≤ w.array.length
    · have hcopy : copyInto w.array w.offset bs = some (overwrite w.array w.offset bs) := by
        simp [copyInto, overwrite, hf]
      simp only [canWrite_fits hf, hf, if_true, hcopy]
    · simp only [canWrite_refused h (Nat.lt_of_not_le hf), hf, if_false]

theorem array_runOps (ops : List WOp) (w : ByteArrayWriter) (h : w.offset ≤ w.array.length) :
    if w.offset + (opsBytes ops).length ≤ w.array.length then
      runOps ops w = (.ok (), ⟨overwrite w.array w.offset (opsBytes ops), w.offset + (opsBytes ops).length⟩)
    else ∃ k, k < (opsBytes ops).length ∧ w.offset + k ≤ w.array.length ∧
      runOps ops w = (.err (.ioError .unableToWriteData),
        ⟨overwrite w.array w.offset ((opsBytes ops).take k), w.offset + k⟩) := by
  induction ops generalizing w with
  | nil => simp [opsBytes, h, overwrite]; rfl
  | cons op ops ih =>
    have hb : opsBytes (op :: ops) = opBytes op ++ opsBytes ops := by simp [opsBytes]
    have hrun : op.run w = (((call op w).1.mapErr .ioError, (call op w).2) : Res TagErr Unit × _) := by
      cases op <;> rfl
    rw [array_call w h op] at hrun
    rw [hb, List.length_append]
    by_cases hf : w.offset + (opBytes op).length ≤ w.array.length
    · rw [if_pos hf] at hrun
      have hlen := overwrite_length w.array w.offset (opBytes op) h
      have := ih ⟨overwrite w.array w.offset (opBytes op), w.offset + (opBytes op).length⟩ (by simp only; omega)
      simp only [overwrite_append _ _ _ _ h] at this
      rw [hlen, Nat.max_eq_left hf] at this
      rw [runOps, Act.bind_ok hrun]
      rw [Nat.add_assoc] at this
      split at this
      · next hx => rw [if_pos hx, this]
      · next hx =>
        rw [if_neg hx]
        obtain ⟨k, h1, h2, h3⟩ := this
        refine ⟨(opBytes op).length + k, by omega, by omega, ?_⟩
        have htk : (opBytes op ++ opsBytes ops).take ((opBytes op).length + k) = opBytes op ++ (opsBytes ops).take k := by
          rw [List.take_append, List.take_of_length_le (l := opBytes op) (by omega), Nat.add_sub_cancel_left]
        rw [h3, htk, ← Nat.add_assoc]
    · rw [if_neg hf] at hrun
      rw [if_neg (by omega)]
      refine ⟨0, by omega, by omega, ?_⟩
      rw [runOps, Act.bind_err hrun]
      simp [overwrite]

/-- **C68** Serializing a tag into a `ByteArrayWriter` succeeds exactly when its size fits into the space left; then
the buffer has the serialization at the cursor, which moves behind it, and is otherwise unchanged.  If it does not fit
the result is `IOError(UnableToWriteData)`, the buffer holds some proper prefix of the serialization at the old cursor
and is otherwise unchanged. -/
theorem C68_bounded_buffer [TagPayload P] (t : Tag P) (hm : MapsOk t) (hp : PayloadsOk t)
    (hl : (enc t).length < 2 ^ 64) (a : Bytes) (off : Nat) (ho : off ≤ a.length) :
    (t.size.toNat ≤ a.length - off →
      t.serialize (⟨a, off⟩ : ByteArrayWriter) = (.ok (), ⟨overwrite a off (enc t), off + t.size.toNat⟩)) ∧
    (a.length - off < t.size.toNat → ∃ k, k < t.size.toNat ∧ off + k ≤ a.length ∧
      t.serialize (⟨a, off⟩ : ByteArrayWriter) =
        (.err (.ioError .unableToWriteData), ⟨overwrite a off ((enc t).take k), off + k⟩)) := by
  obtain ⟨ops, h1, h2⟩ := serialize_ops hm hp hl
  have hs : t.size.toNat = (enc t).length := by rw [t.size_eq hp hl]; exact lenU64_toNat hl
  have := array_runOps ops ⟨a, off⟩ ho
  rw [h1] at this
  rw [h2, hs]
  constructor
  · intro hfit
    rwa [if_pos (by simp only; omega)] at this
  · intro hno
    rwa [if_neg (by simp only; omega)] at this

example : (.atom (.string 17 "abc") : Tag Empty).serialize (⟨[9, 9, 9, 9, 9, 9, 9], 1⟩ : ByteArrayWriter) =
      (.ok (), ⟨[9, 17, 3, 97, 98, 99, 9], 6⟩) ∧
    (.atom (.string 17 "abc") : Tag Empty).serialize (⟨[9, 9, 9, 9, 9, 9], 2⟩ : ByteArrayWriter) =
      (.err (.ioError .unableToWriteData), ⟨[9, 9, 17, 3, 9, 9], 4⟩) := by decide +kernel

/-! ### C69: failing writers -/

/-- **C69** Serialization makes a fixed series of calls carrying the serialization.  On any writer, in any state,
either all the calls succeed and the result is `Ok`; or some first calls succeed, the next one does not, no further
call is made (the writer is left as that call left it) and the result is `IOError(e)` where `e` is that call's error
(or a panic, if the writer panicked). -/
theorem C69_stops_at_first_error [TagPayload P] (t : Tag P) (hm : MapsOk t) (hp : PayloadsOk t)
    (hl : (enc t).length < 2 ^ 64) :
    ∃ ops, opsBytes ops = enc t ∧ ∀ (ω : Type) [Writer ω] (w : ω),
      (∃ w', Succeed ops w w' ∧ t.serialize w = (.ok (), w')) ∨
      ∃ done op rest w₁, ops = done ++ op :: rest ∧ Succeed done w w₁ ∧ (call op w₁).1 ≠ .ok () ∧
        t.serialize w = ((call op w₁).1.mapErr .ioError, (call op w₁).2) := by
  obtain ⟨ops, h1, h2⟩ := serialize_ops hm hp hl
  refine ⟨ops, h1, fun ω _ w => ?_⟩
  rw [h2]
  rcases runOps_cases ops w with ⟨w', h⟩ | ⟨done, op, rest, w₁, e1, e2, e3, e4⟩
  · exact .inl ⟨w', h, runOps_succeed h⟩
  · exact .inr ⟨done, op, rest, w₁, e1, e2, fun h => by rw [h] at e3; simp [Res.isOk] at e3, e4⟩

/-- **C69** The same of every tag without exception: also one with payloads that fail by themselves or break their contract,
or of 2^64 bytes or more.  There is a fixed series of calls and a fixed outcome `r`; a writer that accepts all the calls gets
just them and the result is `r`, any other gets the calls up to the first it does not accept, and the result is its error. -/
theorem C69_any_tag [TagPayload P] (t : Tag P) :
    ∃ (ops : List WOp) (r : Res TagErr Unit), ∀ (ω : Type) [Writer ω] (w : ω),
      (∃ w', Succeed ops w w' ∧ t.serialize w = (r, w')) ∨
      ∃ done op rest w₁, ops = done ++ op :: rest ∧ Succeed done w w₁ ∧ (call op w₁).1 ≠ .ok () ∧
        t.serialize w = ((call op w₁).1.mapErr .ioError, (call op w₁).2) := by
  obtain ⟨ops, r, h1, -⟩ := IsOps.tag t
  refine ⟨ops, r, fun ω _ w => ?_⟩
  have h2 : (t.serialize : Act TagErr ω Unit) = (do runOps ops; Act.lift r) := h1 ω
  rw [h2, Act.bind_apply]
  rcases runOps_cases ops w with ⟨w', h⟩ | ⟨done, op, rest, w₁, e1, e2, e3, e4⟩
  · exact .inl ⟨w', h, by rw [runOps_succeed h]; rfl⟩
  · refine .inr ⟨done, op, rest, w₁, e1, e2, fun h => by rw [h] at e3; simp [Res.isOk] at e3, ?_⟩
    rw [e4]
    rcases hc : call op w₁ with ⟨x | e | _ | _, w₂⟩
    · rw [hc] at e3; simp [Res.isOk] at e3
    · rfl
    · rfl
    · rfl

/-- A writer that records the calls it accepts and fails with `e` once it has accepted `left` of them. -/
structure Recorder where
  left : Nat
  calls : List WOp
  e : IoErr
  deriving DecidableEq

def Recorder.step (op : WOp) : Act IoErr Recorder Unit := fun r =>
  match r.left with
  | 0 => (.err r.e, r)
  | n + 1 => (.ok (), { r with left := n, calls := r.calls ++ [op] })

instance : Writer Recorder where
  write b := Recorder.step (.byte b)
  writeAll bs := Recorder.step (.all bs)

theorem recorder_succeed {ops : List WOp} {w w' : Recorder} (h : Succeed ops w w') :
    ops.length ≤ w.left ∧ w' = ⟨w.left - ops.length, w.calls ++ ops, w.e⟩ := by
  induction h with
  | nil => simp
  | @cons op ops w w₁ w' h1 _ ih =>
    have hc : call op w = Recorder.step op w := by cases op <;> rfl
    rw [hc] at h1
    obtain ⟨l, c, e⟩ := w
    cases l with
    | zero => simp [Recorder.step] at h1
    | succ n =>
      simp only [Recorder.step, Prod.mk.injEq, true_and] at h1
      subst h1
      obtain ⟨i1, i2⟩ := ih
      simp only at i1 i2
      refine ⟨by simp; omega, ?_⟩
      rw [i2]
      simp

/-- A payload that announces five bytes, writes one and then fails by itself. -/
structure HalfWay where

instance : TagPayload HalfWay where
  serializedSize _ := 5
  serialize _ := ([.byte 1], .err .unableToSerialize)
  deserialize p _ := .done (.ok ()) p

/-- Within a sequence it ends the serialization with its own error; a writer that fails before ends it with the writer's. -/
example :
    (.seq 22 [.atom (.payload 40 ⟨⟩), .atom (.null 0)] : Tag HalfWay).serialize (⟨9, [], .endOfData⟩ : Recorder) =
      (.err .unableToSerialize, ⟨4, [.byte 22, .byte 8, .byte 40, .byte 5, .byte 1], .endOfData⟩) ∧
    (.seq 22 [.atom (.payload 40 ⟨⟩), .atom (.null 0)] : Tag HalfWay).serialize (⟨3, [], .endOfData⟩ : Recorder) =
      (.err (.ioError .endOfData), ⟨0, [.byte 22, .byte 8, .byte 40], .endOfData⟩) := by decide +kernel

example := C69_any_tag (.seq 22 [.atom (.payload 40 ⟨⟩), .atom (.null 0)] : Tag HalfWay)

/-- **C69** Every failure point: a writer that fails with `e` at its `n`th call receives exactly the first `n` calls,
whose bytes are a prefix of the serialization, and the result is `IOError(e)`; a writer that fails later gets
everything. -/
theorem C69_every_failure_point [TagPayload P] (t : Tag P) (hm : MapsOk t) (hp : PayloadsOk t)
    (hl : (enc t).length < 2 ^ 64) :
    ∃ ops, opsBytes ops = enc t ∧ ∀ (n : Nat) (e : IoErr),
      t.serialize (⟨n, [], e⟩ : Recorder) =
        if ops.length ≤ n then (.ok (), ⟨n - ops.length, ops, e⟩) else (.err (.ioError e), ⟨0, ops.take n, e⟩) := by
  obtain ⟨ops, h1, h2⟩ := C69_stops_at_first_error t hm hp hl
  refine ⟨ops, h1, fun n e => ?_⟩
  rcases h2 Recorder ⟨n, [], e⟩ with ⟨w', hs, hr⟩ | ⟨done, op, rest, w₁, rfl, hs, hne, hr⟩
  · obtain ⟨h3, h4⟩ := recorder_succeed hs
    rw [hr, h4, if_pos h3]
    simp
  · obtain ⟨h3, h4⟩ := recorder_succeed hs
    subst h4
    simp only at h3
    have hc : ∀ w : Recorder, call op w = Recorder.step op w := by intro w; cases op <;> rfl
    have hz : n - done.length = 0 := by
      rcases Nat.eq_zero_or_pos (n - done.length) with h | h
      · exact h
      · obtain ⟨m, hm'⟩ := Nat.exists_eq_succ_of_ne_zero (Nat.pos_iff_ne_zero.mp h)
        rw [hc] at hne
        simp [Recorder.step, hm'] at hne
    rw [hr, hc, if_neg (by simp; omega)]
    have : n = done.length := by omega
    simp [Recorder.step, this, Res.mapErr]

example : sample.serialize (⟨3, [], .ioError .writeZero⟩ : Recorder) =
    (.err (.ioError (.ioError .writeZero)), ⟨0, [.byte 30, .byte 48, .byte 3], .ioError .writeZero⟩) := by
  decide +kernel

end Verif.Props
