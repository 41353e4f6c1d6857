import Verif.Proof.TagInd
import Verif.Proof.Data
import Verif.Proof.Codec
import Verif.Proof.Zigzag
/-!
# Sizes and serialization of tags
-/
namespace Verif
open Spec
variable {P : Type}

/-! ### Sizes -/

theorem lenU64_toNat {n : Nat} (h : n < 2 ^ 64) : (lenU64 n).toNat = n := by
  unfold lenU64
  simp only [UInt64.toNat_ofNat']
  exact Nat.mod_eq_of_lt h

theorem ilSize_eq (v : UInt64) : ilSize v = UInt64.ofNat (ilint v.toNat).length := by
  unfold ilSize; rw [ILInt.encodedSize_eq_length]

theorem ilSize_len {n : Nat} (h : n < 2 ^ 64) : ilSize (lenU64 n) = UInt64.ofNat (ilint n).length := by
  rw [ilSize_eq, lenU64_toNat h]

theorem wrap_length (id : UInt64) (v : Bytes) :
    (wrap id v).length = (ilint id.toNat).length + (if id.toNat ≤ 15 then 0 else (ilint v.length).length) + v.length := by
  unfold wrap; split <;> simp <;> omega

theorem ilint_length_pos (v : Nat) : 1 ≤ (ilint v).length := by rw [ILInt.length_ilint]; omega

theorem isImplicit_iff (id : UInt64) : isImplicitTag id = true ↔ id.toNat ≤ 15 := by
  simp [isImplicitTag, UInt64.le_iff_toNat_le]

theorem sizeFrom_eq (id : UInt64) {value : Bytes} (h : value.length < 2 ^ 64) :
    sizeFrom id (lenU64 value.length) = UInt64.ofNat (wrap id value).length := by
  unfold sizeFrom
  rw [ilSize_len h, ilSize_eq, wrap_length]
  by_cases hi : id.toNat ≤ 15
  · rw [if_pos ((isImplicit_iff id).mpr hi), if_pos hi]
    simp [UInt64.ofNat_add, lenU64]
  · rw [if_neg (fun hc => hi ((isImplicit_iff id).mp hc)), if_neg hi]
    simp [UInt64.ofNat_add, lenU64]

theorem stringTag_length (s : String) :
    (stringTag s).length = 1 + (ilint (Spec.utf8 s).length).length + (Spec.utf8 s).length := by
  unfold stringTag
  rw [wrap_length]
  simp [ilint]

theorem stringTagSize_eq {s : String} (h : (Spec.utf8 s).length < 2 ^ 64) :
    stringTagSize s = UInt64.ofNat (stringTag s).length := by
  unfold stringTagSize
  rw [utf8_eq, ilSize_len h, stringTag_length]
  simp [UInt64.ofNat_add, lenU64]

theorem foldl_add_eq {α : Type} (f : α → UInt64) (g : α → Bytes) (l : List α) (a : Nat)
    (h : ∀ x ∈ l, f x = UInt64.ofNat (g x).length) :
    l.foldl (fun s x => s + f x) (UInt64.ofNat a) = UInt64.ofNat (a + (l.flatMap g).length) := by
  induction l generalizing a with
  | nil => simp
  | cons x l ih =>
    simp only [List.foldl_cons, List.flatMap_cons, List.length_append]
    rw [h x (by simp), ← UInt64.ofNat_add, ih _ (fun y hy => h y (by simp [hy])), Nat.add_assoc]

theorem ilintArraySize_eq {v : List UInt64} (h : v.length < 2 ^ 64) :
    Atom.ilintArraySize v = UInt64.ofNat (encILInts v).length := by
  unfold Atom.ilintArraySize encILInts
  rw [ilSize_len h, foldl_add_eq ilSize (fun v => ilint v.toNat) v _ (fun x _ => ilSize_eq x), List.length_append]

theorem perm_flatMap_length {α : Type} {l l' : List α} (h : l.Perm l') (g : α → Bytes) :
    (l.flatMap g).length = (l'.flatMap g).length := (h.flatMap_right g).length_eq

theorem encSorted_length (es : List (String × Bytes)) :
    (encSorted es).length = (es.flatMap fun e => stringTag e.1 ++ e.2).length :=
  perm_flatMap_length (sortByKey_perm es) _

theorem length_le_flatMap {α : Type} {l : List α} {g : α → Bytes} (h : ∀ x ∈ l, 1 ≤ (g x).length) :
    l.length ≤ (l.flatMap g).length := by
  induction l with
  | nil => simp
  | cons x l ih =>
    have := h x (by simp)
    have := ih (fun y hy => h y (by simp [hy]))
    simp only [List.flatMap_cons, List.length_append, List.length_cons]; omega

theorem mem_flatMap_length {α : Type} {l : List α} {g : α → Bytes} {x : α} (h : x ∈ l) :
    (g x).length ≤ (l.flatMap g).length := by
  induction l with
  | nil => simp at h
  | cons y l ih =>
    rcases List.mem_cons.mp h with rfl | h
    · simp only [List.flatMap_cons, List.length_append]; omega
    · have := ih h; simp only [List.flatMap_cons, List.length_append]; omega

theorem utf8_length_le (s : String) : (Spec.utf8 s).length ≤ (stringTag s).length := by
  rw [stringTag_length]; omega

theorem encILInts_count (v : List UInt64) : v.length ≤ (encILInts v).length := by
  have := length_le_flatMap (l := v) (g := fun v => ilint v.toNat) (fun x _ => ilint_length_pos _)
  unfold encILInts; simp only [List.length_append]; omega

theorem wrap_length_pos (id : UInt64) (v : Bytes) : 1 ≤ (wrap id v).length := by
  rw [wrap_length]; have := ilint_length_pos id.toNat; omega

theorem wrap_value_le (id : UInt64) (v : Bytes) : v.length + 1 ≤ (wrap id v).length := by
  rw [wrap_length]; have := ilint_length_pos id.toNat; omega

theorem enc_length_pos [TagPayload P] (t : Tag P) : 1 ≤ (enc t).length := wrap_length_pos _ _

theorem encSorted_count (es : List (String × Bytes)) : es.length ≤ (encSorted es).length := by
  rw [encSorted_length]
  exact length_le_flatMap (fun e _ => by have := wrap_length_pos 17 (Spec.utf8 e.1); simp [stringTag]; omega)

theorem encSorted_mem {es : List (String × Bytes)} {e : String × Bytes} (h : e ∈ es) :
    (stringTag e.1).length + e.2.length ≤ (encSorted es).length := by
  rw [encSorted_length]
  have := mem_flatMap_length (g := fun e : String × Bytes => stringTag e.1 ++ e.2) h
  simpa using this

theorem Atom.valueSize_eq [TagPayload P] (a : Atom P) (hp : ∀ id p, a = .payload id p → PayloadOk p)
    (hl : (encAtom a).length < 2 ^ 64) : a.valueSize = UInt64.ofNat (encAtom a).length := by
  cases a with
  | null id => rfl
  | bool id v => simp [valueSize, encAtom]
  | int8 id v => simp [valueSize, encAtom]
  | uint8 id v => simp [valueSize, encAtom]
  | int16 id v => simp [valueSize, encAtom]
  | uint16 id v => simp [valueSize, encAtom]
  | int32 id v => simp [valueSize, encAtom]
  | uint32 id v => simp [valueSize, encAtom]
  | int64 id v => simp [valueSize, encAtom]
  | uint64 id v => simp [valueSize, encAtom]
  | bin32 id v => simp [valueSize, encAtom]
  | bin64 id v => simp [valueSize, encAtom]
  | bin128 id v => simp [valueSize, encAtom, v.2]
  | ilint id v => simp [valueSize, encAtom, ilSize_eq]
  | signedILInt id v =>
    simp only [valueSize, encAtom, ILInt.signedEncodedSize, Spec.signedILInt]
    rw [ILInt.encodedSize_eq_length, ILInt.encodeSign_eq]
  | raw id v => rfl
  | byteArray v => rfl
  | string id s => simp only [valueSize, encAtom, utf8_eq]; rfl
  | bigInt v => rfl
  | bigDec id sc v => simp [valueSize, encAtom, lenU64, UInt64.ofNat_add]
  | ilintArray id v =>
    have := encILInts_count v
    exact ilintArraySize_eq (Nat.lt_of_le_of_lt this hl)
  | oid id v =>
    have := encILInts_count v
    exact ilintArraySize_eq (Nat.lt_of_le_of_lt this hl)
  | range id s c => simp [valueSize, encAtom, ILInt.encodedSize_eq_length]
  | version id a b c d => simp [valueSize, encAtom]
  | strDict id es =>
    simp only [valueSize, strDictSize, encAtom, List.length_append] at hl ⊢
    have h1 := encSorted_count (es.map fun e => (e.1, stringTag e.2))
    simp only [List.length_map] at h1
    rw [ilSize_len (by omega), show (0 : UInt64) = UInt64.ofNat 0 from rfl,
      foldl_add_eq (fun e : String × String => stringTagSize e.1 + stringTagSize e.2)
        (fun e => stringTag e.1 ++ stringTag e.2) es 0, encSorted_length, ← UInt64.ofNat_add]
    · simp [List.flatMap_map]
    · intro e he
      have h2 := encSorted_mem (es := es.map fun e => (e.1, stringTag e.2)) (e := (e.1, stringTag e.2))
        (List.mem_map.mpr ⟨e, he, rfl⟩)
      have h3 := utf8_length_le e.1
      have h4 := utf8_length_le e.2
      simp only at h2
      rw [stringTagSize_eq (by omega), stringTagSize_eq (by omega), ← UInt64.ofNat_add, List.length_append]
  | payload id p => simp only [valueSize, encAtom, (hp id p rfl).2]; rfl

theorem Tag.sizeSum_eq [TagPayload P] (ts : List (Tag P)) (a : UInt64) :
    Tag.sizeSum a ts = ts.foldl (fun s t => s + sizeFrom t.id t.valueSize) a := by
  induction ts generalizing a with
  | nil => simp [Tag.sizeSum]
  | cons t ts ih => simp [Tag.sizeSum, ih]

theorem Tag.entriesSum_eq [TagPayload P] (es : List (String × Tag P)) (a : UInt64) :
    Tag.entriesSum a es = es.foldl (fun s e => s + (stringTagSize e.1 + sizeFrom e.2.id e.2.valueSize)) a := by
  induction es generalizing a with
  | nil => simp [Tag.entriesSum]
  | cons e es ih => obtain ⟨k, t⟩ := e; simp [Tag.entriesSum, ih]

theorem encTags_mem [TagPayload P] {ts : List (Tag P)} {t : Tag P} (h : t ∈ ts) :
    (enc t).length ≤ (encTags ts).length := by
  rw [encTags_eq]; exact mem_flatMap_length h

theorem encTags_count [TagPayload P] (ts : List (Tag P)) : ts.length ≤ (encTags ts).length := by
  rw [encTags_eq]; exact length_le_flatMap (fun _ _ => enc_length_pos _)

theorem encValue_lt [TagPayload P] (t : Tag P) : (encValue t).length + 1 ≤ (enc t).length := wrap_value_le _ _

theorem encEntries_mem [TagPayload P] {es : List (String × Tag P)} {k : String} {t : Tag P} (h : (k, t) ∈ es) :
    (stringTag k).length + (enc t).length ≤ (encSorted (encEntries es)).length := by
  rw [encEntries_eq]
  exact encSorted_mem (e := (k, enc t)) (List.mem_map.mpr ⟨_, h, rfl⟩)

theorem encEntries_count [TagPayload P] (es : List (String × Tag P)) :
    es.length ≤ (encSorted (encEntries es)).length := by
  rw [encEntries_eq]
  have := encSorted_count (es.map fun e => (e.1, enc e.2))
  simpa using this

theorem Tag.valueSize_eq [TagPayload P] (t : Tag P) : PayloadsOk t → (encValue t).length < 2 ^ 64 →
    t.valueSize = UInt64.ofNat (encValue t).length := by
  have hsz : ∀ t : Tag P, (PayloadsOk t → (encValue t).length < 2 ^ 64 →
      t.valueSize = UInt64.ofNat (encValue t).length) → PayloadsOk t → (enc t).length < 2 ^ 64 →
      sizeFrom t.id t.valueSize = UInt64.ofNat (enc t).length := by
    intro t h hp hl
    have h1 := encValue_lt t
    rw [h hp (by omega)]
    exact sizeFrom_eq _ (by omega)
  have hlist : ∀ ts : List (Tag P), (∀ t ∈ ts, PayloadsOk t → (encValue t).length < 2 ^ 64 →
      t.valueSize = UInt64.ofNat (encValue t).length) → (∀ t ∈ ts, PayloadsOk t) → (encTags ts).length < 2 ^ 64 →
      Tag.sizeSum 0 ts = UInt64.ofNat (encTags ts).length := by
    intro ts ih hp hl
    rw [Tag.sizeSum_eq, show (0 : UInt64) = UInt64.ofNat 0 from rfl, foldl_add_eq _ enc, encTags_eq, Nat.zero_add]
    intro t ht
    have := encTags_mem ht
    exact hsz t (ih t ht) (hp t ht) (by omega)
  induction t using Tag.ind with
  | atom a =>
    intro hp hl
    exact Atom.valueSize_eq a (fun id p h => hp id p (by subst h; exact .refl _)) hl
  | seq id ts ih =>
    intro hp hl
    exact hlist ts ih (fun t ht => hp.of (within_seq ht)) hl
  | array id ts ih =>
    intro hp hl
    have h1 := encTags_count ts
    simp only [Tag.valueSize, encValue, List.length_append] at hl ⊢
    rw [hlist ts ih (fun t ht => hp.of (within_array ht)) (by omega), ilSize_len (by omega), ← UInt64.ofNat_add]
  | dict id es ih =>
    intro hp hl
    have h1 := encEntries_count es
    simp only [Tag.valueSize, encValue, List.length_append] at hl ⊢
    rw [ilSize_len (by omega), Tag.entriesSum_eq, show (0 : UInt64) = UInt64.ofNat 0 from rfl,
      foldl_add_eq _ (fun e : String × Tag P => stringTag e.1 ++ enc e.2), encSorted_length, ← UInt64.ofNat_add,
      encEntries_eq, List.flatMap_map]
    · simp
    · rintro ⟨k, t⟩ he
      have h2 := encEntries_mem he
      have h3 := utf8_length_le k
      simp only
      rw [stringTagSize_eq (by omega), hsz t (ih k t he) (hp.of (within_dict he)) (by omega), ← UInt64.ofNat_add,
        List.length_append]

theorem Tag.size_eq [TagPayload P] (t : Tag P) (hp : PayloadsOk t) (hl : (enc t).length < 2 ^ 64) :
    t.size = UInt64.ofNat (enc t).length := by
  have h1 := encValue_lt t
  unfold Tag.size
  rw [t.valueSize_eq hp (by omega)]
  exact sizeFrom_eq _ (by omega)

/-! ### Serialization as a list of writer calls -/

/-- `m` performs a fixed list of calls on any writer and then returns `r`; if `C` holds, `r` is a success and the
bytes written are `bs`. -/
def WritesIf (C : Prop) (m : ∀ (ω : Type) [Writer ω], Act TagErr ω Unit) (bs : Bytes) : Prop :=
  ∃ (ops : List WOp) (r : Res TagErr Unit),
    (∀ (ω : Type) [Writer ω], m ω = (do runOps ops; Act.lift r)) ∧ (C → r = .ok () ∧ opsBytes ops = bs)

theorem runOps_append {ω : Type} [Writer ω] (a b : List WOp) :
    (runOps (a ++ b) : Act TagErr ω Unit) = (do runOps a; runOps b) := by
  induction a with
  | nil => rfl
  | cons op ops ih => simp only [List.cons_append, runOps, ih, Act.bind_assoc]

theorem WritesIf.mono {C D : Prop} {m : ∀ (ω : Type) [Writer ω], Act TagErr ω Unit} {bs : Bytes} (hCD : D → C)
    (h : WritesIf C m bs) : WritesIf D m bs := by
  obtain ⟨ops, r, h1, h2⟩ := h
  exact ⟨ops, r, h1, fun hd => h2 (hCD hd)⟩

theorem WritesIf.bind {C : Prop} {m n : ∀ (ω : Type) [Writer ω], Act TagErr ω Unit} {bs cs : Bytes}
    (h : WritesIf C m bs) (h' : WritesIf C n cs) : WritesIf C (fun ω _ => do m ω; n ω) (bs ++ cs) := by
  obtain ⟨ops, r, h1, h2⟩ := h
  obtain ⟨ops', r', h1', h2'⟩ := h'
  cases r with
  | ok u =>
    refine ⟨ops ++ ops', r', fun ω _ => ?_, fun hc => ⟨(h2' hc).1, ?_⟩⟩
    · show (m ω >>= fun _ => n ω) = _
      rw [h1, h1', runOps_append]
      simp only [Act.bind_assoc]
      rfl
    · simp only [opsBytes, List.flatMap_append] at h2 h2' ⊢
      rw [(h2 hc).2, (h2' hc).2]
  | err e =>
    refine ⟨ops, .err e, fun ω _ => ?_, fun hc => ?_⟩
    · show (m ω >>= fun _ => n ω) = _
      rw [h1, Act.bind_assoc]; rfl
    · have := (h2 hc).1; simp at this
  | panic =>
    refine ⟨ops, .panic, fun ω _ => ?_, fun hc => ?_⟩
    · show (m ω >>= fun _ => n ω) = _
      rw [h1, Act.bind_assoc]; rfl
    · have := (h2 hc).1; simp at this
  | diverge =>
    refine ⟨ops, .diverge, fun ω _ => ?_, fun hc => ?_⟩
    · show (m ω >>= fun _ => n ω) = _
      rw [h1, Act.bind_assoc]; rfl
    · have := (h2 hc).1; simp at this

theorem WritesIf.cast {C : Prop} {m : ∀ (ω : Type) [Writer ω], Act TagErr ω Unit} {bs cs : Bytes}
    (h : WritesIf C m bs) (he : C → bs = cs) : WritesIf C m cs := by
  obtain ⟨ops, r, h1, h2⟩ := h
  exact ⟨ops, r, h1, fun hc => ⟨(h2 hc).1, (h2 hc).2.trans (he hc)⟩⟩

theorem WritesIf.nil {C : Prop} : WritesIf C (fun _ _ => pure ()) [] :=
  ⟨[], .ok (), fun _ _ => rfl, fun _ => ⟨rfl, rfl⟩⟩

theorem WritesIf.op {C : Prop} (op : WOp) : WritesIf C (fun _ _ => op.run) (opBytes op) :=
  ⟨[op], .ok (), fun ω _ => by
    simp only [runOps, Act.bind_assoc, Act.pure_bind]
    exact (Act.bind_pure _).symm, fun _ => ⟨rfl, by simp [opsBytes]⟩⟩

theorem WritesIf.all {C : Prop} (bs : Bytes) : WritesIf C (fun _ _ => tagIo (Writer.writeAll bs)) bs := WritesIf.op (.all bs)
theorem WritesIf.byte {C : Prop} (b : Byte) : WritesIf C (fun _ _ => tagIo (Writer.write b)) [b] := WritesIf.op (.byte b)

theorem serializeILInt_eq {ω : Type} [Writer ω] (v : UInt64) : (Ser.serializeILInt v : Act TagErr ω Unit) =
    if v.toNat < 248 then tagIo (Writer.write v.toUInt8) else tagIo (Writer.writeAll (ilint v.toNat)) := by
  funext w
  unfold Ser.serializeILInt Data.writeILInt tagIo
  rw [Act.mapErr_mapErr, Act.mapErr_apply, ILInt.encode_eq]
  split
  · simp only [Act.mapErr_apply]
    cases (Writer.write v.toUInt8 w).1 <;> rfl
  · simp only [Act.mapErr_apply]
    cases (Writer.writeAll (ilint v.toNat) w).1 <;> rfl

theorem WritesIf.ilint {C : Prop} (v : UInt64) : WritesIf C (fun _ _ => Ser.serializeILInt v) (Spec.ilint v.toNat) := by
  simp only [serializeILInt_eq]
  by_cases h : v.toNat < 248
  · simp only [h, if_true]
    rw [ilint_lt_248 h]
    have := WritesIf.byte (C := C) v.toUInt8
    rwa [show v.toUInt8 = UInt8.ofNat v.toNat by simp] at this ⊢
  · simp only [h, if_false]
    exact WritesIf.all _

theorem WritesIf.len {C : Prop} {n : Nat} (h : C → n < 2 ^ 64) :
    WritesIf C (fun _ _ => Ser.serializeILInt (lenU64 n)) (Spec.ilint n) :=
  (WritesIf.ilint (lenU64 n)).cast fun hc => by rw [lenU64_toNat (h hc)]

theorem WritesIf.signed {C : Prop} (v : Int64) :
    WritesIf C (fun _ _ => Ser.serializeSignedILInt v) (Spec.signedILInt v.toInt) := by
  have h : ∀ (ω : Type) [Writer ω], (Ser.serializeSignedILInt v : Act TagErr ω Unit)
      = Ser.serializeILInt (ILInt.encodeSign v) := fun _ _ => rfl
  simp only [h]
  exact (WritesIf.ilint _).cast fun _ => by rw [ILInt.encodeSign_eq]; rfl

theorem WritesIf.stringTag {C : Prop} {s : String} (h : C → (Spec.utf8 s).length < 2 ^ 64) :
    WritesIf C (fun _ _ => serializeStringTag s) (Spec.stringTag s) := by
  have h1 := (WritesIf.ilint (C := C) Id.string).bind ((WritesIf.len (n := (Verif.utf8 s).length)
    (C := C) (by rwa [utf8_eq])).bind (WritesIf.all (C := C) (Verif.utf8 s)))
  refine WritesIf.cast h1 fun _ => ?_
  rw [utf8_eq]
  rfl

theorem WritesIf.ilints {C : Prop} (vs : List UInt64) :
    WritesIf C (fun _ _ => Atom.serializeILInts vs) (vs.flatMap fun v => Spec.ilint v.toNat) := by
  induction vs with
  | nil => exact WritesIf.nil
  | cons v vs ih => exact (WritesIf.ilint v).bind ih

theorem WritesIf.ilintArray {C : Prop} {vs : List UInt64} (h : C → vs.length < 2 ^ 64) :
    WritesIf C (fun _ _ => Atom.serializeILIntArray vs) (encILInts vs) :=
  (WritesIf.len h).bind (WritesIf.ilints vs)

theorem WritesIf.word {C : Prop} (k n : Nat) : WritesIf C (fun _ _ => tagIo (Writer.writeAll (toBE k n))) (be k n) := by
  rw [toBE_eq_be]; exact WritesIf.all _

theorem sortKeys_eq {α : Type} (es : List (String × α)) : sortKeys (es.map (·.1)) = (sortByKey es).map (·.1) := by
  have hins : ∀ (e : String × α) (l : List (String × α)),
      insertKey e.1 (l.map (·.1)) = (insertByKey e l).map (·.1) := by
    intro e l
    induction l with
    | nil => rfl
    | cons x xs ih =>
      simp only [List.map_cons, insertKey, insertByKey, strLe, utf8_eq, decide_eq_true_eq]
      split <;> simp [ih]
  unfold sortKeys
  induction es with
  | nil => rfl
  | cons e es ih => simp only [List.map_cons, List.foldr_cons, sortByKey, ih, hins]

theorem get_sorted {α : Type} {es : List (String × α)} (hn : (es.map (·.1)).Nodup) :
    ∀ e ∈ sortByKey es, HMap.get e.1 es = some e.2 := by
  intro e he
  exact HMap.get_eq_some_of_mem hn (mem_sortByKey.mp he)

theorem WritesIf.strEntries {C : Prop} (es : List (String × String))
    (hC : C → ∀ e ∈ es, (Spec.utf8 e.1).length < 2 ^ 64 ∧ (Spec.utf8 e.2).length < 2 ^ 64)
    (l : List (String × String)) (hl : ∀ e ∈ l, HMap.get e.1 es = some e.2) :
    WritesIf C (fun _ _ => Atom.serializeStrEntries es (l.map (·.1)))
      (l.flatMap fun e => Spec.stringTag e.1 ++ Spec.stringTag e.2) := by
  induction l with
  | nil => exact WritesIf.nil
  | cons e l ih =>
    have hg := hl e (by simp)
    have hm := HMap.mem_of_get hg
    simp only [List.map_cons, Atom.serializeStrEntries, hg, List.flatMap_cons]
    rw [List.append_assoc]
    exact (WritesIf.stringTag fun hc => (hC hc _ hm).1).bind ((WritesIf.stringTag fun hc => (hC hc _ hm).2).bind
      (ih fun e' he' => hl e' (by simp [he'])))

theorem twos_eq_word {C : Prop} (v : Int32) :
    WritesIf C (fun _ _ => tagIo (Data.writeI32 v)) (be 4 (twos 4 v.toInt)) :=
  (WritesIf.word 4 v.toUInt32.toNat).cast fun _ => by rw [twos_int32]

theorem be_one (b : Byte) : be 1 b.toNat = [b] := by simp [be]

theorem Atom.writes [TagPayload P] (a : Atom P) (hm : MapOk (.atom a)) :
    WritesIf ((∀ id p, a = .payload id p → PayloadOk p) ∧ (encAtom a).length < 2 ^ 64)
      (fun _ _ => a.serializeValue) (encAtom a) := by
  cases a with
  | null id => exact WritesIf.nil
  | bool id v => exact WritesIf.byte _
  | int8 id v => exact (WritesIf.byte _).cast fun _ => by simp only [encAtom, ← twos_int8, be_one]
  | uint8 id v => exact (WritesIf.byte _).cast fun _ => by simp only [encAtom, be_one]
  | int16 id v => exact (WritesIf.word 2 v.toUInt16.toNat).cast fun _ => by simp only [encAtom, twos_int16]
  | uint16 id v => exact WritesIf.word _ _
  | int32 id v => exact twos_eq_word v
  | uint32 id v => exact WritesIf.word _ _
  | int64 id v => exact (WritesIf.word 8 v.toUInt64.toNat).cast fun _ => by simp only [encAtom, twos_int64]
  | uint64 id v => exact WritesIf.word _ _
  | bin32 id v => exact WritesIf.word _ _
  | bin64 id v => exact WritesIf.word _ _
  | bin128 id v => exact WritesIf.all _
  | ilint id v => exact WritesIf.ilint v
  | signedILInt id v => exact WritesIf.signed v
  | raw id v => exact WritesIf.all _
  | byteArray v => exact WritesIf.all _
  | string id s => exact (WritesIf.all (Verif.utf8 s)).cast fun _ => utf8_eq s
  | bigInt v => exact WritesIf.all _
  | bigDec id sc v => exact (twos_eq_word sc).bind (WritesIf.all v)
  | ilintArray id v => exact WritesIf.ilintArray fun h => Nat.lt_of_le_of_lt (encILInts_count v) h.2
  | oid id v => exact WritesIf.ilintArray fun h => Nat.lt_of_le_of_lt (encILInts_count v) h.2
  | range id s c => exact (WritesIf.ilint s).bind (WritesIf.word 2 c.toNat)
  | version id a b c d =>
    refine WritesIf.cast ((twos_eq_word a).bind ((twos_eq_word b).bind ((twos_eq_word c).bind (twos_eq_word d)))) ?_
    intro _
    simp only [encAtom, List.append_assoc]
  | strDict id es =>
    simp only [MapOk] at hm
    have h1 : (encAtom (.strDict id es : Atom P)).length < 2 ^ 64 → es.length < 2 ^ 64 := by
      intro h
      have h1 := encSorted_count (es.map fun e => (e.1, Spec.stringTag e.2))
      simp only [encAtom, List.length_append, List.length_map] at h h1
      omega
    have h2 : (encAtom (.strDict id es : Atom P)).length < 2 ^ 64 → ∀ e ∈ es, (Spec.utf8 e.1).length < 2 ^ 64 ∧
        (Spec.utf8 e.2).length < 2 ^ 64 := by
      intro h e he
      have h2 := encSorted_mem (es := es.map fun e => (e.1, Spec.stringTag e.2)) (e := (e.1, Spec.stringTag e.2))
        (List.mem_map.mpr ⟨e, he, rfl⟩)
      have h3 := utf8_length_le e.1
      have h4 := utf8_length_le e.2
      simp only [encAtom, List.length_append] at h h2
      omega
    simp only [Atom.serializeValue, sortKeys_eq]
    refine WritesIf.cast ((WritesIf.len fun h => h1 h.2).bind
      (WritesIf.strEntries es (fun h => h2 h.2) (sortByKey es) (get_sorted hm))) ?_
    intro _
    simp only [encAtom, encSorted, sortByKey_map, List.flatMap_map]
  | payload id p =>
    exact ⟨(TagPayload.serialize p).1, (TagPayload.serialize p).2, fun _ _ => rfl, fun h => ⟨(h.1 id p rfl).1, rfl⟩⟩

theorem WritesIf.serializeWith {C : Prop} {id vs : UInt64} {m : ∀ (ω : Type) [Writer ω], Act TagErr ω Unit}
    {bs : Bytes} (h : WritesIf C m bs) (hvs : C → vs.toNat = bs.length) :
    WritesIf C (fun ω _ => Tag.serializeWith id vs (m ω)) (wrap id bs) := by
  unfold Tag.serializeWith
  by_cases hi : id.toNat ≤ 15
  · have : isImplicitTag id = true := (isImplicit_iff id).mpr hi
    simp only [this, if_true]
    refine WritesIf.cast ((WritesIf.ilint id).bind h) fun _ => ?_
    simp [wrap, hi]
  · have : isImplicitTag id = false := by
      cases hh : isImplicitTag id with
      | false => rfl
      | true => exact absurd ((isImplicit_iff id).mp hh) hi
    simp only [this]
    refine WritesIf.cast ((WritesIf.ilint id).bind ((WritesIf.ilint vs).bind h)) fun hc => ?_
    simp [wrap, hi, hvs hc]

theorem Tag.entrySerializers_eq [TagPayload P] {ω : Type} [Writer ω] (es : List (String × Tag P)) :
    (Tag.entrySerializers es : List (String × Act TagErr ω Unit)) = es.map fun e => (e.1, e.2.serialize) := by
  induction es with
  | nil => simp [Tag.entrySerializers]
  | cons e es ih => obtain ⟨k, t⟩ := e; simp [Tag.entrySerializers, ih, Tag.serialize]

theorem WritesIf.entries [TagPayload P] {C : Prop} (es : List (String × Tag P))
    (h : ∀ k t, (k, t) ∈ es → WritesIf C (fun _ _ => t.serialize) (enc t))
    (hC : C → ∀ k t, (k, t) ∈ es → (Spec.utf8 k).length < 2 ^ 64)
    (l : List (String × Tag P)) (hl : ∀ e ∈ l, HMap.get e.1 es = some e.2) :
    WritesIf C (fun _ _ => Tag.serializeEntries (Tag.entrySerializers es) (l.map (·.1)))
      (l.flatMap fun e => Spec.stringTag e.1 ++ enc e.2) := by
  induction l with
  | nil => exact WritesIf.nil
  | cons e l ih =>
    have hg := hl e (by simp)
    have hm := HMap.mem_of_get hg
    have hg' : ∀ (ω : Type) [Writer ω], HMap.get e.1 (Tag.entrySerializers es : List (String × Act TagErr ω Unit))
        = some e.2.serialize := by
      intro ω _
      rw [Tag.entrySerializers_eq, HMap.get_map, hg]
      rfl
    simp only [List.map_cons, Tag.serializeEntries, hg', List.flatMap_cons]
    rw [List.append_assoc]
    exact (WritesIf.stringTag fun hc => hC hc _ _ hm).bind ((h _ _ hm).bind
      (ih fun e' he' => hl e' (by simp [he'])))

/-- What makes the serialization of a tag come out as specified. -/
def SerOk [TagPayload P] (t : Tag P) : Prop := PayloadsOk t ∧ (enc t).length < 2 ^ 64

theorem Tag.writesValue [TagPayload P] (t : Tag P) : MapsOk t →
    WritesIf (PayloadsOk t ∧ (encValue t).length < 2 ^ 64) (fun _ _ => t.serializeValue) (encValue t) := by
  have hser : ∀ t : Tag P, WritesIf (PayloadsOk t ∧ (encValue t).length < 2 ^ 64) (fun _ _ => t.serializeValue)
      (encValue t) → WritesIf (SerOk t) (fun _ _ => t.serialize) (enc t) := by
    intro t h
    have hlt : SerOk t → (encValue t).length < 2 ^ 64 := fun hc => by
      have := encValue_lt t; have := hc.2; omega
    refine WritesIf.serializeWith (h.mono fun hc => ⟨hc.1, hlt hc⟩) fun hc => ?_
    rw [t.valueSize_eq hc.1 (hlt hc)]
    exact lenU64_toNat (hlt hc)
  have hseq : ∀ (C : Prop) (ts : List (Tag P)), (∀ t ∈ ts, WritesIf C (fun _ _ => t.serialize) (enc t)) →
      WritesIf C (fun _ _ => Tag.serializeSeq ts) (encTags ts) := by
    intro C ts h
    induction ts with
    | nil => simp only [Tag.serializeSeq, encTags]; exact WritesIf.nil
    | cons t ts ih =>
      simp only [Tag.serializeSeq, encTags]
      exact (h t (by simp)).bind (ih fun u hu => h u (by simp [hu]))
  induction t using Tag.ind with
  | atom a =>
    intro hm
    simp only [Tag.serializeValue]
    refine WritesIf.mono ?_ (Atom.writes a hm.self)
    rintro ⟨hp, hl⟩
    exact ⟨fun id p h => hp id p (by subst h; exact .refl _), hl⟩
  | seq id ts ih =>
    intro hm
    simp only [Tag.serializeValue]
    refine hseq _ ts fun t ht => (hser t (ih t ht (hm.of (within_seq ht)))).mono ?_
    rintro ⟨hp, hl⟩
    exact ⟨hp.of (within_seq ht), Nat.lt_of_le_of_lt (encTags_mem ht) hl⟩
  | array id ts ih =>
    intro hm
    simp only [Tag.serializeValue]
    refine (WritesIf.len fun hc => ?_).bind
      (hseq _ ts fun t ht => (hser t (ih t ht (hm.of (within_array ht)))).mono ?_)
    · have := encTags_count ts
      have := hc.2
      simp only [encValue, List.length_append] at this
      omega
    · rintro ⟨hp, hl⟩
      refine ⟨hp.of (within_array ht), ?_⟩
      have := encTags_mem ht
      simp only [encValue, List.length_append] at hl
      omega
  | dict id es ih =>
    intro hm
    have hn : (es.map (·.1)).Nodup := hm.self
    simp only [Tag.serializeValue, sortKeys_eq]
    refine WritesIf.cast ((WritesIf.len fun hc => ?_).bind (WritesIf.entries es (fun k t ht =>
      (hser t (ih k t ht (hm.of (within_dict ht)))).mono ?_) ?_ (sortByKey es) (get_sorted hn))) fun _ => ?_
    · have := encEntries_count es
      have := hc.2
      simp only [encValue, List.length_append] at this
      omega
    · rintro ⟨hp, hl⟩
      refine ⟨hp.of (within_dict ht), ?_⟩
      have := encEntries_mem ht
      simp only [encValue, List.length_append] at hl
      omega
    · rintro ⟨hp, hl⟩ k t ht
      have := encEntries_mem ht
      have := utf8_length_le k
      simp only [encValue, List.length_append] at hl
      omega
    · simp only [encValue, encSorted, encEntries_eq, sortByKey_map, List.flatMap_map]

theorem Tag.writes [TagPayload P] (t : Tag P) (hm : MapsOk t) :
    WritesIf (SerOk t) (fun _ _ => t.serialize) (enc t) := by
  have hlt : SerOk t → (encValue t).length < 2 ^ 64 := fun hc => by
    have := encValue_lt t; have := hc.2; omega
  refine WritesIf.serializeWith ((t.writesValue hm).mono fun hc => ⟨hc.1, hlt hc⟩) fun hc => ?_
  rw [t.valueSize_eq hc.1 (hlt hc)]
  exact lenU64_toNat (hlt hc)

end Verif
