import Verif.Props.Registry
/-!
# Values: fixed sizes, counts, shared encodings, unknown tags (C41, C42, C43, C51, C70)
-/
namespace Verif.Props
open Verif Verif.Spec
variable {P : Type}

/-! ### C51 -/

/-- The only value size a type accepts, for the types that accept just one. -/
def onlySize : Kind → Option Nat
  | .null => some 0
  | .bool | .int8 | .uint8 => some 1
  | .int16 | .uint16 => some 2
  | .int32 | .uint32 | .bin32 => some 4
  | .int64 | .uint64 | .bin64 => some 8
  | .bin128 | .version => some 16
  | _ => none

/-- **C51** Given any other size the result is `CorruptedData`, the reader has not been touched, and neither has the
tag. -/
theorem C51_only_size [TagPayload P] [Env] (t : Tag P) (n : Nat) (hk : onlySize t.kind = some n) (size : Nat)
    (hs : size ≠ n) (f : FactoryDeser P) {σ : Type} [Reader σ] (s : σ) :
    t.deserializeValue f size (t, s) = (.err .corruptedData, (t, s)) := by
  cases t with
  | atom a =>
    cases a <;> simp only [Tag.kind, Atom.kind, onlySize, Option.some.injEq, reduceCtorEq] at hk <;> subst hk <;>
      simp only [Tag.deserializeValue, zoom, Atom.deserializeValue, Act.bind_apply, Act.guardE, if_neg hs, Act.fail]
  | _ => simp [Tag.kind, onlySize] at hk

/-- **C51** So whatever id such a type is registered under, a factory refuses a header with another size, and no byte of
the value is read. -/
theorem C51_factory [TagPayload P] [Env] (e : Engine P) {σ : Type} [Reader σ] (s s' : σ) (id : UInt64) (size n : Nat)
    (t : Tag P) (hc : e.createTag id = .ok (some t)) (hk : onlySize t.kind = some n) (h : Header s id size s')
    (hs : size ≠ n) :
    Factory.deserialize e σ s = (.err (if size ≤ maxValue then .corruptedData else .tagTooLarge), s') := by
  by_cases hm : size ≤ maxValue
  · rw [deserialize_header e h hm, afterHeader_some _ _ _ hc, if_pos hm]
    unfold Factory.deserializeTagValueInto withLimited
    simp only [Act.bind_apply, C51_only_size t n hk size hs, Res.map]
  · rw [deserialize_too_large e h (by omega), if_neg hm]

/-- **C51** With the right size a boolean reads one byte; 0 and 1 are the only values it accepts. -/
theorem C51_bool [TagPayload P] [Env] (id : UInt64) (v : Bool) (f : FactoryDeser P) {σ : Type} [Reader σ] (s s' : σ)
    (b : Byte) (hb : Reader.read s = (.ok b, s')) :
    (Tag.atom (.bool id v)).deserializeValue f 1 ((Tag.atom (.bool id v)), s) =
      if b = 0 then (.ok (), (.atom (.bool id false), s'))
      else if b = 1 then (.ok (), (.atom (.bool id true), s'))
      else (.err .corruptedData, (.atom (.bool id v), s')) := by
  have h : (tagIo Data.readU8 : Act TagErr σ UInt8) s = (.ok b, s') := by
    simp only [tagIo, Act.mapErr_apply, Data.readU8, hb, Res.mapErr]
  have hg : (Act.guardE ((1 : Nat) = 1) .corruptedData : Act TagErr (Atom P × σ) Unit) (.bool id v, s)
      = (.ok (), (.bool id v, s)) := rfl
  have ho : (onReader (tagIo Data.readU8) : Act TagErr (Atom P × σ) UInt8) (.bool id v, s) = (.ok b, (.bool id v, s')) := by
    simp only [onReader, h]
  simp only [Tag.deserializeValue, zoom, Atom.deserializeValue, Act.bind_ok hg, Act.bind_ok ho]
  by_cases h0 : b = 0
  · rw [if_pos h0, if_pos h0]; rfl
  · rw [if_neg h0, if_neg h0]
    by_cases h1 : b = 1
    · rw [if_pos h1, if_pos h1]; rfl
    · rw [if_neg h1, if_neg h1]; rfl

example : Header (⟨[.ok 24, .ok 3, .ok 0]⟩ : Script) 24 3 ⟨[.ok 0]⟩ ∧
    (Engine.std true : Engine Empty).createTag 24 = .ok (some (.atom (.version 24 0 0 0 0))) ∧
    onlySize (Tag.atom (.version 24 0 0 0 0) : Tag Empty).kind = some 16 :=
  ⟨⟨⟨[.ok 3, .ok 0]⟩, rfl, .inr ⟨by decide, 3, rfl, rfl⟩⟩, rfl, rfl⟩
example : Reader.read (⟨[.ok 2, .ok 0]⟩ : Script) = (.ok 2, ⟨[.ok 0]⟩) := rfl

/-! ### C70 -/

/-- The number of elements of the tags that begin with a count of them. -/
def elements : Tag P → Option Nat
  | .atom (.ilintArray _ vs) => some vs.length
  | .atom (.oid _ vs) => some vs.length
  | .array _ ts => some ts.length
  | _ => none

/-- **C70** If the count read is larger than the value, the result is `CorruptedData`; nothing else was read, the tag
is untouched, and, as this holds whatever memory there is, none was reserved. -/
theorem C70_count_too_large [TagPayload P] (E : Env) (t : Tag P) (ht : (elements t).isSome) (f : FactoryDeser P) (size : Nat)
    {σ : Type} [Reader σ] (s : σ) (count : UInt64) (l : Limited σ)
    (hc : (Ser.deserializeILInt : Act TagErr (Limited σ) UInt64) ⟨s, size⟩ = (.ok count, l)) (hn : size < count.toNat) :
    t.deserializeValue f size (t, s) = (.err .corruptedData, (t, l.source)) := by
  have hc' : ∀ {τ : Type} (u : τ), (onReader Ser.deserializeILInt : Act TagErr (τ × Limited σ) UInt64) (u, ⟨s, size⟩) =
      (.ok count, (u, l)) := by
    intro τ u; simp only [onReader, hc]
  cases t with
  | atom a =>
    cases a <;> simp only [elements, Option.isSome_none, Bool.false_eq_true] at ht <;>
      simp only [Tag.deserializeValue, zoom, Atom.deserializeValue, Atom.deserializeILIntArray, withLimited,
        Act.bind_ok (hc' _), if_pos hn, Act.fail]
  | array id ts =>
    simp only [Tag.deserializeValue, zoom, Tag.deserializeArray, withLimited, Act.bind_ok (hc' _), if_pos hn, Act.fail]
  | _ => simp [elements] at ht

theorem pushILInts_length {σ : Type} [Reader σ] (n : Nat) (vs vs' : List UInt64) (s s' : σ)
    (h : Atom.pushILInts n (vs, s) = (.ok (), (vs', s'))) : vs'.length = vs.length + n := by
  induction n generalizing vs s with
  | zero => simp only [Atom.pushILInts, Act.pure_apply, Prod.mk.injEq, true_and] at h; obtain ⟨rfl, -⟩ := h; rfl
  | succ n ih =>
    simp only [Atom.pushILInts, Act.bind_apply, onReader] at h
    rcases hx : (Ser.deserializeILInt : Act TagErr σ UInt64) s with ⟨r, s₁⟩
    rw [hx] at h
    cases r with
    | ok v =>
      have := ih _ _ h
      simp only [List.length_append, List.length_cons, List.length_nil] at this
      omega
    | _ => simp at h

theorem pushTags_length {σ : Type} [Reader σ] (f : FactoryDeser P) (n : Nat) (vs vs' : List (Tag P)) (s s' : σ)
    (h : Tag.pushTags f n (vs, s) = (.ok (), (vs', s'))) : vs'.length = vs.length + n := by
  induction n generalizing vs s with
  | zero => simp only [Tag.pushTags, Act.pure_apply, Prod.mk.injEq, true_and] at h; obtain ⟨rfl, -⟩ := h; rfl
  | succ n ih =>
    simp only [Tag.pushTags, Act.bind_apply, onReader] at h
    rcases hx : f σ none s with ⟨r, s₁⟩
    rw [hx] at h
    cases r with
    | ok v =>
      have := ih _ _ h
      simp only [List.length_append, List.length_cons, List.length_nil] at this
      omega
    | _ => simp at h

theorem ilintArray_count [Env] {σ : Type} [Reader σ] (size : Nat) (vs vs' : List UInt64) (s s' : σ)
    (h : Atom.deserializeILIntArray size (vs, s) = (.ok (), (vs', s'))) : ∃ (count : UInt64) (l : Limited σ),
      (Ser.deserializeILInt : Act TagErr (Limited σ) UInt64) ⟨s, size⟩ = (.ok count, l) ∧ vs'.length = count.toNat ∧
      count.toNat ≤ size := by
  simp only [Atom.deserializeILIntArray, withLimited, Act.bind_apply, onReader] at h
  rcases hx : (Ser.deserializeILInt : Act TagErr (Limited σ) UInt64) ⟨s, size⟩ with ⟨r, l⟩
  rw [hx] at h
  cases r with
  | ok count =>
    refine ⟨count, l, rfl, ?_⟩
    simp only at h
    by_cases hc : count.toNat > size
    · simp [if_pos hc, Act.fail] at h
    · simp only [if_neg hc, Act.bind_apply, setSelf, Data.alloc] at h
      by_cases ha : 8 * count.toNat ≤ Env.allocMax
      · simp only [if_pos ha, Act.pure_apply] at h
        rcases hp : Atom.pushILInts count.toNat ([], l) with ⟨r2, vs2, l2⟩
        rw [hp] at h
        cases r2 with
        | ok u =>
          have := pushILInts_length _ _ _ _ _ hp
          simp only [ensureEmpty] at h
          split at h <;> simp only [Prod.mk.injEq, reduceCtorEq, false_and, true_and] at h
          obtain ⟨rfl, -⟩ := h
          exact ⟨by simpa using this, by omega⟩
        | _ => simp at h
      · simp [if_neg ha, Act.panic] at h
  | _ => simp at h

theorem array_count [TagPayload P] [Env] {σ : Type} [Reader σ] (f : FactoryDeser P) (size : Nat) (vs vs' : List (Tag P))
    (s s' : σ) (h : Tag.deserializeArray f size (vs, s) = (.ok (), (vs', s'))) : ∃ (count : UInt64) (l : Limited σ),
      (Ser.deserializeILInt : Act TagErr (Limited σ) UInt64) ⟨s, size⟩ = (.ok count, l) ∧ vs'.length = count.toNat ∧
      count.toNat ≤ size := by
  simp only [Tag.deserializeArray, withLimited, Act.bind_apply, onReader] at h
  rcases hx : (Ser.deserializeILInt : Act TagErr (Limited σ) UInt64) ⟨s, size⟩ with ⟨r, l⟩
  rw [hx] at h
  cases r with
  | ok count =>
    refine ⟨count, l, rfl, ?_⟩
    simp only at h
    by_cases hc : count.toNat > size
    · simp [if_pos hc, Act.fail] at h
    · simp only [if_neg hc, Act.bind_apply, setSelf, Data.alloc] at h
      by_cases ha : 16 * count.toNat ≤ Env.allocMax
      · simp only [if_pos ha, Act.pure_apply] at h
        rcases hp : Tag.pushTags f count.toNat ([], l) with ⟨r2, vs2, l2⟩
        rw [hp] at h
        cases r2 with
        | ok u =>
          have := pushTags_length _ _ _ _ _ _ hp
          simp only [ensureEmpty] at h
          split at h <;> simp only [Prod.mk.injEq, reduceCtorEq, false_and, true_and] at h
          obtain ⟨rfl, -⟩ := h
          exact ⟨by simpa using this, by omega⟩
        | _ => simp at h
      · simp [if_neg ha, Act.panic] at h
  | _ => simp at h

/-- **C70** On success exactly as many elements are stored as the count said, and no more than the size of the
value. -/
theorem C70_count_stored [TagPayload P] [Env] (t t' : Tag P) (ht : (elements t).isSome) (f : FactoryDeser P) (size : Nat)
    {σ : Type} [Reader σ] (s s' : σ) (h : t.deserializeValue f size (t, s) = (.ok (), (t', s'))) :
    ∃ (count : UInt64) (l : Limited σ),
      (Ser.deserializeILInt : Act TagErr (Limited σ) UInt64) ⟨s, size⟩ = (.ok count, l) ∧
      elements t' = some count.toNat ∧ count.toNat ≤ size := by
  cases t with
  | atom a =>
    cases a with
    | ilintArray id vs =>
      simp only [Tag.deserializeValue, zoom, Atom.deserializeValue] at h
      rcases hx : Atom.deserializeILIntArray size (vs, s) with ⟨r, vs', s₂⟩
      rw [hx] at h
      simp only [Prod.mk.injEq] at h
      obtain ⟨rfl, rfl, rfl⟩ := h
      obtain ⟨c, l, h1, h2, h3⟩ := ilintArray_count _ _ _ _ _ hx
      exact ⟨c, l, h1, congrArg some h2, h3⟩
    | oid id vs =>
      simp only [Tag.deserializeValue, zoom, Atom.deserializeValue] at h
      rcases hx : Atom.deserializeILIntArray size (vs, s) with ⟨r, vs', s₂⟩
      rw [hx] at h
      simp only [Prod.mk.injEq] at h
      obtain ⟨rfl, rfl, rfl⟩ := h
      obtain ⟨c, l, h1, h2, h3⟩ := ilintArray_count _ _ _ _ _ hx
      exact ⟨c, l, h1, congrArg some h2, h3⟩
    | _ => simp [elements] at ht
  | array id ts =>
    simp only [Tag.deserializeValue, zoom] at h
    rcases hx : Tag.deserializeArray f size (ts, s) with ⟨r, vs', s₂⟩
    rw [hx] at h
    simp only [Prod.mk.injEq] at h
    obtain ⟨rfl, rfl, rfl⟩ := h
    obtain ⟨c, l, h1, h2, h3⟩ := array_count _ _ _ _ _ _ hx
    exact ⟨c, l, h1, congrArg some h2, h3⟩
  | _ => simp [elements] at ht

example : (Ser.deserializeILInt : Act TagErr (Limited Script) UInt64) ⟨⟨[.ok 4, .ok 1, .ok 2, .ok 3]⟩, 3⟩
    = (.ok 4, ⟨⟨[.ok 1, .ok 2, .ok 3]⟩, 2⟩) := rfl
example : let o := (@Tag.deserializeValue Empty Script _ ⟨100⟩ _ Factory.untouchable 3 (.atom (.oid 25 [])) :
      Act TagErr (Tag Empty × Script) Unit) (.atom (.oid 25 []), ⟨[.ok 2, .ok 7, .ok 8]⟩)
    o.1.isOk = true ∧ elements o.2.1 = some 2 := by decide +kernel

/-! ### C41 -/

/-- **C41** Byte array, big integer and raw tags: the same reader, size and previous content give the same outcome,
the same reader afterwards and the same content. -/
theorem C41_bytes [TagPayload P] [Env] (id : UInt64) (v : Bytes) (f : FactoryDeser P) (size : Nat) {σ : Type} [Reader σ]
    (s : σ) : ∃ r v' s',
      (Tag.atom (.raw id v)).deserializeValue f size (.atom (.raw id v), s) = (r, (.atom (.raw id v'), s')) ∧
      (Tag.atom (.byteArray v)).deserializeValue f size (.atom (.byteArray v), s) = (r, (.atom (.byteArray v'), s')) ∧
      (Tag.atom (.bigInt v)).deserializeValue f size (.atom (.bigInt v), s) = (r, (.atom (.bigInt v'), s')) :=
  ⟨_, _, _, rfl, rfl, rfl⟩

/-- **C41** The same for ILInt array and OID tags. -/
theorem C41_ilints [TagPayload P] [Env] (id id' : UInt64) (v : List UInt64) (f : FactoryDeser P) (size : Nat) {σ : Type}
    [Reader σ] (s : σ) : ∃ r v' s',
      (Tag.atom (.ilintArray id v)).deserializeValue f size (.atom (.ilintArray id v), s)
        = (r, (.atom (.ilintArray id v'), s')) ∧
      (Tag.atom (.oid id' v)).deserializeValue f size (.atom (.oid id' v), s) = (r, (.atom (.oid id' v'), s')) :=
  ⟨_, _, _, rfl, rfl⟩

/-- Reading the value bytes of an atom through any well-behaved reader. -/
theorem atom_value_ok [TagPayload P] [Env] (hr : MemoryOk) {a₀ a : Atom P} (hk : a₀.kind = a.kind) (hid : a₀.id = a.id)
    (hp : a.kind ≠ .payload) (hm : MapOk (.atom a)) (hl : (encAtom a).length ≤ maxValue) (f : FactoryDeser P) {σ : Type}
    [Reader σ] (V : View σ) (s : σ) (rest : Bytes) (hR : V.R s (encAtom a ++ rest)) :
    ∃ s', (Tag.atom a₀).deserializeValue f (encAtom a).length (.atom a₀, s) = (.ok (), (canon (.atom a), s')) ∧
      V.R s' rest := by
  have h1 : Parser.tagValue (fun _ => Parser.fail .unknownTag) (encAtom a).length (.atom a₀) (encAtom a)
      = .ok (canon (.atom a)) [] := by
    refine atomValue_ok hr hk hid (.inl rfl) hl hm ?_
    intro id₀ p₀ id p _ h; subst h; exact absurd rfl hp
  obtain ⟨u, hu, h2⟩ := (Local.tagValue (fun _ => Local.fail _) _ _).ok h1
  rw [List.append_nil] at hu
  subst hu
  have hm := sim_tagValue (V := V) (f := fun _ _ _ => Act.fail .unknownTag) (pf := fun _ => Parser.fail .unknownTag)
    (fun _ _ _ _ => Sim.fail _) (encAtom a).length (.atom a₀) s _ hR
  rw [h2 rest] at hm
  obtain ⟨s', h3, h4⟩ := hm
  refine ⟨s', ?_, h4⟩
  rw [← h3]
  have hp₀ : a₀.kind ≠ .payload := by rw [hk]; exact hp
  simp only [Tag.deserializeValue, Atom.factory_free hp₀ f (fun _ _ _ => Act.fail .unknownTag)]

/-- **C41** The value bytes of any of the three types are read as either of the others with the same content. -/
theorem C41_bytes_exchanged [TagPayload P] [Env] (hr : MemoryOk) (x : Bytes) (hx : x.length ≤ maxValue) (id : UInt64)
    (a : Atom P) (ha : a ∈ [.raw id x, .byteArray x, .bigInt x]) (v : Bytes) (f : FactoryDeser P) {σ : Type} [Reader σ]
    (V : View σ) (s : σ) (rest : Bytes) (hR : V.R s (encAtom a ++ rest)) :
    (∃ s', (Tag.atom (.raw id v)).deserializeValue f (encAtom a).length (.atom (.raw id v), s)
      = (.ok (), (.atom (.raw id x), s')) ∧ V.R s' rest) ∧
    (∃ s', (Tag.atom (.byteArray v)).deserializeValue f (encAtom a).length (.atom (.byteArray v), s)
      = (.ok (), (.atom (.byteArray x), s')) ∧ V.R s' rest) ∧
    (∃ s', (Tag.atom (.bigInt v)).deserializeValue f (encAtom a).length (.atom (.bigInt v), s)
      = (.ok (), (.atom (.bigInt x), s')) ∧ V.R s' rest) := by
  have h : encAtom a = x := by
    simp only [List.mem_cons, List.not_mem_nil, or_false] at ha
    rcases ha with rfl | rfl | rfl <;> rfl
  rw [h] at hR ⊢
  exact ⟨atom_value_ok hr (a := .raw id x) (a₀ := .raw id v) rfl rfl (by simp [Atom.kind]) trivial hx f V s rest hR,
    atom_value_ok hr (a := .byteArray x) (a₀ := .byteArray v) rfl rfl (by simp [Atom.kind]) trivial hx f V s rest hR,
    atom_value_ok hr (a := .bigInt x) (a₀ := .bigInt v) rfl rfl (by simp [Atom.kind]) trivial hx f V s rest hR⟩

/-- **C41** The same for ILInt array and OID. -/
theorem C41_ilints_exchanged [TagPayload P] [Env] (hr : MemoryOk) (x : List UInt64) (hx : (encILInts x).length ≤ maxValue)
    (id id' : UInt64) (a : Atom P) (ha : a ∈ [.ilintArray id x, .oid id' x]) (v : List UInt64) (f : FactoryDeser P)
    {σ : Type} [Reader σ] (V : View σ) (s : σ) (rest : Bytes) (hR : V.R s (encAtom a ++ rest)) :
    (∃ s', (Tag.atom (.ilintArray id v)).deserializeValue f (encAtom a).length (.atom (.ilintArray id v), s)
      = (.ok (), (.atom (.ilintArray id x), s')) ∧ V.R s' rest) ∧
    (∃ s', (Tag.atom (.oid id' v)).deserializeValue f (encAtom a).length (.atom (.oid id' v), s)
      = (.ok (), (.atom (.oid id' x), s')) ∧ V.R s' rest) := by
  have h : encAtom a = encILInts x := by
    simp only [List.mem_cons, List.not_mem_nil, or_false] at ha
    rcases ha with rfl | rfl <;> rfl
  rw [h] at hR ⊢
  exact ⟨atom_value_ok hr (a := .ilintArray id x) (a₀ := .ilintArray id v) rfl rfl (by simp [Atom.kind]) trivial hx f V s
      rest hR,
    atom_value_ok hr (a := .oid id' x) (a₀ := .oid id' v) rfl rfl (by simp [Atom.kind]) trivial hx f V s rest hR⟩

example : (encILInts [1, 300, 18446744073709551615]).length ≤ maxValue := by decide +kernel
example : ByteArrayReader.view.toView.R (ByteArrayReader.new [1, 2, 3]) ([1, 2] ++ [3]) := ByteArrayReader.view_new _

/-! ### C42 -/

/-- **C42** Any history of registrations.  For an id with no creator a strict factory reports `UnknownTag`; so does a
factory that is not strict if the id is implicit.  This comes after the size has been checked. -/
theorem C42_unknown [TagPayload P] [Env] (strict : Bool) (h : List (Change P)) (id : UInt64) (hf : inForce h id = none)
    (hs : strict = true ∨ id.toNat ≤ 15) {σ : Type} [Reader σ] (s s' : σ) (size : Nat) (hh : Header s id size s') :
    Factory.deserialize (after strict h) σ s = (.err (if size ≤ maxValue then .unknownTag else .tagTooLarge), s') := by
  by_cases hm : size ≤ maxValue
  · have hc := C44_create strict h id
    rw [hf] at hc
    simp only at hc
    rw [if_neg (by rintro ⟨h1, h2⟩; rcases hs with hs | hs; · simp [h1] at hs
                   · omega)] at hc
    rw [deserialize_header _ hh hm, if_pos hm]
    unfold afterHeader
    simp only [Act.bind_apply, Act.lift, hc]
    rfl
  · rw [deserialize_too_large _ hh (by omega), if_neg hm]

/-- What a limited reader delivers at once is logged by the reader below it. -/
theorem limited_log {σ : Type} [Reader σ] {n : Nat} {l l' : Limited (Watched σ)} {v : Bytes}
    (h : Reader.readAll n l = (.ok v, l')) : l'.source.log = l.source.log ++ v := by
  have h' : Limited.readAll n l = (.ok v, l') := h
  unfold Limited.readAll Limited.canRead at h'
  by_cases hn : n > l.available
  · simp [if_pos hn] at h'
  · simp only [if_neg hn] at h'
    rcases hr : Reader.readAll n l.source with ⟨r, w₂⟩
    rw [hr] at h'
    simp only [Prod.mk.injEq] at h'
    obtain ⟨rfl, rfl⟩ := h'
    simp only [Reader.readAll, Watched.watch] at hr
    rcases hx : Reader.readAll n l.source.source with ⟨q, s₂⟩
    rw [hx] at hr
    cases q <;> simp only [Prod.mk.injEq, reduceCtorEq, false_and, Res.ok.injEq] at hr
    obtain ⟨rfl, rfl⟩ := hr
    rfl

/-- **C42** A factory that is not strict, on any reader, an explicit id with no creator: if a tag is returned it is a
raw tag with that id whose content is exactly the bytes delivered after the header, and these are as many as the header
declared. -/
theorem C42_raw [TagPayload P] [Env] (h : List (Change P)) (id : UInt64) (hf : inForce h id = none) (hi : 16 ≤ id.toNat)
    {σ : Type} [Reader σ] (w w' w'' : Watched σ) (size : Nat) (hh : Header w id size w') (t : Tag P)
    (ht : Factory.deserialize (after false h) (Watched σ) w = (.ok t, w'')) :
    ∃ v, t = .atom (.raw id v) ∧ v.length = size ∧ w''.log = w'.log ++ v := by
  have hc := C44_create false h id
  rw [hf] at hc
  simp only [true_and, if_pos hi] at hc
  by_cases hm : size ≤ maxValue
  · rw [deserialize_header _ hh hm, afterHeader_some _ _ _ hc] at ht
    have hd : ∀ l : Limited (Watched σ), l.source = w' → ∀ v₀ : Bytes, (deserializeBytesIntoVec size (v₀, l)).1 = .ok () →
        ∃ v l', deserializeBytesIntoVec size (v₀, l) = (.ok (), (v, l')) ∧ v.length = size ∧
          l'.source.log = w'.log ++ v := by
      intro l hl v₀ hok
      unfold deserializeBytesIntoVec at hok ⊢
      by_cases ha : 1 * size ≤ Env.allocMax
      · have h1 : (Data.alloc 1 size : Act TagErr (Bytes × Limited (Watched σ)) Unit) (v₀, l) = (.ok (), (v₀, l)) := by
          unfold Data.alloc; rw [if_pos ha]; rfl
        have h2 : (modifySelf (resizeZ · size) : Act TagErr (Bytes × Limited (Watched σ)) Unit) (v₀, l)
            = (.ok (), (resizeZ v₀ size, l)) := rfl
        rw [Act.bind_ok h1, Act.bind_ok h2] at hok ⊢
        rcases hr : Reader.readAll size l with ⟨r, l'⟩
        cases r with
        | ok v =>
          have h3 : (onReader (tagIo (Reader.readAll size)) : Act TagErr (Bytes × Limited (Watched σ)) Bytes)
              (resizeZ v₀ size, l) = (.ok v, (resizeZ v₀ size, l')) := by
            simp only [onReader, tagIo, Act.mapErr_apply, hr, Res.mapErr]
          rw [Act.bind_ok h3]
          exact ⟨v, l', rfl, Reader.readAll_len _ _ _ _ hr, by rw [← hl]; exact limited_log hr⟩
        | _ =>
          exfalso
          simp only [onReader, tagIo, Act.bind_apply, Act.mapErr_apply, hr, Res.mapErr, reduceCtorEq] at hok
      · exfalso
        have h1 : (Data.alloc 1 size : Act TagErr (Bytes × Limited (Watched σ)) Unit) (v₀, l) = (.panic, (v₀, l)) := by
          unfold Data.alloc; rw [if_neg ha]; rfl
        rw [Act.bind_panic h1] at hok
        simp at hok
    unfold Factory.deserializeTagValueInto withLimited at ht
    simp only [Act.bind_apply, Tag.deserializeValue, zoom, Atom.deserializeValue] at ht
    rcases ho : (deserializeBytesIntoVec size (([] : Bytes), (⟨w', size⟩ : Limited (Watched σ)))) with ⟨r, v, l⟩
    rw [ho] at ht
    cases r with
    | ok u =>
      obtain ⟨v', l', h1, h2, h3⟩ := hd ⟨w', size⟩ rfl [] (by rw [ho])
      rw [ho] at h1
      simp only [Prod.mk.injEq] at h1
      obtain ⟨_, rfl, rfl⟩ := h1
      simp only at ht
      unfold Factory.checkEmpty at ht
      split at ht
      · simp [Res.map] at ht
      · simp only [Res.map, Prod.mk.injEq, Res.ok.injEq] at ht
        obtain ⟨rfl, rfl⟩ := ht
        exact ⟨v, rfl, h2, h3⟩
    | _ => simp [Res.map] at ht
  · rw [deserialize_too_large _ hh (by omega)] at ht; simp at ht

/-- **C42** And it is returned: a factory that is not strict reads any value of an acceptable size under such an id, from
any well-behaved reader. -/
theorem C42_raw_accepted [TagPayload P] [Env] (hr : MemoryOk) (h : List (Change P)) (id : UInt64)
    (hf : inForce h id = none) (hi : 16 ≤ id.toNat) (v : Bytes) (hv : v.length ≤ maxValue) {σ : Type} [Reader σ]
    (V : View σ) (s : σ) (rest : Bytes) (hR : V.R s (ilint id.toNat ++ ilint v.length ++ v ++ rest)) :
    ∃ s', Factory.deserialize (after false h) σ s = (.ok (.atom (.raw id v)), s') ∧ V.R s' rest := by
  have hc := C44_create false h id
  rw [hf] at hc
  simp only [true_and, if_pos hi] at hc
  have hs : Supported (after false h) (.atom (.raw id v) : Tag P) := by
    intro u hu
    cases hu
    refine ⟨⟨_, hc, rfl, rfl, fun _ _ _ _ h => by simp at h⟩, hv, fun h => ?_⟩
    have : id.toNat ≤ 15 := h
    omega
  have hp := top_enc hr (after false h) (.atom (.raw id v) : Tag P) (fun u hu => by cases hu; trivial) hs rest
  rw [show enc (.atom (.raw id v) : Tag P) = ilint id.toNat ++ ilint v.length ++ v from by
    show wrap id v = _
    rw [wrap_explicit (by omega)]] at hp
  exact deserialize_ok_of_top V hR hp

example : inForce ([.register 50 (payloadCreator .mk), .deregister 50] : List (Change Lazy)) 50 = none := rfl
example : Header (⟨[.ok 50, .ok 3, .ok 0]⟩ : Script) 50 3 ⟨[.ok 0]⟩ :=
  ⟨⟨[.ok 3, .ok 0]⟩, rfl, .inr ⟨by decide, 3, rfl, rfl⟩⟩

/-! ### C43 -/

/-- **C43** A factory that is not strict, after any history, turns the serialization of any tag, of whatever type,
under an explicit id without creator into a raw tag, which serializes to the same bytes and has the same size. -/
theorem C43_unknown_preserved [TagPayload P] [Env] (hr : MemoryOk) (h : List (Change P)) (t : Tag P) (hm : MapsOk t)
    (hp : PayloadsOk t) (hf : inForce h t.id = none) (hi : 16 ≤ t.id.toNat) (hl : (encValue t).length ≤ maxValue)
    (bs : Bytes) (hb : t.toBytes = .ok bs) :
    ∃ u, Factory.fromBytes (after false h) bs = .ok u ∧ u.kind = .raw ∧ u.id = t.id ∧ u.toBytes = .ok bs ∧
      u.size = t.size := by
  have hlen : (enc t).length ≤ maxValue + 18 := by
    unfold enc
    rw [wrap_explicit (by omega)]
    have := ilint_le9 t.id.toNat
    have := ilint_le9 (encValue t).length
    simp only [List.length_append]; omega
  have h64 : (enc t).length < 2 ^ 64 := by unfold maxValue at hlen; omega
  have ha : (enc t).length ≤ Env.allocMax := by
    unfold MemoryOk at hr
    unfold maxValue at hlen hr; omega
  have hbs : bs = enc t := by
    rw [C29_to_bytes t hm hp h64 ha] at hb
    simp only [Res.ok.injEq] at hb
    exact hb.symm
  subst hbs
  have henc : enc (.atom (.raw t.id (encValue t)) : Tag P) = enc t := rfl
  have hmu : MapsOk (.atom (.raw t.id (encValue t)) : Tag P) := fun u hu => by cases hu; trivial
  have hpu : PayloadsOk (.atom (.raw t.id (encValue t)) : Tag P) := fun id p hw => by cases hw
  refine ⟨.atom (.raw t.id (encValue t)), ?_, rfl, rfl, ?_, ?_⟩
  · have hR : ByteArrayReader.view.toView.R (ByteArrayReader.new (enc t))
        (ilint t.id.toNat ++ ilint (encValue t).length ++ encValue t ++ []) := by
      have : enc t = ilint t.id.toNat ++ ilint (encValue t).length ++ encValue t ++ [] := by
        unfold enc; rw [wrap_explicit (by omega), List.append_nil]
      rw [← this]
      exact ByteArrayReader.view_new _
    obtain ⟨s', h1, h2⟩ := C42_raw_accepted hr h t.id hf hi (encValue t) hl ByteArrayReader.view.toView _ [] hR
    unfold Factory.fromBytes
    rw [h1]
    simp only [(ByteArrayReader.rest_eq_nil h2).mpr rfl, if_true]
  · have := C29_to_bytes _ hmu hpu (by rw [henc]; exact h64) (by rw [henc]; exact ha)
    rw [this]; rfl
  · rw [Tag.size_eq _ hpu (by rw [henc]; exact h64), Tag.size_eq _ hp h64, henc]

example : MapsOk sample ∧ PayloadsOk sample ∧ (16 : Nat) ≤ sample.id.toNat ∧ inForce ([] : List (Change Empty)) sample.id = none :=
  ⟨sample_maps, fun _ p _ => p.elim, by decide, rfl⟩

end Verif.Props
