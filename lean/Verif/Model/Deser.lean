import Verif.Model.Tag
/-!
# Tag deserialization

Models `deserialize_value` of every tag type, the creators and engine of `src/tags/mod.rs`, and
`src/tags/standard/factory/mod.rs`.

`deserialize_value(&mut self, factory, value_size, reader)` is an action on the pair of the tag being filled
and the reader, so the tag left behind by a failing call is part of the result.
Simplification: when a `read_all` into a buffer owned by the tag fails, the buffer keeps its previous content
(in the code it may have been partly overwritten).
-/
namespace Verif

/-! ### Plumbing for the pair (tag, reader) -/
section
variable {ε τ τ' σ α : Type}

/-- A call on the reader. -/
def onReader (x : Act ε σ α) : Act ε (τ × σ) α := fun p =>
  match x p.2 with
  | (r, s) => (r, (p.1, s))

/-- `*self = t`. -/
def setSelf (t : τ) : Act ε (τ × σ) Unit := fun p => (.ok (), (t, p.2))

/-- `*self = f(*self)`. -/
def modifySelf (f : τ → τ) : Act ε (τ × σ) Unit := fun p => (.ok (), (f p.1, p.2))

/-- Works on a part `t` of `self`; `wrap` puts the part back. -/
def zoom (wrap : τ → τ') (t : τ) (x : Act ε (τ × σ) α) : Act ε (τ' × σ) α := fun p =>
  match x (t, p.2) with
  | (r, (t', s)) => (r, (wrap t', s))

/-- `let mut lreader = LimitedReader::new(reader, n)` around the rest of the function,
/repo/src/io/mod.rs:218-223. -/
def withLimited (n : Nat) (x : Act ε (τ × Limited σ) α) : Act ε (τ × σ) α := fun p =>
  match x (p.1, ⟨p.2, n⟩) with
  | (r, (t, l)) => (r, (t, l.source))

/-- `limited_reader_ensure_empty(&lreader, ErrorKind::CorruptedData)`, /repo/src/tags/util/mod.rs:126-132. -/
def ensureEmpty : Act TagErr (τ × Limited σ) Unit := fun p =>
  if p.2.empty then (.ok (), p) else (.err .corruptedData, p)

end

/-- `ILTagFactory::deserialize`, /repo/src/tags/mod.rs:462 (`none`), and `ILTagFactory::deserialize_into`,
/repo/src/tags/mod.rs:477 (`some t`; the result is `t` afterwards), for every type of reader. -/
def FactoryDeser (P : Type) : Type 1 := ∀ (σ : Type) [Reader σ], Option (Tag P) → Act TagErr σ (Tag P)

/-- `deserialize_string_tag_from_value`, explicit/mod.rs:277-310. -/
def deserializeStringTag [Env] {σ : Type} [Reader σ] : Act TagErr σ String := do
  let id ← Ser.deserializeILInt
  if id ≠ Id.string then Act.fail .corruptedData
  else do
    let len ← Ser.deserializeILInt
    let usizeLen ← Act.lift (tagSizeToUsize len)
    let tmp ← Ser.deserializeBytes usizeLen
    match fromUtf8 tmp with
    | some s => pure s
    | none => Act.fail .corruptedData

/-- `deserialize_string_tag_from_value_into`, explicit/mod.rs:277-295: the second component is `output`. -/
def deserializeStringTagInto [Env] {σ : Type} [Reader σ] : Act TagErr (String × σ) Unit := do
  let id ← onReader Ser.deserializeILInt
  if id ≠ Id.string then Act.fail .corruptedData
  else do
    let len ← onReader Ser.deserializeILInt
    let usizeLen ← Act.lift (tagSizeToUsize len)
    let tmp ← onReader (Ser.deserializeBytes usizeLen)
    match fromUtf8 tmp with
    | some s => setSelf s
    | none => Act.fail .corruptedData

/-- `deserialize_bytes_into_vec`, /repo/src/tags/serialization/mod.rs:205-208: `resize`, then `read_all`. -/
def deserializeBytesIntoVec [Env] {σ : Type} [Reader σ] (size : Nat) : Act TagErr (Bytes × σ) Unit := do
  Data.alloc 1 size
  modifySelf (resizeZ · size)
  let bs ← onReader (tagIo (Reader.readAll size))
  setSelf bs

/-- Runs the deserialization program of a payload. -/
def RProg.run {P σ : Type} [Reader σ] (f : FactoryDeser P) : RProg P → Act TagErr (P × σ) Unit
  | .done r p => fun q => (r, (p, q.2))
  | .read k => do
    let b ← onReader (tagIo Reader.read)
    RProg.run f (k b)
  | .readAll n k => do
    let bs ← onReader (tagIo (Reader.readAll n))
    RProg.run f (k bs)
  | .deser k => do
    let t ← onReader (f σ none)
    RProg.run f (k t)
  | .into t k => do
    let t ← onReader (f σ (some t))
    RProg.run f (k t)

namespace Atom
variable {P σ : Type} [Reader σ] [Env]

/-- `for _i in 0..count { self.value.push(lreader.deserialize_ilint()?) }`, explicit/mod.rs:538-540. -/
def pushILInts : Nat → Act TagErr (List UInt64 × σ) Unit
  | 0 => pure ()
  | n + 1 => do
    let v ← onReader Ser.deserializeILInt
    modifySelf (· ++ [v])
    pushILInts n

/-- `ILILIntArrayTag::deserialize_value`, explicit/mod.rs:525-542. -/
def deserializeILIntArray (valueSize : Nat) : Act TagErr (List UInt64 × σ) Unit :=
  withLimited valueSize do
    let count ← onReader Ser.deserializeILInt
    if count.toNat > valueSize then Act.fail .corruptedData
    else do
      setSelf []
      Data.alloc 8 count.toNat
      pushILInts count.toNat
      ensureEmpty

/-- The loop of `ILStrDictTag::deserialize_value`, explicit/mod.rs:1263-1268. -/
def insertStrEntries : Nat → Act TagErr (List (String × String) × σ) Unit
  | 0 => pure ()
  | n + 1 => do
    let k ← onReader deserializeStringTag
    let v ← onReader deserializeStringTag
    modifySelf (HMap.insert k v)
    insertStrEntries n

/-- `ILStrDictTag::deserialize_value`, explicit/mod.rs:1254-1270. -/
def deserializeStrDict (valueSize : Nat) : Act TagErr (List (String × String) × σ) Unit :=
  withLimited valueSize do
    let count ← onReader Ser.deserializeILInt
    setSelf []
    insertStrEntries count.toNat
    ensureEmpty

/-- `ILRangeTag::deserialize_value`, explicit/mod.rs:773-783. -/
def deserializeRange (valueSize : Nat) : Act TagErr ((UInt64 × UInt16) × σ) Unit :=
  withLimited valueSize do
    let start ← onReader Ser.deserializeILInt
    modifySelf (fun p => (start, p.2))
    let count ← onReader (tagIo Data.readU16)
    modifySelf (fun p => (p.1, count))
    ensureEmpty

/-- `ILTag::deserialize_value` (/repo/src/tags/mod.rs:250-255) of each type. -/
def deserializeValue [TagPayload P] (f : FactoryDeser P) (valueSize : Nat) :
    Atom P → Act TagErr (Atom P × σ) Unit
  | null _ =>                                                          -- implicit/mod.rs:230-240
    Act.guardE (valueSize = 0) .corruptedData
  | bool id _ => do                                                    -- implicit/mod.rs:269-286
    Act.guardE (valueSize = 1) .corruptedData
    let v ← onReader (tagIo Data.readU8)
    if v = 0 then setSelf (.bool id false)
    else if v = 1 then setSelf (.bool id true)
    else Act.fail .corruptedData
  | int8 id _ => do                                                    -- implicit/mod.rs:149-161 (all integers, bin32, bin64)
    Act.guardE (valueSize = 1) .corruptedData
    let v ← onReader (tagIo Data.readI8)
    setSelf (.int8 id v)
  | uint8 id _ => do
    Act.guardE (valueSize = 1) .corruptedData
    let v ← onReader (tagIo Data.readU8)
    setSelf (.uint8 id v)
  | int16 id _ => do
    Act.guardE (valueSize = 2) .corruptedData
    let v ← onReader (tagIo Data.readI16)
    setSelf (.int16 id v)
  | uint16 id _ => do
    Act.guardE (valueSize = 2) .corruptedData
    let v ← onReader (tagIo Data.readU16)
    setSelf (.uint16 id v)
  | int32 id _ => do
    Act.guardE (valueSize = 4) .corruptedData
    let v ← onReader (tagIo Data.readI32)
    setSelf (.int32 id v)
  | uint32 id _ => do
    Act.guardE (valueSize = 4) .corruptedData
    let v ← onReader (tagIo Data.readU32)
    setSelf (.uint32 id v)
  | int64 id _ => do
    Act.guardE (valueSize = 8) .corruptedData
    let v ← onReader (tagIo Data.readI64)
    setSelf (.int64 id v)
  | uint64 id _ => do
    Act.guardE (valueSize = 8) .corruptedData
    let v ← onReader (tagIo Data.readU64)
    setSelf (.uint64 id v)
  | bin32 id _ => do
    Act.guardE (valueSize = 4) .corruptedData
    let v ← onReader (tagIo Data.readF32)
    setSelf (.bin32 id v)
  | bin64 id _ => do
    Act.guardE (valueSize = 8) .corruptedData
    let v ← onReader (tagIo Data.readF64)
    setSelf (.bin64 id v)
  | bin128 id _ => do                                                  -- implicit/mod.rs:542-557
    Act.guardE (valueSize = 16) .corruptedData
    let v ← onReader (tagIo (Reader.readAll 16))
    if h : v.length = 16 then setSelf (.bin128 id ⟨v, h⟩)
    else Act.panic                                                     -- unreachable: `Reader.readAll_len`
  | ilint id _ => do                                                   -- implicit/mod.rs:590-598
    let v ← onReader Ser.deserializeILInt
    setSelf (.ilint id v)
  | signedILInt id _ => do                                             -- implicit/mod.rs:633-641
    let v ← onReader Ser.deserializeSignedILInt
    setSelf (.signedILInt id v)
  | raw id v => zoom (.raw id) v (deserializeBytesIntoVec valueSize)   -- tags/mod.rs:750-757
  | byteArray v => zoom .byteArray v (deserializeBytesIntoVec valueSize)   -- tags/macros.rs:194-201
  | string id _ => do                                                  -- explicit/mod.rs:214-228
    let tmp ← onReader (Ser.deserializeBytes valueSize)
    match fromUtf8 tmp with
    | some s => setSelf (.string id s)
    | none => Act.fail .corruptedData
  | bigInt v => zoom .bigInt v (deserializeBytesIntoVec valueSize)         -- tags/macros.rs:194-201
  | bigDec id _ v => do                                                -- explicit/mod.rs:422-434
    Act.guardE (4 ≤ valueSize) .corruptedData
    let scale ← onReader (tagIo Data.readI32)
    setSelf (.bigDec id scale v)
    zoom (.bigDec id scale) v (deserializeBytesIntoVec (valueSize - 4))
  | ilintArray id v => zoom (.ilintArray id) v (deserializeILIntArray valueSize)
  | range id start count =>
    zoom (fun p => .range id p.1 p.2) (start, count) (deserializeRange valueSize)
  | version id a b c d => do                                           -- explicit/mod.rs:905-918
    Act.guardE (valueSize = 16) .corruptedData
    let a' ← onReader (tagIo Data.readI32)
    setSelf (.version id a' b c d)
    let b' ← onReader (tagIo Data.readI32)
    setSelf (.version id a' b' c d)
    let c' ← onReader (tagIo Data.readI32)
    setSelf (.version id a' b' c' d)
    let d' ← onReader (tagIo Data.readI32)
    setSelf (.version id a' b' c' d')
  | oid id v => zoom (.oid id) v (deserializeILIntArray valueSize)       -- tags/macros.rs:194-201
  | strDict id es => zoom (.strDict id) es (deserializeStrDict valueSize)
  | payload id p =>                                                    -- payload/mod.rs:182-189
    zoom (.payload id) p (RProg.run f (TagPayload.deserialize p valueSize))

end Atom

namespace Tag
variable {P σ : Type} [Reader σ] [Env]

/-- `while !lreader.empty() { let t = factory.deserialize(&mut lreader)?; self.value.push(t); }`,
explicit/mod.rs:613-616.  The loop is given `fuel`; it cannot run out if every tag takes at least a byte. -/
def pushWhileNotEmpty (f : FactoryDeser P) : Nat → Act TagErr (List (Tag P) × Limited σ) Unit
  | 0 => Act.diverge
  | fuel + 1 => fun p =>
    if p.2.empty then (.ok (), p)
    else (do
      let t ← onReader (f (Limited σ) none)
      modifySelf (· ++ [t])
      pushWhileNotEmpty f fuel) p

/-- `ILTagSeqTag::deserialize_value`, explicit/mod.rs:605-618. -/
def deserializeSeq (f : FactoryDeser P) (valueSize : Nat) : Act TagErr (List (Tag P) × σ) Unit :=
  withLimited valueSize do
    setSelf []
    pushWhileNotEmpty f (valueSize + 1)

/-- `for _i in 0..count { self.inner.value.push(factory.deserialize(&mut lreader)?); }`,
explicit/mod.rs:690-692. -/
def pushTags (f : FactoryDeser P) : Nat → Act TagErr (List (Tag P) × σ) Unit
  | 0 => pure ()
  | n + 1 => do
    let t ← onReader (f σ none)
    modifySelf (· ++ [t])
    pushTags f n

/-- `ILTagArrayTag::deserialize_value`, explicit/mod.rs:676-694.  `Box<dyn ILTag>` takes 16 bytes. -/
def deserializeArray (f : FactoryDeser P) (valueSize : Nat) : Act TagErr (List (Tag P) × σ) Unit :=
  withLimited valueSize do
    let count ← onReader Ser.deserializeILInt
    if count.toNat > valueSize then Act.fail .corruptedData
    else do
      setSelf []
      Data.alloc 16 count.toNat
      pushTags f count.toNat
      ensureEmpty

/-- The loop of `ILDictTag::deserialize_value`, explicit/mod.rs:1115-1120. -/
def insertEntries (f : FactoryDeser P) : Nat → Act TagErr (List (String × Tag P) × σ) Unit
  | 0 => pure ()
  | n + 1 => do
    let k ← onReader deserializeStringTag
    let v ← onReader (f σ none)
    modifySelf (HMap.insert k v)
    insertEntries f n

/-- `ILDictTag::deserialize_value`, explicit/mod.rs:1106-1122. -/
def deserializeDict (f : FactoryDeser P) (valueSize : Nat) :
    Act TagErr (List (String × Tag P) × σ) Unit :=
  withLimited valueSize do
    let count ← onReader Ser.deserializeILInt
    setSelf []
    insertEntries f count.toNat
    ensureEmpty

/-- `ILTag::deserialize_value`. -/
def deserializeValue [TagPayload P] (f : FactoryDeser P) (valueSize : Nat) :
    Tag P → Act TagErr (Tag P × σ) Unit
  | .atom a => zoom .atom a (Atom.deserializeValue f valueSize a)
  | .seq id ts => zoom (.seq id) ts (deserializeSeq f valueSize)
  | .array id ts => zoom (.array id) ts (deserializeArray f valueSize)
  | .dict id es => zoom (.dict id) es (deserializeDict f valueSize)

end Tag
end Verif
