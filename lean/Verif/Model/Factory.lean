import Verif.Model.Deser
/-!
# Creators, engine and standard factory

Models `src/tags/mod.rs` (creators, `ILTagCreatorEngine`, `ILTagFactory::from_bytes`) and
`src/tags/standard/factory/mod.rs`.
-/
namespace Verif

/-- The concrete tag types (`TypeId`).  All custom payload types share `payload`; `Model/PayloadTypes` tells them apart. -/
inductive Kind where
  | null | bool | int8 | uint8 | int16 | uint16 | int32 | uint32 | int64 | uint64 | bin32 | bin64 | bin128
  | ilint | signedILInt | raw | byteArray | string | bigInt | bigDec | ilintArray | range | version | oid
  | strDict | payload | seq | array | dict
  deriving Repr, DecidableEq

/-- `tag.as_any().type_id()`, /repo/src/tags/mod.rs:258,261, /repo/src/tags/macros.rs:58-64. -/
def Atom.kind {P : Type} : Atom P → Kind
  | .null _ => .null
  | .bool .. => .bool
  | .int8 .. => .int8
  | .uint8 .. => .uint8
  | .int16 .. => .int16
  | .uint16 .. => .uint16
  | .int32 .. => .int32
  | .uint32 .. => .uint32
  | .int64 .. => .int64
  | .uint64 .. => .uint64
  | .bin32 .. => .bin32
  | .bin64 .. => .bin64
  | .bin128 .. => .bin128
  | .ilint .. => .ilint
  | .signedILInt .. => .signedILInt
  | .raw .. => .raw
  | .byteArray .. => .byteArray
  | .string .. => .string
  | .bigInt .. => .bigInt
  | .bigDec .. => .bigDec
  | .ilintArray .. => .ilintArray
  | .range .. => .range
  | .version .. => .version
  | .oid .. => .oid
  | .strDict .. => .strDict
  | .payload .. => .payload

/-- `tag.as_any().type_id()`, /repo/src/tags/mod.rs:258,261, /repo/src/tags/macros.rs:58-64. -/
def Tag.kind {P : Type} : Tag P → Kind
  | .atom a => a.kind
  | .seq .. => .seq
  | .array .. => .array
  | .dict .. => .dict

/-- `ILRawTag::new`, /repo/src/tags/mod.rs:678-684: panics for an implicit id. -/
def newRaw {P : Type} (id : UInt64) : Res TagErr (Tag P) :=
  if isImplicitTag id then .panic else .ok (.atom (.raw id []))

/-- `T::with_id(id)` / `DefaultWithId::default_with_id(id)` for each tag type that has it: not `ILByteArrayTag`,
`ILBigIntTag` (no such constructor) and not payloads (see `payloadCreator`).
/repo/src/tags/mod.rs:435; /repo/src/tags/macros.rs:120-134; implicit/mod.rs:93-98,214-216,494-496; explicit/mod.rs:154-159,361-366,462-467,
569-574,646-650,723-729,821-823,946-950,1006-1011,1154-1159; tags/mod.rs:760-764. -/
def Kind.withId {P : Type} (id : UInt64) : Kind → Option (Res TagErr (Tag P))
  | .null => some (.ok (.atom (.null id)))
  | .bool => some (.ok (.atom (.bool id false)))
  | .int8 => some (.ok (.atom (.int8 id 0)))
  | .uint8 => some (.ok (.atom (.uint8 id 0)))
  | .int16 => some (.ok (.atom (.int16 id 0)))
  | .uint16 => some (.ok (.atom (.uint16 id 0)))
  | .int32 => some (.ok (.atom (.int32 id 0)))
  | .uint32 => some (.ok (.atom (.uint32 id 0)))
  | .int64 => some (.ok (.atom (.int64 id 0)))
  | .uint64 => some (.ok (.atom (.uint64 id 0)))
  | .bin32 => some (.ok (.atom (.bin32 id 0)))
  | .bin64 => some (.ok (.atom (.bin64 id 0)))
  | .bin128 => some (.ok (.atom (.bin128 id ⟨List.replicate 16 0, by simp⟩)))
  | .ilint => some (.ok (.atom (.ilint id 0)))
  | .signedILInt => some (.ok (.atom (.signedILInt id 0)))
  | .raw => some (newRaw id)
  | .byteArray => none
  | .string => some (.ok (.atom (.string id "")))
  | .bigInt => none
  | .bigDec => some (if isImplicitTag id then .panic else .ok (.atom (.bigDec id 0 [])))
  | .ilintArray => some (.ok (.atom (.ilintArray id [])))
  | .range => some (.ok (.atom (.range id 0 0)))
  | .version => some (.ok (.atom (.version id 0 0 0 0)))
  | .oid => some (.ok (.atom (.oid id [])))
  | .strDict => some (.ok (.atom (.strDict id [])))
  | .payload => none
  | .seq => some (.ok (.seq id []))
  | .array => some (.ok (.array id []))
  | .dict => some (.ok (.dict id []))

/-- The id used by `T::new()` for each tag type with a `Default`; `none` for `ILRawTag` and payloads. -/
def Kind.defaultId : Kind → Option UInt64
  | .null => some Id.null
  | .bool => some Id.bool
  | .int8 => some Id.int8
  | .uint8 => some Id.uint8
  | .int16 => some Id.int16
  | .uint16 => some Id.uint16
  | .int32 => some Id.int32
  | .uint32 => some Id.uint32
  | .int64 => some Id.int64
  | .uint64 => some Id.uint64
  | .bin32 => some Id.bin32
  | .bin64 => some Id.bin64
  | .bin128 => some Id.bin128
  | .ilint => some Id.ilint
  | .signedILInt => some Id.signedILInt
  | .raw => none
  | .byteArray => some Id.bytes
  | .string => some Id.string
  | .bigInt => some Id.bigInt
  | .bigDec => some Id.bigDec
  | .ilintArray => some Id.ilintArray
  | .range => some Id.range
  | .version => some Id.version
  | .oid => some Id.oid
  | .strDict => some Id.strDict
  | .payload => none
  | .seq => some Id.tagSeq
  | .array => some Id.tagArray
  | .dict => some Id.dict

/-- `T::default()` = `T::new()`. -/
def Kind.default {P : Type} : Kind → Option (Res TagErr (Tag P))
  | .byteArray => some (.ok (.atom (.byteArray [])))
  | .bigInt => some (.ok (.atom (.bigInt [])))
  | k => match k.defaultId with
    | some id => k.withId id
    | none => none

/-- `trait ILTagCreator`, /repo/src/tags/mod.rs:505-515: any function from ids to tags; it may panic. -/
def Creator (P : Type) : Type := UInt64 → Res TagErr (Tag P)

/-- `ILDefaultTagCreator<T>`, /repo/src/tags/mod.rs:522-547: panics if the default id is not the requested one.
`mk` is `T::default()`. -/
def defaultCreator {P : Type} (mk : Res TagErr (Tag P)) : Creator P := fun id =>
  match mk with
  | .ok t => if t.id = id then .ok t else .panic
  | r => r

/-- `ILDefaultTagCreator<T>` for the tag type `k`. -/
def defaultCreatorOf {P : Type} (k : Kind) : Creator P :=
  match k.default with
  | some mk => defaultCreator mk
  | none => fun _ => .panic                                        -- does not compile in Rust: no `Default`

/-- `ILDefaultWithIdTagCreator<T>` for the tag type `k`, /repo/src/tags/mod.rs:554-577. -/
def withIdCreatorOf {P : Type} (k : Kind) : Creator P := fun id =>
  match k.withId id with
  | some r => r
  | none => .panic                                                 -- does not compile in Rust: no `DefaultWithId`

/-- `ILDefaultWithIdTagCreator<ILGenericPayloadTag<T>>`, /repo/src/tags/payload/mod.rs:153-158,200-204, where `p`
is `T::default()`. -/
def payloadCreator {P : Type} (p : P) : Creator P := fun id => .ok (.atom (.payload id p))

/-- `struct ILTagCreatorEngine`, /repo/src/tags/mod.rs:585-588; `strict` is also an accessor,
/repo/src/tags/mod.rs:604-606. -/
structure Engine (P : Type) where
  creators : List (UInt64 × Creator P)
  strict : Bool

namespace Engine
variable {P : Type}

/-- `new`, /repo/src/tags/mod.rs:596-601. -/
def new (strict : Bool) : Engine P := ⟨[], strict⟩
/-- `register`, /repo/src/tags/mod.rs:617-623: returns the previous creator. -/
def register (e : Engine P) (id : UInt64) (c : Creator P) : Option (Creator P) × Engine P :=
  (HMap.get id e.creators, { e with creators := HMap.insert id c e.creators })
/-- `deregister`, /repo/src/tags/mod.rs:633-635. -/
def deregister (e : Engine P) (id : UInt64) : Option (Creator P) × Engine P :=
  (HMap.get id e.creators, { e with creators := HMap.remove id e.creators })
/-- `create_tag`, /repo/src/tags/mod.rs:646-657; the factory's own `create_tag` (/repo/src/tags/mod.rs:453,
/repo/src/tags/standard/factory/mod.rs:180-182) calls it. -/
def createTag (e : Engine P) (id : UInt64) : Res TagErr (Option (Tag P)) :=
  match HMap.get id e.creators with
  | some c => (c id).map some
  | none =>
    if !e.strict && !isImplicitTag id then (newRaw id).map some
    else .ok none

/-- `engine_register_macro!`, /repo/src/tags/standard/factory/mod.rs:68-75. -/
def registerDefault (e : Engine P) (id : UInt64) (k : Kind) : Engine P :=
  (e.register id (defaultCreatorOf k)).2

/-- `create_std_engine`, /repo/src/tags/standard/factory/mod.rs:87-119.  An `ILStandardTagFactory` is its engine:
`new` makes this one (/repo/src/tags/standard/factory/mod.rs:137-141) and `engine()` hands it out
(/repo/src/tags/standard/factory/mod.rs:148-150). -/
def std (strict : Bool) : Engine P :=
  (Engine.new strict)
    |>.registerDefault Id.null .null
    |>.registerDefault Id.bool .bool
    |>.registerDefault Id.int8 .int8
    |>.registerDefault Id.uint8 .uint8
    |>.registerDefault Id.int16 .int16
    |>.registerDefault Id.uint16 .uint16
    |>.registerDefault Id.int32 .int32
    |>.registerDefault Id.uint32 .uint32
    |>.registerDefault Id.int64 .int64
    |>.registerDefault Id.uint64 .uint64
    |>.registerDefault Id.ilint .ilint
    |>.registerDefault Id.bin32 .bin32
    |>.registerDefault Id.bin64 .bin64
    |>.registerDefault Id.bin128 .bin128
    |>.registerDefault Id.signedILInt .signedILInt
    |>.registerDefault Id.bytes .byteArray
    |>.registerDefault Id.string .string
    |>.registerDefault Id.bigInt .bigInt
    |>.registerDefault Id.bigDec .bigDec
    |>.registerDefault Id.ilintArray .ilintArray
    |>.registerDefault Id.tagArray .array
    |>.registerDefault Id.tagSeq .seq
    |>.registerDefault Id.range .range
    |>.registerDefault Id.version .version
    |>.registerDefault Id.oid .oid
    |>.registerDefault Id.dict .dict
    |>.registerDefault Id.strDict .strDict

end Engine

namespace Factory
variable {P : Type} [TagPayload P] [Env]

/-- `deserialize_tag_size`, /repo/src/tags/standard/factory/mod.rs:153-161. -/
def deserializeTagSize {σ : Type} [Reader σ] (id : UInt64) : Act TagErr σ Nat := do
  let size ← if isImplicitTag id then pure (implicitTagSize id) else Ser.deserializeILInt
  Act.lift (tagSizeToUsize size)

/-- The check after `deserialize_value`, /repo/src/tags/standard/factory/mod.rs:172-174. -/
def checkEmpty {σ : Type} : Act TagErr (Tag P × Limited σ) Unit := fun p =>
  if p.1.id ≠ Id.ilint ∧ p.1.id ≠ Id.signedILInt ∧ p.2.empty = false then (.err .corruptedData, p)
  else (.ok (), p)

/-- `deserialize_tag_value_into`, /repo/src/tags/standard/factory/mod.rs:164-176; `f` is `self`. -/
def deserializeTagValueInto (f : FactoryDeser P) {σ : Type} [Reader σ] (size : Nat) :
    Act TagErr (Tag P × σ) Unit :=
  withLimited size fun p => (do
    p.1.deserializeValue f size
    checkEmpty) p

/-- `ILStandardTagFactory::deserialize`, /repo/src/tags/standard/factory/mod.rs:184-193, and `deserialize_into`,
/repo/src/tags/standard/factory/mod.rs:195-203, with `fuel` levels of nesting. -/
def deserializeFuel (e : Engine P) : Nat → FactoryDeser P
  | 0 => fun _ _ _ => Act.diverge
  | fuel + 1 => fun σ _ target =>
    match target with
    | none => do
      let id ← Ser.deserializeILInt
      let size ← deserializeTagSize id
      let tag ← Act.lift (e.createTag id)
      match tag with
      | none => Act.fail .unknownTag
      | some tag => fun s =>
        match deserializeTagValueInto (deserializeFuel e fuel) size (tag, s) with
        | (r, (t, s')) => (r.map fun _ => t, s')
    | some tag => do
      let id ← Ser.deserializeILInt
      if id ≠ tag.id then Act.fail .unexpectedTagType
      else do
        let size ← deserializeTagSize id
        fun s =>
          match deserializeTagValueInto (deserializeFuel e fuel) size (tag, s) with
          | (r, (t, s')) => (r.map fun _ => t, s')

/-- Levels of nesting that always suffice: each level takes at least one byte of a value of at most
`MAX_TAG_SIZE` bytes (shown by `tag_agree_max`, Proof/Fuel.lean). -/
def fuel : Nat := maxTagSize + 2

/-- An `ILStandardTagFactory` as it is passed to `deserialize_value`. -/
def methods (e : Engine P) : FactoryDeser P := deserializeFuel e fuel

/-- `ILStandardTagFactory::deserialize`, /repo/src/tags/standard/factory/mod.rs:184-193. -/
def deserialize (e : Engine P) (σ : Type) [Reader σ] : Act TagErr σ (Tag P) := methods e σ none

/-- `ILStandardTagFactory::deserialize_into`, /repo/src/tags/mod.rs:477, /repo/src/tags/standard/factory/mod.rs:195-203. -/
def deserializeInto (e : Engine P) {σ : Type} [Reader σ] : Act TagErr (Tag P × σ) Unit := do
  let id ← onReader Ser.deserializeILInt
  let p ← Act.get
  if id ≠ p.1.id then Act.fail .unexpectedTagType
  else do
    let size ← onReader (deserializeTagSize id)
    deserializeTagValueInto (methods e) size

/-- `ILTagFactory::from_bytes`, /repo/src/tags/mod.rs:489-497. -/
def fromBytes (e : Engine P) (raw : Bytes) : Res TagErr (Tag P) :=
  match deserialize e ByteArrayReader (ByteArrayReader.new raw) with
  | (.ok t, r) => if r.available = 0 then .ok t else .err .corruptedData
  | (.err x, _) => .err x
  | (.panic, _) => .panic
  | (.diverge, _) => .diverge

/-- `UntouchbleTagFactory`, /repo/src/tags/util/mod.rs:146-173: all three methods panic (`create_tag` is not
called by `deserialize_value`). -/
def untouchable : FactoryDeser P := fun _ _ _ => Act.panic

end Factory
end Verif
