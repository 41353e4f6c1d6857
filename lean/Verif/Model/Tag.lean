import Verif.Model.Data
import Verif.Model.Array
/-!
# Tag types: sizes and serialization

Models `src/tags/mod.rs` (trait `ILTag`, `ILRawTag`), `src/tags/standard/implicit/mod.rs`,
`src/tags/standard/explicit/mod.rs` and `src/tags/payload/mod.rs` (value and serialization side).

`Box<dyn ILTag>` is the inductive type `Tag P`: all tag types of the crate, plus `payload id p` for
`ILGenericPayloadTag<T>` where the type parameter `P` gathers all user payload types.
-/
namespace Verif

/-- `MAX_TAG_SIZE`, /repo/src/tags/mod.rs:84. -/
def maxTagSize : Nat := 1024 * 1024 * 512

/-- `is_implicit_tag`, /repo/src/tags/mod.rs:117,132-134, and the method `is_implicity`,
/repo/src/tags/mod.rs:185-187. -/
def isImplicitTag (id : UInt64) : Bool := decide (id ≤ 0x0F)
/-- `is_reserved_tag`, /repo/src/tags/mod.rs:120,146-148, and the method `is_reserved`, /repo/src/tags/mod.rs:190-192. -/
def isReservedTag (id : UInt64) : Bool := decide (id ≤ 0x1F)
/-- `tag_size_to_usize`, /repo/src/tags/mod.rs:163-169. -/
def tagSizeToUsize (size : UInt64) : Res TagErr Nat :=
  if size.toNat > maxTagSize then .err .tagTooLarge else .ok size.toNat

/-! Standard ids, /repo/src/tags/standard/constants.rs:35-115. -/
namespace Id
def null : UInt64 := 0
def bool : UInt64 := 1
def int8 : UInt64 := 2
def uint8 : UInt64 := 3
def int16 : UInt64 := 4
def uint16 : UInt64 := 5
def int32 : UInt64 := 6
def uint32 : UInt64 := 7
def int64 : UInt64 := 8
def uint64 : UInt64 := 9
def ilint : UInt64 := 10
def bin32 : UInt64 := 11
def bin64 : UInt64 := 12
def bin128 : UInt64 := 13
def signedILInt : UInt64 := 14
def bytes : UInt64 := 16
def string : UInt64 := 17
def bigInt : UInt64 := 18
def bigDec : UInt64 := 19
def ilintArray : UInt64 := 20
def tagArray : UInt64 := 21
def tagSeq : UInt64 := 22
def range : UInt64 := 23
def version : UInt64 := 24
def oid : UInt64 := 25
def dict : UInt64 := 30
def strDict : UInt64 := 31
end Id

/-- `implicit_tag_size`, /repo/src/tags/standard/implicit/mod.rs:178-197. -/
def implicitTagSize (id : UInt64) : UInt64 :=
  if id = Id.null then 0
  else if id = Id.bool then 1
  else if id = Id.int8 then 1
  else if id = Id.uint8 then 1
  else if id = Id.int16 then 2
  else if id = Id.uint16 then 2
  else if id = Id.int32 then 4
  else if id = Id.uint32 then 4
  else if id = Id.int64 then 8
  else if id = Id.uint64 then 8
  else if id = Id.ilint then 9
  else if id = Id.bin32 then 4
  else if id = Id.bin64 then 8
  else if id = Id.bin128 then 16
  else if id = Id.signedILInt then 9
  else 0

/-- Tags that hold no other tags.  `byteArray` and `bigInt` have no id field: their id is fixed
(/repo/src/tags/standard/explicit/mod.rs:106-130,318-332).  Floats are bit patterns. -/
inductive Atom (P : Type) where
  /-- `ILNullTag`, implicit/mod.rs:205-243 -/
  | null (id : UInt64)
  /-- `ILBoolTag`, implicit/mod.rs:251-289 -/
  | bool (id : UInt64) (value : Bool)
  /-- `ILInt8Tag`, implicit/mod.rs:297-306 -/
  | int8 (id : UInt64) (value : Int8)
  /-- `ILUInt8Tag`, implicit/mod.rs:314-323 -/
  | uint8 (id : UInt64) (value : UInt8)
  /-- `ILInt16Tag`, implicit/mod.rs:331-340 -/
  | int16 (id : UInt64) (value : Int16)
  /-- `ILUInt16Tag`, implicit/mod.rs:348-357 -/
  | uint16 (id : UInt64) (value : UInt16)
  /-- `ILInt32Tag`, implicit/mod.rs:365-374 -/
  | int32 (id : UInt64) (value : Int32)
  /-- `ILUInt32Tag`, implicit/mod.rs:382-391 -/
  | uint32 (id : UInt64) (value : UInt32)
  /-- `ILInt64Tag`, implicit/mod.rs:399-408 -/
  | int64 (id : UInt64) (value : Int64)
  /-- `ILUInt64Tag`, implicit/mod.rs:416-425 -/
  | uint64 (id : UInt64) (value : UInt64)
  /-- `ILBin32Tag`, implicit/mod.rs:433-442 -/
  | bin32 (id : UInt64) (bits : UInt32)
  /-- `ILBin64Tag`, implicit/mod.rs:450-459 -/
  | bin64 (id : UInt64) (bits : UInt64)
  /-- `ILBin128Tag`, implicit/mod.rs:469-560; the array `[u8; 16]` as a vector of length 16 -/
  | bin128 (id : UInt64) (value : { v : Bytes // v.length = 16 })
  /-- `ILILInt64Tag`, implicit/mod.rs:569-601 -/
  | ilint (id : UInt64) (value : UInt64)
  /-- `ILSignedILInt64Tag`, implicit/mod.rs:612-644 -/
  | signedILInt (id : UInt64) (value : Int64)
  /-- `ILRawTag`, /repo/src/tags/mod.rs:665-764 -/
  | raw (id : UInt64) (value : Bytes)
  /-- `ILByteArrayTag`, explicit/mod.rs:70-98,106-130 -/
  | byteArray (value : Bytes)
  /-- `ILStringTag`, explicit/mod.rs:138-231 -/
  | string (id : UInt64) (value : String)
  /-- `ILBigIntTag`, explicit/mod.rs:318-332 -/
  | bigInt (value : Bytes)
  /-- `ILBigDecTag`, explicit/mod.rs:342-437 -/
  | bigDec (id : UInt64) (scale : Int32) (value : Bytes)
  /-- `ILILIntArrayTag`, explicit/mod.rs:446-545 -/
  | ilintArray (id : UInt64) (value : List UInt64)
  /-- `ILRangeTag`, explicit/mod.rs:706-786 -/
  | range (id : UInt64) (start : UInt64) (count : UInt16)
  /-- `ILVersionTag`, explicit/mod.rs:796-921; the array `[i32; 4]` -/
  | version (id : UInt64) (major minor revision build : Int32)
  /-- `ILOIDTag`, explicit/mod.rs:931-978 -/
  | oid (id : UInt64) (value : List UInt64)
  /-- `ILStrDictTag`, explicit/mod.rs:1138-1273; the `HashMap` is the list of its entries in iteration order -/
  | strDict (id : UInt64) (value : List (String × String))
  /-- `ILGenericPayloadTag`, /repo/src/tags/payload/mod.rs:147-219 -/
  | payload (id : UInt64) (p : P)

/-- Any tag.  The `HashMap` of `ILDictTag` is the list of its entries in iteration order. -/
inductive Tag (P : Type) where
  | atom (a : Atom P)
  /-- `ILTagSeqTag`, explicit/mod.rs:553-621 -/
  | seq (id : UInt64) (value : List (Tag P))
  /-- `ILTagArrayTag`, explicit/mod.rs:631-697 -/
  | array (id : UInt64) (value : List (Tag P))
  /-- `ILDictTag`, explicit/mod.rs:990-1125 -/
  | dict (id : UInt64) (value : List (String × Tag P))

/-- One call on a `Writer`. -/
inductive WOp where
  | byte (b : Byte)
  | all (bs : Bytes)
  deriving Repr, DecidableEq

/-- A call on a `Writer`, with the error converted by `From`. -/
def WOp.run {ω : Type} [Writer ω] : WOp → Act TagErr ω Unit
  | .byte b => tagIo (Writer.write b)
  | .all bs => tagIo (Writer.writeAll bs)

/-- Performs the calls in order, stopping at the first error. -/
def runOps {ω : Type} [Writer ω] : List WOp → Act TagErr ω Unit
  | [] => pure ()
  | op :: ops => do op.run; runOps ops

/-- Deserialization code of a payload: an adaptive program of calls on the reader and the factory.
`deser` is `factory.deserialize(reader)?`, `into` is `factory.deserialize_into(reader, &mut t)?` on a tag `t` of the
program's choice.  Simplification: a failing call is always propagated with `?`, leaving `self` as it was, and
`factory.create_tag` is not called; for the reader's `skip` see `Model/PayloadSkip`.  `self` is the payload after the call. -/
inductive RProg (P : Type) where
  | done (r : Res TagErr Unit) (self : P)
  | read (k : Byte → RProg P)
  | readAll (n : Nat) (k : Bytes → RProg P)
  | deser (k : Tag P → RProg P)
  | into (t : Tag P) (k : Tag P → RProg P)

/-- `trait ILTagPayload`, /repo/src/tags/payload/mod.rs:50-88.  `serialize` performs the given writer calls and,
if they all succeed, returns the given result. -/
class TagPayload (P : Type) where
  serializedSize : P → Nat
  serialize : P → List WOp × Res TagErr Unit
  deserialize : P → Nat → RProg P

/-- No custom payloads. -/
instance : TagPayload Empty where
  serializedSize := nofun
  serialize := nofun
  deserialize := nofun

/-! ### HashMap operations on entry lists -/
namespace HMap
variable {K V : Type} [DecidableEq K]

/-- `HashMap::get`. -/
def get (k : K) : List (K × V) → Option V
  | [] => none
  | (k', v) :: es => if k' = k then some v else get k es

/-- `HashMap::insert`: replaces the value of an existing key, otherwise adds the entry. -/
def insert (k : K) (v : V) : List (K × V) → List (K × V)
  | [] => [(k, v)]
  | (k', v') :: es => if k' = k then (k', v) :: es else (k', v') :: insert k v es

/-- `HashMap::remove`. -/
def remove (k : K) : List (K × V) → List (K × V)
  | [] => []
  | (k', v') :: es => if k' = k then es else (k', v') :: remove k es

end HMap

/-- `Ord for str`: bytewise lexicographic order. -/
def strLe (a b : String) : Bool := decide (utf8 a ≤ utf8 b)

/-- One step of sorting: puts a key in its place. -/
def insertKey (k : String) : List String → List String
  | [] => [k]
  | x :: xs => if strLe k x then k :: x :: xs else x :: insertKey k xs

/-- `keys.sort_unstable()`, explicit/mod.rs:1089-1093,1237-1241.  The keys of a map are distinct, so every correct
sorting algorithm gives the same result as this insertion sort. -/
def sortKeys (keys : List String) : List String := keys.foldr insertKey []

/-- `s.len() as u64` for vectors and strings. -/
def lenU64 (n : Nat) : UInt64 := UInt64.ofNat n

/-- `encoded_size(v) as u64`. -/
def ilSize (v : UInt64) : UInt64 := UInt64.ofNat (ILInt.encodedSize v)

/-- `string_tag_size_from_value`, explicit/mod.rs:241-244. -/
def stringTagSize (s : String) : UInt64 := 1 + ilSize (lenU64 (utf8 s).length) + lenU64 (utf8 s).length

/-- `serialize_string_tag_from_value`, explicit/mod.rs:256-262. -/
def serializeStringTag {ω : Type} [Writer ω] (s : String) : Act TagErr ω Unit := do
  Ser.serializeILInt Id.string
  Ser.serializeILInt (lenU64 (utf8 s).length)
  Ser.serializeBytes (utf8 s)

namespace Atom
variable {P : Type} {ω : Type} [Writer ω]

/-- `ILTag::id`, /repo/src/tags/mod.rs:182, /repo/src/tags/macros.rs:93-95,158-160. -/
def id : Atom P → UInt64
  | null id | bool id _ | int8 id _ | uint8 id _ | int16 id _ | uint16 id _ | int32 id _ | uint32 id _
  | int64 id _ | uint64 id _ | bin32 id _ | bin64 id _ | bin128 id _ | ilint id _ | signedILInt id _
  | raw id _ | string id _ | bigDec id _ _ | ilintArray id _ | range id _ _ | version id _ _ _ _
  | oid id _ | strDict id _ | payload id _ => id
  | byteArray _ => Id.bytes
  | bigInt _ => Id.bigInt

/-- `ILILIntArrayTag::value_size`, explicit/mod.rs:509-515. -/
def ilintArraySize (v : List UInt64) : UInt64 :=
  v.foldl (fun size x => size + ilSize x) (ilSize (lenU64 v.length))

/-- `ILStrDictTag::value_size`, explicit/mod.rs:1227-1234. -/
def strDictSize (es : List (String × String)) : UInt64 :=
  ilSize (lenU64 es.length) + es.foldl (fun s e => s + (stringTagSize e.1 + stringTagSize e.2)) 0

/-- `ILTag::value_size` (/repo/src/tags/mod.rs:195, /repo/src/tags/macros.rs:186-188, implicit/mod.rs:141-143) of each
type; `u64` arithmetic as in a release build (wrapping). -/
def valueSize [TagPayload P] : Atom P → UInt64
  | null _ => 0
  | bool .. => 1
  | int8 .. => 1
  | uint8 .. => 1
  | int16 .. => 2
  | uint16 .. => 2
  | int32 .. => 4
  | uint32 .. => 4
  | int64 .. => 8
  | uint64 .. => 8
  | bin32 .. => 4
  | bin64 .. => 8
  | bin128 .. => 16
  | ilint _ v => ilSize v
  | signedILInt _ v => UInt64.ofNat (ILInt.signedEncodedSize v)
  | raw _ v => lenU64 v.length
  | byteArray v => lenU64 v.length
  | string _ s => lenU64 (utf8 s).length
  | bigInt v => lenU64 v.length
  | bigDec _ _ v => 4 + lenU64 v.length
  | ilintArray _ v => ilintArraySize v
  | range _ start _ => UInt64.ofNat (ILInt.encodedSize start + 2)
  | version .. => 16
  | oid _ v => ilintArraySize v
  | strDict _ es => strDictSize es
  | payload _ p => lenU64 (TagPayload.serializedSize p)

/-- The loop of `ILILIntArrayTag::serialize_value`, explicit/mod.rs:519-521. -/
def serializeILInts : List UInt64 → Act TagErr ω Unit
  | [] => pure ()
  | v :: vs => do Ser.serializeILInt v; serializeILInts vs

/-- `ILILIntArrayTag::serialize_value`, explicit/mod.rs:517-523. -/
def serializeILIntArray (v : List UInt64) : Act TagErr ω Unit := do
  Ser.serializeILInt (lenU64 v.length)
  serializeILInts v

/-- The loop over sorted keys of `ILStrDictTag::serialize_value`, explicit/mod.rs:1243-1250. -/
def serializeStrEntries (es : List (String × String)) : List String → Act TagErr ω Unit
  | [] => pure ()
  | key :: keys => do
    match HMap.get key es with
    | none => Act.fail .unableToSerialize
    | some value =>
      serializeStringTag key
      serializeStringTag value
      serializeStrEntries es keys

/-- `ILTag::serialize_value` (/repo/src/tags/mod.rs:217) of each type. -/
def serializeValue [TagPayload P] : Atom P → Act TagErr ω Unit
  | null _ => pure ()                                                   -- implicit/mod.rs:226-228
  | bool _ v => tagIo (Data.writeU8 (if v then 1 else 0))                 -- implicit/mod.rs:265-267
  | int8 _ v => tagIo (Data.writeI8 v)                                    -- implicit/mod.rs:145-147
  | uint8 _ v => tagIo (Data.writeU8 v)
  | int16 _ v => tagIo (Data.writeI16 v)
  | uint16 _ v => tagIo (Data.writeU16 v)
  | int32 _ v => tagIo (Data.writeI32 v)
  | uint32 _ v => tagIo (Data.writeU32 v)
  | int64 _ v => tagIo (Data.writeI64 v)
  | uint64 _ v => tagIo (Data.writeU64 v)
  | bin32 _ v => tagIo (Data.writeF32 v)
  | bin64 _ v => tagIo (Data.writeF64 v)
  | bin128 _ v => tagIo (Writer.writeAll v.1)                            -- implicit/mod.rs:535-540
  | ilint _ v => Ser.serializeILInt v                                    -- implicit/mod.rs:583-585
  | signedILInt _ v => Ser.serializeSignedILInt v                        -- implicit/mod.rs:626-628
  | raw _ v => Ser.serializeBytes v                                      -- tags/mod.rs:746-748
  | byteArray v => Ser.serializeBytes v                                  -- tags/macros.rs:190-192
  | string _ s => Ser.serializeBytes (utf8 s)                            -- explicit/mod.rs:210-212
  | bigInt v => Ser.serializeBytes v                                     -- tags/macros.rs:190-192
  | bigDec _ scale v => do                                               -- explicit/mod.rs:417-420
    tagIo (Data.writeI32 scale)
    Ser.serializeBytes v
  | ilintArray _ v => serializeILIntArray v                              -- explicit/mod.rs:517-523
  | range _ start count => do                                            -- explicit/mod.rs:768-771
    Ser.serializeILInt start
    tagIo (Data.writeU16 count)
  | version _ a b c d => do                                              -- explicit/mod.rs:898-903
    tagIo (Data.writeI32 a)
    tagIo (Data.writeI32 b)
    tagIo (Data.writeI32 c)
    tagIo (Data.writeI32 d)
  | oid _ v => serializeILIntArray v                                     -- tags/macros.rs:190-192
  | strDict _ es => do                                                   -- explicit/mod.rs:1236-1252
    Ser.serializeILInt (lenU64 es.length)
    serializeStrEntries es (sortKeys (es.map (·.1)))
  | payload _ p => do                                                    -- payload/mod.rs:178-180
    runOps (TagPayload.serialize p).1
    Act.lift (TagPayload.serialize p).2

end Atom

/-- `ILTag::size` from the id and the value size, /repo/src/tags/mod.rs:198-204 (release arithmetic). -/
def sizeFrom (id valueSize : UInt64) : UInt64 :=
  if isImplicitTag id then ilSize id + valueSize
  else ilSize id + ilSize valueSize + valueSize

namespace Tag
variable {P : Type} {ω : Type} [Writer ω]

/-- `ILTag::id`, /repo/src/tags/mod.rs:182, /repo/src/tags/macros.rs:93-95. -/
def id : Tag P → UInt64
  | .atom a => a.id
  | .seq id _ => id
  | .array id _ => id
  | .dict id _ => id

mutual
/-- `ILTag::value_size`: explicit/mod.rs:590-596 (sequence), 666-669 (array), 1079-1086 (dictionary). -/
def valueSize [TagPayload P] : Tag P → UInt64
  | .atom a => a.valueSize
  | .seq _ ts => sizeSum 0 ts
  | .array _ ts => ilSize (lenU64 ts.length) + sizeSum 0 ts
  | .dict _ es => ilSize (lenU64 es.length) + entriesSum 0 es
/-- `for v in self.value { size += v.size() }`, explicit/mod.rs:591-595. -/
def sizeSum [TagPayload P] (acc : UInt64) : List (Tag P) → UInt64
  | [] => acc
  | t :: ts => sizeSum (acc + sizeFrom t.id t.valueSize) ts
/-- `.map(|(k, v)| string_tag_size_from_value(k) + v.size()).sum()`, explicit/mod.rs:1083-1085. -/
def entriesSum [TagPayload P] (acc : UInt64) : List (String × Tag P) → UInt64
  | [] => acc
  | (k, t) :: es => entriesSum (acc + (stringTagSize k + sizeFrom t.id t.valueSize)) es
end

/-- `ILTag::size`, /repo/src/tags/mod.rs:198-204. -/
def size [TagPayload P] (t : Tag P) : UInt64 := sizeFrom t.id t.valueSize

/-- `ILTag::serialize`, /repo/src/tags/mod.rs:230-236, given the id, value size and value serializer. -/
def serializeWith (id valueSize : UInt64) (value : Act TagErr ω Unit) : Act TagErr ω Unit := do
  Ser.serializeILInt id
  if isImplicitTag id then value
  else do
    Ser.serializeILInt valueSize
    value

/-- The loop over sorted keys of `ILDictTag::serialize_value`, explicit/mod.rs:1095-1102; `sers` maps each key
to the serialization of its value. -/
def serializeEntries (sers : List (String × Act TagErr ω Unit)) : List String → Act TagErr ω Unit
  | [] => pure ()
  | key :: keys => do
    match HMap.get key sers with
    | none => Act.fail .unableToSerialize
    | some value =>
      serializeStringTag key
      value
      serializeEntries sers keys

mutual
/-- `ILTag::serialize_value`: explicit/mod.rs:598-603 (sequence), 671-674 (array), 1088-1104 (dictionary). -/
def serializeValue [TagPayload P] : Tag P → Act TagErr ω Unit
  | .atom a => a.serializeValue
  | .seq _ ts => serializeSeq ts
  | .array _ ts => do
    Ser.serializeILInt (lenU64 ts.length)
    serializeSeq ts
  | .dict _ es => do
    Ser.serializeILInt (lenU64 es.length)
    serializeEntries (entrySerializers es) (sortKeys (es.map (·.1)))
/-- `for v in self.value { v.serialize(writer)?; }`, explicit/mod.rs:599-601. -/
def serializeSeq [TagPayload P] : List (Tag P) → Act TagErr ω Unit
  | [] => pure ()
  | t :: ts => do
    serializeWith t.id t.valueSize t.serializeValue
    serializeSeq ts
/-- Key to `value.serialize(writer)` for each entry (looked up at explicit/mod.rs:1096-1101). -/
def entrySerializers [TagPayload P] : List (String × Tag P) → List (String × Act TagErr ω Unit)
  | [] => []
  | (k, t) :: es => (k, serializeWith t.id t.valueSize t.serializeValue) :: entrySerializers es
end

/-- `ILTag::serialize`, /repo/src/tags/mod.rs:230-236. -/
def serialize [TagPayload P] (t : Tag P) : Act TagErr ω Unit :=
  serializeWith t.id t.valueSize t.serializeValue

/-- `ILTag::to_bytes`, /repo/src/tags/mod.rs:266-270: allocates `size()` bytes, then serializes into a
`VecWriter`. -/
def toBytes [Env] [TagPayload P] (t : Tag P) : Res TagErr Bytes :=
  if t.size.toNat ≤ Env.allocMax then
    match t.serialize VecWriter.new with
    | (.ok (), w) => .ok w.vector
    | (.err e, _) => .err e
    | (.panic, _) => .panic
    | (.diverge, _) => .diverge
  else .panic

end Tag
end Verif
