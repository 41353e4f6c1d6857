import Verif.Model.Factory
import Verif.Model.Dict
/-!
# Constructors, getters and setters of the tag types

The structs of `src/tags/standard/implicit/mod.rs`, `src/tags/standard/explicit/mod.rs` and `ILRawTag` of
`src/tags/mod.rs` as objects: what their constructors build and what their setters assign.  `toTag` is the object
seen through the trait `ILTag` (the model of `Tag`).  A method taking `&mut self` returns the new object.
Lines of implicit/mod.rs and explicit/mod.rs without a path are in /repo/src/tags/standard.
-/
namespace Verif

/-! ### The tags with one scalar value -/

/-- The types that use `simple_value_tag_struct_impl!`, implicit/mod.rs:71-127. -/
inductive Scalar where
  | bool | int8 | uint8 | int16 | uint16 | int32 | uint32 | int64 | uint64 | bin32 | bin64 | ilint | signedILInt
  deriving DecidableEq

namespace Scalar

/-- `$value_type`, implicit/mod.rs:256,302,319,336,353,370,387,404,421,438,455,574,617; floats are bit patterns. -/
def Value : Scalar → Type
  | bool => Bool
  | int8 => Int8 | uint8 => UInt8 | int16 => Int16 | uint16 => UInt16 | int32 => Int32 | uint32 => UInt32
  | int64 => Int64 | uint64 => UInt64 | bin32 => UInt32 | bin64 => UInt64 | ilint => UInt64 | signedILInt => Int64

/-- `<$value_type>::default()`. -/
def zero : (k : Scalar) → k.Value
  | bool => false
  | int8 => (0 : Int8) | uint8 => (0 : UInt8) | int16 => (0 : Int16) | uint16 => (0 : UInt16) | int32 => (0 : Int32)
  | uint32 => (0 : UInt32) | int64 => (0 : Int64) | uint64 => (0 : UInt64) | bin32 => (0 : UInt32)
  | bin64 => (0 : UInt64) | ilint => (0 : UInt64) | signedILInt => (0 : Int64)

/-- `$default_id`, implicit/mod.rs:256,302,319,336,353,370,387,404,421,438,455,574,617. -/
def defaultId : Scalar → UInt64
  | bool => Id.bool
  | int8 => Id.int8 | uint8 => Id.uint8 | int16 => Id.int16 | uint16 => Id.uint16 | int32 => Id.int32
  | uint32 => Id.uint32 | int64 => Id.int64 | uint64 => Id.uint64 | bin32 => Id.bin32 | bin64 => Id.bin64
  | ilint => Id.ilint | signedILInt => Id.signedILInt

end Scalar

/-- `struct IL…Tag { id, value }` of the scalar types, implicit/mod.rs:251-254 and the like. -/
structure ScalarTag (k : Scalar) where
  id : UInt64
  value : k.Value

namespace ScalarTag
variable {k : Scalar}

/-- `with_id`, implicit/mod.rs:93-98. -/
def withId (id : UInt64) : ScalarTag k := ⟨id, k.zero⟩
/-- `with_id_value`, implicit/mod.rs:106-108. -/
def withIdValue (id : UInt64) (v : k.Value) : ScalarTag k := ⟨id, v⟩
/-- `new`, implicit/mod.rs:76-78. -/
def new : ScalarTag k := withId k.defaultId
/-- `with_value`, implicit/mod.rs:84-86. -/
def withValue (v : k.Value) : ScalarTag k := withIdValue k.defaultId v
/-- `value`, implicit/mod.rs:114-116. -/
def getValue (t : ScalarTag k) : k.Value := t.value
/-- `set_value`, implicit/mod.rs:122-124. -/
def setValue (v : k.Value) (t : ScalarTag k) : ScalarTag k := { t with value := v }

/-- The object as an `ILTag`. -/
def toTag {P : Type} : {k : Scalar} → ScalarTag k → Tag P
  | .bool, t => .atom (.bool t.id t.value)
  | .int8, t => .atom (.int8 t.id t.value)
  | .uint8, t => .atom (.uint8 t.id t.value)
  | .int16, t => .atom (.int16 t.id t.value)
  | .uint16, t => .atom (.uint16 t.id t.value)
  | .int32, t => .atom (.int32 t.id t.value)
  | .uint32, t => .atom (.uint32 t.id t.value)
  | .int64, t => .atom (.int64 t.id t.value)
  | .uint64, t => .atom (.uint64 t.id t.value)
  | .bin32, t => .atom (.bin32 t.id t.value)
  | .bin64, t => .atom (.bin64 t.id t.value)
  | .ilint, t => .atom (.ilint t.id t.value)
  | .signedILInt, t => .atom (.signedILInt t.id t.value)

end ScalarTag

/-! ### Null and binary128 -/

/-- `ILNullTag::with_id`, implicit/mod.rs:214-216. -/
def nullWithId {P : Type} (id : UInt64) : Tag P := .atom (.null id)
/-- `ILNullTag::new`, implicit/mod.rs:210-212. -/
def nullNew {P : Type} : Tag P := nullWithId Id.null

/-- `struct ILBin128Tag`, implicit/mod.rs:469-472; the array `[u8; 16]` as a vector of length 16. -/
structure Bin128Tag where
  id : UInt64
  value : { v : Bytes // v.length = 16 }

namespace Bin128Tag
/-- `with_id`, implicit/mod.rs:494-496. -/
def withId (id : UInt64) : Bin128Tag := ⟨id, ⟨List.replicate 16 0, by simp⟩⟩
/-- `set_value`, implicit/mod.rs:523-525: `copy_from_slice` of an array of the same length. -/
def setValue (v : { v : Bytes // v.length = 16 }) (t : Bin128Tag) : Bin128Tag := { t with value := v }
/-- `with_id_value`, implicit/mod.rs:504-509: starts with zeros, then copies. -/
def withIdValue (id : UInt64) (v : { v : Bytes // v.length = 16 }) : Bin128Tag := setValue v (withId id)
/-- `new`, implicit/mod.rs:477-479. -/
def new : Bin128Tag := withId Id.bin128
/-- `with_value`, implicit/mod.rs:485-487. -/
def withValue (v : { v : Bytes // v.length = 16 }) : Bin128Tag := withIdValue Id.bin128 v
/-- The object as an `ILTag`. -/
def toTag {P : Type} (t : Bin128Tag) : Tag P := .atom (.bin128 t.id t.value)
end Bin128Tag

/-! ### Raw tags and the tags built on them -/

/-- `struct ILRawTag`, /repo/src/tags/mod.rs:665-668. -/
structure RawTag where
  id : UInt64
  value : Bytes

namespace RawTag
/-- `new`, /repo/src/tags/mod.rs:678-684: panics for an implicit id. -/
def new (id : UInt64) : Res TagErr RawTag := if isImplicitTag id then .panic else .ok ⟨id, []⟩
/-- `with_value`, /repo/src/tags/mod.rs:710-715: panics for an implicit id.  The capacity is not modelled. -/
def withValue (id : UInt64) (v : Bytes) : Res TagErr RawTag := if isImplicitTag id then .panic else .ok ⟨id, v⟩
/-- `set_value`, /repo/src/tags/mod.rs:733-736: `clear`, then `extend_from_slice`. -/
def setValue (v : Bytes) (t : RawTag) : RawTag := { t with value := [] ++ v }
/-- `*mut_value() = f(value)`, /repo/src/tags/mod.rs:723-725: the caller may change the vector in any way. -/
def mutValue (f : Bytes → Bytes) (t : RawTag) : RawTag := { t with value := f t.value }
/-- The object as an `ILTag`. -/
def toTag {P : Type} (t : RawTag) : Tag P := .atom (.raw t.id t.value)
end RawTag

/-- `ILByteArrayTag::with_value`, explicit/mod.rs:83-87,111; the inner `ILRawTag` has the id 16. -/
def byteArrayWithValue {P : Type} (v : Bytes) : Res TagErr (Tag P) :=
  (RawTag.withValue Id.bytes v).map fun t => .atom (.byteArray t.value)
/-- `ILBigIntTag::with_value`, explicit/mod.rs:83-87,323; the inner `ILRawTag` has the id 18. -/
def bigIntWithValue {P : Type} (v : Bytes) : Res TagErr (Tag P) :=
  (RawTag.withValue Id.bigInt v).map fun t => .atom (.bigInt t.value)

/-- `struct ILBigDecTag`, explicit/mod.rs:342-345. -/
structure BigDecTag where
  inner : RawTag
  scale : Int32

namespace BigDecTag
/-- `with_id`, explicit/mod.rs:361-366. -/
def withId (id : UInt64) : Res TagErr BigDecTag := (RawTag.new id).map fun r => ⟨r, 0⟩
/-- `new`, explicit/mod.rs:349-354. -/
def new : Res TagErr BigDecTag := (RawTag.new Id.bigDec).map fun r => ⟨r, 0⟩
/-- `with_id_value`, explicit/mod.rs:382-387. -/
def withIdValue (id : UInt64) (scale : Int32) (v : Bytes) : Res TagErr BigDecTag :=
  (RawTag.withValue id v).map fun r => ⟨r, scale⟩
/-- `with_value`, explicit/mod.rs:373-375. -/
def withValue (scale : Int32) (v : Bytes) : Res TagErr BigDecTag := withIdValue Id.bigDec scale v
/-- `set_scale`, explicit/mod.rs:395-397. -/
def setScale (scale : Int32) (t : BigDecTag) : BigDecTag := { t with scale := scale }
/-- `*mut_value() = f(value)`, explicit/mod.rs:405-407. -/
def mutValue (f : Bytes → Bytes) (t : BigDecTag) : BigDecTag := { t with inner := t.inner.mutValue f }
/-- The object as an `ILTag`. -/
def toTag {P : Type} (t : BigDecTag) : Tag P := .atom (.bigDec t.inner.id t.scale t.inner.value)
end BigDecTag

/-! ### Strings -/

/-- `struct ILStringTag`, explicit/mod.rs:138-141. -/
structure StringTag where
  id : UInt64
  value : String

namespace StringTag
/-- `with_id`, explicit/mod.rs:154-159. -/
def withId (id : UInt64) : StringTag := ⟨id, ""⟩
/-- `new`, explicit/mod.rs:145-147. -/
def new : StringTag := withId Id.string
/-- `with_id_value`, explicit/mod.rs:176-181. -/
def withIdValue (id : UInt64) (v : String) : StringTag := ⟨id, v⟩
/-- `with_value`, explicit/mod.rs:166-168. -/
def withValue (v : String) : StringTag := withIdValue Id.string v
/-- `set_value`, explicit/mod.rs:198-200: `replace_range(.., value)` replaces the whole string. -/
def setValue (v : String) (t : StringTag) : StringTag := { t with value := v }
/-- `*mut_value() = f(value)`, explicit/mod.rs:190-192. -/
def mutValue (f : String → String) (t : StringTag) : StringTag := { t with value := f t.value }
/-- The object as an `ILTag`. -/
def toTag {P : Type} (t : StringTag) : Tag P := .atom (.string t.id t.value)
end StringTag

/-! ### Arrays of ILInts -/

/-- `struct ILILIntArrayTag`, explicit/mod.rs:446-449. -/
structure IntArrayTag where
  id : UInt64
  value : List UInt64

namespace IntArrayTag
/-- `with_id`, explicit/mod.rs:462-467. -/
def withId (id : UInt64) : IntArrayTag := ⟨id, []⟩
/-- `with_id_value`, explicit/mod.rs:483-487. -/
def withIdValue (id : UInt64) (v : List UInt64) : IntArrayTag := ⟨id, [] ++ v⟩
/-- `new`, explicit/mod.rs:453-455. -/
def new : IntArrayTag := withId Id.ilintArray
/-- `with_value`, explicit/mod.rs:474-476. -/
def withValue (v : List UInt64) : IntArrayTag := withIdValue Id.ilintArray v
/-- `set_value`, explicit/mod.rs:500-503: `clear`, then `extend_from_slice`. -/
def setValue (v : List UInt64) (t : IntArrayTag) : IntArrayTag := { t with value := [] ++ v }
/-- `*mut_value() = f(value)`, explicit/mod.rs:495-497. -/
def mutValue (f : List UInt64 → List UInt64) (t : IntArrayTag) : IntArrayTag := { t with value := f t.value }
/-- The object as an `ILTag`. -/
def toTag {P : Type} (t : IntArrayTag) : Tag P := .atom (.ilintArray t.id t.value)
end IntArrayTag

/-- `struct ILOIDTag`, explicit/mod.rs:931-933. -/
structure OidTag where
  inner : IntArrayTag

namespace OidTag
/-- `with_id`, explicit/mod.rs:946-950. -/
def withId (id : UInt64) : OidTag := ⟨.withId id⟩
/-- `new`, explicit/mod.rs:937-939. -/
def new : OidTag := withId Id.oid
/-- `with_id_value`, explicit/mod.rs:956-960. -/
def withIdValue (id : UInt64) (v : List UInt64) : OidTag := ⟨.withIdValue id v⟩
/-- `with_value`, explicit/mod.rs:952-954. -/
def withValue (v : List UInt64) : OidTag := withIdValue Id.oid v
/-- `set_value`, explicit/mod.rs:971-973. -/
def setValue (v : List UInt64) (t : OidTag) : OidTag := ⟨t.inner.setValue v⟩
/-- `*mut_value() = f(value)`, explicit/mod.rs:966-968. -/
def mutValue (f : List UInt64 → List UInt64) (t : OidTag) : OidTag := ⟨t.inner.mutValue f⟩
/-- The object as an `ILTag`. -/
def toTag {P : Type} (t : OidTag) : Tag P := .atom (.oid t.inner.id t.inner.value)
end OidTag

/-! ### Ranges and versions -/

/-- `struct ILRangeTag`, explicit/mod.rs:706-710. -/
structure RangeTag where
  id : UInt64
  start : UInt64
  count : UInt16

namespace RangeTag
/-- `with_id`, explicit/mod.rs:723-729. -/
def withId (id : UInt64) : RangeTag := ⟨id, 0, 0⟩
/-- `new`, explicit/mod.rs:714-716. -/
def new : RangeTag := withId Id.range
/-- `with_id_value`, explicit/mod.rs:735-737. -/
def withIdValue (id start : UInt64) (count : UInt16) : RangeTag := ⟨id, start, count⟩
/-- `with_value`, explicit/mod.rs:731-733. -/
def withValue (start : UInt64) (count : UInt16) : RangeTag := withIdValue Id.range start count
/-- `set_start`, explicit/mod.rs:743-745. -/
def setStart (start : UInt64) (t : RangeTag) : RangeTag := { t with start := start }
/-- `set_count`, explicit/mod.rs:751-753. -/
def setCount (count : UInt16) (t : RangeTag) : RangeTag := { t with count := count }
/-- `set_value`, explicit/mod.rs:755-758. -/
def setValue (start : UInt64) (count : UInt16) (t : RangeTag) : RangeTag :=
  let t := { t with start := start }
  { t with count := count }
/-- The object as an `ILTag`. -/
def toTag {P : Type} (t : RangeTag) : Tag P := .atom (.range t.id t.start t.count)
end RangeTag

/-- `struct ILVersionTag`, explicit/mod.rs:796-799: the array `[i32; 4]`. -/
structure VersionTag where
  id : UInt64
  value : Vector Int32 4

namespace VersionTag
/-- `MAJOR`, `MINOR`, `REVISION`, `BUILD`, explicit/mod.rs:803-809. -/
def MAJOR : Nat := 0
def MINOR : Nat := 1
def REVISION : Nat := 2
def BUILD : Nat := 3

/-- `with_id`, explicit/mod.rs:821-823. -/
def withId (id : UInt64) : VersionTag := ⟨id, #v[0, 0, 0, 0]⟩
/-- `new`, explicit/mod.rs:812-814. -/
def new : VersionTag := withId Id.version
/-- `with_id_value`, explicit/mod.rs:829-834. -/
def withIdValue (id : UInt64) (major minor release build : Int32) : VersionTag := ⟨id, #v[major, minor, release, build]⟩
/-- `with_value`, explicit/mod.rs:825-827. -/
def withValue (major minor release build : Int32) : VersionTag := withIdValue Id.version major minor release build
/-- `set_value_from_slice`, explicit/mod.rs:886-888. -/
def setFromSlice (v : Vector Int32 4) (t : VersionTag) : VersionTag := { t with value := v }
/-- `with_id_value_from_slice`, explicit/mod.rs:840-844. -/
def withIdFromSlice (id : UInt64) (v : Vector Int32 4) : VersionTag := setFromSlice v ⟨id, #v[0, 0, 0, 0]⟩
/-- `with_value_from_slice`, explicit/mod.rs:836-838. -/
def withFromSlice (v : Vector Int32 4) : VersionTag := withIdFromSlice Id.version v
/-- `set_value`, explicit/mod.rs:882-884. -/
def setValue (major minor release build : Int32) (t : VersionTag) : VersionTag :=
  setFromSlice #v[major, minor, release, build] t
/-- `major`, explicit/mod.rs:846-848. -/
def major (t : VersionTag) : Int32 := t.value[MAJOR]'(by decide)
/-- `minor`, explicit/mod.rs:854-856. -/
def minor (t : VersionTag) : Int32 := t.value[MINOR]'(by decide)
/-- `revision`, explicit/mod.rs:862-864. -/
def revision (t : VersionTag) : Int32 := t.value[REVISION]'(by decide)
/-- `build`, explicit/mod.rs:870-872. -/
def build (t : VersionTag) : Int32 := t.value[BUILD]'(by decide)
/-- `set_major`, explicit/mod.rs:850-852. -/
def setMajor (v : Int32) (t : VersionTag) : VersionTag := { t with value := t.value.set MAJOR v (by decide) }
/-- `set_minor`, explicit/mod.rs:858-860. -/
def setMinor (v : Int32) (t : VersionTag) : VersionTag := { t with value := t.value.set MINOR v (by decide) }
/-- `set_revision`, explicit/mod.rs:866-868. -/
def setRevision (v : Int32) (t : VersionTag) : VersionTag := { t with value := t.value.set REVISION v (by decide) }
/-- `set_build`, explicit/mod.rs:874-876. -/
def setBuild (v : Int32) (t : VersionTag) : VersionTag := { t with value := t.value.set BUILD v (by decide) }
/-- The object as an `ILTag`; `serialize_value` writes the array in order, explicit/mod.rs:898-903. -/
def toTag {P : Type} (t : VersionTag) : Tag P := .atom (.version t.id t.value[0] t.value[1] t.value[2] t.value[3])
end VersionTag

/-! ### Containers -/

/-- `struct ILTagSeqTag`, explicit/mod.rs:553-556, and `struct ILTagArrayTag`, explicit/mod.rs:631-633. -/
structure ListTag (P : Type) where
  id : UInt64
  value : List (Tag P)

namespace ListTag
variable {P : Type}
/-- `with_id`, explicit/mod.rs:569-574,646-650. -/
def withId (id : UInt64) : ListTag P := ⟨id, []⟩
/-- `ILTagSeqTag::new`, explicit/mod.rs:560-562. -/
def newSeq : ListTag P := withId Id.tagSeq
/-- `ILTagArrayTag::new`, explicit/mod.rs:637-639. -/
def newArray : ListTag P := withId Id.tagArray
/-- `*mut_value() = f(value)`, explicit/mod.rs:582-584,658-660. -/
def mutValue (f : List (Tag P) → List (Tag P)) (t : ListTag P) : ListTag P := { t with value := f t.value }
/-- An `ILTagSeqTag` as an `ILTag`. -/
def seqTag (t : ListTag P) : Tag P := .seq t.id t.value
/-- An `ILTagArrayTag` as an `ILTag`. -/
def arrayTag (t : ListTag P) : Tag P := .array t.id t.value
end ListTag

end Verif
