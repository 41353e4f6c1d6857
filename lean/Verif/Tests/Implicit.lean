import Verif.Tests.Tags
/-!
# The crate's own tests of the implicit tags and of the standard factory, run on the model
(/repo/src/tags/standard/implicit/tests.rs, factory/tests.rs)

`Factory.deserialize` is run here with six levels of nesting instead of `Factory.fuel`.
-/
namespace Verif.Tests.Implicit
open Verif Verif.Tests.Array Verif.Tests.Data Verif.Tests.Tags

/-! ### implicit/tests.rs -/

/-- `test_implicit_tag_size`. -/
example : ((List.range 17).map fun i => implicitTagSize (UInt64.ofNat i)) =
    [0, 1, 1, 1, 2, 2, 4, 4, 8, 8, 9, 4, 8, 16, 9, 0, 0] ∧ implicitTagSize 32 = 0 := by decide +kernel

/-- `test_simple_value_tag_struct_impl_func_impl!`. -/
def construct {k : Scalar} [DecidableEq k.Value] (id : UInt64) (dflt v : k.Value) : Bool :=
  decide ((ScalarTag.new (k := k)).id = id) && decide ((ScalarTag.new (k := k)).value = dflt) &&
  decide ((ScalarTag.withId (k := k) 123).id = 123) && decide ((ScalarTag.withId (k := k) 123).value = dflt) &&
  decide ((ScalarTag.withValue v).id = id) && decide ((ScalarTag.withValue v).value = v) &&
  decide ((ScalarTag.withIdValue 123 v).id = 123) && decide ((ScalarTag.withIdValue 123 v).value = v) &&
  decide ((ScalarTag.setValue v (ScalarTag.new (k := k))).id = id) &&
  decide ((ScalarTag.setValue v (ScalarTag.new (k := k))).value = v)

local instance : ∀ k : Scalar, DecidableEq k.Value
  | .bool => inferInstanceAs (DecidableEq Bool)
  | .int8 => inferInstanceAs (DecidableEq Int8)
  | .uint8 => inferInstanceAs (DecidableEq UInt8)
  | .int16 => inferInstanceAs (DecidableEq Int16)
  | .uint16 => inferInstanceAs (DecidableEq UInt16)
  | .int32 => inferInstanceAs (DecidableEq Int32)
  | .uint32 => inferInstanceAs (DecidableEq UInt32)
  | .int64 => inferInstanceAs (DecidableEq Int64)
  | .uint64 => inferInstanceAs (DecidableEq UInt64)
  | .bin32 => inferInstanceAs (DecidableEq UInt32)
  | .bin64 => inferInstanceAs (DecidableEq UInt64)
  | .ilint => inferInstanceAs (DecidableEq UInt64)
  | .signedILInt => inferInstanceAs (DecidableEq Int64)

/-- `test_il*tag_new`. -/
example : construct (k := .bool) 1 false true = true ∧ construct (k := .int8) 2 (0 : Int8) (126 : Int8) = true ∧
    construct (k := .uint8) 3 (0 : UInt8) (126 : UInt8) = true ∧
    construct (k := .int16) 4 (0 : Int16) (126 : Int16) = true ∧
    construct (k := .uint16) 5 (0 : UInt16) (126 : UInt16) = true ∧
    construct (k := .int32) 6 (0 : Int32) (126 : Int32) = true ∧
    construct (k := .uint32) 7 (0 : UInt32) (126 : UInt32) = true ∧
    construct (k := .int64) 8 (0 : Int64) (126 : Int64) = true ∧
    construct (k := .uint64) 9 (0 : UInt64) (126 : UInt64) = true ∧
    construct (k := .ilint) 10 (0 : UInt64) (1234 : UInt64) = true ∧
    construct (k := .bin32) 11 (0 : UInt32) (0x3f9e0419 : UInt32) = true ∧
    construct (k := .bin64) 12 (0 : UInt64) (0x3ff3c083126e978d : UInt64) = true ∧
    construct (k := .signedILInt) 14 (0 : Int64) (1234 : Int64) = true := by decide +kernel

/-- `test_simple_value_iltag_{value_size,serialize,deserialize}_impl!`: `t` holds a sample whose bytes are `bs`,
`new` is the tag before reading. -/
def codec (new t : Tag Empty) (bs : Bytes) : Bool :=
  t.valueSize == UInt64.ofNat bs.length && new.valueSize == UInt64.ofNat bs.length &&
  (t.serializeValue VecWriter.new).1.isOk && (t.serializeValue VecWriter.new).2.vector == bs &&
  isIo (new.serializeValue (VecWriter.new.setReadOnly true)).1 &&
  (readInto new bs.length bs).1.isOk && bytesOf (readInto new bs.length bs).2 == bytesOf t &&
  isIo (readInto new bs.length []).1 && is .corruptedData (readInto new (bs.length + 1) (List.replicate 16 0)).1 &&
  is .corruptedData (readInto new (bs.length - 1) (List.replicate 16 0)).1 &&
  isIo (readInto new bs.length (List.replicate (bs.length - 1) 0)).1

def sc (k : Scalar) (v : k.Value) : Tag Empty := (ScalarTag.withValue v).toTag
def nw (k : Scalar) : Tag Empty := (ScalarTag.new (k := k)).toTag

/-- `test_il*tag_iltag_size`, `_serialize`, `_deserialize`. -/
example : codec (nw .int8) (sc .int8 (-123 : Int8)) [0x85] = true ∧ codec (nw .int8) (sc .int8 (123 : Int8)) [123] = true ∧
    codec (nw .uint8) (sc .uint8 (0x12 : UInt8)) [0x12] = true ∧ codec (nw .uint8) (sc .uint8 (0xFE : UInt8)) [0xFE] = true ∧
    codec (nw .int16) (sc .int16 (-0x1234 : Int16)) [0xED, 0xCC] = true ∧
    codec (nw .int16) (sc .int16 (0x1234 : Int16)) [0x12, 0x34] = true ∧
    codec (nw .uint16) (sc .uint16 (0x1234 : UInt16)) [0x12, 0x34] = true ∧
    codec (nw .uint16) (sc .uint16 (0xFEDC : UInt16)) [0xFE, 0xDC] = true ∧
    codec (nw .int32) (sc .int32 (-0x12345678 : Int32)) [0xED, 0xCB, 0xA9, 0x88] = true ∧
    codec (nw .int32) (sc .int32 (0x12345678 : Int32)) [0x12, 0x34, 0x56, 0x78] = true ∧
    codec (nw .uint32) (sc .uint32 (0x12345678 : UInt32)) [0x12, 0x34, 0x56, 0x78] = true ∧
    codec (nw .uint32) (sc .uint32 (0xFEDCBA98 : UInt32)) [0xFE, 0xDC, 0xBA, 0x98] = true ∧
    codec (nw .int64) (sc .int64 (-0x1234567890ABCDEF : Int64)) [0xED, 0xCB, 0xA9, 0x87, 0x6F, 0x54, 0x32, 0x11] = true ∧
    codec (nw .int64) (sc .int64 (0x1234567890ABCDEF : Int64)) [0x12, 0x34, 0x56, 0x78, 0x90, 0xAB, 0xCD, 0xEF] = true ∧
    codec (nw .uint64) (sc .uint64 (0x1234567890ABCDEF : UInt64)) [0x12, 0x34, 0x56, 0x78, 0x90, 0xAB, 0xCD, 0xEF] = true ∧
    codec (nw .uint64) (sc .uint64 (0xFEDCBA9876543210 : UInt64)) [0xFE, 0xDC, 0xBA, 0x98, 0x76, 0x54, 0x32, 0x10] = true ∧
    codec (nw .bin32) (sc .bin32 (0xbf9e0651 : UInt32)) [0xbf, 0x9e, 0x06, 0x51] = true ∧
    codec (nw .bin64) (sc .bin64 (0xbff3c0ca2a5b1d5d : UInt64)) [0xbf, 0xf3, 0xc0, 0xca, 0x2a, 0x5b, 0x1d, 0x5d] = true := by
  decide +kernel

/-- `test_ilnulltag_*`. -/
example : (nullNew : Tag Empty).id = 0 ∧ (nullWithId 123 : Tag Empty).id = 123 ∧ (nullNew : Tag Empty).valueSize = 0 ∧
    ((nullNew : Tag Empty).serializeValue VecWriter.new).2.vector = [] ∧
    (readInto (nullNew : Tag Empty) 0 []).1 = .ok () ∧ (readInto (nullNew : Tag Empty) 1 []).1 = .err .corruptedData := by
  decide +kernel

/-- `test_ilbooltag_*`. -/
example : ((sc .bool false).serializeValue VecWriter.new).2.vector = [0] ∧
    ((sc .bool true).serializeValue VecWriter.new).2.vector = [1] ∧
    isIo ((sc .bool true).serializeValue (VecWriter.new.setReadOnly true)).1 = true ∧
    bytesOf (readInto (nw .bool) 1 [1]).2 = some [1, 1] ∧ bytesOf (readInto (nw .bool) 1 [0]).2 = some [1, 0] ∧
    (readInto (nw .bool) 1 [1]).1 = .ok () ∧ (readInto (nw .bool) 1 [0]).1 = .ok () ∧
    (readInto (nw .bool) 1 [2]).1 = .err .corruptedData ∧ (readInto (nw .bool) 2 []).1 = .err .corruptedData := by
  decide +kernel

/-- `test_ilbin128tag_*`. -/
def sixteen : { v : Bytes // v.length = 16 } := ⟨sample 16, by decide +kernel⟩
example : Bin128Tag.new.id = 13 ∧ Bin128Tag.new.value.1 = List.replicate 16 0 ∧ (Bin128Tag.withId 123).id = 123 ∧
    (Bin128Tag.withId 123).value.1 = List.replicate 16 0 ∧ (Bin128Tag.withValue sixteen).id = 13 ∧
    (Bin128Tag.withValue sixteen).value = sixteen ∧ (Bin128Tag.withIdValue 123 sixteen).id = 123 ∧
    (Bin128Tag.withIdValue 123 sixteen).value = sixteen := by decide +kernel
example : codec Bin128Tag.new.toTag (Bin128Tag.withValue sixteen).toTag (sample 16) = true ∧
    codec Bin128Tag.new.toTag Bin128Tag.new.toTag (List.replicate 16 0) = true := by decide +kernel

def ilintSample : List UInt64 := [0xF7, 0xF8, 0x02345, 0x012345, 0x01234567, 0x0123456789, 0x0123456789AB, 0x0123456789ABCD,
  0x0123456789ABCDEF]

/-- `test_ililint64tag_iltag_*`: the announced size is ignored. -/
example : ilintSample.zipIdx.all (fun (v, i) =>
    let bs := (Verif.ILInt.encode v VecWriter.new).2.vector
    let t := sc .ilint v
    t.valueSize == UInt64.ofNat (Verif.ILInt.encodedSize v) && (t.serializeValue VecWriter.new).2.vector == bs &&
    (readInto (nw .ilint) (123 * i) bs).1.isOk && bytesOf (readInto (nw .ilint) (123 * i) bs).2 == bytesOf t &&
    isIo (readInto (nw .ilint) (123 * i) bs.dropLast).1) = true ∧
    isIo ((nw .ilint).serializeValue (VecWriter.new.setReadOnly true)).1 = true := by decide +kernel

/-- `test_ilsignedilint64tag_iltag_*`. -/
example : signed.zipIdx.all (fun (v, i) =>
    let bs := (Verif.ILInt.signedEncode v VecWriter.new).2.vector
    let t := sc .signedILInt v
    t.valueSize == UInt64.ofNat (Verif.ILInt.signedEncodedSize v) && (t.serializeValue VecWriter.new).2.vector == bs &&
    (readInto (nw .signedILInt) (123 * i) bs).1.isOk &&
    bytesOf (readInto (nw .signedILInt) (123 * i) bs).2 == bytesOf t &&
    isIo (readInto (nw .signedILInt) (123 * i) bs.dropLast).1) = true ∧
    isIo ((nw .signedILInt).serializeValue (VecWriter.new.setReadOnly true)).1 = true := by decide +kernel

/-! ### factory/tests.rs -/

def std (strict : Bool) : Engine Empty := Engine.std strict

/-- `test_create_std_engine_*`, `test_ilstandardtagfactory_struct`, `_create_tag_*`. -/
def registered : List (UInt64 × Kind) :=
  [(0, .null), (1, .bool), (2, .int8), (3, .uint8), (4, .int16), (5, .uint16), (6, .int32), (7, .uint32), (8, .int64),
   (9, .uint64), (10, .ilint), (11, .bin32), (12, .bin64), (13, .bin128), (14, .signedILInt), (16, .byteArray), (17, .string),
   (18, .bigInt), (19, .bigDec), (20, .ilintArray), (21, .array), (22, .seq), (23, .range), (24, .version), (25, .oid),
   (30, .dict), (31, .strDict)]
example : (std false).strict = false ∧ (std true).strict = true ∧
    ([true, false].all fun s => registered.all fun (i, k) => made (std s) i == some (some (k, i))) = true ∧
    made (std false) 15 = some none ∧ made (std true) 15 = some none ∧
    ([26, 27, 28, 29, 32, 31313].all fun i => made (std false) i == some (some (.raw, i)) && made (std true) i == some none) =
      true := by decide +kernel

/-- `test_ilstandardtagfactory_iltagfactory_deserialize_tag_size`. -/
example : ((List.range 16).all fun i =>
      value? (Factory.deserializeTagSize (UInt64.ofNat i) (ByteArrayReader.new [])).1 ==
        some (implicitTagSize (UInt64.ofNat i)).toNat) = true ∧
    ([0, 10, 1234, 536870912].all fun n =>
      let bs := (Verif.ILInt.encode n VecWriter.new).2.vector
      value? (Factory.deserializeTagSize 12345 (ByteArrayReader.new bs)).1 == some n.toNat &&
      isIo (Factory.deserializeTagSize 12345 (ByteArrayReader.new bs.dropLast)).1) = true ∧
    (Factory.deserializeTagSize 12345 (ByteArrayReader.new (Verif.ILInt.encode 536870913 VecWriter.new).2.vector)).1 =
      .err .tagTooLarge := by decide +kernel

def deser (s : Bool) : FactoryDeser Empty := Factory.deserializeFuel (std s) 6

/-- `deserialize_tag_value_into`: the result and the tag. -/
def valueInto (t : Tag Empty) (n : Nat) (bs : Bytes) : Res TagErr Unit × Option Bytes :=
  match Factory.deserializeTagValueInto (deser true) n (t, ByteArrayReader.new bs) with
  | (r, (t', _)) => (r, bytesOf t')

/-- `_deserialize_tag_value_into_fixed`, `_ilint`, `_signed_ilint`. -/
example : valueInto (nw .int64) 8 [0, 0, 0, 0, 0, 0, 4, 0xD2, 0] = (.ok (), bytesOf (sc .int64 (1234 : Int64))) ∧
    (valueInto (nw .int64) 9 [0, 0, 0, 0, 0, 0, 4, 0xD2, 0]).1 = .err .corruptedData ∧
    isIo (valueInto (nw .int64) 8 [0, 0, 0, 0, 0, 0, 4]).1 = true := by decide +kernel
example : let bs := ((sc .ilint (12346 : UInt64)).serializeValue VecWriter.new).2.vector ++ [0]
    valueInto (nw .ilint) (bs.length - 1) bs = (.ok (), bytesOf (sc .ilint (12346 : UInt64))) ∧
    valueInto (nw .ilint) bs.length bs = (.ok (), bytesOf (sc .ilint (12346 : UInt64))) ∧
    isIo (valueInto (nw .ilint) bs.length (bs.take (bs.length - 2))).1 = true := by decide +kernel
example : let bs := ((sc .signedILInt (12346 : Int64)).serializeValue VecWriter.new).2.vector ++ [0]
    valueInto (nw .signedILInt) (bs.length - 1) bs = (.ok (), bytesOf (sc .signedILInt (12346 : Int64))) ∧
    valueInto (nw .signedILInt) bs.length bs = (.ok (), bytesOf (sc .signedILInt (12346 : Int64))) ∧
    isIo (valueInto (nw .signedILInt) bs.length (bs.take (bs.length - 2))).1 = true := by decide +kernel

/-- `test_deserialize_tag!`: read back with the expected type, id and size, and nothing left. -/
def readsAs (s : Bool) (t : Tag Empty) (k : Kind) : Bool :=
  match bytesOf t with
  | some bs => match deser s ByteArrayReader none (ByteArrayReader.new bs) with
    | (.ok t', r) => decide (t'.kind = k) && t'.id == t.id && t'.valueSize == t.valueSize && r.available == 0
    | _ => false
  | none => false
def unknown (s : Bool) (t : Tag Empty) : Bool :=
  match bytesOf t with
  | some bs => is .unknownTag (deser s ByteArrayReader none (ByteArrayReader.new bs)).1
  | none => false

def deserializable : List (Tag Empty × Kind) :=
  [(nullNew, .null), (nw .int16, .int16), (sc .ilint (127 : UInt64), .ilint), (sc .ilint (12345 : UInt64), .ilint),
   (sc .signedILInt (1 : Int64), .signedILInt), (sc .signedILInt (-1 : Int64), .signedILInt),
   (sc .signedILInt (9223372036854775807 : Int64), .signedILInt),
   (sc .signedILInt (-9223372036854775808 : Int64), .signedILInt),
   (.atom (.byteArray (List.replicate 32 0)), .byteArray)]
def foreign : List (Tag Empty) :=
  [(ScalarTag.withIdValue (k := .ilint) 12345 (12345 : UInt64)).toTag,
   (ScalarTag.withIdValue (k := .int16) 123123323 (12345 : Int16)).toTag]

/-- `_deserialize_non_strict`, `_deserialize_strict`. -/
example : ([true, false].all fun s => deserializable.all fun (t, k) => readsAs s t k) = true ∧
    ([true, false].all fun s => unknown s (nullWithId 15) &&
      isIo (deser s ByteArrayReader none (ByteArrayReader.new [4, 2])).1) = true ∧
    (foreign.all fun t => readsAs false t .raw && unknown true t) = true := by decide +kernel

/-- `deserialize_into`: as `Factory.deserializeInto`, with six levels. -/
def into (t : Tag Empty) (bs : Bytes) : Res TagErr Unit × Option Bytes :=
  match (do
    let id ← onReader Ser.deserializeILInt
    let p ← Act.get
    if id ≠ p.1.id then Act.fail .unexpectedTagType
    else do
      let size ← onReader (Factory.deserializeTagSize id)
      Factory.deserializeTagValueInto (deser true) size : Act TagErr (Tag Empty × ByteArrayReader) Unit)
      (t, ByteArrayReader.new bs) with
  | (r, (t', _)) => (r, bytesOf t')

def intoTest (t new other : Tag Empty) : Bool :=
  match bytesOf t with
  | some bs => (into new bs).1.isOk && (into new bs).2 == some bs && !(into new bs.dropLast).1.isOk &&
      is .unexpectedTagType (into other bs).1
  | none => false

/-- `_deserialize_into_*`. -/
example : intoTest (sc .int64 (1345 : Int64)) (nw .int64) (ScalarTag.withId (k := .int64) 123).toTag = true ∧
    intoTest (sc .ilint (1231312313 : UInt64)) (nw .ilint) (ScalarTag.withId (k := .ilint) 123).toTag = true ∧
    intoTest (sc .signedILInt (1231312313 : Int64)) (nw .signedILInt) (ScalarTag.withId (k := .signedILInt) 123).toTag =
      true ∧
    intoTest (StringTag.withValue "test me").toTag StringTag.new.toTag (StringTag.withId 123).toTag = true := by
  decide +kernel

/-- `_from_bytes`, `test_iltag_clone_with_factory`, `test_iltag_clone`. -/
def cloned (e : Engine Empty) (t : Tag Empty) : Option (Kind × Option Bytes) :=
  match t.toBytes with
  | .ok bs => match Factory.deserializeFuel e 6 ByteArrayReader none (ByteArrayReader.new bs) with
    | (.ok t', r) => if r.available = 0 then some (t'.kind, bytesOf t') else none
    | _ => none
  | _ => none
def withString : Engine Empty := ((std true).register 1234 (withIdCreatorOf .string)).2
def s1 (id : UInt64) : Tag Empty := (StringTag.withIdValue id "abcde").toTag

example : cloned withString (s1 17) = some (.string, bytesOf (s1 17)) ∧
    cloned withString (s1 1234) = some (.string, bytesOf (s1 1234)) ∧ cloned withString (s1 1235) = none ∧
    cloned (std false) (s1 17) = some (.string, bytesOf (s1 17)) ∧
    cloned (std false) (s1 1234) = some (.raw, bytesOf (s1 1234)) := by decide +kernel

end Verif.Tests.Implicit
