import Verif.Model.Construct
import Verif.Model.Raw
import Verif.Model.Util
import Verif.Tests.Data
/-!
# The crate's own tests of `src/tags`, `payload`, `raw`, `serialization`, `util` and `standard/constants`, run on the model
(/repo/src/tags/tests.rs, payload/tests.rs, raw/tests.rs, serialization/tests.rs, util/tests.rs, standard/tests.rs)
-/
namespace Verif.Tests.Tags
open Verif Verif.Tests.Array Verif.Tests.Data

/-! ### src/tags/tests.rs -/

/-- `test_is_implicit_tag`, `test_is_reserved_tag`, `test_tag_size_to_usize`. -/
example : ((List.range 16).all fun i => isImplicitTag (UInt64.ofNat i)) = true ∧ isImplicitTag 16 = false ∧
    ((List.range 32).all fun i => isReservedTag (UInt64.ofNat i)) = true ∧ isReservedTag 32 = false ∧
    tagSizeToUsize 0 = .ok 0 ∧ tagSizeToUsize 536870912 = .ok 536870912 ∧
    tagSizeToUsize 536870913 = .err .tagTooLarge := by decide +kernel

def encoded : Bytes := [0xFF, 0xCB, 0x3A, 0x20, 0x8D, 0x5C, 0x13, 0x68, 0xEC]

def isIo {α : Type} : Res TagErr α → Bool
  | .err (.ioError _) => true
  | _ => false
def is {α : Type} (e : TagErr) : Res TagErr α → Bool
  | .err e' => decide (e = e')
  | _ => false
def value? {ε α : Type} : Res ε α → Option α
  | .ok a => some a
  | _ => none

/-- `test_serialize_ilint`, `test_deserialize_ilint`. -/
example : ((Ser.serializeILInt 0xcb3a208d5c1369e4 VecWriter.new).1.isOk) = true ∧
    (Ser.serializeILInt 0xcb3a208d5c1369e4 VecWriter.new).2.vector = encoded ∧
    isIo (Ser.serializeILInt 0xcb3a208d5c1369e4 (VecWriter.new.setReadOnly true)).1 = true ∧
    value? (Ser.deserializeILInt (ByteArrayReader.new encoded)).1 = some 0xcb3a208d5c1369e4 ∧
    isIo (Ser.deserializeILInt (ByteArrayReader.new encoded.dropLast)).1 = true := by decide +kernel

/-- `test_serialize_bytes`, `test_deserialize_bytes`, `test_deserialize_bytes_into_vec`, `test_deserialize_bytes_into_vec`. -/
example : (Ser.serializeBytes encoded VecWriter.new).2.vector = encoded ∧
    isIo (Ser.serializeBytes encoded (VecWriter.new.setReadOnly true)).1 = true ∧
    ((List.range 10).all fun n =>
      value? (Ser.deserializeBytes n (ByteArrayReader.new encoded)).1 == some (encoded.take n) &&
      ((deserializeBytesIntoVec n (List.replicate 1234 1, ByteArrayReader.new encoded)).2.1 == encoded.take n) &&
      (deserializeBytesIntoVec n ([], ByteArrayReader.new encoded)).1.isOk) = true ∧
    isIo (Ser.deserializeBytes 10 (ByteArrayReader.new encoded)).1 = true ∧
    isIo (deserializeBytesIntoVec 10 ([], ByteArrayReader.new encoded)).1 = true := by decide +kernel

/-- The test's `DummyTag`: an id, a value size and a flag. -/
structure Dummy where
  size : Nat
  dummy : Nat
  deriving DecidableEq

instance : TagPayload Dummy where
  serializedSize d := d.size
  serialize d := ((List.range d.size).map fun i => WOp.byte (UInt8.ofNat i), .ok ())
  deserialize d n :=
    if n ≠ 4 then .done (.err .corruptedData) d
    else .read fun a => .read fun b => .read fun c => .read fun e =>
      if [a, b, c, e] = [0, 1, 2, 3] then .done (.ok ()) { d with dummy := 1 } else .done (.err .corruptedData) d

def dummyTag (id : UInt64) (size : Nat) : Tag Dummy := .atom (.payload id ⟨size, 0⟩)
def bytesOf {P : Type} [TagPayload P] (t : Tag P) : Option Bytes :=
  match t.serialize VecWriter.new with
  | (.ok (), w) => some w.vector
  | _ => none

/-- `test_iltag_size`, `test_iltag_serialize`. -/
example : (dummyTag 15 3).size = 4 ∧ (dummyTag 31 3).size = 5 ∧ (dummyTag 255 255).size = 259 ∧
    bytesOf (dummyTag 15 4) = some [15, 0, 1, 2, 3] ∧ bytesOf (dummyTag 16 4) = some [16, 4, 0, 1, 2, 3] ∧
    bytesOf (dummyTag 255 256) = some ([248, 7, 248, 8] ++ sample 256) := by decide +kernel

/-- Reading one value into a tag: the result and the tag afterwards. -/
def readInto {P : Type} [TagPayload P] (t : Tag P) (n : Nat) (bs : Bytes) : Res TagErr Unit × Tag P :=
  match t.deserializeValue Factory.untouchable n (t, ByteArrayReader.new bs) with
  | (r, (t', _)) => (r, t')
def payload? {P : Type} : Tag P → Option P
  | .atom (.payload _ p) => some p
  | _ => none

example : (readInto (dummyTag 15 4) 4 [0, 1, 2, 3]).1 = .ok () ∧
    payload? (readInto (dummyTag 15 4) 4 [0, 1, 2, 3]).2 = some ⟨4, 1⟩ ∧
    (readInto (dummyTag 15 4) 3 [0, 1, 2, 3]).1 = .err .corruptedData ∧
    isIo (readInto (dummyTag 15 4) 4 [0, 1, 2]).1 = true := by decide +kernel

def raw (id : UInt64) (v : Bytes) : Tag Dummy := .atom (.raw id v)
def str (id : UInt64) (v : String) : Tag Dummy := .atom (.string id v)

/-- `test_tag_downcast_*`, `test_tag_id_downcast_*`, `test_assert_tag_id_and_type*`. -/
example : (downcast .raw (raw 1234 [])).isSome = true ∧ (downcast .string (raw 1234 [])).isSome = false ∧
    (downcastWithId .raw 1234 (raw 1234 [])).isSome = true ∧ (downcastWithId .raw 1235 (raw 1234 [])).isSome = false ∧
    (downcastWithId .string 1234 (raw 1234 [])).isSome = false ∧
    (idDowncast .raw 1234 (raw 1234 [])).isOk = true ∧ is .unexpectedTagType (idDowncast .raw 1235 (raw 1234 [])) = true ∧
    is .unexpectedTagType (idDowncast .string 1234 (raw 1234 [])) = true ∧
    assertIdAndType .raw 1234 (raw 1234 []) = .ok () ∧
    assertIdAndType .raw 1235 (raw 1234 []) = .err .unexpectedTagType ∧
    assertIdAndType .string 1234 (raw 1234 []) = .err .unexpectedTagType ∧
    assertIdAndTypeOrError .raw 1235 (raw 1234 []) .corruptedData = .err .corruptedData ∧
    assertIdAndTypeOrError .string 1234 (raw 1234 []) .corruptedData = .err .corruptedData := by decide +kernel

def kindId {P : Type} : Res TagErr (Tag P) → Option (Kind × UInt64)
  | .ok t => some (t.kind, t.id)
  | _ => none
def panics {ε α : Type} : Res ε α → Bool
  | .panic => true
  | _ => false
def made {P : Type} (e : Engine P) (id : UInt64) : Option (Option (Kind × UInt64)) :=
  match e.createTag id with
  | .ok (some t) => some (some (t.kind, t.id))
  | .ok none => some none
  | _ => none

/-- `test_ildefaulttagcreator*`, `test_ildefaultwithidtagcreator`. -/
example : kindId (defaultCreatorOf (P := Dummy) .string 17) = some (.string, 17) ∧
    panics (defaultCreatorOf (P := Dummy) .string 16) = true ∧
    kindId (withIdCreatorOf (P := Dummy) .string 1234) = some (.string, 1234) := by decide +kernel

/-- `test_iltagcreatorengine_normal`, `_strict`, `_deregister`. -/
def engine (strict : Bool) : Engine Dummy :=
  (((Engine.new strict).register 16 (payloadCreator ⟨16, 0⟩)).2.register 17 (payloadCreator ⟨17, 0⟩)).2

example : made (engine false) 16 = some (some (.payload, 16)) ∧ made (engine false) 17 = some (some (.payload, 17)) ∧
    made (engine false) 18 = some (some (.raw, 18)) ∧
    ((List.range 16).all fun i => made (engine false) (UInt64.ofNat i) == some none) = true ∧
    made (engine true) 16 = some (some (.payload, 16)) ∧ made (engine true) 17 = some (some (.payload, 17)) ∧
    made (engine true) 18 = some none ∧
    ((List.range 16).all fun i => made (engine true) (UInt64.ofNat i) == some none) = true := by decide +kernel

example : ((engine true).deregister 16).1.isSome = true ∧
    (((engine true).deregister 16).2.deregister 16).1.isSome = false ∧ ((engine true).deregister 18).1.isSome = false ∧
    made ((engine true).deregister 16).2 16 = some none ∧
    made ((engine true).deregister 16).2 17 = some (some (.payload, 17)) := by decide +kernel

/-- `test_ilrawtag_new`, `_new_fail`, `_with_value`, `_with_value_fail`, `_mut_value`, `_set_value`. -/
example : (RawTag.new 16 = .ok ⟨16, []⟩) ∧ panics (RawTag.new 15) = true ∧
    (RawTag.withValue 16 encoded = .ok ⟨16, encoded⟩) ∧ panics (RawTag.withValue 15 encoded) = true ∧
    (RawTag.mutValue (fun v => v ++ [1]) ⟨16, encoded⟩).value = encoded ++ [1] ∧
    (RawTag.setValue [3, 4] ⟨16, encoded⟩).value = [3, 4] := by
  refine ⟨rfl, rfl, rfl, rfl, rfl, rfl⟩

def rawValue {P : Type} : Tag P → Option Bytes
  | .atom (.raw _ v) => some v
  | _ => none

/-- `test_ilrawtag_value_size`, `_serialize_value`, `_deserialize_value`: four reads in a row into the same tag. -/
example : (raw 16 encoded).valueSize = 9 ∧
    ((raw 16 encoded).serializeValue VecWriter.new).2.vector = encoded ∧
    (let a := readInto (raw 16 []) 0 []
     let b := readInto a.2 5 [1, 2, 3, 4, 5]
     let c := readInto b.2 0 []
     let d := readInto c.2 1 []
     a.1 = .ok () ∧ rawValue a.2 = some [] ∧ b.1 = .ok () ∧ rawValue b.2 = some [1, 2, 3, 4, 5] ∧
     c.1 = .ok () ∧ rawValue c.2 = some [] ∧ isIo d.1 = true) := by decide +kernel

/-! ### src/tags/payload/tests.rs -/

/-- The test's `TestTagPayload`. -/
structure TestPayload where
  a : UInt16
  b : UInt32
  deriving DecidableEq

instance : TagPayload TestPayload where
  serializedSize _ := 6
  serialize p := ([.all (toBE 2 p.a.toNat), .all (toBE 4 p.b.toNat)], .ok ())
  deserialize p n :=
    if n ≠ 6 then .done (.err .corruptedData) p
    else .readAll 2 fun a => .readAll 4 fun b => .done (.ok ()) ⟨UInt16.ofNat (fromBE a), UInt32.ofNat (fromBE b)⟩

def pbytes : Bytes := [0xAB, 0xCD, 0xEF, 0x01, 0x23, 0x45]
def test (a : UInt16) (b : UInt32) : Tag TestPayload := .atom (.payload 1234 ⟨a, b⟩)

/-- `test_testtagpayload_*`, `test_testtagpayloadtag_*`. -/
example : (test 0 0).valueSize = 6 ∧ ((test 0xABCD 0xEF012345).serializeValue VecWriter.new).2.vector = pbytes ∧
    (readInto (test 0 0) 6 pbytes).1 = .ok () ∧
    payload? (readInto (test 0 0) 6 pbytes).2 = some ⟨0xABCD, 0xEF012345⟩ ∧
    (readInto (test 0 0) 6 pbytes).2.id = 1234 ∧
    (readInto (test 0 0) 5 pbytes).1 = .err .corruptedData ∧ (readInto (test 0 0) 7 pbytes).1 = .err .corruptedData ∧
    isIo (readInto (test 0 0) 6 (pbytes.drop 1)).1 = true := by decide +kernel

/-! ### src/tags/raw/tests.rs -/

/-- `test_rawragoffset_impl`. -/
example : let t : RawTagOffset := ⟨3, 5, 7, 11⟩
    t.size .checked = .ok 18 ∧ t.valueOffset .checked = .ok 12 ∧ t.nextTagOffset .checked = .ok 23 ∧
    t.tagStart = 5 ∧ t.tagEnd .checked = .ok 23 ∧ t.valueStart .checked = .ok 12 ∧
    t.valueEnd .checked = .ok 23 := by decide +kernel

/-- `test_rawragoffset_impl_to_parent_space`. -/
example : RawTagOffset.mapToParentSpace .checked ⟨4, 0, 2, 8⟩ ⟨3, 5, 7, 10⟩ = .ok ⟨4, 12, 2, 8⟩ ∧
    RawTagOffset.mapToParentSpace .checked ⟨4, 0, 2, 8⟩ ⟨3, 5, 7, 11⟩ = .ok ⟨4, 12, 2, 8⟩ ∧
    RawTagOffset.mapToParentSpace .checked ⟨4, 1, 2, 8⟩ ⟨3, 5, 7, 11⟩ = .ok ⟨4, 13, 2, 8⟩ ∧
    RawTagOffset.mapToParentSpace .checked ⟨4, 0, 2, 9⟩ ⟨3, 5, 7, 10⟩ = .err .corruptedData ∧
    RawTagOffset.mapToParentSpace .checked ⟨4, 1, 2, 8⟩ ⟨3, 5, 7, 10⟩ = .err .corruptedData := by decide +kernel

/-- `test_rawragoffset_impl_value_slice`. -/
example : RawTagOffset.tagSlice .checked ⟨3, 1, 2, 3⟩ (sample 10) = .ok [1, 2, 3, 4, 5] ∧
    RawTagOffset.valueSlice .checked ⟨3, 1, 2, 3⟩ (sample 10) = .ok [3, 4, 5] := by decide +kernel

/-- `create_sample_tag_seq`. -/
def sampleTags : List (Tag Empty) :=
  [Bin128Tag.new.toTag, (ScalarTag.new (k := .bin32)).toTag, (ScalarTag.new (k := .bin64)).toTag,
   (ScalarTag.new (k := .bool)).toTag, (ScalarTag.new (k := .ilint)).toTag, (ScalarTag.new (k := .int16)).toTag,
   (ScalarTag.new (k := .int32)).toTag, (ScalarTag.new (k := .int64)).toTag, (ScalarTag.new (k := .int8)).toTag, nullNew,
   (ScalarTag.new (k := .signedILInt)).toTag, (ScalarTag.new (k := .uint16)).toTag, (ScalarTag.new (k := .uint32)).toTag,
   (ScalarTag.new (k := .uint64)).toTag, (ScalarTag.new (k := .uint8)).toTag, (StringTag.withValue "tag1").toTag,
   (StringTag.withIdValue 12345 "tag2").toTag]
def sampleBytes : Bytes := (calls (sampleTags.map Tag.serialize) VecWriter.new).2.vector

/-- `test_create_sample_tag_seq`, `test_serialize_tag_seq`. -/
example : sampleTags.length = 17 ∧ sampleBytes.length = ((sampleTags.map Tag.size).foldl (· + ·) 0).toNat := by
  decide +kernel

/-- What the scanner must report for tags laid out from `offs` on: id, start and end. -/
def expected (offs : UInt64) : List (Tag Empty) → List (UInt64 × UInt64 × UInt64)
  | [] => []
  | t :: ts => (t.id, offs, offs + t.size) :: expected (offs + t.size) ts
def found (r : Res TagErr (Option RawTagOffset)) : Option (UInt64 × UInt64 × UInt64) :=
  match r with
  | .ok (some t) => match t.nextTagOffset .checked with
    | .ok n => some (t.id, t.offset, n)
    | _ => none
  | _ => none

/-- `test_rawragscanner_next_tag`, `test_rawragscanner_next_tag_if_id`. -/
example : (calls (List.replicate 17 (RawTagScanner.nextTag .checked))
      (RawTagScanner.new (ByteArrayReader.new sampleBytes))).1.map found = (expected 0 sampleTags).map some := by
  decide +kernel
example : (calls (sampleTags.map fun t => RawTagScanner.nextTagIfId .checked t.id)
      (RawTagScanner.new (ByteArrayReader.new sampleBytes))).1.map found = (expected 0 sampleTags).map some ∧
    (RawTagScanner.nextTagIfId .checked 1313123 (RawTagScanner.new (ByteArrayReader.new sampleBytes))).1 =
      .err .unexpectedTagType := by decide +kernel

/-! ### src/tags/serialization/tests.rs -/

/-- `test_deserializer_*`: byte blocks (the values are those of `Tests/Data`). -/
example : value? (Ser.deserializeBytes bin.length (ByteArrayReader.new bin)).1 = some bin ∧
    isIo (Ser.deserializeBytes bin.length (Ser.deserializeBytes bin.length (ByteArrayReader.new bin)).2).1 = true ∧
    (deserializeBytesIntoVec bin.length ([], ByteArrayReader.new bin)).2.1 = bin := by decide +kernel

/-- `test_serializer_*`: byte blocks. -/
example : (Ser.serializeBytes bin VecWriter.new).2.vector = bin ∧
    isIo (Ser.serializeBytes bin ((Ser.serializeBytes bin VecWriter.new).2.setReadOnly true)).1 = true := by decide +kernel

/-- `test_signedilint{de,}serializer_*`. -/
example : signed.all (fun s =>
    let w := (Verif.ILInt.signedEncode s VecWriter.new).2.vector
    let w' := (Ser.serializeSignedILInt s VecWriter.new).2
    value? (Ser.deserializeSignedILInt (ByteArrayReader.new w)).1 == some s &&
    isIo (Ser.deserializeSignedILInt (ByteArrayReader.new w.dropLast)).1 &&
    value? (Verif.ILInt.signedDecode (ByteArrayReader.new w'.vector)).1 == some s &&
    isIo (Ser.serializeSignedILInt s (w'.setReadOnly true)).1) = true := by decide +kernel

/-! ### src/tags/util/tests.rs -/

def a1 : Tag Empty := (StringTag.withValue "abcde").toTag

/-- `test_iltag_are_equal`. -/
example : tagsAreEqual a1 a1 = .ok true ∧ tagsAreEqual a1 (.atom (.raw 17 (utf8 "abcde"))) = .ok true ∧
    tagsAreEqual a1 (.atom (.raw 1234 (utf8 "abcde"))) = .ok false ∧
    tagsAreEqual a1 (StringTag.withValue "abcd").toTag = .ok false ∧
    tagsAreEqual a1 (StringTag.withValue "bcdef").toTag = .ok false := by decide +kernel

/-- `test_limited_reader_ensure_empty` (for the error the crate's own callers pass). -/
example : (ensureEmpty ((), (⟨ByteArrayReader.new [0], 1⟩ : Limited ByteArrayReader))).1 = .err .corruptedData ∧
    (ensureEmpty ((), (⟨ByteArrayReader.new [0], 0⟩ : Limited ByteArrayReader))).1 = .ok () := by decide +kernel

/-- `test_untouchbletagfactory_deserialize`. -/
example : panics (Factory.untouchable (P := Empty) ByteArrayReader none (ByteArrayReader.new [])).1 = true := by decide +kernel

/-! ### src/tags/standard/tests.rs -/

/-- `test_constants`. -/
example : [Id.null, Id.bool, Id.int8, Id.uint8, Id.int16, Id.uint16, Id.int32, Id.uint32, Id.int64, Id.uint64, Id.ilint,
    Id.bin32, Id.bin64, Id.bin128] = (List.range 14).map UInt64.ofNat ∧
    [Id.bytes, Id.string, Id.bigInt, Id.bigDec, Id.ilintArray, Id.tagArray, Id.tagSeq, Id.range, Id.version, Id.oid,
     Id.dict, Id.strDict] = [16, 17, 18, 19, 20, 21, 22, 23, 24, 25, 30, 31] := by decide +kernel

end Verif.Tests.Tags
