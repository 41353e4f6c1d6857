import Verif.Model.Dict
import Verif.Tests.Implicit
/-!
# The crate's own tests of the explicit tags, run on the model (/repo/src/tags/standard/explicit/tests.rs)
-/
namespace Verif.Tests.Explicit
open Verif Verif.Tests.Array Verif.Tests.Data Verif.Tests.Tags Verif.Tests.Implicit

abbrev T := Tag Empty

/-- What `serialize_value` writes. -/
def val (t : T) : Option Bytes :=
  match t.serializeValue VecWriter.new with
  | (.ok (), w) => some w.vector
  | _ => none
/-- The same value twice: reading `bs` into `new` gives a tag that serializes like `t`. -/
def gives (new t : T) (bs : Bytes) : Bool :=
  (readInto new bs.length bs).1.isOk && bytesOf (readInto new bs.length bs).2 == bytesOf t
def il (v : UInt64) : Bytes := (Verif.ILInt.encode v VecWriter.new).2.vector
def ils (vs : List UInt64) : Bytes := (vs.map il).flatten
def fails {α : Type} (r : Res TagErr α) : Bool :=
  match r with
  | .err _ => true
  | _ => false

/-! ### ILByteArrayTag, ILBigIntTag -/

def four : Bytes := [1, 2, 3, 4]
def blockTests (new : T) (withValue : Bytes → T) (id : UInt64) : Bool :=
  new.id == id && val new == some [] && (withValue four).id == id && val (withValue four) == some four &&
  new.valueSize == 0 && (withValue four).valueSize == 4 &&
  ((readInto new 0 four).1.isOk && val (readInto new 0 four).2 == some []) && gives new (withValue four) four &&
  isIo (readInto new 5 four).1

/-- `test_ilbytearraytag_*`, `test_ilbiginttag_*` (not the capacity of the vector). -/
example : blockTests (.atom (.byteArray [])) (fun v => .atom (.byteArray v)) 16 = true ∧
    blockTests (.atom (.bigInt [])) (fun v => .atom (.bigInt v)) 18 = true ∧
    kindId (byteArrayWithValue four : Res TagErr T) = some (.byteArray, 16) ∧
    kindId (bigIntWithValue four : Res TagErr T) = some (.bigInt, 18) := by decide +kernel

/-! ### ILStringTag -/

def sampleString : String := "A justiça, cega para um dos dois lados, já não é justiça."
def sampleBin : Bytes := [
    0x41, 0x20, 0x6a, 0x75, 0x73, 0x74, 0x69, 0xc3, 0xa7, 0x61, 0x2c, 0x20, 0x63, 0x65, 0x67, 0x61,
    0x20, 0x70, 0x61, 0x72, 0x61, 0x20, 0x75, 0x6d, 0x20, 0x64, 0x6f, 0x73, 0x20, 0x64, 0x6f, 0x69,
    0x73, 0x20, 0x6c, 0x61, 0x64, 0x6f, 0x73, 0x2c, 0x20, 0x6a, 0xc3, 0xa1, 0x20, 0x6e, 0xc3, 0xa3,
    0x6f, 0x20, 0xc3, 0xa9, 0x20, 0x6a, 0x75, 0x73, 0x74, 0x69, 0xc3, 0xa7, 0x61, 0x2e]
def strT (s : String) : T := (StringTag.withValue s).toTag

/-- `test_ilstringtag_*`. -/
example : StringTag.new.id = 17 ∧ StringTag.new.value = "" ∧ (StringTag.withId 1234).id = 1234 ∧
    (StringTag.withId 1234).value = "" ∧ (StringTag.withValue sampleString).id = 17 ∧
    (StringTag.withValue sampleString).value = sampleString ∧ (StringTag.withIdValue 1234 sampleString).id = 1234 ∧
    (StringTag.withIdValue 1234 sampleString).value = sampleString ∧
    (StringTag.new.mutValue (sampleString ++ ·)).value = sampleString ∧
    (StringTag.new.setValue sampleString).value = sampleString := by decide +kernel
example : (strT "").valueSize = 0 ∧ (strT sampleString).valueSize = 62 ∧ val (strT "") = some [] ∧
    val (strT sampleString) = some sampleBin ∧ (readInto (strT "") 0 sampleBin).1 = .ok () ∧
    val (readInto (strT "") 0 sampleBin).2 = some [] ∧ gives (strT "") (strT sampleString) sampleBin = true ∧
    isIo (readInto (strT "") 63 sampleBin).1 = true ∧
    (readInto (strT "") 8 sampleBin).1 = .err .corruptedData := by decide +kernel

def writtenString (s : String) : Option Bytes :=
  match serializeStringTag s VecWriter.new with
  | (.ok (), w) => some w.vector
  | _ => none

/-- `test_string_tag_size_from_value`, `test_{de,}serialize_string_tag_from_value{,_into}`. -/
example : stringTagSize "" = 2 ∧ stringTagSize sampleString = 64 ∧ writtenString "" = bytesOf (strT "") ∧
    writtenString sampleString = bytesOf (strT sampleString) := by decide +kernel
example : let s := (bytesOf (strT sampleString)).getD []
    let bad := (bytesOf (Tag.atom (.raw 17 (sampleBin.take 8)) : T)).getD []
    value? (deserializeStringTag (ByteArrayReader.new [17, 0])).1 = some "" ∧
    value? (deserializeStringTag (ByteArrayReader.new s)).1 = some sampleString ∧
    isIo (deserializeStringTag (ByteArrayReader.new (s.take 61))).1 = true ∧
    (deserializeStringTag (ByteArrayReader.new bad)).1 = .err .corruptedData ∧
    (deserializeStringTagInto ("", ByteArrayReader.new [17, 0])).2.1 = "" ∧
    (deserializeStringTagInto ("", ByteArrayReader.new s)).2.1 = sampleString ∧
    isIo (deserializeStringTagInto ("", ByteArrayReader.new (s.take 61))).1 = true ∧
    (deserializeStringTagInto ("", ByteArrayReader.new bad)).1 = .err .corruptedData := by decide +kernel

/-! ### ILBigDecTag -/

def decT (scale : Int32) (v : Bytes) : T := .atom (.bigDec 19 scale v)
def dec? : Res TagErr BigDecTag → Option (UInt64 × Int32 × Bytes)
  | .ok t => some (t.inner.id, t.scale, t.inner.value)
  | _ => none

/-- `test_ilbigdectag_impl`. -/
example : [BigDecTag.new, BigDecTag.withId 1234, BigDecTag.withValue (-1) sampleBin,
      BigDecTag.withIdValue 1234 (-1) sampleBin, BigDecTag.new.map (·.setScale (-123)),
      BigDecTag.new.map (·.mutValue (· ++ sampleBin))].map dec? =
    [some (19, 0, []), some (1234, 0, []), some (19, -1, sampleBin), some (1234, -1, sampleBin), some (19, -123, []),
     some (19, 0, sampleBin)] := by decide +kernel

/-- `test_ilbigdectag_iltag_*`. -/
example : (decT 0 []).valueSize = 4 ∧ (decT (-1) sampleBin).valueSize = 66 ∧ val (decT 0 []) = some [0, 0, 0, 0] ∧
    val (decT 0x12345678 (sampleBin.take 6)) = some [0x12, 0x34, 0x56, 0x78, 0x41, 0x20, 0x6a, 0x75, 0x73, 0x74] ∧
    gives (decT 0x12345678 (sampleBin.take 6)) (decT (-1) []) [0xFF, 0xFF, 0xFF, 0xFF] = true ∧
    gives (decT 0 []) (decT 0x12345678 (sampleBin.take 6)) [0x12, 0x34, 0x56, 0x78, 0x41, 0x20, 0x6a, 0x75, 0x73, 0x74] =
      true ∧
    ((List.range 3).all fun n => is .corruptedData
      (readInto (decT 0 []) n [0x12, 0x34, 0x56, 0x78, 0x41, 0x20, 0x6a, 0x75, 0x73, 0x74]).1) = true := by decide +kernel

/-! ### ILILIntArrayTag, ILOIDTag -/

def ilints9 : List UInt64 := [0xf7, 0xf8, 0xFEDC, 0xFEDCBA, 0xFEDCBA98, 0xFEDCBA76, 0xFEDCBA7654, 0xFEDCBA765432,
  0xFEDCBA76543210]
def arrT (v : List UInt64) : T := (IntArrayTag.withValue v).toTag
def oidT (v : List UInt64) : T := (OidTag.withValue v).toTag

/-- `test_ililintarraytag_impl`. -/
example : IntArrayTag.new.id = 20 ∧ IntArrayTag.new.value = [] ∧ (IntArrayTag.withId 1234).id = 1234 ∧
    (IntArrayTag.withId 1234).value = [] ∧ (IntArrayTag.withValue ilints9).id = 20 ∧
    (IntArrayTag.withValue ilints9).value = ilints9 ∧ (IntArrayTag.withIdValue 1234 ilints9).id = 1234 ∧
    (IntArrayTag.withIdValue 1234 ilints9).value = ilints9 ∧ (IntArrayTag.new.mutValue (· ++ ilints9)).value = ilints9 := by
  decide +kernel

/-- `test_ililintarraytag_iltag_*`. -/
example : let bs := ils (9 :: ilints9)
    (arrT []).valueSize = 1 ∧ (arrT ilints9).valueSize = UInt64.ofNat bs.length ∧ val (arrT []) = some [0] ∧
    val (arrT ilints9) = some bs ∧ gives (arrT ilints9) (arrT []) [0] = true ∧ gives (arrT []) (arrT ilints9) bs = true ∧
    isIo (readInto (arrT []) (bs.length - 1) bs).1 = true ∧ isIo (readInto (arrT []) bs.length bs.dropLast).1 = true ∧
    (readInto (arrT []) bs.length (ils (8 :: ilints9))).1 = .err .corruptedData ∧
    isIo (readInto (arrT []) 1 [0xF8]).1 = true := by decide +kernel

def oid4 : List UInt64 := [0, 0xFF, 0xFFFF, 0xFFFFFFFFFFFFFFFF]

/-- `test_iloidtag_*`. -/
example : OidTag.new.inner.id = 25 ∧ OidTag.new.inner.value = [] ∧ (OidTag.withId 1234).inner.id = 1234 ∧
    (OidTag.withValue oid4).inner.id = 25 ∧ (OidTag.withValue oid4).inner.value = oid4 ∧
    (OidTag.withIdValue 1234 oid4).inner.id = 1234 ∧ (OidTag.withIdValue 1234 oid4).inner.value = oid4 ∧
    (OidTag.new.setValue oid4).inner.value = oid4 ∧
    ((OidTag.new.setValue oid4).setValue (oid4.take 2)).inner.value = oid4.take 2 ∧
    ((OidTag.withValue oid4).mutValue fun _ => []).inner.value = [] := by decide +kernel
example : let o := [0xFF, 0xFFFF, 0xFFFFFFFFFFFFFFFF, 0]
    let bs := ils (4 :: o)
    (oidT []).valueSize = 1 ∧ (oidT oid4).valueSize = UInt64.ofNat (ils (4 :: oid4)).length ∧ val (oidT []) = some [0] ∧
    val (oidT oid4) = some (ils (4 :: oid4)) ∧ gives (oidT o) (oidT []) [0] = true ∧ gives (oidT []) (oidT o) bs = true ∧
    fails (readInto (oidT []) (bs.length - 1) bs).1 = true ∧ fails (readInto (oidT []) (bs.length + 1) bs).1 = true ∧
    fails (readInto (oidT []) (bs.length + 1) (bs.take 14)).1 = true := by decide +kernel

/-! ### ILTagSeqTag, ILTagArrayTag -/

def seqT (ts : List T) : T := (⟨22, ts⟩ : ListTag Empty).seqTag
def arrayT (ts : List T) : T := (⟨21, ts⟩ : ListTag Empty).arrayTag
def all (ts : List T) : Bytes := (ts.map fun t => (bytesOf t).getD []).flatten
def total (ts : List T) : UInt64 := (ts.map Tag.size).foldl (· + ·) 0

/-- `deserialize_value` with the standard factory: the result, the tag, and the reader. -/
def readStd (s : Bool) (t : T) (n : Nat) (r : ByteArrayReader) : Res TagErr Unit × T × ByteArrayReader :=
  t.deserializeValue (deser s) n (t, r)
def from' (bs : Bytes) : ByteArrayReader := ByteArrayReader.new bs
def children : T → List T
  | .seq _ ts => ts
  | .array _ ts => ts
  | .dict _ es => es.map (·.2)
  | _ => []
def givesStd (s : Bool) (new : T) (ts : List T) (bs : Bytes) : Bool :=
  match readStd s new bs.length (from' bs) with
  | (.ok (), t, _) => (children t).map bytesOf == ts.map bytesOf
  | _ => false

def one : List T := [strT ""]
def two : List T := [strT "", strT sampleString]
def ilT (v : UInt64) : T := sc .ilint v
def ilIdT (id v : UInt64) : T := (ScalarTag.withIdValue (k := .ilint) id v).toTag
def known : List T := [strT sampleString, ilT 12345678, nullNew]
def mixed : List T := [strT sampleString, ilT 12345678, ilIdT 1234 12345678, nullNew]
def unknownIn : List T := known ++ [ilT 12345678, ilIdT 1234 12345678, nullNew]

/-- `test_iltagseqtag_impl`, `test_iltagarraytag_impl`. -/
example : (ListTag.newSeq (P := Empty)).id = 22 ∧ (ListTag.newSeq (P := Empty)).value.length = 0 ∧
    (ListTag.newArray (P := Empty)).id = 21 ∧ (ListTag.newArray (P := Empty)).value.length = 0 ∧
    (ListTag.withId (P := Empty) 1234).id = 1234 ∧ (ListTag.withId (P := Empty) 1234).value.length = 0 ∧
    ((ListTag.newSeq (P := Empty)).mutValue (· ++ one)).value.length = 1 ∧
    ((ListTag.newArray (P := Empty)).mutValue (· ++ one)).value.length = 1 := by decide +kernel

/-- `test_iltagseqtag_iltag_value_size`, `_serialize_value`. -/
example : (seqT []).valueSize = 0 ∧ (seqT one).valueSize = total one ∧ (seqT two).valueSize = total two ∧
    val (seqT []) = some [] ∧ val (seqT one) = some (all one) ∧ val (seqT two) = some (all two) := by decide +kernel

/-- `test_iltagseqtag_iltag_deserialize_value_non_strict`, `_strict`. -/
example : givesStd false (seqT one) [] [] = true ∧ givesStd false (seqT []) (mixed.take 1) (all (mixed.take 1)) = true ∧
    givesStd false (seqT []) mixed (all mixed) = true ∧
    isIo (readStd false (seqT []) ((all mixed).length - 2) (from' (all mixed))).1 = true ∧
    givesStd true (seqT one) [] [] = true ∧ givesStd true (seqT []) (known.take 1) (all (known.take 1)) = true ∧
    givesStd true (seqT []) known (all known) = true ∧
    isIo (readStd true (seqT []) ((all known).length - 2) (from' (all known))).1 = true ∧
    fails (readStd true (seqT []) (all unknownIn).length (from' (all unknownIn))).1 = true := by decide +kernel

/-- `test_iltagarraytag_iltag_value_size`, `_serialize_value`. -/
example : (arrayT []).valueSize = 1 ∧ (arrayT one).valueSize = 1 + total one ∧ (arrayT two).valueSize = 1 + total two ∧
    val (arrayT []) = some [0] ∧ val (arrayT one) = some (1 :: all one) ∧ val (arrayT two) = some (2 :: all two) := by
  decide +kernel

/-- `test_iltagarraytag_iltag_deserialize_value_non_strict`, `_strict`.  The last read goes on where the failed one left
the reader. -/
example : let bs := 4 :: all mixed
    let r := readStd false (arrayT []) (bs.length - 2) (from' bs)
    givesStd false (arrayT one) [] [0] = true ∧ givesStd false (arrayT []) (mixed.take 1) (1 :: all (mixed.take 1)) = true ∧
    givesStd false (arrayT []) mixed bs = true ∧ isIo r.1 = true ∧
    (readStd false (arrayT []) (bs.length - 1) r.2.2).1 = .err .corruptedData := by decide +kernel
example : let bs := 3 :: all known
    let r := readStd true (arrayT []) (bs.length - 2) (from' bs)
    let bs' := 6 :: all unknownIn
    givesStd true (arrayT one) [] [0] = true ∧ givesStd true (arrayT []) (known.take 1) (1 :: all (known.take 1)) = true ∧
    givesStd true (arrayT []) known bs = true ∧ isIo r.1 = true ∧
    (readStd true (arrayT []) (bs.length - 1) r.2.2).1 = .err .corruptedData ∧
    fails (readStd true (arrayT []) bs'.length (from' bs')).1 = true := by decide +kernel

/-! ### ILRangeTag, ILVersionTag -/

/-- `test_ilrangetag_impl`. -/
example : RangeTag.new = ⟨23, 0, 0⟩ ∧ RangeTag.withId 1234 = ⟨1234, 0, 0⟩ ∧ RangeTag.withValue 124 123 = ⟨23, 124, 123⟩ ∧
    RangeTag.withIdValue 1234 124 123 = ⟨1234, 124, 123⟩ ∧ RangeTag.new.setStart 123 = ⟨23, 123, 0⟩ ∧
    (RangeTag.new.setStart 123).setCount 124 = ⟨23, 123, 124⟩ ∧
    ((RangeTag.new.setStart 123).setCount 124).setValue 321 322 = ⟨23, 321, 322⟩ := by
  refine ⟨rfl, rfl, rfl, rfl, rfl, rfl, rfl⟩

def rangeT (s : UInt64) (c : UInt16) : T := (RangeTag.withValue s c).toTag
def rangeBytes (s : UInt64) (c : UInt16) : Bytes := il s ++ toBE 2 c.toNat

/-- `test_ilrangetag_iltag_*`. -/
example : ([(0, 0), (1, 2), (123123, 65535), (0xFFFFFFFFFFFFFFFF, 65535)].all fun (s, c) =>
      (rangeT s c).valueSize == UInt64.ofNat (Verif.ILInt.encodedSize s + 2) && val (rangeT s c) == some (rangeBytes s c) &&
      gives (rangeT 0 0) (rangeT s c) (rangeBytes s c)) = true ∧
    (let bs := rangeBytes 0xFFFFFFFFFFFFFFFF 65535
     fails (readInto (rangeT 0 0) (bs.length - 1) bs).1 = true ∧
     fails (readInto (rangeT 0 0) (bs.length + 1) (bs ++ [0])).1 = true) := by decide +kernel

/-- `test_ilversiontag_impl`. -/
def v4 : Vector Int32 4 := #v[1, 2, 3, 4]
def parts (t : VersionTag) : UInt64 × Int32 × Int32 × Int32 × Int32 := (t.id, t.major, t.minor, t.revision, t.build)
example : [VersionTag.new, VersionTag.withId 1234, VersionTag.withValue 1 2 3 4, VersionTag.withIdValue 1234 1 2 3 4,
      VersionTag.withFromSlice v4, VersionTag.withIdFromSlice 1234 v4,
      (VersionTag.new.setMajor 1 |>.setMinor 2 |>.setRevision 3 |>.setBuild 4), VersionTag.new.setValue 1 2 3 4,
      VersionTag.new.setFromSlice v4].map parts =
    [(24, 0, 0, 0, 0), (1234, 0, 0, 0, 0), (24, 1, 2, 3, 4), (1234, 1, 2, 3, 4), (24, 1, 2, 3, 4), (1234, 1, 2, 3, 4),
     (24, 1, 2, 3, 4), (24, 1, 2, 3, 4), (24, 1, 2, 3, 4)] := by decide +kernel

def verT (a b c d : Int32) : T := (VersionTag.withValue a b c d).toTag
def verBytes : Bytes := [0, 0, 0, 1, 0, 0, 0, 2, 0, 0, 0, 3, 0, 0, 0, 4]

/-- `test_ilversiontag_iltag_*`. -/
example : (verT 0 0 0 0).valueSize = 16 ∧ (verT 1 2 3 4).valueSize = 16 ∧
    val (verT 0 0 0 0) = some (List.replicate 16 0) ∧ val (verT 1 2 3 4) = some verBytes ∧
    gives (verT 0 0 0 0) (verT 0 0 0 0) (List.replicate 16 0) = true ∧ gives (verT 0 0 0 0) (verT 1 2 3 4) verBytes = true ∧
    isIo (readInto (verT 0 0 0 0) 16 (verBytes.take 15)).1 = true ∧
    (readInto (verT 0 0 0 0) 15 (verBytes.take 15)).1 = .err .corruptedData ∧
    (readInto (verT 0 0 0 0) 17 verBytes).1 = .err .corruptedData := by decide +kernel

/-! ### ILDictTag, ILStrDictTag -/

/-- `test_ildicttag_impl`. -/
example : (MapTag.newDict (P := Empty)).id = 30 ∧ (MapTag.newDict (P := Empty)).len = 0 ∧
    (MapTag.withId (V := T) 1234).id = 1234 ∧ (MapTag.withId (V := T) 1234).len = 0 ∧
    ((MapTag.newDict (P := Empty)).insert "test" nullNew).1.isNone = true ∧
    (((MapTag.newDict (P := Empty)).insert "test" nullNew).2.get "test").map Tag.id = some 0 := by decide +kernel

def sampleDict : MapTag T :=
  (((MapTag.newDict.insert "c" nullNew).2.insert "a" (strT sampleString)).2.insert "b" (sc .int64 (0xFACADA : Int64))).2
def keys : List String := ["a", "b", "c"]
def strBytes (s : String) : Bytes := (writtenString s).getD []
def dictBytes (d : MapTag T) : Bytes :=
  il (UInt64.ofNat d.len) ++ (keys.map fun k => strBytes k ++ ((d.get k).bind bytesOf).getD []).flatten

/-- `test_ildicttag_iltag_value_size`, `_serialze_value`. -/
example : (MapTag.newDict (P := Empty)).dictTag.valueSize = 1 ∧ val (MapTag.newDict (P := Empty)).dictTag = some [0] ∧
    sampleDict.dictTag.valueSize = UInt64.ofNat (dictBytes sampleDict).length ∧
    val sampleDict.dictTag = some (dictBytes sampleDict) := by decide +kernel

/-- Reads back as a dictionary with the same values under the three keys. -/
def dictReads (s : Bool) (new d : MapTag T) : Bool :=
  match readStd s new.dictTag (dictBytes d).length (from' (dictBytes d)) with
  | (.ok (), .dict _ es, _) => es.length == d.len &&
      keys.all fun k => (HMap.get k es).bind bytesOf == (d.get k).bind bytesOf && (d.get k).isSome
  | _ => false
def otherDict : MapTag T := (sampleDict.insert "c" (ScalarTag.withId (k := .uint8) 1234).toTag).2

/-- `test_ildicttag_iltag_deserialze_value_non_strict`, `_strict`. -/
example : ([true, false].all fun s =>
      let bs := dictBytes sampleDict
      let new := (MapTag.newDict (P := Empty))
      let x := (new.insert "x" nullNew).2
      (readStd s x.dictTag 1 (from' [0])).1.isOk && (children (readStd s x.dictTag 1 (from' [0])).2.1).isEmpty &&
      dictReads s new sampleDict &&
      fails (readStd s new.dictTag (bs.length - 1) (from' bs)).1 && fails (readStd s new.dictTag (bs.length - 4) (from' bs)).1 &&
      fails (readStd s new.dictTag (bs.length + 1) (from' bs)).1) = true ∧
    dictReads false MapTag.newDict otherDict = true ∧
    fails (readStd true (MapTag.newDict (P := Empty)).dictTag (dictBytes otherDict).length (from' (dictBytes otherDict))).1 =
      true := by decide +kernel

/-- `test_ilstrdicttag_impl`. -/
example : MapTag.newStrDict.id = 31 ∧ MapTag.newStrDict.len = 0 ∧ (MapTag.withId (V := String) 1234).id = 1234 ∧
    (MapTag.newStrDict.insert "test1" "test2").1 = none ∧
    (MapTag.newStrDict.insert "test1" "test2").2.get "test1" = some "test2" := by decide +kernel

def sampleStrDict : MapTag String :=
  (((MapTag.newStrDict.insert "c" "c").2.insert "a" "A").2.insert "b" "b").2
def strDictBytes (d : MapTag String) : Bytes :=
  il (UInt64.ofNat d.len) ++ (keys.map fun k => strBytes k ++ strBytes ((d.get k).getD "?")).flatten
def sdT (d : MapTag String) : T := d.strDictTag
def strEntries : T → List (String × String)
  | .atom (.strDict _ es) => es
  | _ => []

/-- `test_ilstrdicttag_iltag_*`. -/
example : (sdT MapTag.newStrDict).valueSize = 1 ∧ val (sdT MapTag.newStrDict) = some [0] ∧
    (sdT sampleStrDict).valueSize = UInt64.ofNat (strDictBytes sampleStrDict).length ∧
    val (sdT sampleStrDict) = some (strDictBytes sampleStrDict) := by decide +kernel
example : let bs := strDictBytes sampleStrDict
    let new := sdT MapTag.newStrDict
    let r := readInto new bs.length bs
    let x := sdT (MapTag.newStrDict.insert "x" "y").2
    (readInto x 1 [0]).1 = .ok () ∧ strEntries (readInto x 1 [0]).2 = [] ∧ r.1 = .ok () ∧ (strEntries r.2).length = 3 ∧
    keys.map (fun k => HMap.get k (strEntries r.2)) = [some "A", some "b", some "c"] ∧
    fails (readInto new (bs.length - 1) bs).1 = true ∧ fails (readInto new (bs.length - 4) bs).1 = true ∧
    fails (readInto new (bs.length + 1) bs).1 = true ∧
    fails (readInto new (dictBytes sampleDict).length (dictBytes sampleDict)).1 = true := by decide +kernel

end Verif.Tests.Explicit
