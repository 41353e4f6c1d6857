import Verif.Model.ILInt
/-!
# `src/io/data/mod.rs` and `src/tags/serialization/mod.rs`

The extension traits (`ValueReader`, `ILIntReader`, `ValueDeserializer`, ...) of both files only forward to
the functions modelled here; the `tags::serialization` ones convert the error with `From`, which is
`deser`/`ser` below.
-/
namespace Verif

/-- The process environment: the largest single allocation (in bytes) it can satisfy.  A larger request
panics (`capacity overflow`) or aborts; both are modelled as a panic. -/
class Env where
  allocMax : Nat

/-- `uN::to_be_bytes` (std): the `n` big-endian bytes of `v`. -/
def toBE : Nat → Nat → Bytes
  | 0, _ => []
  | n + 1, v => toBE n (v / 256) ++ [UInt8.ofNat (v % 256)]

/-- `uN::from_be_bytes` (std): the big-endian value of the bytes. -/
def fromBE (bs : Bytes) : Nat := bs.foldl (fun a b => a * 256 + b.toNat) 0

/-- `str::as_bytes`. -/
def utf8 (s : String) : Bytes := s.toUTF8.data.toList

/-- `str::from_utf8` / `String::from_utf8`. -/
def fromUtf8 (bs : Bytes) : Option String := String.fromUTF8? ⟨bs.toArray⟩

namespace Data
variable {σ ω : Type} [Reader σ] [Writer ω]

/-- `read_u8`, /repo/src/io/data/mod.rs:54-56. -/
def readU8 : Act IoErr σ UInt8 := Reader.read
/-- `read_i8`, /repo/src/io/data/mod.rs:66-71. -/
def readI8 : Act IoErr σ Int8 := do let v ← (Reader.read : Act IoErr σ Byte); pure v.toInt8
/-- `read_u16`, /repo/src/io/data/mod.rs:81-85. -/
def readU16 : Act IoErr σ UInt16 := do let t ← Reader.readAll 2; pure (UInt16.ofNat (fromBE t))
/-- `read_i16`, /repo/src/io/data/mod.rs:95-99. -/
def readI16 : Act IoErr σ Int16 := do let t ← Reader.readAll 2; pure (UInt16.ofNat (fromBE t)).toInt16
/-- `read_u32`, /repo/src/io/data/mod.rs:109-113. -/
def readU32 : Act IoErr σ UInt32 := do let t ← Reader.readAll 4; pure (UInt32.ofNat (fromBE t))
/-- `read_i32`, /repo/src/io/data/mod.rs:123-127. -/
def readI32 : Act IoErr σ Int32 := do let t ← Reader.readAll 4; pure (UInt32.ofNat (fromBE t)).toInt32
/-- `read_u64`, /repo/src/io/data/mod.rs:137-141. -/
def readU64 : Act IoErr σ UInt64 := do let t ← Reader.readAll 8; pure (UInt64.ofNat (fromBE t))
/-- `read_i64`, /repo/src/io/data/mod.rs:151-155. -/
def readI64 : Act IoErr σ Int64 := do let t ← Reader.readAll 8; pure (UInt64.ofNat (fromBE t)).toInt64
/-- `read_f32`, /repo/src/io/data/mod.rs:201-204; the float is its bit pattern. -/
def readF32 : Act IoErr σ UInt32 := readU32
/-- `read_f64`, /repo/src/io/data/mod.rs:216-219; the float is its bit pattern. -/
def readF64 : Act IoErr σ UInt64 := readU64

/-- The error mapping of `read_ilint`/`read_signed_ilint`, /repo/src/io/data/mod.rs:166-170,184-188. -/
def readILIntErr : ILIntErr → IoErr
  | .ioError e => e
  | _ => .corruptedData
/-- The error mapping of `write_ilint`/`write_signed_ilint`, /repo/src/io/data/mod.rs:353-357,372-376. -/
def writeILIntErr : ILIntErr → IoErr
  | .ioError e => e
  | _ => .unableToWriteData

/-- `read_ilint`, /repo/src/io/data/mod.rs:165-171. -/
def readILInt : Act IoErr σ UInt64 := ILInt.decode.mapErr readILIntErr
/-- `read_signed_ilint`, /repo/src/io/data/mod.rs:183-189. -/
def readSignedILInt : Act IoErr σ Int64 := ILInt.signedDecode.mapErr readILIntErr

/-- `vec![0; size]` / `Vec::resize` / `Vec::reserve`: panics when the request exceeds what the process can
allocate.  `unit` is the size of an element. -/
def alloc {ε τ : Type} [Env] (unit count : Nat) : Act ε τ Unit :=
  if unit * count ≤ Env.allocMax then pure () else Act.panic

/-- `read_string`, /repo/src/io/data/mod.rs:230-237. -/
def readString [Env] (size : Nat) : Act IoErr σ String := do
  alloc 1 size
  let tmp ← Reader.readAll size
  match fromUtf8 tmp with
  | some s => pure s
  | none => Act.fail .corruptedData

/-- `write_u8`, /repo/src/io/data/mod.rs:248-250. -/
def writeU8 (v : UInt8) : Act IoErr ω Unit := Writer.write v
/-- `write_i8`, /repo/src/io/data/mod.rs:261-263. -/
def writeI8 (v : Int8) : Act IoErr ω Unit := Writer.write v.toUInt8
/-- `write_u16`, /repo/src/io/data/mod.rs:274-276. -/
def writeU16 (v : UInt16) : Act IoErr ω Unit := Writer.writeAll (toBE 2 v.toNat)
/-- `write_i16`, /repo/src/io/data/mod.rs:287-289. -/
def writeI16 (v : Int16) : Act IoErr ω Unit := Writer.writeAll (toBE 2 v.toUInt16.toNat)
/-- `write_u32`, /repo/src/io/data/mod.rs:300-302. -/
def writeU32 (v : UInt32) : Act IoErr ω Unit := Writer.writeAll (toBE 4 v.toNat)
/-- `write_i32`, /repo/src/io/data/mod.rs:313-315. -/
def writeI32 (v : Int32) : Act IoErr ω Unit := Writer.writeAll (toBE 4 v.toUInt32.toNat)
/-- `write_u64`, /repo/src/io/data/mod.rs:326-328. -/
def writeU64 (v : UInt64) : Act IoErr ω Unit := Writer.writeAll (toBE 8 v.toNat)
/-- `write_i64`, /repo/src/io/data/mod.rs:339-341. -/
def writeI64 (v : Int64) : Act IoErr ω Unit := Writer.writeAll (toBE 8 v.toUInt64.toNat)
/-- `write_f32`, /repo/src/io/data/mod.rs:389-391; the float is its bit pattern. -/
def writeF32 (v : UInt32) : Act IoErr ω Unit := Writer.writeAll (toBE 4 v.toNat)
/-- `write_f64`, /repo/src/io/data/mod.rs:403-405; the float is its bit pattern. -/
def writeF64 (v : UInt64) : Act IoErr ω Unit := Writer.writeAll (toBE 8 v.toNat)
/-- `write_ilint`, /repo/src/io/data/mod.rs:352-358. -/
def writeILInt (v : UInt64) : Act IoErr ω Unit := (ILInt.encode v).mapErr writeILIntErr
/-- `write_signed_ilint`, /repo/src/io/data/mod.rs:371-377. -/
def writeSignedILInt (v : Int64) : Act IoErr ω Unit := (ILInt.signedEncode v).mapErr writeILIntErr
/-- `write_string`, /repo/src/io/data/mod.rs:416-418. -/
def writeString (v : String) : Act IoErr ω Unit := Writer.writeAll (utf8 v)

end Data

/-- `?` through `From<io::ErrorKind> for tags::ErrorKind` (/repo/src/tags/mod.rs:107-111), as done by every
function of /repo/src/tags/serialization/mod.rs:49-402. -/
def tagIo {σ α : Type} (x : Act IoErr σ α) : Act TagErr σ α := x.mapErr .ioError

namespace Ser
variable {σ ω : Type} [Reader σ] [Writer ω]

/-- `deserialize_ilint`, /repo/src/tags/serialization/mod.rs:104-135,428. -/
def deserializeILInt : Act TagErr σ UInt64 := tagIo Data.readILInt
/-- `deserialize_signed_ilint`, /repo/src/tags/serialization/mod.rs:482-515. -/
def deserializeSignedILInt : Act TagErr σ Int64 := tagIo Data.readSignedILInt
/-- `deserialize_bytes`, /repo/src/tags/serialization/mod.rs:223-227,454-456: `vec![0; size]`, then `read_all`. -/
def deserializeBytes [Env] (size : Nat) : Act TagErr σ Bytes := do
  Data.alloc 1 size
  tagIo (Reader.readAll size)
/-- `serialize_ilint`, /repo/src/tags/serialization/mod.rs:316-350,416. -/
def serializeILInt (v : UInt64) : Act TagErr ω Unit := tagIo (Data.writeILInt v)
/-- `serialize_signed_ilint`, /repo/src/tags/serialization/mod.rs:521-555. -/
def serializeSignedILInt (v : Int64) : Act TagErr ω Unit := tagIo (Data.writeSignedILInt v)
/-- `serialize_bytes`, /repo/src/tags/serialization/mod.rs:388-402,441-443. -/
def serializeBytes (bs : Bytes) : Act TagErr ω Unit := tagIo (Writer.writeAll bs)

end Ser
end Verif
