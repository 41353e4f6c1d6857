import Verif.Model.Data
/-!
# The extension traits: values read and written by type

`ValueReader<T>`/`ValueWriter<T>`, `ILIntReader`/`ILIntWriter`, `SignedILIntReader`/`SignedILIntWriter` and
`StringValueReader` (/repo/src/io/data/mod.rs:426-658) and their counterparts for tags, `ValueDeserializer<T>`,
`ILIntDeserializer`, `StringDeserializer`, `ByteArrayDeserializer`, `ValueSerializer<T>`, `ILIntSerializer`,
`ByteArraySerializer`, `SignedILIntDeserializer`, `SignedILIntSerializer`
(/repo/src/tags/serialization/mod.rs:49-402,482-555).  Rust picks the implementation from the type of the value; here
the type is the constructor of `Shape`.  Each trait is implemented three times (for the trait object of the lower
trait, for every concrete type, and for `dyn Reader`/`dyn Writer`), all with the same body: modelled once.
-/
namespace Verif

/-- A value the extension traits can transfer, tagged with the type that selects the implementation.  Floats are bit
patterns. -/
inductive Field where
  | u8 (v : UInt8) | i8 (v : Int8) | u16 (v : UInt16) | i16 (v : Int16) | u32 (v : UInt32) | i32 (v : Int32)
  | u64 (v : UInt64) | i64 (v : Int64) | f32 (v : UInt32) | f64 (v : UInt64)
  | ilint (v : UInt64) | signedILInt (v : Int64) | str (v : String) | bytes (v : Bytes)
  deriving DecidableEq

/-- What the caller asks for: a type, and a size in bytes where the method takes one. -/
inductive Shape where
  | u8 | i8 | u16 | i16 | u32 | i32 | u64 | i64 | f32 | f64 | ilint | signedILInt | str (size : Nat)
  | bytes (size : Nat)
  deriving DecidableEq

variable {σ ω : Type} [Reader σ] [Writer ω]

/-- `read_value::<T>`, /repo/src/io/data/mod.rs:435-463 (the table of the macro); `read_ilint`, :478-490;
`read_signed_ilint`, :507-520; `read_string`, :537-550; for bytes, `deserialize_bytes` without its error conversion,
/repo/src/tags/serialization/mod.rs:221-249. -/
def Shape.read [Env] : Shape → Act IoErr σ Field
  | .u8 => do let v ← Data.readU8; pure (.u8 v)
  | .i8 => do let v ← Data.readI8; pure (.i8 v)
  | .u16 => do let v ← Data.readU16; pure (.u16 v)
  | .i16 => do let v ← Data.readI16; pure (.i16 v)
  | .u32 => do let v ← Data.readU32; pure (.u32 v)
  | .i32 => do let v ← Data.readI32; pure (.i32 v)
  | .u64 => do let v ← Data.readU64; pure (.u64 v)
  | .i64 => do let v ← Data.readI64; pure (.i64 v)
  | .f32 => do let v ← Data.readF32; pure (.f32 v)
  | .f64 => do let v ← Data.readF64; pure (.f64 v)
  | .ilint => do let v ← Data.readILInt; pure (.ilint v)
  | .signedILInt => do let v ← Data.readSignedILInt; pure (.signedILInt v)
  | .str n => do let v ← Data.readString n; pure (.str v)
  | .bytes n => do Data.alloc 1 n; let v ← Reader.readAll n; pure (.bytes v)

/-- `write_value::<T>`, /repo/src/io/data/mod.rs:567-596 (the table of the macro, with `&str` as a further type);
`write_ilint`, :614-626; `write_signed_ilint`, :646-658; `serialize_bytes` without its error conversion,
/repo/src/tags/serialization/mod.rs:388-402. -/
def Field.write : Field → Act IoErr ω Unit
  | .u8 v => Data.writeU8 v
  | .i8 v => Data.writeI8 v
  | .u16 v => Data.writeU16 v
  | .i16 v => Data.writeI16 v
  | .u32 v => Data.writeU32 v
  | .i32 v => Data.writeI32 v
  | .u64 v => Data.writeU64 v
  | .i64 v => Data.writeI64 v
  | .f32 v => Data.writeF32 v
  | .f64 v => Data.writeF64 v
  | .ilint v => Data.writeILInt v
  | .signedILInt v => Data.writeSignedILInt v
  | .str v => Data.writeString v
  | .bytes v => Writer.writeAll v

/-- `deserialize_value`, `deserialize_ilint`, `deserialize_signed_ilint`, `deserialize_string`, `deserialize_bytes`,
/repo/src/tags/serialization/mod.rs:58-96,113-135,155-177,221-249,491-515: the read, its error converted by `?`. -/
def Shape.deserialize [Env] (sh : Shape) : Act TagErr σ Field := tagIo sh.read

/-- `serialize_value`, `serialize_ilint`, `serialize_signed_ilint`, `serialize_bytes`,
/repo/src/tags/serialization/mod.rs:269-308,328-350,388-402,533-555: the write, its error converted by `?`. -/
def Field.serialize (f : Field) : Act TagErr ω Unit := tagIo f.write

/-- A caller reading one value after another, as an implementation of `ILTagPayload::deserialize` does. -/
def Shape.deserializeAll [Env] : List Shape → Act TagErr σ (List Field)
  | [] => pure []
  | sh :: shs => do let f ← sh.deserialize; let fs ← Shape.deserializeAll shs; pure (f :: fs)

/-- A caller writing one value after another, as an implementation of `ILTagPayload::serialize` does. -/
def Field.serializeAll : List Field → Act TagErr ω Unit
  | [] => pure ()
  | f :: fs => do f.serialize; Field.serializeAll fs

end Verif
