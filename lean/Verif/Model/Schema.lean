import Verif.Model.Deser
import Verif.Model.Fields
/-!
# Payloads made of fields

The usual implementation of `ILTagPayload` (/repo/src/tags/payload/mod.rs:50-88; see its use in
/repo/src/tags/payload/tests.rs): a struct whose `serialize` writes the fields one after another with the functions of
the library, whose `deserialize` reads them in the same order, and whose `serialized_size` adds up their sizes.  A
`Schema` is the shape of such a struct; from it come the code of the three methods in terms of calls of the library
(`read`, `write`, `size`) and the `TagPayload` (`code`, `ops`) that the rest of the model deals with.
-/
namespace Verif

/-- The shape of a struct. -/
inductive Schema where
  /-- a value read by `deserialize_value`, `deserialize_ilint`, `deserialize_signed_ilint`, `deserialize_string` or
  `deserialize_bytes`, the latter two with a fixed size -/
  | field (sh : Shape)
  /-- a `String` kept as a string tag: `deserialize_string_tag_from_value`, explicit/mod.rs:304-310 -/
  | text
  /-- a `Vec<u8>` kept with its length: `deserialize_ilint`, `tag_size_to_usize`, `deserialize_bytes` -/
  | blob
  /-- a `Vec` kept with its length: `deserialize_ilint`, then so many items -/
  | many (item : Schema)
  /-- two parts in this order -/
  | both (first second : Schema)
  /-- an `Option`: a byte 0, or a byte 1 and the value -/
  | opt (item : Schema)
  /-- an `enum`: a byte that tells the variant, and the fields of this variant; `ok` are the bytes in use.  Layouts that
  depend on a version number in front are of this kind, too -/
  | enum (ok : Byte → Bool) (variant : Byte → Schema)

namespace Schema

/-- The values of a struct. -/
@[reducible] def Val : Schema → Type
  | field _ => Field
  | text => String
  | blob => Bytes
  | many s => List s.Val
  | both a b => a.Val × b.Val
  | opt s => Option s.Val
  | enum _ c => (b : Byte) × (c b).Val

/-! ### The code the user writes, with calls of the library -/
section
variable {σ ω : Type} [Reader σ] [Writer ω] [Env]

/-- `for _ in 0..n { v.push(x?) }`. -/
def repeated {α : Type} (x : Act TagErr σ α) : Nat → Act TagErr σ (List α)
  | 0 => pure []
  | n + 1 => do
    let a ← x
    let as ← repeated x n
    pure (a :: as)

/-- `ILTagPayload::deserialize`. -/
def read : (s : Schema) → Act TagErr σ s.Val
  | field sh => sh.deserialize
  | text => deserializeStringTag
  | blob => do
    let n ← Ser.deserializeILInt
    let n ← Act.lift (tagSizeToUsize n)
    Ser.deserializeBytes n
  | many s => do
    let n ← Ser.deserializeILInt
    repeated s.read n.toNat
  | both a b => do
    let x ← a.read
    let y ← b.read
    pure (x, y)
  | opt s => do
    let b ← tagIo Data.readU8
    if b = 0 then pure none
    else if b = 1 then do
      let v ← s.read
      pure (some v)
    else Act.fail .corruptedData
  | enum ok c => do
    let b ← tagIo Data.readU8
    if ok b = true then do
      let v ← (c b).read
      pure ⟨b, v⟩
    else Act.fail .corruptedData

/-- `for x in v { .. }`. -/
def each {α : Type} (x : α → Act TagErr ω Unit) : List α → Act TagErr ω Unit
  | [] => pure ()
  | a :: as => do x a; each x as

/-- `ILTagPayload::serialize`. -/
def write : (s : Schema) → s.Val → Act TagErr ω Unit
  | field _, f => f.serialize
  | text, v => serializeStringTag v
  | blob, v => do
    Ser.serializeILInt (lenU64 v.length)
    Ser.serializeBytes v
  | many s, vs => do
    Ser.serializeILInt (lenU64 vs.length)
    each s.write vs
  | both a b, (x, y) => do
    a.write x
    b.write y
  | opt _, none => tagIo (Data.writeU8 0)
  | opt s, some v => do
    tagIo (Data.writeU8 1)
    s.write v
  | enum _ c, ⟨b, v⟩ => do
    tagIo (Data.writeU8 b)
    (c b).write v

end

/-- The number of bytes of a value, by its type. -/
def fieldSize : Field → Nat
  | .u8 _ | .i8 _ => 1
  | .u16 _ | .i16 _ => 2
  | .u32 _ | .i32 _ | .f32 _ => 4
  | .u64 _ | .i64 _ | .f64 _ => 8
  | .ilint v => ILInt.encodedSize v
  | .signedILInt v => ILInt.signedEncodedSize v
  | .str v => (utf8 v).length
  | .bytes v => v.length

/-- `ILTagPayload::serialized_size`. -/
def size : (s : Schema) → s.Val → Nat
  | field _, f => fieldSize f
  | text, v => 1 + ILInt.encodedSize (lenU64 (utf8 v).length) + (utf8 v).length
  | blob, v => ILInt.encodedSize (lenU64 v.length) + v.length
  | many s, vs => ILInt.encodedSize (lenU64 vs.length) + (vs.map s.size).sum
  | both a b, (x, y) => a.size x + b.size y
  | opt _, none => 1
  | opt s, some v => 1 + s.size v
  | enum _ c, ⟨b, v⟩ => 1 + (c b).size v

/-! ### The same as programs of calls on the reader and the writer -/
section
variable {P : Type}

/-- Goes on with a result, or ends with the error, leaving `self` as it was. -/
def given {α : Type} (p₀ : P) (k : α → RProg P) : Res TagErr α → RProg P
  | .ok a => k a
  | .err e => .done (.err e) p₀
  | .panic => .done .panic p₀
  | .diverge => .done .diverge p₀

/-- `deserialize_ilint`, /repo/src/ilint/mod.rs:197-213. -/
def ilintCode (p₀ : P) (k : UInt64 → RProg P) : RProg P :=
  .read fun h =>
    if ILInt.decodedSize h = 1 then k h.toUInt64
    else .readAll (ILInt.decodedSize h - 1) fun tmp =>
      given p₀ k (((ILInt.decodeBody tmp).mapErr Data.readILIntErr).mapErr .ioError)

/-- `std::str::from_utf8`, with the error the caller chooses. -/
def textCode (p₀ : P) (e : TagErr) (k : String → RProg P) (tmp : Bytes) : RProg P :=
  match fromUtf8 tmp with
  | some s => k s
  | none => .done (.err e) p₀

/-- The calls of `Shape.deserialize`. -/
def fieldCode (p₀ : P) (k : Field → RProg P) : Shape → RProg P
  | .u8 => .read fun b => k (.u8 b)
  | .i8 => .read fun b => k (.i8 b.toInt8)
  | .u16 => .readAll 2 fun t => k (.u16 (UInt16.ofNat (fromBE t)))
  | .i16 => .readAll 2 fun t => k (.i16 (UInt16.ofNat (fromBE t)).toInt16)
  | .u32 => .readAll 4 fun t => k (.u32 (UInt32.ofNat (fromBE t)))
  | .i32 => .readAll 4 fun t => k (.i32 (UInt32.ofNat (fromBE t)).toInt32)
  | .u64 => .readAll 8 fun t => k (.u64 (UInt64.ofNat (fromBE t)))
  | .i64 => .readAll 8 fun t => k (.i64 (UInt64.ofNat (fromBE t)).toInt64)
  | .f32 => .readAll 4 fun t => k (.f32 (UInt32.ofNat (fromBE t)))
  | .f64 => .readAll 8 fun t => k (.f64 (UInt64.ofNat (fromBE t)))
  | .ilint => ilintCode p₀ fun v => k (.ilint v)
  | .signedILInt => ilintCode p₀ fun v => k (.signedILInt (ILInt.decodeSign v))
  | .str n => .readAll n (textCode p₀ (.ioError .corruptedData) fun s => k (.str s))
  | .bytes n => .readAll n fun t => k (.bytes t)

/-- The calls of a loop. -/
def loopCode {α : Type} (x : (α → RProg P) → RProg P) : Nat → (List α → RProg P) → RProg P
  | 0, k => k []
  | n + 1, k => x fun a => loopCode x n fun as => k (a :: as)

/-- The calls of `read`. -/
def code (p₀ : P) : (s : Schema) → (s.Val → RProg P) → RProg P
  | field sh, k => fieldCode p₀ k sh
  | text, k => ilintCode p₀ fun id =>
      if id ≠ Id.string then .done (.err .corruptedData) p₀
      else ilintCode p₀ fun len =>
        given p₀ (fun n => .readAll n (textCode p₀ .corruptedData k)) (tagSizeToUsize len)
  | blob, k => ilintCode p₀ fun len => given p₀ (fun n => .readAll n k) (tagSizeToUsize len)
  | many s, k => ilintCode p₀ fun n => loopCode (code p₀ s) n.toNat k
  | both a b, k => code p₀ a fun x => code p₀ b fun y => k (x, y)
  | opt s, k => .read fun b =>
      if b = 0 then k none
      else if b = 1 then code p₀ s fun v => k (some v)
      else .done (.err .corruptedData) p₀
  | enum ok c, k => .read fun b =>
      if ok b = true then code p₀ (c b) fun v => k ⟨b, v⟩
      else .done (.err .corruptedData) p₀

end

/-- The calls of `serialize_ilint`, /repo/src/ilint/mod.rs:95-116. -/
def ilintOps (v : UInt64) : List WOp :=
  if ILInt.encodedSize v = 1 then [.byte v.toUInt8] else [.all (ILInt.encodeBuffer v)]

/-- The calls of `Field.serialize`. -/
def fieldOps : Field → List WOp
  | .u8 v => [.byte v]
  | .i8 v => [.byte v.toUInt8]
  | .u16 v => [.all (toBE 2 v.toNat)]
  | .i16 v => [.all (toBE 2 v.toUInt16.toNat)]
  | .u32 v => [.all (toBE 4 v.toNat)]
  | .i32 v => [.all (toBE 4 v.toUInt32.toNat)]
  | .u64 v => [.all (toBE 8 v.toNat)]
  | .i64 v => [.all (toBE 8 v.toUInt64.toNat)]
  | .f32 v => [.all (toBE 4 v.toNat)]
  | .f64 v => [.all (toBE 8 v.toNat)]
  | .ilint v => ilintOps v
  | .signedILInt v => ilintOps (ILInt.encodeSign v)
  | .str v => [.all (utf8 v)]
  | .bytes v => [.all v]

/-- The calls of `write`. -/
def ops : (s : Schema) → s.Val → List WOp
  | field _, f => fieldOps f
  | text, v => ilintOps Id.string ++ ilintOps (lenU64 (utf8 v).length) ++ [.all (utf8 v)]
  | blob, v => ilintOps (lenU64 v.length) ++ [.all v]
  | many s, vs => ilintOps (lenU64 vs.length) ++ vs.flatMap s.ops
  | both a b, (x, y) => a.ops x ++ b.ops y
  | opt _, none => [.byte 0]
  | opt s, some v => .byte 1 :: s.ops v
  | enum _ c, ⟨b, v⟩ => .byte b :: (c b).ops v

end Schema

/-- A value of some struct type: the payload types a program may register, each with its schema. -/
structure Struct where
  schema : Schema
  value : schema.Val

instance : TagPayload Struct where
  serializedSize p := p.schema.size p.value
  serialize p := (p.schema.ops p.value, .ok ())
  deserialize p _ := p.schema.code p fun v => .done (.ok ()) ⟨p.schema, v⟩

end Verif
