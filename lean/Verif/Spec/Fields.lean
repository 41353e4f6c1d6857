import Verif.Spec.Data
import Verif.Model.Fields
/-!
# Specification: how a value of each type looks on the wire
-/
namespace Verif.Spec

/-- The type to ask for in order to read the value back. -/
def shapeOf : Field → Shape
  | .u8 _ => .u8 | .i8 _ => .i8 | .u16 _ => .u16 | .i16 _ => .i16 | .u32 _ => .u32 | .i32 _ => .i32
  | .u64 _ => .u64 | .i64 _ => .i64 | .f32 _ => .f32 | .f64 _ => .f64
  | .ilint _ => .ilint | .signedILInt _ => .signedILInt
  | .str v => .str (utf8 v).length | .bytes v => .bytes v.length

/-- `enc` is an encoding of the value: big-endian digits, two's complement for negative numbers, UTF-8, the bytes
themselves, or any ILInt (not only the shortest) of the number or of its zigzag code. -/
def FieldEnc : Field → Bytes → Prop
  | .u8 v, enc => enc = be 1 v.toNat
  | .i8 v, enc => enc = be 1 (twos 1 v.toInt)
  | .u16 v, enc => enc = be 2 v.toNat
  | .i16 v, enc => enc = be 2 (twos 2 v.toInt)
  | .u32 v, enc => enc = be 4 v.toNat
  | .i32 v, enc => enc = be 4 (twos 4 v.toInt)
  | .u64 v, enc => enc = be 8 v.toNat
  | .i64 v, enc => enc = be 8 (twos 8 v.toInt)
  | .f32 v, enc => enc = be 4 v.toNat
  | .f64 v, enc => enc = be 8 v.toNat
  | .ilint v, enc => IsILInt enc v.toNat
  | .signedILInt v, enc => IsILInt enc (zigzag v.toInt)
  | .str v, enc => enc = utf8 v
  | .bytes v, enc => enc = v

/-- The encoding that is written: the shortest ILInt where there is a choice. -/
def fieldBytes : Field → Bytes
  | .u8 v => be 1 v.toNat
  | .i8 v => be 1 (twos 1 v.toInt)
  | .u16 v => be 2 v.toNat
  | .i16 v => be 2 (twos 2 v.toInt)
  | .u32 v => be 4 v.toNat
  | .i32 v => be 4 (twos 4 v.toInt)
  | .u64 v => be 8 v.toNat
  | .i64 v => be 8 (twos 8 v.toInt)
  | .f32 v => be 4 v.toNat
  | .f64 v => be 8 v.toNat
  | .ilint v => ilint v.toNat
  | .signedILInt v => signedILInt v.toInt
  | .str v => utf8 v
  | .bytes v => v

/-- `enc` is a concatenation of encodings of the values, in order. -/
def RecordEnc : List Field → Bytes → Prop
  | [], enc => enc = []
  | f :: fs, enc => ∃ a b, enc = a ++ b ∧ FieldEnc f a ∧ RecordEnc fs b

/-- The process can allocate what the request needs. -/
def ShapeFits [Env] : Shape → Prop
  | .str n => n ≤ Env.allocMax
  | .bytes n => n ≤ Env.allocMax
  | _ => True

end Verif.Spec
