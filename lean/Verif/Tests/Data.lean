import Verif.Model.Fields
import Verif.Tests.Array
/-!
# The crate's own tests of `src/io/data`, run on the model (/repo/src/io/data/tests.rs, test_samples.rs)
-/
namespace Verif.Tests.Data
open Verif Verif.Tests.Array

/-- Memory without limit for these tests. -/
scoped instance : Env := ⟨10000⟩

def d8 : Bytes := [0x01, 0x23, 0x45, 0x67, 0x89, 0xAB, 0xCD, 0xEF]
def d16 : Bytes := d8 ++ [0xFE, 0xDC, 0xBA, 0x98, 0x76, 0x54, 0x32, 0x10]

/-- The results of reading `n` times. -/
def reads {α : Type} (x : Act IoErr ByteArrayReader α) (n : Nat) (bs : Bytes) : List (Option α) :=
  (calls (List.replicate n x) (ByteArrayReader.new bs)).1.map fun
    | .ok a => some a
    | _ => none

/-- What writing leaves, if every call succeeds. -/
def written (ws : List (Act IoErr VecWriter Unit)) : Option Bytes :=
  match calls ws VecWriter.new with
  | (rs, w) => if rs.all (·.isOk) then some w.vector else none

/-- `test_int_data_reader_u8` ... `_i64`. -/
example : reads Data.readU8 9 d8 = d8.map some ++ [none] := by decide +kernel
example : reads Data.readI8 9 d8 =
    [some 0x01, some 0x23, some 0x45, some 0x67, some (-0x77), some (-0x55), some (-0x33), some (-0x11), none] := by
  decide +kernel
example : reads Data.readU16 5 d8 = [some 0x0123, some 0x4567, some 0x89AB, some 0xCDEF, none] := by decide +kernel
example : reads Data.readI16 5 d8 = [some 0x0123, some 0x4567, some (-0x7655), some (-0x3211), none] := by decide +kernel
example : reads Data.readU32 3 d8 = [some 0x01234567, some 0x89ABCDEF, none] := by decide +kernel
example : reads Data.readI32 3 d8 = [some 0x01234567, some (-0x76543211), none] := by decide +kernel
example : reads Data.readU64 3 d16 = [some 0x0123456789ABCDEF, some 0xFEDCBA9876543210, none] := by decide +kernel
example : reads Data.readI64 3 d16 = [some 0x0123456789ABCDEF, some (-0x123456789ABCDF0), none] := by decide +kernel

def ilints : Bytes :=
  [0xF7, 0xF8, 0x00, 0xF9, 0x01, 0x23, 0xFA, 0x01, 0x23, 0x45, 0xFB, 0x01, 0x23, 0x45, 0x67, 0xFC, 0x01, 0x23, 0x45, 0x67,
   0x89, 0xFD, 0x01, 0x23, 0x45, 0x67, 0x89, 0xAB, 0xFE, 0x01, 0x23, 0x45, 0x67, 0x89, 0xAB, 0xCD, 0xFF, 0xFF, 0xFF, 0xFF,
   0xFF, 0xFF, 0xFF, 0xFF, 0x07]
def ilintValues : List UInt64 := [0xF7, 0xF8, 0x021B, 0x01243D, 0x0123465F, 0x0123456881, 0x012345678AA3, 0x123456789ACC5,
  0xFFFFFFFFFFFFFFFF]

/-- `test_ilint_data_reader`. -/
example : reads Data.readILInt 10 (ilints ++ [0xFF]) = ilintValues.map some ++ [none] := by decide +kernel

/-- `test_float_data_reader_f32`, `_f64` (bit patterns of the values). -/
example : reads Data.readF32 2 [0x40, 0x49, 0x0f, 0xdb, 0x01] = [some 0x40490fdb, none] := by decide +kernel
example : reads Data.readF64 2 [0x40, 0x09, 0x21, 0xfb, 0x54, 0x44, 0x2d, 0x18, 0x01] =
    [some 0x400921fb54442d18, none] := by decide +kernel

def text : Bytes :=
  [0x4c, 0xc3, 0xa1, 0x67, 0x72, 0x69, 0x6d, 0x61, 0x73, 0x20, 0x6e, 0xc3, 0xa3, 0x6f, 0x20, 0x73, 0xc3, 0xa3, 0x6f, 0x20,
   0x61, 0x72, 0x67, 0x75, 0x6d, 0x65, 0x6e, 0x74, 0x6f, 0x73]

/-- `test_string_data_reader`. -/
example : (calls [Data.readString 30, Data.readString 0, Data.readString 1] (ByteArrayReader.new text)).1.map (fun
    | .ok a => some a
    | _ => none) = [some "Lágrimas não são argumentos", some "", none] := by decide +kernel

/-- `SAMPLE_VALUES_BIN`, `SAMPLE_VALUES_xx`. -/
def bin : Bytes := sample 42 ++ text ++ [0xFF, 0x49, 0x4C, 0x49, 0x6E, 0x74, 0x56, 0x61, 0x6C]
def values : List Field :=
  [.u8 0, .u16 0x0102, .u32 0x03040506, .u64 0x0708090A0B0C0D0E, .i8 0x0f, .i16 0x1011, .i32 0x12131415,
   .i64 0x161718191A1B1C1D, .f32 0x1e1f2021, .f64 0x2223242526272829, .str "Lágrimas não são argumentos",
   .ilint 0x494c496e74566264]
def shapes : List Shape := [.u8, .u16, .u32, .u64, .i8, .i16, .i32, .i64, .f32, .f64, .str 30, .ilint]

/-- `test_data_reader`, `test_datareader_trait_impl`: all values, then every further read fails. -/
example : (calls ((shapes ++ shapes).map Shape.read) (ByteArrayReader.new bin)).1.map (fun
    | .ok a => some a
    | _ => none) = values.map some ++ shapes.map fun _ => none := by decide +kernel

/-- `test_int_data_writer_u8` ... `_i64`. -/
example : written (d8.map Data.writeU8) = some d8 := by decide +kernel
example : written ([0x01, 0x23, 0x45, 0x67, -0x77, -0x55, -0x33, -0x11].map Data.writeI8) = some d8 := by decide +kernel
example : written ([0x0123, 0x4567, 0x89AB, 0xCDEF].map Data.writeU16) = some d8 := by decide +kernel
example : written ([0x0123, 0x4567, -0x7655, -0x3211].map Data.writeI16) = some d8 := by decide +kernel
example : written ([0x01234567, 0x89ABCDEF].map Data.writeU32) = some d8 := by decide +kernel
example : written ([0x01234567, -0x76543211].map Data.writeI32) = some d8 := by decide +kernel
example : written ([0x0123456789ABCDEF, 0x0123456789ABCDEF].map Data.writeU64) = some (d8 ++ d8) := by decide +kernel
example : written ([0x0123456789ABCDEF, -0x7EDCBA9876543211].map Data.writeI64) =
    some (d8 ++ [0x81, 0x23, 0x45, 0x67, 0x89, 0xAB, 0xCD, 0xEF]) := by decide +kernel

/-- `test_float_data_writer_f32`, `_f64`, `test_string_data_writer_f64`, `test_ilint_data_writer`. -/
example : written [Data.writeF32 0x40490fdb, Data.writeF32 0x40490fdb] =
    some [0x40, 0x49, 0x0f, 0xdb, 0x40, 0x49, 0x0f, 0xdb] := by decide +kernel
example : written [Data.writeF64 0x400921fb54442d18] = some [0x40, 0x09, 0x21, 0xfb, 0x54, 0x44, 0x2d, 0x18] := by
  decide +kernel
example : written [Data.writeString "Lágrimas não são argumentos", Data.writeString "Lágrimas não são argumentos"] =
    some (text ++ text) := by decide +kernel
example : written (ilintValues.map Data.writeILInt) = some ilints := by decide +kernel

/-- `test_data_writer`. -/
example : written (values.map Field.write) = some bin := by decide +kernel

/-- `test_datawriter_trait_impl`: into a vector, then every write fails once it is read-only. -/
example :
    let w := (calls (values.map Field.write) (BorrowedVecWriter.new [])).2
    w.vector = bin ∧ ((calls (values.map Field.write) (w.setReadOnly true)).1.all fun r => !r.isOk) = true ∧
    (calls (values.map Field.write) (w.setReadOnly true)).2.vector = bin := by decide +kernel

def signed : List Int64 := [9223372036854775807, 4294967295, 2, 1, 0, -1, -2, -4294967295, -9223372036854775808]

/-- `test_read_signed_ilint`, `test_write_signed_ilint`, `test_signedilint{reader,writer}_*`. -/
example : signed.all (fun s =>
    let w := (Verif.ILInt.signedEncode s VecWriter.new).2.vector
    let w' := (Data.writeSignedILInt s VecWriter.new).2
    (Verif.ILInt.signedEncode s VecWriter.new).1.isOk && (Data.writeSignedILInt s VecWriter.new).1.isOk &&
    reads Data.readSignedILInt 1 w == [some s] && reads Data.readSignedILInt 1 w.dropLast == [none] &&
    (match (Verif.ILInt.signedDecode (ByteArrayReader.new w'.vector)).1 with | .ok v => v == s | _ => false) &&
    !(Data.writeSignedILInt s (w'.setReadOnly true)).1.isOk) = true := by decide +kernel

end Verif.Tests.Data
