import Verif.Model.ILInt
import Verif.Model.Array
/-!
# The crate's own tests of `src/ilint`, run on the model

The model was written by reading the code.  These examples state what the unit tests of the crate assert
(/repo/src/ilint/tests.rs), about the model: they check the model, not the code, and prove no property.
-/
namespace Verif.Tests.ILInt
open Verif

/-- `SAMPLE_VALUES`, tests.rs:55-124 (value, encoding without the filler). -/
def samples : List (UInt64 × Bytes) :=
  [(0xF7, [0xF7]), (0xF8, [0xF8, 0x00]), (0x021B, [0xF9, 0x01, 0x23]), (0x01243D, [0xFA, 0x01, 0x23, 0x45]),
   (0x0123465F, [0xFB, 0x01, 0x23, 0x45, 0x67]), (0x0123456881, [0xFC, 0x01, 0x23, 0x45, 0x67, 0x89]),
   (0x012345678AA3, [0xFD, 0x01, 0x23, 0x45, 0x67, 0x89, 0xAB]),
   (0x123456789ACC5, [0xFE, 0x01, 0x23, 0x45, 0x67, 0x89, 0xAB, 0xCD]),
   (0x123456789ABCEE7, [0xFF, 0x01, 0x23, 0x45, 0x67, 0x89, 0xAB, 0xCD, 0xEF]),
   (0xFFFFFFFFFFFFFFFF, [0xFF, 0xFF, 0xFF, 0xFF, 0xFF, 0xFF, 0xFF, 0xFF, 0x07])]

/-- The samples padded with `FILLER`. -/
def padded (e : Bytes) : Bytes := e ++ List.replicate (10 - e.length) 0xA5

/-- `test_constants`. -/
example : Verif.ILInt.base = 0xF8 := rfl

/-- `test_encoded_size`. -/
example : ([0, 0xF8 - 1, 0xF8, 0xF8 + 0xFF, 0xF8 + 0x100, 0xF8 + 0xFFFF, 0xF8 + 0x10000, 0xF8 + 0xFFFFFF, 0xF8 + 0x1000000,
      0xF8 + 0xFFFFFFFF, 0xF8 + 0x100000000, 0xF8 + 0xFFFFFFFFFF, 0xF8 + 0x10000000000, 0xF8 + 0xFFFFFFFFFFFF,
      0xF8 + 0x1000000000000, 0xF8 + 0xFFFFFFFFFFFFFF, 0xF8 + 0x100000000000000, 0xFFFFFFFFFFFFFFFF].map
        Verif.ILInt.encodedSize) = [1, 1, 2, 2, 3, 3, 4, 4, 5, 5, 6, 6, 7, 7, 8, 8, 9, 9] := by decide +kernel

/-- A read-only `VecWriter`. -/
def readOnly : VecWriter := { VecWriter.new with readOnly := true }

/-- `test_encode`. -/
example : (List.range 0xF8).all (fun i =>
    (Verif.ILInt.encode (UInt64.ofNat i) VecWriter.new).1.isOk &&
    (Verif.ILInt.encode (UInt64.ofNat i) VecWriter.new).2.vector == [UInt8.ofNat i] &&
    !(Verif.ILInt.encode (UInt64.ofNat i) readOnly).1.isOk) = true := by decide +kernel
example : samples.all (fun p =>
    (Verif.ILInt.encode p.1 VecWriter.new).1.isOk &&
    (Verif.ILInt.encode p.1 VecWriter.new).2.offset == p.2.length &&
    (Verif.ILInt.encode p.1 VecWriter.new).2.vector == p.2 &&
    !(Verif.ILInt.encode p.1 readOnly).1.isOk) = true := by decide +kernel

/-- `test_decoded_size`. -/
example : (List.range 0xF8).all (fun i => Verif.ILInt.decodedSize (UInt8.ofNat i) == 1) = true ∧
    ([0xF8, 0xF9, 0xFA, 0xFB, 0xFC, 0xFD, 0xFE, 0xFF].map Verif.ILInt.decodedSize) = [2, 3, 4, 5, 6, 7, 8, 9] := by
  decide +kernel

/-- `test_decode_body`. -/
example : samples.all (fun p => p.2.length == 1 || Verif.ILInt.decodeBody (p.2.drop 1) = .ok p.1) = true ∧
    Verif.ILInt.decodeBody [] = .err .invalidFormat ∧
    Verif.ILInt.decodeBody (List.replicate 9 0) = .err .invalidFormat := by decide +kernel

/-- `test_decode_from_bytes`. -/
example : samples.all (fun p =>
      Verif.ILInt.decodeFromBytes (padded p.2) = .ok (p.1, p.2.length) &&
      Verif.ILInt.decodeFromBytes p.2 = .ok (p.1, p.2.length) &&
      (p.2.length == 1 || Verif.ILInt.decodeFromBytes (p.2.take (p.2.length - 1)) = .err .invalidFormat)) = true ∧
    Verif.ILInt.decodeFromBytes [] = .err .invalidFormat := by decide +kernel

/-- Whether the outcome is an i/o error. -/
def isIo {α : Type} : Res ILIntErr α → Bool
  | .err (.ioError _) => true
  | _ => false

/-- `test_decode`. -/
example : (List.range 0xF8).all (fun i =>
      Verif.ILInt.decode (ByteArrayReader.new [UInt8.ofNat i]) = (.ok (UInt64.ofNat i), ⟨[UInt8.ofNat i], 1⟩)) = true ∧
    samples.all (fun p => Verif.ILInt.decode (ByteArrayReader.new p.2) = (.ok p.1, ⟨p.2, p.2.length⟩)) = true := by
  decide +kernel
example : ((List.range 8).all fun k => (List.range (k + 2)).all fun bad =>
      isIo (Verif.ILInt.decode (ByteArrayReader.new
        (((0xF8 + UInt8.ofNat k) :: List.replicate 8 0).take bad))).1) = true := by decide +kernel
example : ((List.range 0xF8).all fun k =>
      (Verif.ILInt.decode (ByteArrayReader.new (List.replicate 8 0xFF ++ [UInt8.ofNat (k + 8)]))).1
        = .err .valueOverflow) = true := by decide +kernel

/-- `test_encode_sign`. -/
example : Verif.ILInt.encodeSign 0 = 0 ∧ Verif.ILInt.encodeSign 1 = 2 ∧
    Verif.ILInt.encodeSign 0x7FFFFFFFFFFFFFFF = 0xFFFFFFFFFFFFFFFE ∧ Verif.ILInt.encodeSign (-1) = 1 ∧
    Verif.ILInt.encodeSign (-2) = 3 ∧ Verif.ILInt.encodeSign (-9223372036854775808) = 0xFFFFFFFFFFFFFFFF := by
  decide +kernel

/-- `test_decode_sign`. -/
example : Verif.ILInt.decodeSign 0 = 0 ∧ Verif.ILInt.decodeSign 2 = 1 ∧
    Verif.ILInt.decodeSign 0xFFFFFFFFFFFFFFFE = 0x7FFFFFFFFFFFFFFF ∧ Verif.ILInt.decodeSign 1 = -1 ∧
    Verif.ILInt.decodeSign 3 = -2 ∧ Verif.ILInt.decodeSign 0xFFFFFFFFFFFFFFFF = -9223372036854775808 := by
  decide +kernel

/-- `SIGNED_SAMPLES`, tests.rs:346-356. -/
def signedSamples : List Int64 :=
  [9223372036854775807, 4294967295, 2, 1, 0, -1, -2, -4294967295, -9223372036854775808]

/-- `test_encode_decode_sign`, `test_signed_encoded_size`, `test_signed_encode`. -/
example : signedSamples.all (fun s =>
    Verif.ILInt.decodeSign (Verif.ILInt.encodeSign s) == s &&
    Verif.ILInt.signedEncodedSize s == Verif.ILInt.encodedSize (Verif.ILInt.encodeSign s) &&
    Verif.ILInt.signedEncode s VecWriter.new = Verif.ILInt.encode (Verif.ILInt.encodeSign s) VecWriter.new &&
    (Verif.ILInt.signedEncode s VecWriter.new).1.isOk) = true := by decide +kernel

/-- `test_signed_decode`. -/
example : signedSamples.all (fun s =>
    let exp := (Verif.ILInt.encode (Verif.ILInt.encodeSign s) VecWriter.new).2.vector
    (Verif.ILInt.signedDecode (ByteArrayReader.new exp)).1 = .ok s &&
    isIo (Verif.ILInt.signedDecode (ByteArrayReader.new (exp.take (exp.length - 1)))).1) = true := by decide +kernel

end Verif.Tests.ILInt
