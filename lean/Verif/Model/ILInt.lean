import Verif.Model.Io
/-!
# `src/ilint/mod.rs`: the ILInt codec
-/
namespace Verif
namespace ILInt

/-- `ILINT_BASE_U64`, /repo/src/ilint/mod.rs:60,63. -/
def base : UInt64 := 0xF8

/-- `encoded_size`, /repo/src/ilint/mod.rs:72-84. -/
def encodedSize (value : UInt64) : Nat :=
  if value < base then 1
  else if value ≤ 0xFF + base then 2
  else if value ≤ 0xFFFF + base then 3
  else if value ≤ 0x00FFFFFF + base then 4
  else if value ≤ 0xFFFFFFFF + base then 5
  else if value ≤ 0x00FFFFFFFFFF + base then 6
  else if value ≤ 0xFFFFFFFFFFFF + base then 7
  else if value ≤ 0x00FFFFFFFFFFFFFF + base then 8
  else 9

/-- The loop `for i in (1..size).rev() { tmp[i] = (v & 0xFF) as u8; v = v >> 8; }`,
/repo/src/ilint/mod.rs:105-109: fills `n` bytes from the last to the first. -/
def fill : Nat → UInt64 → Bytes
  | 0, _ => []
  | n + 1, v => fill n (v >>> 8) ++ [(v &&& 0xFF).toUInt8]

/-- The bytes handed to the writer by `encode` for a multi-byte value: `tmp[..size]`,
/repo/src/ilint/mod.rs:103-110. -/
def encodeBuffer (value : UInt64) : Bytes :=
  let size := encodedSize value
  (0xF8 + UInt8.ofNat (size - 2)) :: fill (size - 1) (value - base)

/-- `encode`, /repo/src/ilint/mod.rs:95-116. -/
def encode {ω : Type} [Writer ω] (value : UInt64) : Act ILIntErr ω Unit :=
  if encodedSize value = 1 then
    (Writer.write value.toUInt8).mapErr .ioError
  else
    (Writer.writeAll (encodeBuffer value)).mapErr .ioError

/-- `decoded_size`, /repo/src/ilint/mod.rs:127-133. -/
def decodedSize (header : Byte) : Nat :=
  if header < 0xF8 then 1 else (header - 0xF8 + 2).toNat

/-- The accumulation loop of `decode_body`, /repo/src/ilint/mod.rs:151-153, with checked addition. -/
def accumulate : UInt64 → Bytes → Res ILIntErr UInt64
  | v, [] => .ok v
  | v, x :: xs => do
    let v' ← addU64 .checked (v <<< 8) x.toUInt64
    accumulate v' xs

/-- `decode_body`, /repo/src/ilint/mod.rs:145-160. -/
def decodeBody (body : Bytes) : Res ILIntErr UInt64 :=
  if body.isEmpty ∨ body.length > 8 then .err .invalidFormat
  else do
    let v ← accumulate 0 body
    if v > 0xFFFFFFFFFFFFFF07 then .err .valueOverflow
    else addU64 .checked v base

/-- `decode_from_bytes`, /repo/src/ilint/mod.rs:170-186. -/
def decodeFromBytes (value : Bytes) : Res ILIntErr (UInt64 × Nat) :=
  match value with
  | [] => .err .invalidFormat
  | header :: rest =>
    let size := decodedSize header
    if size = 1 then .ok (header.toUInt64, size)
    else if value.length < size then .err .invalidFormat
    else match decodeBody (rest.take (size - 1)) with
      | .ok v => .ok (v, size)
      | .err x => .err x
      | .panic => .panic
      | .diverge => .diverge

/-- `decode`, /repo/src/ilint/mod.rs:197-213. -/
def decode {σ : Type} [Reader σ] : Act ILIntErr σ UInt64 := do
  let header ← (Reader.read : Act IoErr σ Byte).mapErr .ioError
  let size := decodedSize header
  if size = 1 then pure header.toUInt64
  else do
    let tmp ← (Reader.readAll (size - 1) : Act IoErr σ Bytes).mapErr .ioError
    Act.lift (decodeBody tmp)

/-- `encode_sign`, /repo/src/ilint/mod.rs:232-240. -/
def encodeSign (v : Int64) : UInt64 :=
  let tmp := v.toUInt64
  if tmp &&& 0x8000000000000000 = 0 then tmp <<< 1 else ~~~(tmp <<< 1)

/-- `decode_sign`, /repo/src/ilint/mod.rs:252-258. -/
def decodeSign (v : UInt64) : Int64 :=
  if v &&& 0x1 = 0 then (v >>> 1).toInt64 else (~~~(v >>> 1)).toInt64

/-- `signed_encoded_size`, /repo/src/ilint/mod.rs:269-271. -/
def signedEncodedSize (value : Int64) : Nat := encodedSize (encodeSign value)

/-- `signed_encode`, /repo/src/ilint/mod.rs:284-286. -/
def signedEncode {ω : Type} [Writer ω] (value : Int64) : Act ILIntErr ω Unit := encode (encodeSign value)

/-- `signed_decode`, /repo/src/ilint/mod.rs:299-302. -/
def signedDecode {σ : Type} [Reader σ] : Act ILIntErr σ Int64 := do
  let tmp ← decode
  pure (decodeSign tmp)

end ILInt
end Verif
