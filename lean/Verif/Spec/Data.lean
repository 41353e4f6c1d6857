import Verif.Spec.Reader
import Verif.Spec.Writer
import Verif.Spec.ILInt
/-!
# Specification of fixed-width values and of UTF-8
-/
namespace Verif.Spec

/-- The two's complement representation of `v` on `8 * width` bits, as a natural number. -/
def twos (width : Nat) (v : Int) : Nat := (v % 2 ^ (8 * width)).toNat

/-- `write` and `read` are a big-endian codec of `width` bytes for values standing for the numbers `bits v`:
on every writer that accepts everything `write` appends exactly the digits; on every well-behaved reader `read` takes
exactly `width` bytes and returns the value they stand for; with fewer bytes `read` reports an error of the reader. -/
structure BigEndianCodec {α : Type} (width : Nat) (bits : α → Nat)
    (write : ∀ (ω : Type) [Writer ω], α → Act IoErr ω Unit)
    (read : ∀ (σ : Type) [Reader σ], Act IoErr σ α) : Prop where
  bits_lt : ∀ v, bits v < 256 ^ width
  bits_inj : ∀ v w, bits v = bits w → v = w
  write_exact : ∀ (ω : Type) [Writer ω] (S : Sink ω) (w : ω) (pre : Bytes) (v : α), S.W w pre →
    ∃ w', write ω v w = (.ok (), w') ∧ S.W w' (pre ++ be width (bits v))
  read_exact : ∀ (σ : Type) [Reader σ] (V : View σ) (s : σ) (v : α) (rest : Bytes),
    V.R s (be width (bits v) ++ rest) → ∃ s', read σ s = (.ok v, s') ∧ V.R s' rest
  read_any : ∀ (σ : Type) [Reader σ] (V : View σ) (s : σ) (bs : Bytes), V.R s bs → width ≤ bs.length →
    ∃ v s', read σ s = (.ok v, s') ∧ V.R s' (bs.drop width) ∧ be width (bits v) = bs.take width
  read_short : ∀ (σ : Type) [Reader σ] (V : View σ) (s : σ) (bs : Bytes), V.R s bs → bs.length < width →
    ∃ e s', read σ s = (.err e, s') ∧ V.E e

/-- UTF-8 of one code point (RFC 3629, section 3). -/
def utf8Char (c : Char) : Bytes :=
  let v := c.toNat
  if v < 0x80 then [UInt8.ofNat v]
  else if v < 0x800 then [UInt8.ofNat (0xC0 + v / 64), UInt8.ofNat (0x80 + v % 64)]
  else if v < 0x10000 then
    [UInt8.ofNat (0xE0 + v / 4096), UInt8.ofNat (0x80 + v / 64 % 64), UInt8.ofNat (0x80 + v % 64)]
  else [UInt8.ofNat (0xF0 + v / 262144), UInt8.ofNat (0x80 + v / 4096 % 64),
    UInt8.ofNat (0x80 + v / 64 % 64), UInt8.ofNat (0x80 + v % 64)]

/-- UTF-8 of a string. -/
def utf8 (s : String) : Bytes := s.toList.flatMap utf8Char

end Verif.Spec
