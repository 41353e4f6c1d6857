import Verif.Spec.Tag
/-!
# Orders of values, for the order of their serializations

Byte strings are compared as Rust compares `[u8]`: lexicographically, a proper prefix coming first.  This is `<` on
`List UInt8`.
-/
namespace Verif.Spec

/-- First the numbers from 0 on, then the negative ones, both ascending. -/
def UnsignedOrder (v w : Int) : Prop := (0 ≤ v ∧ w < 0) ∨ ((0 ≤ v ↔ 0 ≤ w) ∧ v < w)

/-- By the distance from 0; a number after its opposite if that is negative. -/
def MagnitudeOrder (v w : Int) : Prop := v.natAbs < w.natAbs ∨ (v.natAbs = w.natAbs ∧ v < w)

/-- The shorter first; those of the same length lexicographically. -/
def ShortLex (xs ys : Bytes) : Prop := xs.length < ys.length ∨ (xs.length = ys.length ∧ xs < ys)

/-- The magnitude of the floating point number with these bits, apart from the sign bit, of which the lower `m` are the
mantissa (23 in `f32`, 52 in `f64`), in units of the smallest positive number. -/
def magnitude (m bits : Nat) : Nat :=
  if bits / 2 ^ m = 0 then bits % 2 ^ m else (2 ^ m + bits % 2 ^ m) * 2 ^ (bits / 2 ^ m - 1)

/-- Floating point numbers of `w + 1` bits: first those without a sign, by magnitude; then those with the sign bit set,
by magnitude. -/
def FloatOrder (m w a b : Nat) : Prop :=
  (a < 2 ^ w ∧ 2 ^ w ≤ b) ∨ ((a < 2 ^ w ↔ b < 2 ^ w) ∧ magnitude m (a % 2 ^ w) < magnitude m (b % 2 ^ w))

/-- The order of two tags: by id, then by the length of the value if the id is explicit, then by the value. -/
def TagOrder [TagPayload P] (t u : Tag P) : Prop :=
  t.id < u.id ∨ t.id = u.id ∧ (if t.id.toNat ≤ 15 then encValue t < encValue u else ShortLex (encValue t) (encValue u))

/-- The bytes of `t` are before those of `u` exactly if `p`, whenever both can be serialized. -/
def BytesBefore [TagPayload P] [Env] (t u : Tag P) (p : Prop) : Prop :=
  ∀ a b, t.toBytes = .ok a → u.toBytes = .ok b → (a < b ↔ p)

end Verif.Spec
