import Verif.Basic
/-!
# Specification of the ILInt format

Written over natural numbers, independently of the code.  An ILInt is either one byte `b < 248` standing for `b`,
or a header byte `247 + k` (1 ≤ k ≤ 8) followed by `k` big-endian bytes, standing for 248 plus their value; values
stay below 2^64.
-/
namespace Verif.Spec

/-- Value of a big-endian byte string. -/
def beVal : Bytes → Nat
  | [] => 0
  | b :: bs => b.toNat * 256 ^ bs.length + beVal bs

/-- The `k` low-order base-256 digits of `v`, most significant first. -/
def be (k v : Nat) : Bytes :=
  (List.range k).map fun i => UInt8.ofNat (v / 256 ^ (k - 1 - i) % 256)

/-- `bs` is an ILInt (not necessarily the shortest) standing for `v`. -/
def IsILInt (bs : Bytes) (v : Nat) : Prop :=
  v < 2 ^ 64 ∧
  ((∃ b : Byte, bs = [b] ∧ b.toNat < 248 ∧ v = b.toNat) ∨
   (∃ (h : Byte) (body : Bytes), bs = h :: body ∧ 1 ≤ body.length ∧ body.length ≤ 8 ∧
      h.toNat = 247 + body.length ∧ v = 248 + beVal body))

/-- Number of bytes after the header in the shortest ILInt of `v` (0 when there is only one byte). -/
def ilintExtra (v : Nat) : Nat :=
  if v < 248 then 0
  else if v < 248 + 256 ^ 1 then 1
  else if v < 248 + 256 ^ 2 then 2
  else if v < 248 + 256 ^ 3 then 3
  else if v < 248 + 256 ^ 4 then 4
  else if v < 248 + 256 ^ 5 then 5
  else if v < 248 + 256 ^ 6 then 6
  else if v < 248 + 256 ^ 7 then 7
  else 8

/-- The canonical ILInt of `v`. -/
def ilint (v : Nat) : Bytes :=
  if v < 248 then [UInt8.ofNat v]
  else UInt8.ofNat (247 + ilintExtra v) :: be (ilintExtra v) (v - 248)

/-- The zigzag code of an integer: 0, -1, 1, -2, 2, ... become 0, 1, 2, 3, 4, ... -/
def zigzag (v : Int) : Nat := if 0 ≤ v then (2 * v).toNat else (-2 * v - 1).toNat

/-- The canonical signed ILInt of `v`. -/
def signedILInt (v : Int) : Bytes := ilint (zigzag v)

end Verif.Spec
