import Verif.Spec.ILInt
import Verif.Spec.Factory
import Verif.Spec.Tag
import Verif.Model.Raw
/-!
# Specification: the layout of a tag in a byte stream, and slices
-/
namespace Verif.Spec

/-- How many bytes follow the first byte of an ILInt. -/
def ilintTail (h : Byte) : Nat := if h.toNat < 248 then 0 else h.toNat - 247

/-- The bytes between identifier and end of a tag with identifier `id`: size field and value.  Explicit tags have a size
field, an ILInt (of any length) standing for the length of the value; the implicit tags 10 and 14 hold one ILInt (valid
or not); the other implicit tags have the length given by the table; 15 is not defined. -/
def Layout (id : Nat) (size value : Bytes) : Prop :=
  if 16 ≤ id then IsILInt size value.length
  else size = [] ∧
    if id = 10 ∨ id = 14 then ∃ h body, value = h :: body ∧ body.length = ilintTail h
    else id ≠ 15 ∧ value.length = implicitLen id

/-- The length of the shortest size field. -/
def minSize (id : Nat) (value : Bytes) : Nat := if 16 ≤ id then (ilint value.length).length else 0

/-- `n` calls of `next_tag`, one after another, with these results. -/
inductive ScanSeq {σ : Type} [Reader σ] (m : ArithMode) :
    RawTagScanner σ → List RawTagOffset → RawTagScanner σ → Prop where
  | nil (s) : ScanSeq m s [] s
  | cons {s s' s'' o os} : RawTagScanner.nextTag m s = (.ok (some o), s') → ScanSeq m s' os s'' →
      ScanSeq m s (o :: os) s''

/-- The value of the tag has the length its identifier calls for: any length for the explicit ones, one ILInt for 10 and
14, the length of the table for the other implicit ones. -/
def StdLayout {P : Type} [TagPayload P] (t : Tag P) : Prop :=
  16 ≤ t.id.toNat ∨
  (t.id.toNat = 10 ∨ t.id.toNat = 14) ∧ (∃ v : UInt64, encValue t = ilint v.toNat) ∨
  t.id.toNat < 15 ∧ t.id.toNat ≠ 10 ∧ t.id.toNat ≠ 14 ∧ (encValue t).length = implicitLen t.id.toNat

/-- Where the tags of a list lie when written one after another from position `pos`: for each its id, its position, the
length of what precedes the value and the length of the value. -/
def positions {P : Type} [TagPayload P] : Nat → List (Tag P) → List RawTagOffset
  | _, [] => []
  | pos, t :: ts =>
    ⟨t.id, UInt64.ofNat pos, UInt64.ofNat ((enc t).length - (encValue t).length), UInt64.ofNat (encValue t).length⟩ ::
      positions (pos + (enc t).length) ts

/-- The creators make tags with the id they are asked for and, for the ids 10 and 14, of a type holding one ILInt. -/
def Faithful {P : Type} (e : Engine P) : Prop :=
  ∀ id t, e.createTag id = .ok (some t) → t.id = id ∧ (id = 10 ∨ id = 14 → oneILInt t.kind)

end Verif.Spec
