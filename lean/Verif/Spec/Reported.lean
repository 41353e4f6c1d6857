import Verif.Spec.Tag
/-!
# Specification: the size a tag reports, without bound

As the length of its layout, except that a custom payload is taken at its word.
-/
namespace Verif.Spec
variable {P : Type} [TagPayload P]

/-- Identifier, size field unless the identifier is implicit, and a value of `n` bytes. -/
def framed (id n : Nat) : Nat := (ilint id).length + (if id ≤ 15 then 0 else (ilint n).length) + n

mutual
/-- The size reported for the value. -/
def reportedValue : Tag P → Nat
  | .atom (.payload _ p) => TagPayload.serializedSize p
  | .atom a => (encAtom a).length
  | .seq _ ts => reportedAll ts
  | .array _ ts => (ilint ts.length).length + reportedAll ts
  | .dict _ es => (ilint es.length).length + reportedEntries es
/-- The sizes of tags one after another. -/
def reportedAll : List (Tag P) → Nat
  | [] => 0
  | t :: ts => framed t.id.toNat (reportedValue t) + reportedAll ts
/-- The sizes of keys and values. -/
def reportedEntries : List (String × Tag P) → Nat
  | [] => 0
  | (k, t) :: es => (stringTag k).length + framed t.id.toNat (reportedValue t) + reportedEntries es
end

/-- The size reported for the tag. -/
def reported (t : Tag P) : Nat := framed t.id.toNat (reportedValue t)

/-- What the tag holds itself, without the tags nested in it: bytes, or the number of nested tags and the keys. -/
def own : Tag P → Nat
  | .atom (.payload _ p) => TagPayload.serializedSize p
  | .atom a => (encAtom a).length
  | .seq _ ts => ts.length
  | .array _ ts => ts.length
  | .dict _ es => es.length + (es.map fun e => (stringTag e.1).length).sum

/-- Everything fits into the address space, as it does in every program that runs: no tag holds 2^64 of anything, and
payloads report a `usize`. -/
def Addressable (t : Tag P) : Prop := ∀ u, Within u t → own u < 2 ^ 64

end Verif.Spec
