import Verif.Spec.Tag
import Verif.Spec.Cost
/-!
# Specification: how much a tag holds in memory, besides the tags themselves
-/
namespace Verif.Spec
variable {P : Type}

/-- Bytes of byte strings and text, and elements of arrays of numbers (the values of fixed size count nothing). -/
def atomContent : Atom P → Nat
  | .raw _ v => v.length
  | .byteArray v => v.length
  | .string _ s => (utf8 s).length
  | .bigInt v => v.length
  | .bigDec _ _ v => v.length
  | .ilintArray _ vs => vs.length
  | .oid _ vs => vs.length
  | .strDict _ es => (es.map fun e => 2 + (utf8 e.1).length + (utf8 e.2).length).sum
  | _ => 0

mutual
/-- The same for a tag and all tags in it, the keys of dictionaries included: one for a key and one for each of its
bytes. -/
def content : Tag P → Nat
  | .atom a => atomContent a
  | .seq _ ts => contents ts
  | .array _ ts => contents ts
  | .dict _ es => entryContents es
def contents : List (Tag P) → Nat
  | [] => 0
  | t :: ts => content t + contents ts
def entryContents : List (String × Tag P) → Nat
  | [] => 0
  | (k, t) :: es => 1 + (utf8 k).length + content t + entryContents es
end

end Verif.Spec
