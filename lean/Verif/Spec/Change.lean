import Verif.Spec.Tag
/-!
# Specification: tags without an order of entries to choose

Used to state what a change of bytes can do.
-/
namespace Verif.Spec
variable {P : Type}

/-- The tag is not a dictionary of two entries or more. -/
def AtMostOneEntry : Tag P → Prop
  | .dict _ es => es.length ≤ 1
  | .atom (.strDict _ es) => es.length ≤ 1
  | _ => True

variable [TagPayload P]

mutual
/-- `v` are the bytes of the value of the tag but for the order of the entries of dictionaries, at every level: as in
`encValue`, the parts that are the entries being put together in any order. -/
def ShuffledValue : Tag P → Bytes → Prop
  | .atom (.strDict _ es), v =>
    ∃ xs : List Bytes, xs.Perm (es.map fun e => stringTag e.1 ++ stringTag e.2) ∧ v = ilint es.length ++ xs.flatten
  | .atom a, v => v = encAtom a
  | .seq _ ts, v => ShuffledAll ts v
  | .array _ ts, v => ∃ x, ShuffledAll ts x ∧ v = ilint ts.length ++ x
  | .dict _ es, v => ∃ xs ys : List Bytes, ShuffledEach es xs ∧ ys.Perm xs ∧ v = ilint es.length ++ ys.flatten
/-- The tags one after another. -/
def ShuffledAll : List (Tag P) → Bytes → Prop
  | [], v => v = []
  | t :: ts, v => ∃ x y, ShuffledValue t x ∧ ShuffledAll ts y ∧ v = wrap t.id x ++ y
/-- For each entry its bytes: the key as a string tag, and the tag. -/
def ShuffledEach : List (String × Tag P) → List Bytes → Prop
  | [], xs => xs = []
  | (k, t) :: es, xs => ∃ x ys, ShuffledValue t x ∧ ShuffledEach es ys ∧ xs = (stringTag k ++ wrap t.id x) :: ys
end

/-- `bs` are the bytes of the tag but for the order of the entries of dictionaries. -/
def Shuffled (t : Tag P) (bs : Bytes) : Prop := ∃ v, ShuffledValue t v ∧ bs = wrap t.id v

end Verif.Spec
