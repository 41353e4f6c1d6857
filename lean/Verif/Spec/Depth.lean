import Verif.Model.Tag
/-!
# Specification: how deep tags are nested
-/
namespace Verif.Spec
variable {P : Type}

mutual
/-- The number of tags on the longest way from the tag inwards, the tag itself included. -/
def levels : Tag P → Nat
  | .atom _ => 1
  | .seq _ ts => 1 + listLevels ts
  | .array _ ts => 1 + listLevels ts
  | .dict _ es => 1 + entryLevels es
/-- The deepest of the tags. -/
def listLevels : List (Tag P) → Nat
  | [] => 0
  | t :: ts => max (levels t) (listLevels ts)
/-- The deepest of the entries. -/
def entryLevels : List (String × Tag P) → Nat
  | [] => 0
  | (_, t) :: es => max (levels t) (entryLevels es)
end

end Verif.Spec
