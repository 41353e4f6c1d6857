import Verif.Model.Tag
/-!
# Specification: measures of a tag
-/
namespace Verif.Spec
variable {P : Type}

mutual
/-- Levels of nesting: 0 for a tag that holds no tags, one more than the deepest member for a container. -/
def height : Tag P → Nat
  | .atom _ => 0
  | .seq _ ts => 1 + heights ts
  | .array _ ts => 1 + heights ts
  | .dict _ es => 1 + entryHeights es
def heights : List (Tag P) → Nat
  | [] => 0
  | t :: ts => max (height t) (heights ts)
def entryHeights : List (String × Tag P) → Nat
  | [] => 0
  | (_, t) :: es => max (height t) (entryHeights es)
end

mutual
/-- Number of tags: the tag itself and all tags nested in it. -/
def tagCount : Tag P → Nat
  | .atom _ => 1
  | .seq _ ts => 1 + tagCounts ts
  | .array _ ts => 1 + tagCounts ts
  | .dict _ es => 1 + entryCounts es
def tagCounts : List (Tag P) → Nat
  | [] => 0
  | t :: ts => tagCount t + tagCounts ts
def entryCounts : List (String × Tag P) → Nat
  | [] => 0
  | (_, t) :: es => tagCount t + entryCounts es
end

end Verif.Spec
