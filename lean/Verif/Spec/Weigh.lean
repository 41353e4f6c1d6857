import Verif.Model.Tag
/-!
# Weighing tags by how deep they lie
-/
namespace Verif.Spec
variable {P : Type}

/-- A tag with an explicit id (16 or more) is a layer around what it holds. -/
def layer (id : UInt64) : Nat := if id.toNat < 16 then 0 else 1

mutual
/-- Sum of `f e` over the tag and all tags nested in it, `e` being the number of explicit tags that contain the one
weighed, itself included if it is explicit; `d` counts those outside. -/
def weigh (f : Nat → Nat) (d : Nat) : Tag P → Nat
  | .atom a => f (d + layer a.id)
  | .seq id ts => f (d + layer id) + weighs f (d + layer id) ts
  | .array id ts => f (d + layer id) + weighs f (d + layer id) ts
  | .dict id es => f (d + layer id) + weighEntries f (d + layer id) es
def weighs (f : Nat → Nat) (d : Nat) : List (Tag P) → Nat
  | [] => 0
  | t :: ts => weigh f d t + weighs f d ts
def weighEntries (f : Nat → Nat) (d : Nat) : List (String × Tag P) → Nat
  | [] => 0
  | (_, t) :: es => weigh f d t + weighEntries f d es
end

end Verif.Spec
