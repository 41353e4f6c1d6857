import Verif.Spec.Factory
/-!
# Specification: what a factory makes for each id, seen from outside
-/
namespace Verif.Spec
variable {P : Type}

/-- What the factory has for the id: the type of the tag it makes and the id this tag has, or why there is none. -/
def typeFor (e : Engine P) (id : UInt64) : Res TagErr (Kind × UInt64) :=
  match e.createTag id with
  | .ok (some t) => .ok (t.kind, t.id)
  | .ok none => .err .unknownTag
  | .err x => .err x
  | .panic => .panic
  | .diverge => .diverge

/-- The factories have tags of the same type for every id.  Custom payloads have to be of types that read in the same way;
what they hold is left open, as is the content of all other tags. -/
structure SameTypes [TagPayload P] (e e' : Engine P) : Prop where
  types : ∀ id, typeFor e id = typeFor e' id
  payloads : ∀ id i p i' p', e.createTag id = .ok (some (.atom (.payload i p))) →
    e'.createTag id = .ok (some (.atom (.payload i' p'))) → ∀ n, TagPayload.deserialize p n = TagPayload.deserialize p' n

/-- All tags the factory makes are of types of the library. -/
def LibraryOnly (e : Engine P) : Prop := ∀ id t, e.createTag id = .ok (some t) → t.kind ≠ .payload

end Verif.Spec
