import Verif.Model.PayloadTypes
/-!
# Specification: the types of tags
-/
namespace Verif.Spec
variable {P : Type} [TagPayload P] [PayloadTypes P]

/-- The Rust type of a tag: one of the crate, or `ILGenericPayloadTag` of a payload type. -/
inductive TagType where
  | crate (k : Kind)
  | payload (ty : Nat)
  deriving DecidableEq, Repr

/-- The Rust type of the tag behind a `Box<dyn ILTag>`. -/
def typeOf : Tag P → TagType
  | .atom (.payload _ p) => .payload (PayloadTypes.typeOf p)
  | t => .crate t.kind

/-- What the factory makes for the id: a tag with this id and of this type. -/
def Makes (e : Engine P) (id : UInt64) (ty : TagType) : Prop :=
  ∃ t, e.createTag id = .ok (some t) ∧ typeOf t = ty

end Verif.Spec
