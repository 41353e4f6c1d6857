import Verif.Model.Util
/-!
# Several payload types

`Tag P` has one type `P` for all custom payloads.  Here it is the sum of several Rust types `T: ILTagPayload`; `typeOf`
says which one a payload is of, so that the downcasts to `ILGenericPayloadTag<T>` can be told apart.
-/
namespace Verif
variable {P : Type}

/-- However the program ends, the payload it leaves satisfies `q`. -/
def RProg.Leaves (q : P → Prop) : RProg P → Prop
  | .done _ p => q p
  | .read k => ∀ b, (k b).Leaves q
  | .readAll _ k => ∀ bs, (k bs).Leaves q
  | .deser k => ∀ t, (k t).Leaves q
  | .into _ k => ∀ t, (k t).Leaves q

/-- `T: 'static` of a payload, /repo/src/tags/payload/mod.rs:50.  `deserialize(&mut self, ..)`,
/repo/src/tags/payload/mod.rs:82-87, cannot change the type of `self`. -/
class PayloadTypes (P : Type) [TagPayload P] where
  typeOf : P → Nat
  keeps : ∀ p n, (TagPayload.deserialize p n).Leaves (fun q => typeOf q = typeOf p)

variable [TagPayload P] [PayloadTypes P]

/-- `tag_downcast_ref::<ILGenericPayloadTag<T>>`, `tag_downcast_mut`, /repo/src/tags/mod.rs:282-297, followed by
`payload()` or `mut_payload()`, /repo/src/tags/payload/mod.rs:160-166. -/
def downcastPayload (ty : Nat) : Tag P → Option P
  | .atom (.payload _ p) => if PayloadTypes.typeOf p = ty then some p else none
  | _ => none

/-- `tag_id_downcast_ref::<ILGenericPayloadTag<T>>`, `tag_id_downcast_mut`, /repo/src/tags/mod.rs:348-379. -/
def idDowncastPayload (ty : Nat) (id : UInt64) (t : Tag P) : Res TagErr P :=
  if t.id ≠ id then .err .unexpectedTagType
  else match downcastPayload ty t with
    | some p => .ok p
    | none => .err .unexpectedTagType

end Verif
