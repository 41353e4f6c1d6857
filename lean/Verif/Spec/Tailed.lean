import Verif.Spec.Schema
import Verif.Model.Tailed
/-!
# Specification: structs that end with the rest of the bytes
-/
namespace Verif.Spec

/-- The bytes of a payload: without a rest any form of the fields; with a rest the fields in their shortest form, and
then the rest. -/
def TailedForm (p : Tailed) (bs : Bytes) : Prop :=
  match p.rest with
  | none => StructForm p.schema p.value bs
  | some t => HasType p.schema p.value ∧ bs = structBytes p.schema p.value ++ t

/-- The bytes that are written. -/
def tailedBytes (p : Tailed) : Bytes := structBytes p.schema p.value ++ p.rest.getD []

/-- The two are of the same type. -/
def SameType (p q : Tailed) : Prop := p.schema = q.schema ∧ p.rest.isSome = q.rest.isSome

/-- The standard factory with such types registered under ids, as `structFactory`. -/
def tailedFactory (strict : Bool) : List (UInt64 × Tailed) → Engine Tailed
  | [] => Engine.std strict
  | (id, p) :: regs => ((tailedFactory strict regs).register id (payloadCreator p)).2

/-- The ids are explicit, and the types within the limits. -/
def TailedOk (regs : List (UInt64 × Tailed)) : Prop := ∀ r ∈ regs, 16 ≤ r.1.toNat ∧ BoundedSchema r.2.schema

end Verif.Spec
