import Verif.Spec.Factory
/-!
# Specification: what a clone through the standard factory looks like
-/
namespace Verif.Spec
variable {P : Type}

/-- A standard type under its standard identifier. -/
def Standard (t : Tag P) : Prop := standardId t.kind = some t.id.toNat

instance (t : Tag P) : Decidable (Standard t) := inferInstanceAs (Decidable (_ = _))

/-- An explicit identifier that the standard does not use. -/
def CustomId (id : UInt64) : Prop := 16 ≤ id.toNat ∧ ∀ k, standardId k ≠ some id.toNat

mutual
/-- The tag with everything that is not standard turned into raw tags with the same id and value bytes. -/
def asRaw [TagPayload P] : Tag P → Tag P
  | .atom a => if Standard (.atom a) then .atom a else .atom (.raw a.id (encAtom a))
  | .seq id ts => if Standard (.seq id ts) then .seq id (asRawTags ts) else .atom (.raw id (encValue (.seq id ts)))
  | .array id ts => if Standard (.array id ts) then .array id (asRawTags ts) else .atom (.raw id (encValue (.array id ts)))
  | .dict id es => if Standard (.dict id es) then .dict id (asRawEntries es) else .atom (.raw id (encValue (.dict id es)))
def asRawTags [TagPayload P] : List (Tag P) → List (Tag P)
  | [] => []
  | t :: ts => asRaw t :: asRawTags ts
def asRawEntries [TagPayload P] : List (String × Tag P) → List (String × Tag P)
  | [] => []
  | (k, t) :: es => (k, asRaw t) :: asRawEntries es
end

/-- `Visible u t`: `u` is `t` or nested in it with only standard tags around it. -/
inductive Visible : Tag P → Tag P → Prop where
  | refl (t) : Visible t t
  | seq {u v id ts} : Standard (.seq id ts) → v ∈ ts → Visible u v → Visible u (.seq id ts)
  | array {u v id ts} : Standard (.array id ts) → v ∈ ts → Visible u v → Visible u (.array id ts)
  | dict {u k v id es} : Standard (.dict id es) → (k, v) ∈ es → Visible u v → Visible u (.dict id es)

end Verif.Spec
