import Verif.Spec.Schema
/-!
# Specification: payload types that change from version to version
-/
namespace Verif.Spec

/-- No value takes no bytes at all. -/
def NeverEmpty (s : Schema) : Prop := ∀ v, ¬ StructForm s v []

/-- `Grown s s'`: the struct `s'` is `s` with more fields at the end. -/
inductive Grown : Schema → Schema → Prop where
  | append (s t) : NeverEmpty t → Grown s (.both s t)
  | inLast (a) {b b'} : Grown b b' → Grown (.both a b) (.both a b')

/-- The struct has got more fields at the end from the one version to the other. -/
def Differ (p q : Struct) : Prop := Grown p.schema q.schema ∨ Grown q.schema p.schema

/-- Two versions of a program: struct types are registered under the same ids, and under each id they have the same
fields (perhaps with another default value), or one of them has more at the end. -/
def Versions (regs regs' : List (UInt64 × Struct)) : Prop := ∀ id,
  (regs.lookup id = none ∧ regs'.lookup id = none) ∨
    ∃ p q, regs.lookup id = some p ∧ regs'.lookup id = some q ∧ (p.schema = q.schema ∨ Differ p q)

/-- The type registered under this id differs between the versions. -/
def Changed (regs regs' : List (UInt64 × Struct)) (id : UInt64) : Prop :=
  ∃ p q, regs.lookup id = some p ∧ regs'.lookup id = some q ∧ Differ p q

end Verif.Spec
