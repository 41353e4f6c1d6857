import Verif.Spec.Upgrade
import Verif.Spec.Evolve
/-!
# Specification: versions of a program that develop independently
-/
namespace Verif.Spec

/-- Two versions of a type: wherever both use the same byte for a variant, they mean the same by it.  Each may have variants
of its own. -/
inductive Akin : Schema → Schema → Prop where
  | refl (s) : Akin s s
  | enum {ok ok' c c'} : (∀ b, ok b = true → ok' b = true → Akin (c b) (c' b)) → Akin (.enum ok c) (.enum ok' c')
  | both {a a' b b'} : Akin a a' → Akin b b' → Akin (.both a b) (.both a' b')
  | many {s s'} : Akin s s' → Akin (.many s) (.many s')
  | opt {s s'} : Akin s s' → Akin (.opt s) (.opt s')

/-- The same, where one of them may also have more fields at the end, or at the end of a variant that ends the payload. -/
inductive Kin : Schema → Schema → Prop where
  | akin {s s'} : Akin s s' → Kin s s'
  | more {s s' t} : Akin s s' → NeverEmpty t → Kin s (.both s' t)
  | less {s s' t} : Akin s s' → NeverEmpty t → Kin (.both s t) s'
  | last {a a' b b'} : Akin a a' → Kin b b' → Kin (.both a b) (.both a' b')
  | variants {ok ok' c c'} : (∀ b, ok b = true → ok' b = true → Kin (c b) (c' b)) → Kin (.enum ok c) (.enum ok' c')
  | opt {s s'} : Kin s s' → Kin (.opt s) (.opt s')

/-- Two programs: under each id both have the standard meaning, or two versions of a payload type, or one of them knows no
tag at all. -/
def KinRegs (strict : Bool) (regs regs' : List (UInt64 × Struct)) : Prop := ∀ id,
  (regs.lookup id = none ∧ regs'.lookup id = none) ∨
    (∃ p q, regs.lookup id = some p ∧ regs'.lookup id = some q ∧ Kin p.schema q.schema) ∨
    ((regs.lookup id = none ∨ regs'.lookup id = none) ∧ (Engine.std strict : Engine Struct).createTag id = .ok none)

/-- Bytes that are handed on through programs, each of which reads a tag and writes it again. -/
def Passed [Env] (strict : Bool) : List (List (UInt64 × Struct)) → Bytes → Bytes → Prop
  | [], bs, bs' => bs' = bs
  | regs :: fleet, bs, bs' => ∃ t bs₁, Factory.fromBytes (structFactory strict regs) bs = .ok t ∧ t.toBytes = .ok bs₁ ∧
      Passed strict fleet bs₁ bs'

end Verif.Spec
