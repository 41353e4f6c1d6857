import Verif.Spec.Custom
/-!
# Specification: how much the payloads in a tag hold
-/
namespace Verif.Spec
variable {P : Type}

mutual
/-- What the payloads in a tag hold in all, `m` telling how much one holds. -/
def payloadContent (m : P → Nat) : Tag P → Nat
  | .atom (.payload _ p) => m p
  | .atom _ => 0
  | .seq _ ts => payloadContents m ts
  | .array _ ts => payloadContents m ts
  | .dict _ es => payloadEntries m es
def payloadContents (m : P → Nat) : List (Tag P) → Nat
  | [] => 0
  | t :: ts => payloadContent m t + payloadContents m ts
def payloadEntries (m : P → Nat) : List (String × Tag P) → Nat
  | [] => 0
  | (_, t) :: es => payloadContent m t + payloadEntries m es
end

/-- The code of the payloads of the factory keeps no more than it was given bytes. -/
def Thrifty [TagPayload P] [Env] (m : P → Nat) (e : Engine P) : Prop :=
  ∀ id p₀ p v, e.createTag id = .ok (some (.atom (.payload id p₀))) → v.length ≤ maxValue → PayloadReads e p₀ p v →
    m p ≤ v.length

end Verif.Spec
