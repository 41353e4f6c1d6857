import Verif.Spec.Custom
/-!
# Specification: payloads that are read and written again
-/
namespace Verif.Spec
variable {P : Type}

/-- Payloads of the factory `e` keep what the factory `E` sees in them: whatever bytes the code of `E` (with the payload
`p₀` to start from) reads as `p`, the code of `e` (with `p₁`) reads too; what it makes of them it writes as its
`serialized_size` says, in no more bytes, and the code of `E` reads `p` from those. -/
def Carries [TagPayload P] [Env] (e E : Engine P) (p₁ p₀ : P) : Prop :=
  ∀ p v, v.length ≤ maxValue → PayloadReads E p₀ p v →
    ∃ q, PayloadReads e p₁ q v ∧ PayloadOk q ∧ (payloadBytes q).length ≤ v.length ∧ PayloadReads E p₀ p (payloadBytes q)

/-- The factory `e` of a relay, beside the factory `E` of the receiver: for every id for which the receiver has a type the
relay has the same type from the library, or makes a raw tag (explicit ids only), or has a payload that carries the one of
the receiver. -/
def PayloadRelayFor [TagPayload P] [Env] (e E : Engine P) : Prop :=
  ∀ id t₀, E.createTag id = .ok (some t₀) → ∃ t₁, e.createTag id = .ok (some t₁) ∧
    (t₁.kind = t₀.kind ∧ t₀.kind ≠ .payload ∨ 16 ≤ id.toNat ∧ t₁.kind = .raw ∨
      ∃ p₀ p₁, t₀ = .atom (.payload id p₀) ∧ t₁ = .atom (.payload id p₁) ∧ Carries e E p₁ p₀)

/-- What the code of a payload of the factory has read it writes as its `serialized_size` says, in no more bytes, and reads
again as the same. -/
def Tidy [TagPayload P] [Env] (e : Engine P) : Prop :=
  ∀ id p₀ p v, e.createTag id = .ok (some (.atom (.payload id p₀))) → v.length ≤ maxValue → PayloadReads e p₀ p v →
    PayloadOk p ∧ (payloadBytes p).length ≤ v.length ∧ PayloadReads e p₀ p (payloadBytes p)

end Verif.Spec
