import Verif.Spec.Renew
import Verif.Spec.Change
/-!
# Specification: payloads with one shortest form

Used to state what a change of bytes can do under a customised factory.
-/
namespace Verif.Spec
variable {P : Type}

/-- Of the bytes the code of a payload of the factory reads as some payload, only those the payload writes are as short. -/
def Brief [TagPayload P] [Env] (e : Engine P) : Prop :=
  ∀ id p₀ p v, e.createTag id = .ok (some (.atom (.payload id p₀))) → v.length ≤ maxValue → PayloadReads e p₀ p v →
    v.length ≤ (payloadBytes p).length → v = payloadBytes p

end Verif.Spec
