import Verif.Spec.Custom
/-!
# Specification: forms that can be read within a number of nested calls

As `CustomFormAt`, but the code of a payload that has tags read is given only the levels that are left.
-/
namespace Verif.Spec
variable {P : Type} [TagPayload P] [Env]

/-- As `PayloadReads`, nested tags being read with at most `depth` nested calls. -/
def PayloadReadsAt (e : Engine P) (depth : Nat) (p₀ p : P) (v : Bytes) : Prop :=
  ∃ r, RProg.run (Factory.deserializeFuel e depth) (TagPayload.deserialize p₀ v.length) (p₀, ByteArrayReader.new v) =
      (.ok (), (p, r)) ∧ r.available = 0

/-- The bytes of a tag that has at most `depth` levels, those that payloads read included. -/
def CustomFormIn (M : MapMaking) (e : Engine P) : Nat → Tag P → Bytes → Prop
  | 0, _, _ => False
  | depth + 1, t, bs => ∃ t₀ h v, e.createTag t.id = .ok (some t₀) ∧ t₀.kind = t.kind ∧ IsILInt h t.id.toNat ∧
      (ValueForm M (CustomFormIn M e depth) t v ∨
        ∃ id p₀ p, t₀ = .atom (.payload id p₀) ∧ t = .atom (.payload id p) ∧ PayloadReadsAt e depth p₀ p v) ∧
      v.length ≤ maxValue ∧
      (t.id.toNat ≤ 15 ∧ bs = h ++ v ∨ 16 ≤ t.id.toNat ∧ ∃ l, IsILInt l v.length ∧ bs = h ++ l ++ v)

/-- As `Tidy`, with as many nested calls as were needed to read the payload. -/
def TidyAt (e : Engine P) : Prop :=
  ∀ depth id p₀ p v, e.createTag id = .ok (some (.atom (.payload id p₀))) → v.length ≤ maxValue →
    PayloadReadsAt e depth p₀ p v →
    PayloadOk p ∧ (payloadBytes p).length ≤ v.length ∧ PayloadReadsAt e depth p₀ p (payloadBytes p)

end Verif.Spec
