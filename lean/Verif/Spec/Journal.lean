import Verif.Spec.Tag
/-!
# Specification: writers that fail part way

`Journal ω` says what a writer that may fail at any call still promises: what it holds only grows, by a prefix of the
data of each call, and by all of it when the call reports success.
-/
namespace Verif.Spec
variable {P : Type}

structure Journal (ω : Type) [Writer ω] where
  /-- The writer is in a proper state. -/
  ok : ω → Prop
  /-- What arrived at the destination. -/
  out : ω → Bytes
  step : ∀ (op : WOp) (w : ω), ok w → ok (call op w).2 ∧ ∃ got, got <+: opBytes op ∧
    out (call op w).2 = out w ++ got ∧ ((call op w).1 = .ok () → got = opBytes op)

/-- Serializes the tags one after another and stops at the first failure: the number of tags whose `serialize`
returned `Ok`, and the writer afterwards. -/
def appendTags [TagPayload P] {ω : Type} [Writer ω] : List (Tag P) → ω → Nat × ω
  | [], w => (0, w)
  | t :: ts, w =>
    match t.serialize w with
    | (.ok (), w₁) => ((appendTags ts w₁).1 + 1, (appendTags ts w₁).2)
    | (_, w₁) => (0, w₁)

end Verif.Spec
