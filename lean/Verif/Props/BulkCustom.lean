import Verif.Proof.BulkCustom
import Verif.Props.Renew
import Verif.Props.Bulk
/-!
# C107: how much a tag read by a customised factory holds
-/
namespace Verif.Props
open Verif Verif.Spec
variable {P : Type} [TagPayload P]

/-- **C107** Likewise for a customised factory, whose payloads keep no more than the bytes they are given by some measure:
what is read holds, in tags, bytes, elements, keys and payloads, no more than the number of bytes taken from the reader; the
tags are nested at most half as deep. -/
theorem C107_custom [Env] (hr : MemoryOk) {m : P → Nat} {e : Engine P} (he : Regular e) (hm : Thrifty m e) {σ : Type} [Reader σ]
    (V : View σ) {s s' : σ} {bs rest : Bytes} (h : V.R s bs) {t : Tag P} (hd : Factory.deserialize e σ s = (.ok t, s'))
    (h' : V.R s' rest) :
    tagCount t + content t + payloadContent m t + rest.length ≤ bs.length ∧ 2 * height t + rest.length ≤ bs.length := by
  obtain ⟨x, rest', rfl, ⟨k, h2⟩, h3⟩ := (C114_stream hr he V s bs h).1 t s' hd
  obtain rfl := V.unique h' h3
  obtain ⟨h4, h5⟩ := Hold.form he hm k t x h2
  have h6 := Hold.bulk m t
  have h7 := @Hold.height_le P (Hold.blank m) t h5
  rw [List.length_append]
  omega

/-! ### The hypotheses are met -/
section
attribute [local instance] bigEnv

/-- What a counter holds. -/
def Counter.held : Counter → Nat
  | .num _ => 1
  | .kept bs => bs.length
  | .first _ => 1

/-- A number in a nested tag. -/
theorem counter_thrifty : Thrifty Counter.held (withPayload false 5000 (.num 0 : Counter)) := by
  intro id p₀ p v hc hv hp
  obtain ⟨rfl, rfl⟩ := counter_made hc
  obtain ⟨-, h2, -⟩ := counter_tidy _ _ _ _ hc hv hp
  obtain ⟨i, n, rfl, -⟩ := num_reads.mp hp
  refine Nat.le_trans ?_ h2
  rw [counter_bytes]
  show 1 ≤ (Spec.ilint (10 : UInt64).toNat ++ Spec.ilint n.toNat).length
  rw [List.length_append]
  have : (Spec.ilint (10 : UInt64).toNat).length = 1 := by decide
  omega

/-- Without a condition on the payloads, of course, nothing holds: here a payload is held to hold a thousand bytes. -/
example : ¬ Thrifty (fun _ => 1000) (withPayload false 5000 (.num 0 : Counter)) := by
  intro h
  have h1 : PayloadReads (withPayload false 5000 (.num 0 : Counter)) (.num 0) (.num 7) [10, 7] := by
    refine num_reads.mpr ⟨10, 7, rfl, ?_⟩
    have h : (match Factory.fromBytes (withPayload false 5000 (.num 0 : Counter)) [10, 7] with
        | .ok (.atom (.ilint 10 v)) => decide (v = 7)
        | _ => false) = true := by
      unfold Factory.fromBytes
      rw [deserialize_eq]
      decide +kernel
    split at h
    · next v hq => cases of_decide_eq_true h; exact hq
    · cases h
  have := h 5000 (.num 0) (.num 7) [10, 7] (withPayload_here ..) (by decide) h1
  exact absurd this (by decide)

/-- A payload in a sequence. -/
example : (match Factory.fromBytes (withPayload false 5000 (.num 0 : Counter)) [22, 6, 249, 18, 144, 2, 10, 7] with
    | .ok t => tagCount t + content t + payloadContent Counter.held t == 3 && height t == 1
    | _ => false) = true := by
  unfold Factory.fromBytes
  rw [deserialize_eq]
  decide +kernel
end

end Verif.Props
