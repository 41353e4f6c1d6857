import Verif.Proof.Brief
import Verif.Props.Renew
import Verif.Props.Change
/-!
# C120: what a change of bytes can do under customised factories
-/
namespace Verif.Props
open Verif Verif.Spec
variable {P : Type} [TagPayload P]
set_option linter.unusedSectionVars false

section
variable [Env]

/-- What was read is written as its encoding. -/
theorem tidy_to_bytes (hr : MemoryOk) {e : Engine P} (he : Regular e) (ht : Tidy e) {bs : Bytes} {t : Tag P}
    (h : Factory.fromBytes e bs = .ok t) : t.toBytes = .ok (enc t) := by
  obtain ⟨u, w, t', h1, -, h2, h3, -⟩ := renew_step hr he he (tidy_relay he ht) bs t h
  rw [h] at h1
  cases h1
  rw [h2, h3]

/-- The bytes read are a form of the tag. -/
theorem accepted_form (hr : MemoryOk) {e : Engine P} (he : Regular e) {bs : Bytes} {t : Tag P}
    (h : Factory.fromBytes e bs = .ok t) : ∃ k, CustomFormAt (fun _ => Latest) e k t bs :=
  (C114_language hr he bs t).mpr ⟨accepted_maps hr he h, t, h, .refl (accepted_maps hr he h)⟩

/-- **C120** Bytes that a customised factory accepts are at least as long as what their tag serializes to, if the code of
its payloads is so for their own bytes; if they are not longer they are the same bytes, at most the entries of
dictionaries being in another order. -/
theorem C120_same_length (hr : MemoryOk) {e : Engine P} (he : Regular e) (ht : Tidy e) (hb : Brief e) (bs c : Bytes)
    (t : Tag P) (h : Factory.fromBytes e bs = .ok t) (hc : t.toBytes = .ok c) :
    c.length ≤ bs.length ∧ (bs.length ≤ c.length → Shuffled t bs) := by
  rw [tidy_to_bytes hr he ht h] at hc
  cases hc
  obtain ⟨k, hf⟩ := accepted_form hr he h
  exact ⟨(customFormAt_shuffled ht k t bs hf).1, (customFormAt_shuffled ht k t bs hf).2 hb⟩

/-- **C120** And exactly these: among the byte strings that are not longer than the serialization of a tag, those read as
a tag of the same content are the serialization and its variants with entries of dictionaries in another order. -/
theorem C120_exactly (hr : MemoryOk) {e : Engine P} (he : Regular e) (ht : Tidy e) (hb : Brief e) (bs c : Bytes) (t : Tag P)
    (h : Factory.fromBytes e c = .ok t) (hc : t.toBytes = .ok c) :
    (bs.length ≤ c.length ∧ ∃ t', Factory.fromBytes e bs = .ok t' ∧ Same t' t) ↔ Shuffled t bs := by
  rw [tidy_to_bytes hr he ht h] at hc
  cases hc
  have hm := accepted_maps hr he h
  constructor
  · rintro ⟨hl, t', h1, h2⟩
    obtain ⟨k, hf⟩ := (C114_language hr he bs t).mpr ⟨hm, t', h1, h2⟩
    exact (customFormAt_shuffled ht k t bs hf).2 hb hl
  · intro hx
    obtain ⟨k, hf⟩ := accepted_form hr he h
    obtain ⟨j, hj⟩ := shuffled_custom t hm (customFormAt_parts ht k t _ hf)
    obtain ⟨-, t', h1, h2⟩ := (C114_language hr he bs t).mp ⟨j, hj bs hx⟩
    exact ⟨Nat.le_of_eq (shuffled_perm hx).length_eq, t', h1, h2⟩

/-- **C120** A change that keeps the length, of the bytes a tag serializes to, is never without effect unless it only
moves bytes: the changed bytes are refused or read as a tag with another content, by this factory or by another one. -/
theorem C120_replaced (hr : MemoryOk) {e e' : Engine P} (he : Regular e) (ht : Tidy e) (he' : Regular e') (ht' : Tidy e')
    (hb' : Brief e') (bs bs' : Bytes) (t t' : Tag P) (h : Factory.fromBytes e bs = .ok t) (hc : t.toBytes = .ok bs)
    (hl : bs'.length = bs.length) (h' : Factory.fromBytes e' bs' = .ok t') (hs : Same t t') : bs'.Perm bs := by
  have hm := accepted_maps hr he h
  have hm' := accepted_maps hr he' h'
  rw [tidy_to_bytes hr he ht h] at hc
  cases hc
  have henc := hs.enc_eq hm hm'
  have := (C120_same_length hr he' ht' hb' bs' _ t' h' (tidy_to_bytes hr he' ht' h')).2 (by rw [← henc]; omega)
  rw [henc]
  exact shuffled_perm this

/-- **C120** In particular no single byte of what a tag serializes to can be replaced by another one without effect. -/
theorem C120_one_byte (hr : MemoryOk) {e e' : Engine P} (he : Regular e) (ht : Tidy e) (he' : Regular e') (ht' : Tidy e')
    (hb' : Brief e') (bs : Bytes) (t t' : Tag P) (h : Factory.fromBytes e bs = .ok t) (hc : t.toBytes = .ok bs) (i : Nat)
    (b : Byte) (hi : i < bs.length) (hb : bs[i] ≠ b) (h' : Factory.fromBytes e' (bs.set i b) = .ok t') : ¬ Same t t' :=
  fun hs => set_not_perm hi hb (C120_replaced hr he ht he' ht' hb' bs (bs.set i b) t t' h hc (by simp) h' hs)
end

/-! ### The hypotheses are met -/

section
attribute [local instance] bigEnv

/-- The number has one shortest form, too. -/
theorem counter_brief : Brief (withPayload false 5000 (.num 0 : Counter)) := by
  intro id p₀ p v hc hv hp hl
  obtain ⟨rfl, rfl⟩ := counter_made hc
  obtain ⟨i, n, rfl, h⟩ := num_reads.mp hp
  have hreg := counter_regular (.num 0)
  obtain ⟨k, hf⟩ := accepted_form bigEnv_ok hreg h
  cases k with
  | zero => exact hf.elim
  | succ k =>
    obtain ⟨t₀, hd, w, h1, h2, h3, h4, h5, h6⟩ := hf
    have hw : IsILInt w n.toNat := h4.resolve_right (by rintro ⟨_, _, _, -, h, -⟩; cases h)
    have hi : i = 10 := by
      by_cases hid : i = 5000
      · subst hid
        have : (withPayload false 5000 (.num 0 : Counter)).createTag 5000 = .ok (some t₀) := h1
        rw [withPayload_here] at this
        cases this
        cases h2
      · have : (withPayload false 5000 (.num 0 : Counter)).createTag i = .ok (some t₀) := h1
        rw [withPayload_other _ _ hid] at this
        obtain ⟨g1, g2, -⟩ := std_created this
        unfold StdTag at g1
        rw [h2] at g1
        rcases g1 with g1 | ⟨-, g1, -⟩
        · have h10 : some 10 = some t₀.id.toNat := g1
          rw [g2] at h10
          exact UInt64.toNat_inj.mp (by injection h10 with h; exact h.symm)
        · cases g1
    subst hi
    rw [counter_bytes] at hl ⊢
    have e3 : Counter.bytes (.num n) = Spec.ilint (10 : UInt64).toNat ++ Spec.ilint n.toNat := rfl
    have e1 := ILInt.ilint_shortest h3
    have e2 := ILInt.ilint_shortest hw
    rw [e3] at hl ⊢
    rcases h6 with ⟨-, rfl⟩ | ⟨h, -⟩
    · simp only [List.length_append] at hl
      have e11 := e1.1
      have e21 := e2.1
      have e11' : (Spec.ilint (10 : UInt64).toNat).length ≤ hd.length := e11
      rw [e2.2 (by omega)]
      congr 1
      exact e1.2 (by show hd.length = (Spec.ilint (10 : UInt64).toNat).length; omega)
    · exact absurd (show 16 ≤ (10 : UInt64).toNat from h) (by decide)

/-- The bytes of a sequence with a payload, and a byte of it changed. -/
example (t' : Tag Counter)
    (h' : Factory.fromBytes (withPayload false 5000 (.num 0 : Counter)) ([22, 7, 249, 18, 144, 3, 10, 248, 0].set 8 1) = .ok t') :
    ¬ Same (.seq 22 [.atom (.payload 5000 (.num 248))]) t' := by
  have h : (match Factory.fromBytes (withPayload false 5000 (.num 0 : Counter)) [22, 7, 249, 18, 144, 3, 10, 248, 0] with
      | .ok (.seq 22 [.atom (.payload 5000 p)]) => decide (p = .num 248)
      | _ => false) = true := by
    unfold Factory.fromBytes
    rw [deserialize_eq]
    decide +kernel
  split at h
  · next p hq =>
    cases of_decide_eq_true h
    exact C120_one_byte bigEnv_ok (counter_regular _) counter_tidy (counter_regular _) counter_tidy counter_brief _ _ t' hq
      (by rw [tidy_to_bytes bigEnv_ok (counter_regular _) counter_tidy hq]; decide +kernel) 8 1 (by decide) (by decide) h'
  · cases h

/-- A payload that ignores the highest bit of its byte. -/
structure Folded where
  v : Byte
  deriving DecidableEq

instance : TagPayload Folded where
  serializedSize _ := 1
  serialize p := ([.all [p.v]], .ok ())
  deserialize p n := if n = 1 then .read fun b => .done (.ok ()) ⟨b &&& 127⟩ else .done (.err .corruptedData) p

theorem folded_bytes (p : Folded) : payloadBytes p = [p.v] := by
  simp [payloadBytes, TagPayload.serialize, opsBytes, opBytes]

theorem folded_reads {e : Engine Folded} {p₀ p : Folded} {v : Bytes} : PayloadReads e p₀ p v ↔ ∃ b, v = [b] ∧ p = ⟨b &&& 127⟩ := by
  unfold PayloadReads
  show (∃ r, RProg.run _ (if v.length = 1 then _ else _) _ = _ ∧ _) ↔ _
  by_cases hl : v.length = 1
  · obtain ⟨b, rfl⟩ : ∃ b, v = [b] := by
      match v, hl with
      | [b], _ => exact ⟨b, rfl⟩
    rw [if_pos hl]
    constructor
    · rintro ⟨r, h1, -⟩
      have h1 : (Res.ok (), ((⟨b &&& 127⟩ : Folded), _)) = (.ok (), (p, r)) := h1
      cases h1
      exact ⟨b, rfl, rfl⟩
    · rintro ⟨b', h, rfl⟩
      cases h
      exact ⟨_, rfl, rfl⟩
  · rw [if_neg hl]
    constructor
    · rintro ⟨r, h1, -⟩
      cases h1
    · rintro ⟨b, rfl, -⟩
      exact absurd rfl hl

/-- **C120** The condition that the payloads have one shortest form is needed: a payload that ignores a bit of its byte.
It normalises, so that all of C117 holds of it, and a byte of its serialization can be replaced without effect. -/
theorem C120_condition_needed : Regular (withPayload false 5000 (⟨0⟩ : Folded)) ∧
    Tidy (withPayload false 5000 (⟨0⟩ : Folded)) ∧ ∃ (bs : Bytes) (i : Nat) (b : Byte) (t : Tag Folded), i < bs.length ∧
      bs[i]? ≠ some b ∧ Factory.fromBytes (withPayload false 5000 (⟨0⟩ : Folded)) bs = .ok t ∧ t.toBytes = .ok bs ∧
      Factory.fromBytes (withPayload false 5000 (⟨0⟩ : Folded)) (bs.set i b) = .ok t := by
  refine ⟨C114_register (std_regular false) 5000 (by decide) _ fun t₀ => (C114_creators _ t₀).2.2 _, ?_,
    [249, 18, 144, 1, 7], 4, 135, .atom (.payload 5000 ⟨7⟩), by decide, by decide, ?_, ?_, ?_⟩
  · intro id p₀ p v hc hv hp
    obtain ⟨b, rfl, rfl⟩ := folded_reads.mp hp
    rw [folded_bytes]
    refine ⟨⟨rfl, by rw [folded_bytes]; rfl⟩, Nat.le_refl _, folded_reads.mpr ⟨_, rfl, ?_⟩⟩
    rw [UInt8.and_assoc, UInt8.and_self]
  all_goals first
    | decide +kernel
    | (have h : ∀ bs ∈ ([[249, 18, 144, 1, 7], [249, 18, 144, 1, 135]] : List Bytes),
          (match Factory.fromBytes (withPayload false 5000 (⟨0⟩ : Folded)) bs with
          | .ok (.atom (.payload 5000 p)) => decide (p = ⟨7⟩)
          | _ => false) = true := by
        unfold Factory.fromBytes
        rw [deserialize_eq]
        decide +kernel
       have h1 := h _ (List.mem_cons_self ..)
       have h2 := h _ (List.mem_cons_of_mem _ (List.mem_cons_self ..))
       split at h1
       · next p hq =>
         cases of_decide_eq_true h1
         split at h2
         · next p hq' =>
           cases of_decide_eq_true h2
           first | exact hq | exact hq'
         · cases h2
       · cases h1)
end

end Verif.Props
