import Verif.Proof.Bulk
import Verif.Props.Grammar
import Verif.Props.Depth
/-!
# C107: how much a tag read from bytes holds
-/
namespace Verif.Props
open Verif Verif.Spec

section
variable {P : Type} [TagPayload P] [Env]

/-- **C107** What is read through any reader holds, in tags, bytes, elements and keys, no more than the number of bytes
taken from the reader; the tags are nested at most half as deep. -/
theorem C107_result (strict : Bool) {σ : Type} [Reader σ] (V : View σ) {s s' : σ} {bs rest : Bytes}
    (h : V.R s bs) {t : Tag P} (hd : Factory.deserialize (Engine.std strict) σ s = (.ok t, s')) (h' : V.R s' rest) :
    tagCount t + content t + rest.length ≤ bs.length ∧ 2 * height t + rest.length ≤ bs.length := by
  have hm := deserialize_matches (Engine.std strict : Engine P) V h
  rw [hd] at hm
  cases hp : Parser.top (Engine.std strict : Engine P) bs with
  | ok u r =>
    rw [hp] at hm
    obtain ⟨s'', e, hR⟩ := hm
    cases e
    have := V.unique h' hR
    subst this
    rw [Parser.top] at hp
    have hs := Shr.tag strict _ _ _ _ hp
    have h1 := bulk_le t
    have h2 := height_le t fun u hu => (hs.2 u hu).1
    have h3 : (enc t).length + rest.length ≤ bs.length := hs.1
    omega
  | short => rw [hp] at hm; obtain ⟨_, _, e, -⟩ := hm; cases e
  | fail e => rw [hp] at hm; obtain ⟨_, e⟩ := hm; cases e
  | panic => rw [hp] at hm; obtain ⟨_, e⟩ := hm; cases e
  | diverge => rw [hp] at hm; obtain ⟨_, e⟩ := hm; cases e

/-- **C107** In particular for `from_bytes`. -/
theorem C107_from_bytes (strict : Bool) (bs : Bytes) {t : Tag P}
    (h : Factory.fromBytes (Engine.std strict) bs = .ok t) :
    tagCount t + content t ≤ bs.length ∧ 2 * height t ≤ bs.length := by
  obtain ⟨hm, hs⟩ := C35_accepted_tags strict bs t h
  rw [fromBytes_ok_iff, Parser.top] at h
  have hl := (Shr.tag strict _ _ _ _ h).1
  have h1 := bulk_le t
  have h2 := height_le t fun u hu => (hs u hu).1
  simp only [List.length_nil, Nat.add_zero] at hl
  omega

/-- **C107** This is reached but for a constant: every number of tags, and every number of bytes. -/
theorem C107_reached (hr : MemoryOk) (strict : Bool) (n : Nat) (hn : n ≤ maxValue) :
    (∃ bs, bs.length ≤ n + 6 ∧ ∃ t : Tag P, Factory.fromBytes (Engine.std strict) bs = .ok t ∧ tagCount t = n + 1) ∧
    ∃ bs, bs.length ≤ n + 6 ∧ ∃ t : Tag P, Factory.fromBytes (Engine.std strict) bs = .ok t ∧ content t = n := by
  have h5 := ilint_le5 (n := n) (by have : maxValue = 536870912 := rfl; omega)
  have hread : ∀ t : Tag P, MapsOk t → (∀ u, Within u t → StdTag strict u ∧ (encValue u).length ≤ maxValue) →
      Factory.fromBytes (Engine.std strict) (enc t) = .ok (canon t) := fun t hm hs => by
    rw [fromBytes_ok_iff]; simpa using top_enc hr (Engine.std strict) t hm (std_supported hs) []
  constructor
  · have hnull : enc (.atom (.null 0) : Tag P) = [0] := rfl
    have hval : (encValue (.seq 22 (List.replicate n (.atom (.null 0))) : Tag P)).length = n := by
      rw [encValue, encTags_eq, List.length_flatMap, List.map_replicate, hnull]
      simp
    have hw : ∀ u : Tag P, Within u (.seq 22 (List.replicate n (.atom (.null 0)))) →
        u = .seq 22 (List.replicate n (.atom (.null 0))) ∨ u = .atom (.null 0) := by
      intro u hu
      cases hu with
      | refl => exact .inl rfl
      | seq hm hw =>
        right
        rw [(List.mem_replicate.mp hm).2] at hw
        cases hw
        rfl
    have hm : MapsOk (.seq 22 (List.replicate n (.atom (.null 0))) : Tag P) := fun u hu => by
      rcases hw u hu with rfl | rfl <;> trivial
    refine ⟨_, ?_, _, hread (.seq 22 (List.replicate n (.atom (.null 0)))) hm ?_, ?_⟩
    · have : enc (.seq 22 (List.replicate n (.atom (.null 0))) : Tag P) = Spec.ilint 22 ++ Spec.ilint
          (encValue (.seq 22 (List.replicate n (.atom (.null 0))) : Tag P)).length ++ encValue _ := rfl
      rw [this, List.length_append, List.length_append, hval]
      have : (Spec.ilint 22).length = 1 := rfl
      omega
    · intro u hu
      rcases hw u hu with rfl | rfl
      · exact ⟨.inl rfl, by omega⟩
      · exact ⟨.inl rfl, Nat.zero_le _⟩
    · have : (canon (.seq 22 (List.replicate n (.atom (.null 0))) : Tag P)) =
          .seq 22 (List.replicate n (.atom (.null 0))) := by
        rw [canon, canonTags_eq, List.map_replicate]; rfl
      rw [this, tagCount, tagCounts_eq, List.map_replicate, tagCount]
      simp
      omega
  · have hw : ∀ u : Tag P, Within u (.atom (.byteArray (List.replicate n 0))) →
        u = .atom (.byteArray (List.replicate n 0)) := by
      rintro u (_ | _); rfl
    have hl : (encValue (.atom (.byteArray (List.replicate n 0)) : Tag P)).length = n := List.length_replicate
    refine ⟨_, ?_, _, hread (.atom (.byteArray (List.replicate n 0))) (fun u hu => by rw [hw u hu]; trivial) ?_, ?_⟩
    · have : enc (.atom (.byteArray (List.replicate n 0)) : Tag P) = Spec.ilint 16 ++ Spec.ilint
          (encValue (.atom (.byteArray (List.replicate n 0)) : Tag P)).length ++ encValue _ := rfl
      rw [this, List.length_append, List.length_append, hl]
      have : (Spec.ilint 16).length = 1 := rfl
      omega
    · intro u hu
      rw [hw u hu]
      exact ⟨.inl rfl, by omega⟩
    · exact hl
end

attribute [local instance] bigEnv

/-- The measures of what `from_bytes` makes of the bytes. -/
def measures (bs : Bytes) : Option (Nat × Nat × Nat) :=
  match Factory.fromBytes (Engine.std true : Engine Empty) bs with
  | .ok t => some (tagCount t, content t, height t)
  | _ => none

/-! Non-vacuity: a null tag and a dictionary, of a byte array and an array of numbers, in a sequence. -/
example : measures [22, 18, 0, 30, 15, 2, 17, 1, 65, 16, 2, 9, 9, 17, 1, 66, 20, 3, 2, 1] = none ∧
    measures [22, 19, 0, 30, 16, 2, 17, 1, 65, 16, 2, 9, 9, 17, 1, 66, 20, 3, 2, 1, 1] = some (5, 8, 2) := by
  unfold measures Factory.fromBytes
  rw [deserialize_eq]
  decide +kernel

end Verif.Props
