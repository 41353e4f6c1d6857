import Verif.Proof.Shrink
import Verif.Proof.Deliver
import Verif.Props.RoundTrip
/-!
# C35: accepted input normalises in one step
-/
namespace Verif.Props
open Verif Verif.Spec
variable {P : Type}
set_option linter.unusedSectionVars false

/-- **C35** What the standard factory accepts is a tag of standard types under their standard ids (raw tags for other
explicit ids if it is not strict) at every level, no value over the limit and no key twice in a dictionary. -/
theorem C35_accepted_tags [TagPayload P] [Env] (strict : Bool) (bs : Bytes) (t : Tag P)
    (h : Factory.fromBytes (Engine.std strict) bs = .ok t) :
    MapsOk t ∧ ∀ u, Within u t → StdTag strict u ∧ (encValue u).length ≤ maxValue := by
  rw [fromBytes_ok_iff, Parser.top] at h
  have := (Shr.tag strict _ _ _ _ h).2
  exact ⟨fun u hu => (this u hu).2.2, fun u hu => ⟨(this u hu).1, (this u hu).2.1⟩⟩

/-- **C30** Exactly the tags of `C30_standard` can be read by the standard factory at all: no bytes, written by this
library or not, are read as any other tag. -/
theorem C30_exactly [TagPayload P] [Env] (hr : MemoryOk) (strict : Bool) (t : Tag P) (hm : MapsOk t) :
    (∃ bs t', Factory.fromBytes (Engine.std strict) bs = .ok t' ∧ Same t t') ↔
      ∀ u, Within u t → StdTag strict u ∧ (encValue u).length ≤ maxValue := by
  constructor
  · rintro ⟨bs, t', h, hs⟩ u hu
    obtain ⟨hm', hw⟩ := C35_accepted_tags strict bs t' h
    obtain ⟨w, hw', hsw⟩ := hs.within hu
    obtain ⟨h1, h2⟩ := hw w hw'
    obtain ⟨hk, hi⟩ : u.kind = w.kind ∧ u.id = w.id := by cases hsw <;> exact ⟨rfl, rfl⟩
    refine ⟨?_, ?_⟩
    · unfold StdTag at h1 ⊢
      rwa [hk, hi]
    · rwa [hsw.encValue_eq (fun v hv => hm v (hv.trans hu)) (fun v hv => hm' v (hv.trans hw'))]
  · intro h
    obtain ⟨bs, t', -, h1, h2⟩ := C30_standard hr strict t hm h
    exact ⟨bs, t', h1, h2⟩

/-- **C35** Whatever the standard factory accepts: serializing the result succeeds, gives at most as many bytes as there
were, reading these gives the same tag, and serializing once more gives the same bytes. -/
theorem C35_normalise [TagPayload P] [Env] (hr : MemoryOk) (strict : Bool) (bs : Bytes) (t : Tag P)
    (h : Factory.fromBytes (Engine.std strict) bs = .ok t) :
    ∃ bs' t', t.toBytes = .ok bs' ∧ bs'.length ≤ bs.length ∧ Factory.fromBytes (Engine.std strict) bs' = .ok t' ∧
      Same t t' ∧ t'.toBytes = .ok bs' := by
  obtain ⟨hm, hs⟩ := C35_accepted_tags strict bs t h
  have hp : PayloadsOk t := by
    intro id p hu
    rcases (hs _ hu).1 with h | ⟨-, h, -⟩
    · simp [Tag.kind, Atom.kind, standardId] at h
    · simp [Tag.kind, Atom.kind] at h
  have hb := toBytes_eq_enc hr hm hp (std_supported hs)
  rw [fromBytes_ok_iff, Parser.top] at h
  have hl := (Shr.tag strict _ _ _ _ h).1
  have hback : Factory.fromBytes (Engine.std strict) (enc t) = .ok (canon t) := by
    rw [fromBytes_ok_iff]; simpa using top_enc hr (Engine.std strict) t hm (std_supported hs) []
  obtain ⟨hm', hs'⟩ := C35_accepted_tags strict _ _ hback
  have hp' : PayloadsOk (canon t) := by
    intro id p hu
    rcases (hs' _ hu).1 with h | ⟨-, h, -⟩
    · simp [Tag.kind, Atom.kind, standardId] at h
    · simp [Tag.kind, Atom.kind] at h
  refine ⟨enc t, canon t, hb, by simpa using hl, hback, same_canon hm, ?_⟩
  rw [toBytes_eq_enc hr hm' hp' (std_supported hs'), (same_canon hm).enc_eq hm hm']

attribute [local instance] bigEnv

/-- A dictionary with the key `a` twice: null, then `true`. -/
def loose : Bytes := [30, 10, 2, 17, 1, 97, 0, 17, 1, 97, 1, 1]

/-- What it reads as. -/
def looseTag : Tag Empty := .dict 30 [("a", .atom (.bool 1 true))]

theorem loose_accepted : Factory.fromBytes (Engine.std true) loose = .ok looseTag := by
  have h : (match Factory.fromBytes (Engine.std true : Engine Empty) loose with
      | .ok (.dict 30 [(k, .atom (.bool 1 true))]) => k == "a"
      | _ => false) = true := by
    unfold Factory.fromBytes
    rw [deserialize_eq]
    decide +kernel
  split at h
  · next k hq => rw [hq]; simp only [beq_iff_eq] at h; rw [h]; rfl
  · simp at h

/-- Twelve bytes become eight. -/
example : looseTag.toBytes = .ok [30, 6, 1, 17, 1, 97, 1, 1] := by decide +kernel
example : ∃ bs' t', looseTag.toBytes = .ok bs' ∧ bs'.length ≤ loose.length ∧
    Factory.fromBytes (Engine.std true) bs' = .ok t' ∧ Same looseTag t' ∧ t'.toBytes = .ok bs' :=
  C35_normalise bigEnv_ok true loose looseTag loose_accepted

/-- A string under the id of another type is never read by the standard factory, whatever the bytes. -/
example : ¬ ∃ bs t', Factory.fromBytes (Engine.std false) bs = .ok t' ∧ Same (.seq Id.tagSeq [.atom (.string 16 "a")] : Tag Empty) t' := by
  rw [C30_exactly bigEnv_ok false _ (mapsOk_of_B rfl)]
  intro h
  rcases (h (.atom (.string 16 "a")) (.seq (List.mem_singleton_self _) (.refl _))).1 with h | ⟨-, h, -⟩
  · exact absurd h (by decide)
  · exact absurd h (by decide)

end Verif.Props
