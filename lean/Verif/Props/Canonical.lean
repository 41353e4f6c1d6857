import Verif.Proof.Canonical
import Verif.Props.Verdict
import Verif.Props.Normal
/-!
# C105: recognizing the canonical bytes without reading them into tags
-/
namespace Verif.Props
open Verif Verif.Spec

section
variable {P : Type} [TagPayload P] [Env]

/-- **C105** An accepted byte string passes the check exactly if it is what its tag serializes to: nothing has to be
serialized to find out. -/
theorem C105_recognized (hr : MemoryOk) (strict : Bool) (bs : Bytes) (t : Tag P)
    (h : Factory.fromBytes (Engine.std strict) bs = .ok t) : canonical bs = true ↔ t.toBytes = .ok bs := by
  obtain ⟨hm, hs⟩ := C35_accepted_tags strict bs t h
  obtain ⟨k, hf⟩ := C77_sound hr strict bs t h
  have hp : PayloadsOk t := by
    intro id p hu
    rcases (hs _ hu).1 with h | ⟨-, h, -⟩
    · simp [Tag.kind, Atom.kind, standardId] at h
    · simp [Tag.kind, Atom.kind] at h
  have he := toBytes_eq_enc hr hm hp (std_supported hs)
  rw [he]
  unfold canonical
  constructor
  · intro hc
    obtain ⟨⟨u, z⟩, hc⟩ := Option.isSome_iff_exists.mp hc
    have := Look.tag_some k _ t bs [] z u hf (by rw [List.append_nil]; exact hc)
    rw [this.1]
  · intro hb
    have hb : enc t = bs := by injection hb
    subst hb
    have := Look.tag_enc ((enc t).length + 1) t (by omega) hm hs []
    rw [List.append_nil] at this
    rw [this]
    rfl

/-- **C105** The byte strings that are the serialization of some tag of the standard factory are exactly those without
fault that pass the check: both are functions of the bytes that build no tag. -/
theorem C105_serializations (hr : MemoryOk) (strict : Bool) (bs : Bytes) :
    (verdict strict bs = .ok [] ∧ canonical bs = true) ↔
      ∃ t : Tag P, Factory.fromBytes (Engine.std strict) bs = .ok t ∧ t.toBytes = .ok bs := by
  have hv := C104_from_bytes (P := P) hr strict bs
  constructor
  · rintro ⟨h1, h2⟩
    rw [h1] at hv
    obtain ⟨t, ht⟩ := hv
    exact ⟨t, ht, (C105_recognized hr strict bs t ht).mp h2⟩
  · rintro ⟨t, ht, hb⟩
    refine ⟨?_, (C105_recognized hr strict bs t ht).mpr hb⟩
    revert hv
    cases verdict strict bs with
    | ok rest =>
      cases rest with
      | nil => intro _; rfl
      | cons b rest => intro hv; rw [ht] at hv; exact nomatch hv
    | error f => rintro ⟨x, hx, -⟩; rw [ht] at hx; exact nomatch hx

/-- **C105** Two different byte strings that pass the check are never read as equal tags (whatever the order of the
entries of the dictionaries in memory). -/
theorem C105_injective (hr : MemoryOk) (strict strict' : Bool) (bs bs' : Bytes) (t t' : Tag P)
    (h : Factory.fromBytes (Engine.std strict) bs = .ok t) (h' : Factory.fromBytes (Engine.std strict') bs' = .ok t')
    (hs : Same t t') (hc : canonical bs = true) (hc' : canonical bs' = true) : bs = bs' := by
  have h1 := (C105_recognized hr strict bs t h).mp hc
  have h2 := (C105_recognized hr strict' bs' t' h').mp hc'
  have hb : ∀ {strict : Bool} {bs : Bytes} {t : Tag P}, Factory.fromBytes (Engine.std strict) bs = .ok t →
      t.toBytes = .ok bs → MapsOk t ∧ bs = enc t := by
    intro strict bs t h hb
    obtain ⟨hm, hs⟩ := C35_accepted_tags strict bs t h
    have hp : PayloadsOk t := by
      intro id p hu
      rcases (hs _ hu).1 with h | ⟨-, h, -⟩
      · simp [Tag.kind, Atom.kind, standardId] at h
      · simp [Tag.kind, Atom.kind] at h
    rw [toBytes_eq_enc hr hm hp (std_supported hs)] at hb
    exact ⟨hm, by injection hb with hb; exact hb.symm⟩
  obtain ⟨hm, rfl⟩ := hb h h1
  obtain ⟨hm', rfl⟩ := hb h' h2
  exact hs.enc_eq hm hm'

end

attribute [local instance] bigEnv

/-! Non-vacuity.  Numbers longer than needed, unsorted and repeated keys are accepted but not canonical, at every
depth. -/
example : canonical [30, 11, 2, 17, 1, 65, 1, 1, 17, 1, 66, 10, 7] = true ∧
    verdict true [30, 11, 2, 17, 1, 65, 1, 1, 17, 1, 66, 10, 7] = .ok [] := by
  constructor <;> decide +kernel

example : ∀ bs ∈ ([
      [249, 0, 5, 0],                                      -- the identifier 253 in three bytes
      [10, 249, 0, 5],                                     -- the number 253 in three bytes
      [22, 5, 0, 10, 249, 0, 5],                           -- the same in a sequence
      [20, 5, 2, 7, 249, 0, 5],                            -- and in an array of numbers
      [23, 5, 249, 0, 5, 0, 1],                            -- and in a range
      [30, 11, 2, 17, 1, 66, 1, 1, 17, 1, 65, 10, 7],      -- keys not ascending
      [31, 13, 2, 17, 1, 65, 17, 1, 65, 17, 1, 65, 17, 1, 65],  -- a key twice
      [21, 14, 1, 30, 11, 2, 17, 1, 66, 1, 1, 17, 1, 65, 10, 7]] : List Bytes),
    verdict false bs = .ok [] ∧ canonical bs = false := by decide +kernel

example : canonical [20, 5, 2, 7, 249, 1, 5] = true ∧ canonical [10, 248, 5] = true ∧
    canonical [31, 13, 2, 17, 1, 65, 17, 1, 65, 17, 1, 66, 17, 1, 65] = true := by decide +kernel

/-- So the factory reads `[10, 249, 0, 5]` as a tag that serializes to other bytes. -/
example : ∃ t : Tag Empty, Factory.fromBytes (Engine.std true) [10, 249, 0, 5] = .ok t ∧
    t.toBytes ≠ .ok [10, 249, 0, 5] := by
  have h := C104_from_bytes (P := Empty) bigEnv_ok true [10, 249, 0, 5]
  rw [show verdict true [10, 249, 0, 5] = .ok [] by decide +kernel] at h
  obtain ⟨t, h⟩ := h
  refine ⟨t, h, fun hb => ?_⟩
  have := (C105_recognized bigEnv_ok true _ t h).mpr hb
  revert this
  decide +kernel

end Verif.Props
