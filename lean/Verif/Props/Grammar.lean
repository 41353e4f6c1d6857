import Verif.Proof.Language
import Verif.Props.Normal
/-!
# C77: exactly which bytes the standard factory accepts, and what they mean
-/
namespace Verif.Props
open Verif Verif.Spec
variable {P : Type} [TagPayload P]
set_option linter.unusedSectionVars false

/-- **C77** What the standard factory reads from a byte string, the byte string stands for by the tables of the standard. -/
theorem C77_sound [Env] (hr : MemoryOk) (strict : Bool) (bs : Bytes) (t : Tag P)
    (h : Factory.fromBytes (Engine.std strict) bs = .ok t) : Form strict t bs := by
  obtain ⟨x, k, h1, h2⟩ := (top_form hr strict _ _ _).mp ((fromBytes_ok_iff _ _ _).mp h)
  rw [List.append_nil] at h1
  subst h1
  exact ⟨k, formAt_mono (fun _ _ _ => latest_made) (fun _ h => h) (Nat.le_refl _) t _ h2⟩

/-- **C77** Every byte string that stands for a tag is accepted, and read as that tag. -/
theorem C77_complete [Env] (hr : MemoryOk) (strict : Bool) (bs : Bytes) (t : Tag P) (h : Form strict t bs) :
    ∃ t', Factory.fromBytes (Engine.std strict) bs = .ok t' ∧ Same t' t := by
  obtain ⟨k, h⟩ := h
  obtain ⟨t', h1, h2⟩ := formAt_made t bs h
  exact ⟨t', (fromBytes_ok_iff _ _ _).mpr ((top_form hr strict _ _ _).mpr ⟨bs, k, by simp, h1⟩), h2⟩

/-- **C77** The two together: the byte string stands for the tag exactly if the factory reads it as that tag. -/
theorem C77_language [Env] (hr : MemoryOk) (strict : Bool) (bs : Bytes) (t : Tag P) :
    Form strict t bs ↔ MapsOk t ∧ ∃ t', Factory.fromBytes (Engine.std strict) bs = .ok t' ∧ Same t' t := by
  constructor
  · rintro ⟨k, h⟩
    exact ⟨formAt_mapsOk t bs h, C77_complete hr strict bs t ⟨k, h⟩⟩
  · rintro ⟨hm, t', h1, h2⟩
    obtain ⟨k, h⟩ := C77_sound hr strict bs t' h1
    exact ⟨k, formAt_same t' t bs h h2 hm⟩

/-- **C77** From any reader: reading a tag succeeds exactly if the bytes in the reader begin with a form of a tag; the tag
read is that one, and exactly the form is consumed. -/
theorem C77_stream [Env] (hr : MemoryOk) (strict : Bool) {σ : Type} [Reader σ] (V : View σ) (s : σ) (bs : Bytes)
    (h : V.R s bs) :
    (∀ t s', Factory.deserialize (Engine.std strict) σ s = (.ok t, s') →
      ∃ x rest, bs = x ++ rest ∧ Form strict (t : Tag P) x ∧ V.R s' rest) ∧
    (∀ (t : Tag P) x rest, bs = x ++ rest → Form strict t x →
      ∃ t' s', Factory.deserialize (Engine.std strict) σ s = (.ok t', s') ∧ Same t' t ∧ V.R s' rest) := by
  have hd := deserialize_matches (P := P) (Engine.std strict) V h
  constructor
  · intro t s' ht
    cases hp : Parser.top (Engine.std strict : Engine P) bs with
    | ok t' rest =>
      rw [hp] at hd
      obtain ⟨s1, h1, h2⟩ := hd
      rw [ht] at h1
      cases h1
      obtain ⟨x, k, h3, h4⟩ := (top_form hr strict _ _ _).mp hp
      exact ⟨x, rest, h3, ⟨k, formAt_mono (fun _ _ _ => latest_made) (fun _ h => h) (Nat.le_refl _) t _ h4⟩, h2⟩
    | short => rw [hp] at hd; obtain ⟨e, s1, h1, -⟩ := hd; rw [ht] at h1; cases h1
    | fail e => rw [hp] at hd; obtain ⟨s1, h1⟩ := hd; rw [ht] at h1; cases h1
    | panic => rw [hp] at hd; obtain ⟨s1, h1⟩ := hd; rw [ht] at h1; cases h1
    | diverge => rw [hp] at hd; obtain ⟨s1, h1⟩ := hd; rw [ht] at h1; cases h1
  · rintro t x rest hb ⟨k, hx⟩
    obtain ⟨t', h1, h2⟩ := formAt_made t x hx
    rw [(top_form hr strict bs t' rest).mpr ⟨x, k, hb, h1⟩] at hd
    obtain ⟨s', h3, h4⟩ := hd
    exact ⟨t', s', h3, h2, h4⟩

section
attribute [local instance] bigEnv

/-- **C77** One meaning: a byte string stands for at most one tag. -/
theorem C77_one_meaning (strict : Bool) (bs : Bytes) (t u : Tag P) (ht : Form strict t bs) (hu : Form strict u bs) :
    Same t u := by
  obtain ⟨t', h1, h2⟩ := C77_complete bigEnv_ok strict bs t ht
  obtain ⟨u', h3, h4⟩ := C77_complete bigEnv_ok strict bs u hu
  rw [h1] at h3
  cases h3
  exact h2.symm.trans h4

/-- **C77** No form is the beginning of another, so that a stream of tags can be taken apart in one way only. -/
theorem C77_prefix_free (strict : Bool) (x y r s : Bytes) (t u : Tag P) (ht : Form strict t x) (hu : Form strict u y)
    (h : x ++ r = y ++ s) : x = y ∧ r = s ∧ Same t u := by
  obtain ⟨k, ht'⟩ := ht
  obtain ⟨j, hu'⟩ := hu
  obtain ⟨t', h1, h2⟩ := formAt_made t x ht'
  obtain ⟨u', h3, h4⟩ := formAt_made u y hu'
  have h5 := (top_form bigEnv_ok strict (x ++ r) t' r).mpr ⟨x, k, rfl, h1⟩
  have h6 := (top_form bigEnv_ok strict (x ++ r) u' s).mpr ⟨y, j, h, h3⟩
  rw [h5] at h6
  cases h6
  exact ⟨List.append_cancel_right h, rfl, h2.symm.trans h4⟩

/-- **C77** The encoding of a tag is one of its forms, and the shortest. -/
theorem C77_shortest (strict : Bool) (t : Tag P) (bs : Bytes) (h : Form strict t bs) :
    Form strict t (enc t) ∧ (enc t).length ≤ bs.length := by
  obtain ⟨hm, t', h1, h2⟩ := (C77_language bigEnv_ok strict bs t).mp h
  obtain ⟨hm', hs⟩ := C35_accepted_tags strict bs t' h1
  have he : enc t' = enc t := h2.enc_eq hm' hm
  have hback : Factory.fromBytes (Engine.std strict) (enc t') = .ok (canon t') := by
    rw [fromBytes_ok_iff]; simpa using top_enc bigEnv_ok (Engine.std strict) t' hm' (std_supported hs) []
  rw [fromBytes_ok_iff, Parser.top] at h1
  have hl := (Shr.tag strict _ _ _ _ h1).1
  rw [← he]
  exact ⟨(C77_language bigEnv_ok strict _ t).mpr ⟨hm, canon t', hback, (same_canon hm').symm.trans h2⟩, by simpa using hl⟩

/-! Non-vacuity: a form with an id that is longer than need be, a dictionary with a key twice, and bytes that stand for
nothing. -/

theorem longId : Form false (.atom (.raw 253 [7, 7]) : Tag Empty) [249, 0, 5, 2, 7, 7] := by
  refine ⟨1, .inr ⟨rfl, rfl, by decide, fun k => by cases k <;> decide⟩, [249, 0, 5], [7, 7], ⟨by decide, .inr ⟨249, [0, 5], rfl,
    by decide, by decide, by decide, by decide⟩⟩, rfl, by decide, .inr ⟨by decide, [2], ⟨by decide, .inl ⟨2, rfl, by decide, by decide⟩⟩, rfl⟩⟩

example : ∃ t', Factory.fromBytes (Engine.std false) [249, 0, 5, 2, 7, 7] = .ok t' ∧ Same t' (.atom (.raw 253 [7, 7]) : Tag Empty) :=
  C77_complete bigEnv_ok false _ _ longId
example : (enc (.atom (.raw 253 [7, 7]) : Tag Empty)).length ≤ 6 := (C77_shortest false _ _ longId).2
example : enc (.atom (.raw 253 [7, 7]) : Tag Empty) = [248, 5, 2, 7, 7] := by decide +kernel

example : Form true looseTag loose := C77_sound bigEnv_ok true loose looseTag loose_accepted

/-- The boolean 2. -/
example (t : Tag Empty) : ¬ Form true t [1, 2] := by
  intro h
  obtain ⟨t', h1, -⟩ := C77_complete bigEnv_ok true _ _ h
  have h2 : (match Factory.fromBytes (Engine.std true : Engine Empty) [1, 2] with
      | .ok _ => false
      | _ => true) = true := by
    unfold Factory.fromBytes
    rw [deserialize_eq]
    decide +kernel
  rw [h1] at h2
  cases h2
end
end Verif.Props
