import Verif.Proof.Custom
import Verif.Props.Grammar
import Verif.Props.Registry
import Verif.Props.Payload
/-!
# C114: exactly which bytes a customised factory accepts, and what they mean
-/
namespace Verif.Props
open Verif Verif.Spec
variable {P : Type} [TagPayload P]
set_option linter.unusedSectionVars false

section
variable [Env]

/-- **C114** For every factory: the byte string stands for the tag in the language of the factory exactly if the factory reads
it as that tag. -/
theorem C114_language (hr : MemoryOk) {e : Engine P} (he : Regular e) (bs : Bytes) (t : Tag P) :
    CustomForm e t bs ↔ MapsOk t ∧ ∃ t', Factory.fromBytes e bs = .ok t' ∧ Same t' t := by
  constructor
  · rintro ⟨k, h⟩
    obtain ⟨t', h1, h2⟩ := customFormAt_made t bs h
    exact ⟨customFormAt_mapsOk t bs h, t', (fromBytes_ok_iff _ _ _).mpr ((top_custom hr he _ _ _).mpr ⟨bs, k, by simp, h1⟩), h2⟩
  · rintro ⟨hm, t', h1, h2⟩
    obtain ⟨x, k, h3, h4⟩ := (top_custom hr he _ _ _).mp ((fromBytes_ok_iff _ _ _).mp h1)
    rw [List.append_nil] at h3
    subst h3
    exact ⟨k, customFormAt_same t' t _ (customFormAt_mono (fun _ _ _ => latest_made) e (Nat.le_refl _) t' _ h4) h2 hm⟩

/-- **C114** From any reader: reading a tag succeeds exactly if the bytes in the reader begin with a form of a tag; the tag
read is that one, and exactly the form is consumed. -/
theorem C114_stream (hr : MemoryOk) {e : Engine P} (he : Regular e) {σ : Type} [Reader σ] (V : View σ) (s : σ) (bs : Bytes)
    (h : V.R s bs) :
    (∀ t s', Factory.deserialize e σ s = (.ok t, s') →
      ∃ x rest, bs = x ++ rest ∧ CustomForm e t x ∧ V.R s' rest) ∧
    (∀ (t : Tag P) x rest, bs = x ++ rest → CustomForm e t x →
      ∃ t' s', Factory.deserialize e σ s = (.ok t', s') ∧ Same t' t ∧ V.R s' rest) := by
  have hd := deserialize_matches (P := P) e V h
  constructor
  · intro t s' ht
    cases hp : Parser.top e bs with
    | ok t' rest =>
      rw [hp] at hd
      obtain ⟨s1, h1, h2⟩ := hd
      rw [ht] at h1
      cases h1
      obtain ⟨x, k, h3, h4⟩ := (top_custom hr he _ _ _).mp hp
      exact ⟨x, rest, h3, ⟨k, customFormAt_mono (fun _ _ _ => latest_made) e (Nat.le_refl _) t _ h4⟩, h2⟩
    | short => rw [hp] at hd; obtain ⟨e, s1, h1, -⟩ := hd; rw [ht] at h1; cases h1
    | fail e => rw [hp] at hd; obtain ⟨s1, h1⟩ := hd; rw [ht] at h1; cases h1
    | panic => rw [hp] at hd; obtain ⟨s1, h1⟩ := hd; rw [ht] at h1; cases h1
    | diverge => rw [hp] at hd; obtain ⟨s1, h1⟩ := hd; rw [ht] at h1; cases h1
  · rintro t x rest hb ⟨k, hx⟩
    obtain ⟨t', h1, h2⟩ := customFormAt_made t x hx
    rw [(top_custom hr he bs t' rest).mpr ⟨x, k, hb, h1⟩] at hd
    obtain ⟨s', h3, h4⟩ := hd
    exact ⟨t', s', h3, h2, h4⟩

/-- **C114** No form is the beginning of another, and a form stands for one tag only: with any factory a stream of tags can be
taken apart in one way. -/
theorem C114_prefix_free (hr : MemoryOk) {e : Engine P} (he : Regular e) (x y r s : Bytes) (t u : Tag P) (ht : CustomForm e t x)
    (hu : CustomForm e u y) (h : x ++ r = y ++ s) : x = y ∧ r = s ∧ Same t u := by
  obtain ⟨k, ht'⟩ := ht
  obtain ⟨j, hu'⟩ := hu
  obtain ⟨t', h1, h2⟩ := customFormAt_made t x ht'
  obtain ⟨u', h3, h4⟩ := customFormAt_made u y hu'
  have h5 := (top_custom hr he (x ++ r) t' r).mpr ⟨x, k, rfl, h1⟩
  have h6 := (top_custom hr he (x ++ r) u' s).mpr ⟨y, j, h, h3⟩
  rw [h5] at h6
  cases h6
  exact ⟨List.append_cancel_right h, rfl, h2.symm.trans h4⟩

/-! ### Which factories -/

theorem std_regular (strict : Bool) : Regular (Engine.std strict : Engine P) := by
  refine ⟨fun id t₀ h => (std_created h).2.1, fun id t₀ h hi => ?_⟩
  obtain ⟨h1, h2, -⟩ := std_created h
  rcases h1 with h1 | ⟨-, -, h1, -⟩
  · rw [← h2]; exact h1
  · rw [h2] at h1; omega

/-- **C114** The standard factories are among them, and their language is the one of the standard. -/
theorem C114_standard (hr : MemoryOk) (strict : Bool) (t : Tag P) (bs : Bytes) :
    CustomForm (Engine.std strict) t bs ↔ Form strict t bs :=
  (C114_language hr (std_regular strict) bs t).trans (C77_language hr strict bs t).symm

/-- **C114** So is every factory, after any history of registrations and removals, whose creators in force give tags with
the id they were asked for and, under an implicit id, of the type of the standard. -/
theorem C114_histories (strict : Bool) (h : List (Change P)) (hc : ∀ id c t₀, inForce h id = some c → c id = .ok t₀ →
      t₀.id = id ∧ (id.toNat ≤ 15 → standardId t₀.kind = some id.toNat)) : Regular (after strict h) := by
  have hg := after_get strict h
  have key : ∀ id t₀, (after strict h).createTag id = .ok (some t₀) →
      t₀.id = id ∧ (id.toNat ≤ 15 → standardId t₀.kind = some id.toNat) := by
    intro id t₀ ht
    unfold Engine.createTag at ht
    rw [hg.2 id] at ht
    cases hf : inForce h id with
    | some c =>
      rw [hf] at ht
      dsimp only at ht
      cases hcc : c id with
      | ok t =>
        rw [hcc] at ht
        simp only [Res.map, Res.ok.injEq, Option.some.injEq] at ht
        subst ht
        exact hc id c _ hf hcc
      | _ => rw [hcc] at ht; cases ht
    | none =>
      rw [hf] at ht
      dsimp only at ht
      split at ht
      · next hi =>
        have h16 : isImplicitTag id = false := by
          cases hh : isImplicitTag id
          · rfl
          · rw [hh] at hi; simp at hi
        unfold newRaw at ht
        rw [h16] at ht
        cases ht
        refine ⟨rfl, fun hle => ?_⟩
        have : isImplicitTag id = true := by simp only [isImplicitTag, decide_eq_true_eq]; exact hle
        rw [h16] at this
        cases this
      · cases ht
  exact ⟨fun id t₀ h => (key id t₀ h).1, fun id t₀ h => (key id t₀ h).2⟩

/-- **C114** Another type for an explicit id: any creator that gives tags with the id it was asked for. -/
theorem C114_register {e : Engine P} (he : Regular e) (id : UInt64) (hid : 16 ≤ id.toNat) (c : Creator P)
    (hc : ∀ t₀, c id = .ok t₀ → t₀.id = id) : Regular (e.register id c).2 := by
  have key : ∀ id' t₀, (e.register id c).2.createTag id' = .ok (some t₀) →
      id' = id ∧ c id = .ok t₀ ∨ e.createTag id' = .ok (some t₀) := by
    intro id' t₀ h
    unfold Engine.createTag Engine.register at h
    simp only [HMap.get_insert] at h
    by_cases hi : id' = id
    · rw [if_pos hi] at h
      subst hi
      dsimp only at h
      cases hcc : c id' with
      | ok t => rw [hcc] at h; cases h; exact .inl ⟨rfl, rfl⟩
      | _ => rw [hcc] at h; cases h
    · rw [if_neg hi] at h
      exact .inr h
  refine ⟨fun id' t₀ h => ?_, fun id' t₀ h hle => ?_⟩
  · rcases key id' t₀ h with ⟨rfl, h⟩ | h
    · exact hc t₀ h
    · exact he.own _ _ h
  · rcases key id' t₀ h with ⟨rfl, h⟩ | h
    · omega
    · exact he.implicit _ _ h hle

/-- **C114** And one type less. -/
theorem C114_deregister {e : Engine P} (he : Regular e) (hn : (e.creators.map (·.1)).Nodup) (id : UInt64) :
    Regular (e.deregister id).2 := by
  have key : ∀ id' t₀, (e.deregister id).2.createTag id' = .ok (some t₀) →
      t₀ = .atom (.raw id' []) ∧ ¬ id'.toNat ≤ 15 ∨ e.createTag id' = .ok (some t₀) := by
    intro id' t₀ h
    by_cases hi : id' = id
    · subst hi
      unfold Engine.createTag Engine.deregister at h
      simp only [HMap.get_remove hn, if_true] at h
      split at h
      · next hc =>
        left
        have h16 : isImplicitTag id' = false := by
          cases hh : isImplicitTag id'
          · rfl
          · rw [hh] at hc; simp at hc
        unfold newRaw at h
        rw [h16] at h
        cases h
        refine ⟨rfl, ?_⟩
        simp only [isImplicitTag, decide_eq_false_iff_not] at h16
        exact h16
      · cases h
    · right
      rw [← h]
      unfold Engine.createTag Engine.deregister
      simp only [HMap.get_remove hn, if_neg hi]
  refine ⟨fun id' t₀ h => ?_, fun id' t₀ h hle => ?_⟩
  · rcases key id' t₀ h with ⟨rfl, -⟩ | h
    · rfl
    · exact he.own _ _ h
  · rcases key id' t₀ h with ⟨-, h⟩ | h
    · exact absurd hle h
    · exact he.implicit _ _ h hle

/-- **C114** The creators of the library are such: `ILDefaultTagCreator` and `ILDefaultWithIdTagCreator` of every type, and of
every payload. -/
theorem C114_creators (id : UInt64) (t₀ : Tag P) :
    (∀ k, defaultCreatorOf k id = .ok t₀ → t₀.id = id) ∧ (∀ k, withIdCreatorOf k id = .ok t₀ → t₀.id = id) ∧
    (∀ p, payloadCreator p id = .ok t₀ → t₀.id = id) := by
  refine ⟨fun k h => ?_, fun k h => ?_, fun p h => ?_⟩
  · unfold defaultCreatorOf at h
    cases hk : (k.default : Option (Res TagErr (Tag P))) with
    | some mk =>
      rw [hk] at h
      cases mk with
      | ok t =>
        have h : (if t.id = id then Res.ok t else .panic : Res TagErr (Tag P)) = .ok t₀ := h
        by_cases hi : t.id = id
        · rw [if_pos hi] at h; cases h; exact hi
        · rw [if_neg hi] at h; cases h
      | _ => cases h
    | none => rw [hk] at h; cases h
  · unfold withIdCreatorOf at h
    cases k <;> simp only [Kind.withId, newRaw] at h <;> first
      | (cases h; rfl)
      | (split at h <;> cases h <;> rfl)
      | cases h
  · cases h; rfl
end

/-! Non-vacuity: a factory that has also a payload under id 5000, sequences under id 1000 and no strings; a sequence of that
kind, spelled with an id that is longer than need be, with a reading and a string in it, which is a raw tag here. -/
section
attribute [local instance] bigEnv

def ownFactory : Engine Reading :=
  (((withPayload false 5000 (⟨0, []⟩ : Reading)).register 1000 (withIdCreatorOf .seq)).2.register 17 (withIdCreatorOf .raw)).2

theorem ownFactory_regular : Regular ownFactory :=
  C114_register (C114_register (C114_register (std_regular false) 5000 (by decide) _ fun t₀ => (C114_creators _ t₀).2.2 _) 1000
    (by decide) _ fun t₀ => (C114_creators _ t₀).2.1 _) 17 (by decide) _ fun t₀ => (C114_creators _ t₀).2.1 _

def ownBytes : Bytes := [250, 0, 2, 240, 12, 249, 18, 144, 3, 10, 7, 9, 17, 3, 255, 255, 255]

def ownTag : Tag Reading := .seq 1000 [.atom (.payload 5000 ⟨7, [9]⟩), .atom (.raw 17 [255, 255, 255])]

theorem ownBytes_read : Factory.fromBytes ownFactory ownBytes = .ok ownTag := by
  have h : (match Factory.fromBytes ownFactory ownBytes with
      | .ok (.seq 1000 [.atom (.payload 5000 p), .atom (.raw 17 v)]) => decide (p = ⟨7, [9]⟩ ∧ v = [255, 255, 255])
      | _ => false) = true := by
    unfold Factory.fromBytes
    rw [deserialize_eq]
    decide +kernel
  split at h
  · next p v hq =>
    rw [hq]
    obtain ⟨rfl, rfl⟩ := of_decide_eq_true h
    rfl
  · cases h

/-- Not text, but raw tags need not be text. -/
example : CustomForm ownFactory ownTag ownBytes :=
  (C114_language bigEnv_ok ownFactory_regular _ _).mpr ⟨mapsOk_of_B (by rfl), _, ownBytes_read, Same.refl (mapsOk_of_B (by rfl))⟩

/-- The standard factory refuses the string and has a raw tag instead of the sequence. -/
example : (match Factory.fromBytes (Engine.std false : Engine Reading) ownBytes with
      | .ok t => t.kind == .raw
      | _ => false) = true ∧
    (match Factory.fromBytes (Engine.std false : Engine Reading) [17, 3, 255, 255, 255] with
      | .err .corruptedData => true
      | _ => false) = true := by
  constructor <;> (unfold Factory.fromBytes; rw [deserialize_eq]; decide +kernel)

/-- Under an implicit id the sizes of the standard hold, so that a factory with another type there is not of this kind. -/
example : ¬ Regular ((Engine.std false : Engine Empty).register 5 (withIdCreatorOf .bool)).2 := by
  intro h
  have := h.implicit 5 (.atom (.bool 5 false)) rfl (by decide)
  cases this
end
end Verif.Props
