import Verif.Proof.Relay
import Verif.Props.Factories
/-!
# C115: relays that know fewer types than the receiver
-/
namespace Verif.Props
open Verif Verif.Spec
variable {P : Type} [TagPayload P]
set_option linter.unusedSectionVars false

section
variable [Env]

theorem plain_toBytes (hr : MemoryOk) {u : Tag P} (hm : MapsOk u) (hn : ∀ w, Within w u → w.kind ≠ .payload)
    (hl : (enc u).length ≤ maxValue + 18) : u.toBytes = .ok (enc u) := by
  have h9 : maxValue = 536870912 := rfl
  refine C29_to_bytes u hm (fun id p hw => absurd rfl (hn _ hw)) (by omega) ?_
  unfold MemoryOk at hr
  omega

theorem customFormAt_le {e : Engine P} {M : MapMaking} {k : Nat} {t : Tag P} {x : Bytes} (h : CustomFormAt M e k t x) :
    x.length ≤ maxValue + 18 := by
  have key : ∀ {x : Bytes} {v : Nat}, IsILInt x v → x.length ≤ 9 := by
    rintro x v ⟨-, ⟨b, rfl, -⟩ | ⟨hd, body, rfl, h1, h2, -⟩⟩
    · simp
    · simp; omega
  cases k with
  | zero => exact h.elim
  | succ k =>
    obtain ⟨t₀, hd, v, -, -, h1, -, h2, ⟨-, rfl⟩ | ⟨-, l, h3, rfl⟩⟩ := h
    · have := key h1
      simp only [List.length_append]; omega
    · have := key h1
      have := key h3
      simp only [List.length_append]; omega

/-- The relay reads and writes; the receiver reads the same tag from what the relay has written. -/
theorem relay_step (hr : MemoryOk) {e E : Engine P} (he : Regular e) (hE : Regular E) (hrel : RelayFor e E) (bs : Bytes)
    (t : Tag P) (h : Factory.fromBytes E bs = .ok t) :
    ∃ w t', passOn e bs = .ok w ∧ w.length ≤ bs.length ∧ Factory.fromBytes E w = .ok t' ∧ Same t' t := by
  obtain ⟨x, k, h1, h2⟩ := (top_custom hr hE _ _ _).mp ((fromBytes_ok_iff _ _ _).mp h)
  rw [List.append_nil] at h1
  subst h1
  have h3 := customFormAt_mono (fun _ _ _ => latest_made) E (Nat.le_refl _) t _ h2
  obtain ⟨u, ⟨h4, h5⟩, h6, h7⟩ := Relay.form hrel k t bs h3
  obtain ⟨hm, u', h8, h9⟩ := (C114_language hr he bs u).mp ⟨k, h4⟩
  obtain ⟨-, t', h10, h11⟩ := (C114_language hr hE (enc u) t).mp ⟨k, h6⟩
  obtain ⟨x, k', h12, h13⟩ := (top_custom hr he _ _ _).mp ((fromBytes_ok_iff _ _ _).mp h8)
  rw [List.append_nil] at h12
  subst h12
  have hm' : MapsOk u' := customFormAt_mapsOk u' bs (customFormAt_mono (fun _ _ _ => latest_made) e (Nat.le_refl _) u' _ h13)
  have henc : enc u' = enc u := h9.enc_eq hm' hm
  refine ⟨enc u, t', ?_, h7.1, h10, h11⟩
  unfold passOn
  rw [h8]
  show u'.toBytes = _
  rw [← henc]
  refine plain_toBytes hr hm' ?_ ?_
  · intro w hw
    obtain ⟨w', hw', hs⟩ := h9.within hw
    rw [(same_kind_id hs).1]
    exact h5 w' hw'
  · rw [henc]; exact customFormAt_le h6

/-- **C115** A relay that knows fewer types than the receiver changes nothing for the receiver: whatever the receiver would
have read as `t`, canonical or not, the relay reads (what it does not know as raw tags) and writes again without an error,
in no more bytes, and the receiver reads `t` from that. -/
theorem C115_relay (hr : MemoryOk) {e E : Engine P} (he : Regular e) (hE : Regular E) (hrel : RelayFor e E) (bs : Bytes)
    (t : Tag P) (h : Factory.fromBytes E bs = .ok t) :
    ∃ u w t', Factory.fromBytes e bs = .ok u ∧ u.toBytes = .ok w ∧ w.length ≤ bs.length ∧
      Factory.fromBytes E w = .ok t' ∧ Same t' t := by
  obtain ⟨w, t', h1, h2⟩ := relay_step hr he hE hrel bs t h
  unfold passOn at h1
  cases hu : Factory.fromBytes e bs with
  | ok u => rw [hu] at h1; exact ⟨u, w, t', rfl, h1, h2⟩
  | _ => rw [hu] at h1; cases h1

/-- **C115** So for any number of relays, each with its own factory. -/
theorem C115_chain (hr : MemoryOk) {E : Engine P} (hE : Regular E) (es : List (Engine P))
    (hes : ∀ e ∈ es, Regular e ∧ RelayFor e E) (bs : Bytes) (t : Tag P) (h : Factory.fromBytes E bs = .ok t) :
    ∃ w t', passAlong es bs = .ok w ∧ w.length ≤ bs.length ∧ Factory.fromBytes E w = .ok t' ∧ Same t' t := by
  induction es generalizing bs t with
  | nil => exact ⟨bs, t, rfl, Nat.le_refl _, h, .refl (by
      obtain ⟨x, k, -, h2⟩ := (top_custom hr hE _ _ _).mp ((fromBytes_ok_iff _ _ _).mp h)
      exact customFormAt_mapsOk t x (customFormAt_mono (fun _ _ _ => latest_made) E (Nat.le_refl _) t _ h2))⟩
  | cons e es ih =>
    obtain ⟨w, t', h1, h2, h3, h4⟩ := relay_step hr (hes e (by simp)).1 hE (hes e (by simp)).2 bs t h
    obtain ⟨w', t'', h5, h6, h7, h8⟩ := ih (fun e he => hes e (by simp [he])) w t' h3
    refine ⟨w', t'', ?_, Nat.le_trans h6 h2, h7, h8.trans h4⟩
    show (passOn e bs >>= fun w => passAlong es w) = _
    rw [h1]
    exact h5

/-- **C115** Canonical bytes a relay passes on as they are: if everything the relay sees of the tag is of a type it knows, or
has an explicit id it does not know (whatever that contains), then it reads `to_bytes` of the tag and writes exactly those
bytes again. -/
theorem C115_canonical (hr : MemoryOk) (e : Engine P) (t : Tag P) (hm : MapsOk t) (hp : PayloadsOk t)
    (h : ∀ u, Seen e u t → SupportedHere e u ∨ Hidden e u) :
    t.toBytes = .ok (enc t) ∧ passOn e (enc t) = .ok (enc t) := by
  obtain ⟨u, hu⟩ := Relay.seen t hm h
  have he := Relay.echo_enc hu
  obtain ⟨h1, h2, h3, h4, h5⟩ := hu
  have hpu : PayloadsOk u := fun id p hw => hp id p (h5 id p hw)
  have hl := enc_length_le h4
  have h9 : maxValue = 536870912 := rfl
  have hr' := hr
  unfold MemoryOk at hr'
  refine ⟨C29_to_bytes t hm hp (by rw [← he]; omega) (by rw [← he]; omega), ?_⟩
  unfold passOn
  have hread : Factory.fromBytes e (enc t) = .ok (canon u) := by
    rw [← he, fromBytes_ok_iff]
    simpa using top_enc hr e u h3 h4 []
  rw [hread]
  show (canon u).toBytes = _
  have hc := same_canon h3
  have hm' : MapsOk (canon u) := mapsOk_canon h3
  have henc : enc (canon u) = enc t := by rw [← he]; exact (hc.enc_eq h3 hm').symm
  have := C29_to_bytes (canon u) hm' (hc.payloadsOk hpu) (by rw [henc, ← he]; omega) (by rw [henc, ← he]; omega)
  exact this.trans (congrArg Res.ok henc)

/-- **C115** So for any number of relays; a receiver that supports the tag has it from the bytes that arrive. -/
theorem C115_canonical_chain (hr : MemoryOk) (es : List (Engine P)) (t : Tag P) (hm : MapsOk t) (hp : PayloadsOk t)
    (h : ∀ e ∈ es, ∀ u, Seen e u t → SupportedHere e u ∨ Hidden e u) (E : Engine P) (hE : Supported E t) :
    ∃ t', passAlong es (enc t) = .ok (enc t) ∧ Factory.fromBytes E (enc t) = .ok t' ∧ Same t t' := by
  refine ⟨canon t, ?_, ?_, same_canon hm⟩
  · induction es with
    | nil => rfl
    | cons e es ih =>
      show (passOn e (enc t) >>= fun w => passAlong es w) = _
      rw [(C115_canonical hr e t hm hp (h e (by simp))).2]
      exact ih fun e he => h e (by simp [he])
  · rw [fromBytes_ok_iff]
    simpa using top_enc hr E t hm hE []

/-! ### Which factories -/

/-- **C115** The standard factory that is not strict is a relay for itself with any further types registered under explicit ids that
the standard does not use, and for the strict one. -/
theorem C115_standard (E : Engine P) (hE : ∀ id, E.createTag id = (Engine.std false).createTag id ∨
      16 ≤ id.toNat ∧ (∀ k, standardId k ≠ some id.toNat) ∨ E.createTag id = .ok none) : RelayFor (Engine.std false) E := by
  intro id t₀ h
  rcases hE id with h1 | ⟨h1, h2⟩ | h1
  · rw [h] at h1
    exact ⟨t₀, h1.symm, .inl ⟨rfl, (std_created h1.symm).2.2⟩⟩
  · exact ⟨.atom (.raw id []), by rw [std_unknown h2, if_pos ⟨rfl, h1⟩], .inr ⟨h1, rfl⟩⟩
  · rw [h] at h1; cases h1

/-- **C115** A relay that is not strict may know still less: one type under an explicit id taken away. -/
theorem C115_deregister {e E : Engine P} (hrel : RelayFor e E) (hs : e.strict = false) (hn : (e.creators.map (·.1)).Nodup)
    (id : UInt64) (hid : 16 ≤ id.toNat) : RelayFor (e.deregister id).2 E := by
  intro id' t₀ h
  by_cases hi : id' = id
  · subst hi
    have h16 : isImplicitTag id' = false := by
      simp only [isImplicitTag, decide_eq_false_iff_not]
      show ¬ id'.toNat ≤ 15
      omega
    refine ⟨.atom (.raw id' []), ?_, .inr ⟨hid, rfl⟩⟩
    unfold Engine.createTag Engine.deregister
    simp only [HMap.get_remove hn, if_true, hs, h16]
    simp [newRaw, h16, Res.map]
  · obtain ⟨t₁, h1, h2⟩ := hrel id' t₀ h
    refine ⟨t₁, ?_, h2⟩
    rw [← h1]
    unfold Engine.createTag Engine.deregister
    simp only [HMap.get_remove hn, if_neg hi]

end

/-! Non-vacuity: the receiver has a payload under id 5000 and sequences under id 1000; the relays are the standard factory and
the same without dictionaries.  The message is `{"a": 7, "a": <sequence 1000 of a reading of 7>}`, with a count in two bytes, an id in four
and, in the sequence, a number in two bytes.  The first relay normalises what it sees: it drops the entry that is overwritten
and writes the count and the id in fewer bytes; it does not touch what is in the sequence. -/
section
attribute [local instance] bigEnv

def receiver : Engine Reading := ((withPayload false 5000 (⟨0, []⟩ : Reading)).register 1000 (withIdCreatorOf .seq)).2

theorem receiver_regular : Regular receiver :=
  C114_register (C114_register (std_regular false) 5000 (by decide) _ fun t₀ => (C114_creators _ t₀).2.2 _) 1000
    (by decide) _ fun t₀ => (C114_creators _ t₀).2.1 _

theorem std_nodup (strict : Bool) : ((Engine.std strict : Engine P).creators.map (·.1)).Nodup := by
  rw [std_kinds, List.map_map]
  have : ((standardKinds.map fun k => UInt64.ofNat ((standardId k).getD 0)) : List UInt64).Nodup := by decide +kernel
  exact this

theorem receiver_relay : RelayFor (Engine.std false) receiver := by
  refine C115_standard _ fun id => ?_
  by_cases h1 : id = 1000
  · subst h1; exact .inr (.inl ⟨by decide, fun k => by cases k <;> decide⟩)
  by_cases h2 : id = 5000
  · subst h2; exact .inr (.inl ⟨by decide, fun k => by cases k <;> decide⟩)
  left
  unfold receiver withPayload Engine.register Engine.createTag
  simp only [HMap.get_insert, if_neg h1, if_neg h2]

def message : Bytes := [30, 26, 2, 17, 1, 97, 10, 7, 17, 1, 97, 250, 0, 2, 240, 12, 10, 250, 0, 0, 52, 249, 18, 144, 3, 10, 7, 9]

def noDicts : Engine Reading := ((Engine.std false).deregister 30).2

/-- Knows the sequences, not the payload. -/
def half : Engine Reading := ((Engine.std false).register 1000 (withIdCreatorOf .seq)).2

example : Regular noDicts ∧ RelayFor noDicts receiver :=
  ⟨C114_deregister (std_regular false) (std_nodup false) 30, C115_deregister receiver_relay rfl (std_nodup false) 30 (by decide)⟩

example : Regular half ∧ RelayFor half receiver := by
  refine ⟨C114_register (std_regular false) 1000 (by decide) _ fun t₀ => (C114_creators _ t₀).2.1 _, fun id t₀ h => ?_⟩
  by_cases h1 : id = 1000
  · subst h1
    refine ⟨.seq 1000 [], rfl, .inl ?_⟩
    have : receiver.createTag 1000 = .ok (some (.seq 1000 [])) := rfl
    rw [this] at h
    cases h
    exact ⟨rfl, by decide⟩
  · have : half.createTag id = (Engine.std false).createTag id := by
      unfold half Engine.register Engine.createTag
      simp only [HMap.get_insert, if_neg h1]
    rw [this]
    exact receiver_relay id t₀ h

theorem message_read : (match Factory.fromBytes receiver message with
    | .ok (.dict 30 [(k, .seq 1000 [.atom (.ilint 10 v), .atom (.payload 5000 p)])]) => k == "a" && v == 300 && decide (p = ⟨7, [9]⟩)
    | _ => false) = true := by
  unfold Factory.fromBytes
  rw [deserialize_eq]
  decide +kernel

example : passAlong [(Engine.std false : Engine Reading)] message =
    .ok [30, 20, 1, 17, 1, 97, 249, 2, 240, 12, 10, 250, 0, 0, 52, 249, 18, 144, 3, 10, 7, 9] := by
  unfold passAlong passOn Factory.fromBytes
  simp only [deserialize_eq]
  decide +kernel

/-- A relay without dictionaries leaves everything as it is; the third one sees into the sequence. -/
example : passOn noDicts message = .ok message ∧
    passOn half [30, 20, 1, 17, 1, 97, 249, 2, 240, 12, 10, 250, 0, 0, 52, 249, 18, 144, 3, 10, 7, 9] =
      .ok [30, 18, 1, 17, 1, 97, 249, 2, 240, 10, 10, 248, 52, 249, 18, 144, 3, 10, 7, 9] := by
  unfold passOn Factory.fromBytes
  simp only [deserialize_eq]
  decide +kernel

/-- The receiver still has the reading. -/
example : (match Factory.fromBytes receiver [30, 18, 1, 17, 1, 97, 249, 2, 240, 10, 10, 248, 52, 249, 18, 144, 3, 10, 7, 9] with
    | .ok (.dict 30 [(k, .seq 1000 [.atom (.ilint 10 v), .atom (.payload 5000 p)])]) => k == "a" && v == 300 && decide (p = ⟨7, [9]⟩)
    | _ => false) = true := by
  unfold Factory.fromBytes
  rw [deserialize_eq]
  decide +kernel

/-- A strict factory is no relay: it refuses what it does not know. -/
example : (match passOn (Engine.std true : Engine Reading) message with
    | .err .unknownTag => true
    | _ => false) = true := by
  unfold passOn Factory.fromBytes
  simp only [deserialize_eq]
  decide +kernel

/-- Canonical bytes: a custom type around anything, here bytes that are no tags. -/
example : passOn (Engine.std false : Engine Empty) (enc (.seq 22 [.seq 1000 [.atom (.bool 77 true)], .atom (.raw 2000 [1, 2])] : Tag Empty)) =
    .ok (enc (.seq 22 [.seq 1000 [.atom (.bool 77 true)], .atom (.raw 2000 [1, 2])] : Tag Empty)) := by
  refine (C115_canonical bigEnv_ok _ _ (mapsOk_of_B (by rfl)) (payloadsOk_empty _) fun u hu => ?_).2
  have hhid : ∀ u : Tag Empty, 16 ≤ u.id.toNat → (∀ k, standardId k ≠ some u.id.toNat) → (encValue u).length ≤ maxValue →
      Hidden (Engine.std false) u := fun u h1 h2 h3 =>
    ⟨h1, ⟨.atom (.raw u.id []), by rw [std_unknown h2, if_pos ⟨rfl, h1⟩], rfl, rfl⟩, h3⟩
  cases hu with
  | refl =>
    left
    obtain ⟨t₀, h1, h2, h3⟩ := std_create (P := Empty) (strict := false) (id := 22) (k := .seq) rfl
    exact ⟨⟨t₀, h1, h2, h3, by intro _ _ _ _ _ h; cases h⟩, by decide +kernel, by intro h; exact absurd h (by decide)⟩
  | seq hs hm hu =>
    right
    simp only [List.mem_cons, List.not_mem_nil, or_false] at hm
    rcases hm with rfl | rfl
    · cases hu with
      | refl => exact hhid _ (by decide) (fun k => by cases k <;> decide) (by decide +kernel)
      | seq hs =>
        obtain ⟨⟨t₀, h1, h2, -⟩, -⟩ := hs
        rw [std_unknown (by intro k; cases k <;> decide)] at h1
        cases h1
        cases h2
    · cases hu
      exact hhid _ (by decide) (fun k => by cases k <;> decide) (by decide +kernel)
end
end Verif.Props
