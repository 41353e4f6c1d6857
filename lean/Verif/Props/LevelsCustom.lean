import Verif.Proof.CustomDepth
import Verif.Props.Levels
import Verif.Props.Renew
/-!
# C116: nested calls, for customised factories
-/
namespace Verif.Props
open Verif Verif.Spec
variable {P : Type} [TagPayload P]

/-- **C116** A customised factory reads bytes with at most `k` nested calls exactly if they have a form with at most `k`
levels, entries of dictionaries that are overwritten later and the tags read by the code of payloads included. -/
theorem C116_custom_exactly [Env] (hr : MemoryOk) {e : Engine P} (he : Regular e) (k : Nat) {σ : Type} [Reader σ] (V : View σ)
    (s : σ) (bs : Bytes) (h : V.R s bs) :
    (∀ t s', Factory.deserializeFuel e k σ none s = (.ok t, s') →
      ∃ x rest, bs = x ++ rest ∧ CustomFormIn (fun _ => Latest) e k t x ∧ V.R s' rest ∧
        Factory.deserialize e σ s = (.ok t, s')) ∧
    (∀ (t : Tag P) x rest, bs = x ++ rest → CustomFormIn (fun _ => Latest) e k t x →
      ∃ t' s', Factory.deserializeFuel e k σ none s = (.ok t', s') ∧ Same t' t ∧ V.R s' rest) := by
  have hd := sim_deserializeFuel e k σ V none s bs h
  constructor
  · intro t s' ht
    cases hp : Parser.tag e k none bs with
    | ok t' rest =>
      rw [hp] at hd
      obtain ⟨s1, h1, h2⟩ := hd
      rw [ht] at h1
      cases h1
      obtain ⟨x, h3, h4⟩ := (Acc.anyTag hr he _ _ _ _).mp hp
      refine ⟨x, rest, h3, customFormIn_mono (fun _ _ _ => latest_made) e k t _ ((fAt_in e k t x).mp h4), h2, ?_⟩
      exact (C116_enough _ k s (by rw [ht]; simp)).trans ht
    | short => rw [hp] at hd; obtain ⟨e, s1, h1, -⟩ := hd; rw [ht] at h1; cases h1
    | fail e => rw [hp] at hd; obtain ⟨s1, h1⟩ := hd; rw [ht] at h1; cases h1
    | panic => rw [hp] at hd; obtain ⟨s1, h1⟩ := hd; rw [ht] at h1; cases h1
    | diverge => rw [hp] at hd; obtain ⟨s1, h1⟩ := hd; rw [ht] at h1; cases h1
  · intro t x rest hb hx
    obtain ⟨t', h1, h2⟩ := customFormIn_made t x hx
    rw [(Acc.anyTag hr he k bs t' rest).mpr ⟨x, hb, (fAt_in e k t' x).mpr h1⟩] at hd
    obtain ⟨s', h3, h4⟩ := hd
    exact ⟨t', s', h3, h2, h4⟩

/-- **C116** A tag read by a customised factory with room for `k` nested calls can be copied with the same room, if the
code of its payloads reads what it writes with no more nested calls. -/
theorem C116_custom_copy [Env] (hr : MemoryOk) {e : Engine P} (he : Regular e) (ht : TidyAt e) (k : Nat) (bs : Bytes)
    (t : Tag P) (h : Factory.fromBytesAt e k bs = .ok t) :
    ∃ t', tagCloneWithFactoryAt e k t = .ok t' ∧ Same t t' := by
  have h0 := (fromBytesAt_eq _ k bs (by rw [h]; simp)).trans h
  -- what was read
  obtain ⟨s, hs, hav⟩ : ∃ s, Factory.deserializeFuel e k ByteArrayReader none (ByteArrayReader.new bs) = (.ok t, s) ∧
      s.available = 0 := by
    unfold Factory.fromBytesAt at h
    rcases h2 : Factory.deserializeFuel e k ByteArrayReader none (ByteArrayReader.new bs) with ⟨r, s⟩
    rw [h2] at h
    cases r with
    | ok u =>
      simp only at h
      split at h
      · next hs => obtain rfl : u = t := by injection h
                   exact ⟨s, rfl, hs⟩
      · simp at h
    | _ => simp at h
  have hread := C116_custom_exactly hr he k ByteArrayReader.view.toView _ _ (ByteArrayReader.view_new bs)
  obtain ⟨x, rest, h1, h2, h3, -⟩ := hread.1 t s hs
  have hnil : rest = [] := by
    have h5 := h3.2
    unfold ByteArrayReader.available ByteArrayReader.len at hav
    rw [h5, List.drop_eq_nil_iff]
    omega
  rw [hnil, List.append_nil] at h1
  subst h1
  -- written again
  obtain ⟨u, ⟨h4, h5⟩, h6, h7⟩ := customFormIn_renew he ht k t bs h2
  have hm := customFormIn_mapsOk _ _ h2
  have hmu := customFormIn_mapsOk _ _ h4
  have hsame : Same t u := by
    obtain ⟨t', s', g1, g2, -⟩ := hread.2 u bs [] (by simp) h4
    rw [hs] at g1
    cases g1
    exact g2
  have henc : enc t = enc u := hsame.enc_eq hm hmu
  have hp : PayloadsOk t := fun id p hw => by
    obtain ⟨w', hw', hs⟩ := hsame.within hw
    cases hs with
    | atom => exact h5 _ hw' id p rfl
  have hl := customFormAt_le (((C114_language hr he bs t).mpr ⟨hm, t, h0, .refl hm⟩).choose_spec)
  have h9 : maxValue = 536870912 := rfl
  have hr' := hr
  unfold MemoryOk at hr'
  have hb : t.toBytes = .ok (enc t) := C29_to_bytes t hm hp (by rw [henc]; omega) (by rw [henc]; omega)
  -- read again
  obtain ⟨t', s', g1, g2, g3⟩ := (C116_custom_exactly hr he k ByteArrayReader.view.toView _ _ (ByteArrayReader.view_new (enc t))).2
    t (enc t) [] (by simp) (by rw [henc]; exact h6)
  refine ⟨t', ?_, g2.symm⟩
  unfold tagCloneWithFactoryAt
  rw [C116_to_bytes, if_pos (C116_read _ k _ _ _ hs), hb]
  show Factory.fromBytesAt e k (enc t) = _
  unfold Factory.fromBytesAt
  rw [g1]
  simp only
  have hz : s'.available = 0 := by
    have := congrArg List.length g3.2
    simp only [List.length_nil, List.length_drop] at this
    unfold ByteArrayReader.available ByteArrayReader.len
    omega
  rw [if_pos hz]

theorem clone_step [Env] {e : Engine P} {t t' : Tag P} {bs : Bytes} (hb : t.toBytes = .ok bs)
    (h : Factory.fromBytes e bs = .ok t') : tagCloneWithFactory e t = .ok t' := by
  unfold tagCloneWithFactory
  rw [hb]
  exact h

/-! A payload that has its number read as a tag: one level as a tag, two nested calls to read it. -/
section
attribute [local instance] bigEnv

example : (match Factory.fromBytesAt (withPayload false 5000 (.num 0 : Counter)) 1 [249, 18, 144, 2, 10, 7],
      Factory.fromBytesAt (withPayload false 5000 (.num 0 : Counter)) 2 [249, 18, 144, 2, 10, 7] with
    | .diverge, .ok t => levels t == 1
    | _, _ => false) = true := by decide +kernel

theorem num_reads_at {e : Engine Counter} {k : Nat} {v₀ : UInt64} {p : Counter} {v : Bytes} :
    PayloadReadsAt e k (.num v₀) p v ↔ ∃ i n, p = .num n ∧ Factory.fromBytesAt e k v = .ok (.atom (.ilint i n)) := by
  unfold PayloadReadsAt Factory.fromBytesAt
  show (∃ r, (onReader (Factory.deserializeFuel e k ByteArrayReader none) >>= _) _ = _ ∧ _) ↔ _
  simp only [Act.bind_apply, onReader]
  rcases Factory.deserializeFuel e k ByteArrayReader none (ByteArrayReader.new v) with ⟨r, s⟩
  cases r with
  | ok t =>
    simp only
    constructor
    · rintro ⟨r, h1, h2⟩
      split at h1
      · cases h1
        exact ⟨_, _, rfl, by rw [if_pos h2]⟩
      · cases h1
    · rintro ⟨i, n, rfl, h⟩
      by_cases hs : s.available = 0
      · rw [if_pos hs] at h
        cases h
        exact ⟨s, rfl, hs⟩
      · rw [if_neg hs] at h
        cases h
  | _ => simp

/-- The bytes of a number are read with one nested call, whatever their form. -/
theorem counter_tidyAt : TidyAt (withPayload false 5000 (.num 0 : Counter)) := by
  intro k id p₀ p v hc hv hp
  obtain ⟨rfl, rfl⟩ := counter_made hc
  obtain ⟨i, n, rfl, h⟩ := num_reads_at.mp hp
  have hp' : PayloadReads (withPayload false 5000 (.num 0 : Counter)) (.num 0) (.num n) v :=
    num_reads.mpr ⟨i, n, rfl, (fromBytesAt_eq _ k v (by rw [h]; simp)).trans h⟩
  obtain ⟨h1, h2, h3⟩ := counter_tidy _ _ _ _ hc hv hp'
  refine ⟨h1, h2, num_reads_at.mpr ?_⟩
  obtain ⟨j, m, h4, h5⟩ := num_reads.mp h3
  cases h4
  refine ⟨j, n, rfl, ?_⟩
  -- one nested call is enough for what has one level
  have hreg := counter_regular (.num 0)
  obtain ⟨k', rfl⟩ : ∃ k', k = k' + 1 := by
    cases k with
    | zero => cases h
    | succ k' => exact ⟨k', rfl⟩
  obtain ⟨j', hf⟩ := (C114_language bigEnv_ok hreg _ (.atom (.ilint j n))).mpr ⟨accepted_maps bigEnv_ok hreg h5, _, h5, .atom _⟩
  cases j' with
  | zero => exact hf.elim
  | succ j' =>
    obtain ⟨t₀, hd, w, g1, g2, g3, g4, g5⟩ := hf
    have hin : CustomFormIn (fun _ => Latest) (withPayload false 5000 (.num 0 : Counter)) (k' + 1) (.atom (.ilint j n))
        (payloadBytes (.num n : Counter)) :=
      ⟨t₀, hd, w, g1, g2, g3, .inl (g4.resolve_right (by rintro ⟨_, _, _, -, h, -⟩; cases h)), g5⟩
    obtain ⟨t', s', e1, e2, e3⟩ := (C116_custom_exactly bigEnv_ok hreg (k' + 1) ByteArrayReader.view.toView _ _
      (ByteArrayReader.view_new _)).2 _ _ [] (List.append_nil _).symm hin
    cases e2
    unfold Factory.fromBytesAt
    rw [e1]
    have hz : s'.available = 0 := by
      have := congrArg List.length e3.2
      simp only [List.length_nil, List.length_drop] at this
      unfold ByteArrayReader.available ByteArrayReader.len
      omega
    simp only
    rw [if_pos hz]

example : (match Factory.fromBytesAt (withPayload false 5000 (.num 0 : Counter)) 2 [249, 18, 144, 4, 10, 249, 0, 7] with
    | .ok t => (match tagCloneWithFactoryAt (withPayload false 5000 (.num 0 : Counter)) 2 t with
      | .ok (.atom (.payload 5000 (.num v))) => v == 255
      | _ => false)
    | _ => false) = true := by decide +kernel

/-- A byte, alone in three bytes or in a tag of its own; written as a tag. -/
structure Boxed where
  v : Byte
  deriving DecidableEq

instance : TagPayload Boxed where
  serializedSize _ := 2
  serialize p := ([.all [3, p.v]], .ok ())
  deserialize p n := if n = 3 then .readAll 3 fun bs => .done (.ok ()) ⟨bs.getLastD 0⟩
    else .deser fun t => match t with
      | .atom (.uint8 _ v) => .done (.ok ()) ⟨v⟩
      | _ => .done (.err .unexpectedTagType) p

/-- **C116** The condition is needed: a payload whose bytes were read without nested calls but which writes a nested tag can
be copied, but not with the room that was enough to read it. -/
theorem C116_custom_condition_needed : ∃ (bs : Bytes) (t : Tag Boxed),
    Factory.fromBytesAt (withPayload false 5000 (⟨0⟩ : Boxed)) 1 bs = .ok t ∧
      tagCloneWithFactory (withPayload false 5000 (⟨0⟩ : Boxed)) t = .ok t ∧
      tagCloneWithFactoryAt (withPayload false 5000 (⟨0⟩ : Boxed)) 1 t = .diverge := by
  refine ⟨[249, 18, 144, 3, 0, 0, 7], .atom (.payload 5000 ⟨7⟩), ?_, ?_, ?_⟩
  · have h : (match Factory.fromBytesAt (withPayload false 5000 (⟨0⟩ : Boxed)) 1 [249, 18, 144, 3, 0, 0, 7] with
        | .ok (.atom (.payload 5000 p)) => decide (p = ⟨7⟩)
        | _ => false) = true := by decide +kernel
    split at h
    · next p hq => cases of_decide_eq_true h; exact hq
    · cases h
  · have h : (match Factory.fromBytesAt (withPayload false 5000 (⟨0⟩ : Boxed)) 2 [249, 18, 144, 2, 3, 7] with
        | .ok (.atom (.payload 5000 p)) => decide (p = ⟨7⟩)
        | _ => false) = true := by decide +kernel
    have hb : (.atom (.payload 5000 ⟨7⟩) : Tag Boxed).toBytes = .ok [249, 18, 144, 2, 3, 7] := by decide +kernel
    refine clone_step hb ?_
    split at h
    · next p hq => cases of_decide_eq_true h; rw [fromBytesAt_eq _ 2 _ (by rw [hq]; simp)]; exact hq
    · cases h
  · have h : (match tagCloneWithFactoryAt (withPayload false 5000 (⟨0⟩ : Boxed)) 1 (.atom (.payload 5000 ⟨7⟩)) with
        | .diverge => true
        | _ => false) = true := by decide +kernel
    split at h
    · next hq => exact hq
    · cases h
end

end Verif.Props
