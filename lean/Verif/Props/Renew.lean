import Verif.Proof.Renew
import Verif.Props.Relay
/-!
# C117: reading and writing again with customised factories
-/
namespace Verif.Props
open Verif Verif.Spec
variable {P : Type} [TagPayload P]
set_option linter.unusedSectionVars false

section
variable [Env]

theorem accepted_maps (hr : MemoryOk) {E : Engine P} (hE : Regular E) {bs : Bytes} {t : Tag P}
    (h : Factory.fromBytes E bs = .ok t) : MapsOk t := by
  obtain ⟨x, k, -, h2⟩ := (top_custom hr hE _ _ _).mp ((fromBytes_ok_iff _ _ _).mp h)
  exact customFormAt_mapsOk t x (customFormAt_mono (fun _ _ _ => latest_made) E (Nat.le_refl _) t _ h2)

/-- The relay reads and writes; the receiver reads the same tag from what the relay has written. -/
theorem renew_step (hr : MemoryOk) {e E : Engine P} (he : Regular e) (hE : Regular E) (hrel : PayloadRelayFor e E)
    (bs : Bytes) (t : Tag P) (h : Factory.fromBytes E bs = .ok t) :
    ∃ u w t', Factory.fromBytes e bs = .ok u ∧ PayloadsOk u ∧ u.toBytes = .ok w ∧ w = enc u ∧ w.length ≤ bs.length ∧
      Factory.fromBytes E w = .ok t' ∧ Same t' t := by
  obtain ⟨x, k, h1, h2⟩ := (top_custom hr hE _ _ _).mp ((fromBytes_ok_iff _ _ _).mp h)
  rw [List.append_nil] at h1
  subst h1
  have h3 := customFormAt_mono (fun _ _ _ => latest_made) E (Nat.le_refl _) t _ h2
  obtain ⟨u, ⟨h4, h5⟩, h6, h7⟩ := Renew.form hE hrel k t bs h3
  obtain ⟨hm, u', h8, h9⟩ := (C114_language hr he bs u).mp ⟨k, h4⟩
  obtain ⟨-, t', h10, h11⟩ := (C114_language hr hE (enc u) t).mp ⟨k, h6⟩
  have hm' := accepted_maps hr he h8
  have henc : enc u' = enc u := h9.enc_eq hm' hm
  have hp : PayloadsOk u' := fun id p hw => by
    obtain ⟨w', hw', hs⟩ := h9.within hw
    cases hs with
    | atom => exact h5 _ hw' id p rfl
  have hl := customFormAt_le h6
  have h9 : maxValue = 536870912 := rfl
  have hr' := hr
  unfold MemoryOk at hr'
  exact ⟨u', enc u, t', h8, hp, by rw [← henc] at hl ⊢; exact C29_to_bytes u' hm' hp (by omega) (by omega), henc.symm, h7,
    h10, h11⟩

/-- **C117** A relay with customised types of its own: if its payloads carry those of the receiver, then whatever the
receiver would have read as `t` the relay reads and writes again without an error, in no more bytes, and the receiver reads
`t` from that. -/
theorem C117_relay (hr : MemoryOk) {e E : Engine P} (he : Regular e) (hE : Regular E) (hrel : PayloadRelayFor e E)
    (bs : Bytes) (t : Tag P) (h : Factory.fromBytes E bs = .ok t) :
    ∃ u w t', Factory.fromBytes e bs = .ok u ∧ u.toBytes = .ok w ∧ w.length ≤ bs.length ∧
      Factory.fromBytes E w = .ok t' ∧ Same t' t := by
  obtain ⟨u, w, t', h1, -, h2, -, h3⟩ := renew_step hr he hE hrel bs t h
  exact ⟨u, w, t', h1, h2, h3⟩

/-- **C117** So for any number of relays. -/
theorem C117_chain (hr : MemoryOk) {E : Engine P} (hE : Regular E) (es : List (Engine P))
    (hes : ∀ e ∈ es, Regular e ∧ PayloadRelayFor e E) (bs : Bytes) (t : Tag P) (h : Factory.fromBytes E bs = .ok t) :
    ∃ w t', passAlong es bs = .ok w ∧ w.length ≤ bs.length ∧ Factory.fromBytes E w = .ok t' ∧ Same t' t := by
  induction es generalizing bs t with
  | nil => exact ⟨bs, t, rfl, Nat.le_refl _, h, .refl (accepted_maps hr hE h)⟩
  | cons e es ih =>
    obtain ⟨u, w, t', h1, h2, h3, h4, h5⟩ := C117_relay hr (hes e (by simp)).1 hE (hes e (by simp)).2 bs t h
    obtain ⟨w', t'', h6, h7, h8, h9⟩ := ih (fun e he => hes e (by simp [he])) w t' h4
    refine ⟨w', t'', ?_, Nat.le_trans h7 h3, h8, h9.trans h5⟩
    show ((Factory.fromBytes e bs >>= fun u => u.toBytes) >>= fun w => passAlong es w) = _
    rw [h1]
    show (u.toBytes >>= fun w => passAlong es w) = _
    rw [h2]
    exact h6

theorem tidy_relay {e : Engine P} (he : Regular e) (ht : Tidy e) : PayloadRelayFor e e := by
  intro id t₀ h
  refine ⟨t₀, h, ?_⟩
  by_cases hk : t₀.kind = .payload
  · right; right
    cases t₀ with
    | atom a =>
      cases a with
      | payload i p₀ =>
        have hi : i = id := he.own _ _ h
        subst hi
        exact ⟨p₀, p₀, rfl, rfl, fun p v hv hp => ⟨p, hp, ht _ p₀ p v h hv hp⟩⟩
      | _ => cases hk
    | _ => cases hk
  · exact .inl ⟨rfl, hk⟩

/-- **C117** Whatever a customised factory accepts, canonical or not, normalises in one step, if the code of its payloads
does: what was read is written in no more bytes, read again as the same tag, and from then on the bytes stay the same. -/
theorem C117_normalise (hr : MemoryOk) {e : Engine P} (he : Regular e) (ht : Tidy e) (bs : Bytes) (t : Tag P)
    (h : Factory.fromBytes e bs = .ok t) :
    ∃ bs' t', t.toBytes = .ok bs' ∧ bs'.length ≤ bs.length ∧ Factory.fromBytes e bs' = .ok t' ∧ Same t t' ∧
      t'.toBytes = .ok bs' := by
  obtain ⟨u, w, t', h1, -, h2, h2', h3, h4, h5⟩ := renew_step hr he he (tidy_relay he ht) bs t h
  rw [h] at h1
  cases h1
  obtain ⟨u, w', t'', h6, -, h7, h7', -⟩ := renew_step hr he he (tidy_relay he ht) w t' h4
  rw [h4] at h6
  cases h6
  refine ⟨w, t', h2, h3, h4, h5.symm, ?_⟩
  rw [h7, h7', h2', h5.enc_eq (accepted_maps hr he h4) (accepted_maps hr he h)]

/-- **C117** The tags a customised factory with such payloads can read are exactly those that it can also write and read
back. -/
theorem C117_exactly (hr : MemoryOk) {e : Engine P} (he : Regular e) (ht : Tidy e) (t : Tag P) (hm : MapsOk t) :
    (∃ bs t', Factory.fromBytes e bs = .ok t' ∧ Same t' t) ↔
      ∃ bs t', t.toBytes = .ok bs ∧ Factory.fromBytes e bs = .ok t' ∧ Same t' t := by
  constructor
  · rintro ⟨bs, t', h1, h2⟩
    obtain ⟨u, w, t'', h3, hp, h4, h5, -, h6, h7⟩ := renew_step hr he he (tidy_relay he ht) bs t' h1
    rw [h1] at h3
    cases h3
    refine ⟨w, t'', ?_, h6, h7.trans h2⟩
    have hm' := accepted_maps hr he h1
    have henc := h2.enc_eq hm' hm
    have hp' : PayloadsOk t := fun id p hw => by
      obtain ⟨w', hw', hs⟩ := h2.symm.within hw
      cases hs with
      | atom => exact hp id p hw'
    obtain ⟨x, k, h8, h9⟩ := (top_custom hr he _ _ _).mp ((fromBytes_ok_iff _ _ _).mp h6)
    rw [List.append_nil] at h8
    have hl := customFormAt_le h9
    rw [← h8, h5, henc] at hl
    have h9 : maxValue = 536870912 := rfl
    have hr' := hr
    unfold MemoryOk at hr'
    rw [h5, henc]
    exact C29_to_bytes t hm hp' (by omega) (by omega)
  · rintro ⟨bs, t', -, h1, h2⟩
    exact ⟨bs, t', h1, h2⟩
end

/-! ### The hypotheses are met -/

section
attribute [local instance] bigEnv

/-- Three versions of a payload: a number kept in a nested tag; the same bytes as they are; only the first byte. -/
inductive Counter where
  | num (v : UInt64)
  | kept (bs : Bytes)
  | first (b : Byte)
  deriving DecidableEq

def Counter.bytes : Counter → Bytes
  | .num v => wrap 10 (Spec.ilint v.toNat)
  | .kept bs => bs
  | .first b => [b]

instance : TagPayload Counter where
  serializedSize p := p.bytes.length
  serialize p := ([.all p.bytes], .ok ())
  deserialize p n := match p with
    | .num _ => .deser fun t =>
      match t with
      | .atom (.ilint _ v) => .done (.ok ()) (.num v)
      | _ => .done (.err .unexpectedTagType) p
    | .kept _ => .readAll n fun bs => .done (.ok ()) (.kept bs)
    | .first _ => .read fun b => .readAll (n - 1) fun _ => .done (.ok ()) (.first b)

theorem counter_bytes (p : Counter) : payloadBytes p = p.bytes := by
  simp [payloadBytes, TagPayload.serialize, opsBytes, opBytes]

theorem counter_ok (p : Counter) : PayloadOk p := ⟨rfl, by rw [counter_bytes]; rfl⟩

/-- The number is read as a tag. -/
theorem num_reads {e : Engine Counter} {v₀ : UInt64} {p : Counter} {v : Bytes} :
    PayloadReads e (.num v₀) p v ↔ ∃ i n, p = .num n ∧ Factory.fromBytes e v = .ok (.atom (.ilint i n)) := by
  unfold PayloadReads Factory.fromBytes
  show (∃ r, (onReader (Factory.deserialize e ByteArrayReader) >>= _) _ = _ ∧ _) ↔ _
  simp only [Act.bind_apply, onReader]
  rcases Factory.deserialize e ByteArrayReader (ByteArrayReader.new v) with ⟨r, s⟩
  cases r with
  | ok t =>
    simp only
    constructor
    · rintro ⟨r, h1, h2⟩
      split at h1
      · cases h1
        exact ⟨_, _, rfl, by rw [if_pos h2]⟩
      · cases h1
    · rintro ⟨i, n, rfl, h⟩
      by_cases hs : s.available = 0
      · rw [if_pos hs] at h
        cases h
        exact ⟨s, rfl, hs⟩
      · rw [if_neg hs] at h
        cases h
  | _ => simp

/-- The bytes are kept as they are. -/
theorem kept_reads {e : Engine Counter} {b₀ : Bytes} {v : Bytes} : PayloadReads e (.kept b₀) (.kept v) v := by
  obtain ⟨s₂, h3, h4⟩ := ByteArrayReader.view.readAll_ok (ByteArrayReader.view_new v) (Nat.le_refl _)
  rw [List.take_length] at h3
  rw [List.drop_length] at h4
  refine ⟨s₂, ?_, ?_⟩
  · have hc : (onReader (tagIo (Reader.readAll v.length)) : Act TagErr (Counter × ByteArrayReader) Bytes)
        (.kept b₀, ByteArrayReader.new v) = (.ok v, (.kept b₀, s₂)) :=
      onReader_eq (by simp only [tagIo, Act.mapErr, h3, Res.mapErr])
    show (onReader (tagIo (Reader.readAll v.length)) >>= _) _ = _
    rw [Act.bind_ok hc]
    rfl
  · have := congrArg List.length h4.2
    simp only [List.length_nil, List.length_drop] at this
    unfold ByteArrayReader.available ByteArrayReader.len
    omega

theorem counter_regular (p₀ : Counter) : Regular (withPayload false 5000 p₀) :=
  C114_register (std_regular false) 5000 (by decide) _ fun t₀ => (C114_creators _ t₀).2.2 _

theorem counter_made {p₀ q : Counter} {id : UInt64} (h : (withPayload false 5000 p₀).createTag id = .ok (some (.atom (.payload id q)))) :
    id = 5000 ∧ q = p₀ := by
  by_cases hid : id = 5000
  · subst hid
    rw [withPayload_here] at h
    cases h
    exact ⟨rfl, rfl⟩
  · rw [withPayload_other _ _ hid] at h
    rcases (std_created h).1 with h | ⟨-, h, -⟩
    · simp [Tag.kind, Atom.kind, standardId] at h
    · simp [Tag.kind, Atom.kind] at h

/-- The bytes of a number, in any form, are read as the number; written again they are read as that. -/
theorem counter_tidy : Tidy (withPayload false 5000 (.num 0 : Counter)) := by
  intro id p₀ p v hc hv hp
  obtain ⟨rfl, rfl⟩ := counter_made hc
  obtain ⟨i, n, rfl, h⟩ := num_reads.mp hp
  have hreg := counter_regular (.num 0)
  obtain ⟨k, hf⟩ := (C114_language bigEnv_ok hreg v (.atom (.ilint i n))).mpr
    ⟨accepted_maps bigEnv_ok hreg h, _, h, .atom _⟩
  cases k with
  | zero => exact hf.elim
  | succ k =>
    obtain ⟨t₀, hd, w, h1, h2, h3, h4, h5, h6⟩ := hf
    have hw : IsILInt w n.toNat := h4.resolve_right (by rintro ⟨_, _, _, -, h, -⟩; cases h)
    have hi : i = 10 := by
      by_cases hid : i = 5000
      · subst hid
        have : (withPayload false 5000 (.num 0 : Counter)).createTag 5000 = .ok (some t₀) := h1
        rw [withPayload_here] at this
        cases this
        cases h2
      · have : (withPayload false 5000 (.num 0 : Counter)).createTag i = .ok (some t₀) := h1
        rw [withPayload_other _ _ hid] at this
        obtain ⟨g1, g2, -⟩ := std_created this
        unfold StdTag at g1
        rw [h2] at g1
        rcases g1 with g1 | ⟨-, g1, -⟩
        · have h10 : some 10 = some t₀.id.toNat := g1
          rw [g2] at h10
          exact UInt64.toNat_inj.mp (by injection h10 with h; exact h.symm)
        · cases g1
    subst hi
    rw [counter_bytes]
    have e1 := (Snug.ilint (D := False) h3).1
    have e2 := (Snug.ilint (D := False) hw).1
    have e3 : Counter.bytes (.num n) = Spec.ilint (10 : UInt64).toNat ++ Spec.ilint n.toNat := rfl
    refine ⟨counter_ok _, ?_, num_reads.mpr ⟨10, n, rfl, ?_⟩⟩
    · rcases h6 with ⟨-, rfl⟩ | ⟨h, -⟩
      · rw [e3]
        simp only [List.length_append]
        exact Nat.add_le_add e1 e2
      · exact absurd (show 16 ≤ (10 : UInt64).toNat from h) (by decide)
    · obtain ⟨-, t', g1, g2⟩ := (C114_language bigEnv_ok hreg (Counter.bytes (.num n)) (.atom (.ilint 10 n))).mp
        ⟨1, t₀, Spec.ilint (10 : UInt64).toNat, Spec.ilint n.toNat, h1, h2, ILInt.isILInt_ilint h3.1,
          .inl (ILInt.isILInt_ilint hw.1), Nat.le_trans e2 h5, .inl ⟨by show (10 : UInt64).toNat ≤ 15; decide, e3⟩⟩
      cases g2
      exact g1

/-- A relay that keeps the bytes of the payload. -/
example : PayloadRelayFor (withPayload false 5000 (.kept [] : Counter)) (withPayload false 5000 (.num 0)) := by
  intro id t₀ h
  by_cases hid : id = 5000
  · subst hid
    rw [withPayload_here] at h
    cases h
    exact ⟨_, withPayload_here .., .inr (.inr ⟨_, _, rfl, rfl, fun p v hv hp =>
      ⟨.kept v, kept_reads, counter_ok _, by rw [counter_bytes]; exact Nat.le_refl _, by rw [counter_bytes]; exact hp⟩⟩)⟩
  · rw [withPayload_other _ _ hid] at h
    refine ⟨t₀, by rw [withPayload_other _ _ hid]; exact h, .inl ⟨rfl, fun hk => ?_⟩⟩
    have := (std_created h).1
    unfold StdTag at this
    rw [hk] at this
    rcases this with h | ⟨-, h, -⟩
    · simp [standardId] at h
    · cases h

/-- A number in a longer form than needed, in a payload in a sequence: normalised, or kept by the relay. -/
example : passOn (withPayload false 5000 (.num 0 : Counter)) [22, 7, 249, 18, 144, 3, 10, 248, 0] =
      .ok [22, 7, 249, 18, 144, 3, 10, 248, 0] ∧
    passOn (withPayload false 5000 (.num 0 : Counter)) [22, 8, 249, 18, 144, 4, 10, 249, 0, 7] =
      .ok [22, 7, 249, 18, 144, 3, 10, 248, 7] ∧
    passOn (withPayload false 5000 (.kept [] : Counter)) [22, 8, 249, 18, 144, 4, 10, 249, 0, 7] =
      .ok [22, 8, 249, 18, 144, 4, 10, 249, 0, 7] := by
  unfold passOn Factory.fromBytes
  simp only [deserialize_eq]
  decide +kernel

/-- **C117** The condition on the payloads of the relay is needed: a relay that knows the first byte only, and the receiver
all of them. -/
theorem C117_condition_needed :
    passOn (withPayload false 5000 (.first 0 : Counter)) [249, 18, 144, 2, 10, 7] = .ok [249, 18, 144, 1, 10] ∧
    (match Factory.fromBytes (withPayload false 5000 (.num 0 : Counter)) [249, 18, 144, 2, 10, 7] with
      | .ok (.atom (.payload 5000 (.num v))) => v == 7
      | _ => false) = true ∧
    (match Factory.fromBytes (withPayload false 5000 (.num 0 : Counter)) [249, 18, 144, 1, 10] with
      | .err _ => true
      | _ => false) = true := by
  unfold passOn Factory.fromBytes
  simp only [deserialize_eq]
  decide +kernel
end

end Verif.Props
