import Verif.Props.Brief
import Verif.Props.Chain
/-!
# C121: ledgers with records of customised types, and relays on the way
-/
namespace Verif.Props
open Verif Verif.Spec
variable {P : Type} [TagPayload P]
set_option linter.unusedSectionVars false

section
variable [Env]

/-- What a customised factory reads it can also write and read back. -/
theorem tidy_supported (hr : MemoryOk) {e : Engine P} (he : Regular e) (ht : Tidy e) {bs : Bytes} {t : Tag P}
    (h : Factory.fromBytes e bs = .ok t) : MapsOk t ∧ PayloadsOk t ∧ Supported e t := by
  obtain ⟨k, hf⟩ := accepted_form hr he h
  exact ⟨accepted_maps hr he h, customFormAt_supported he ht k t bs hf⟩

/-- **C117** In other words, the tags a customised factory with such payloads can read, in some form, are exactly those of
which every part has the type the factory makes for its id, with a value of at most 512 MiB, and whose payloads keep to
their contract and are read back: those of which all properties of reading and writing hold. -/
theorem C117_supported (hr : MemoryOk) {e : Engine P} (he : Regular e) (ht : Tidy e) (t : Tag P) (hm : MapsOk t) :
    (∃ bs t', Factory.fromBytes e bs = .ok t' ∧ Same t' t) ↔ PayloadsOk t ∧ Supported e t := by
  constructor
  · rintro ⟨bs, t', h1, h2⟩
    obtain ⟨k, hf⟩ := (C114_language hr he bs t).mpr ⟨hm, t', h1, h2⟩
    exact customFormAt_supported he ht k t bs hf
  · rintro ⟨hp, hs⟩
    obtain ⟨bs, t', -, h2, h3⟩ := C30_round_trip hr e t hm hp hs
    exact ⟨bs, t', h2, h3.symm⟩

/-- Tags read by a customised factory, one after another. -/
theorem readSeq_tidy (hr : MemoryOk) {e : Engine P} (he : Regular e) (ht : Tidy e) {σ : Type} [Reader σ] (V : View σ)
    {s s' : σ} {us : List (Tag P)} (h : ReadSeq e s us s') {bs : Bytes} (hR : V.R s bs) :
    ∀ u ∈ us, MapsOk u ∧ PayloadsOk u ∧ Supported e u := by
  induction h generalizing bs with
  | nil s => simp
  | @cons s s₁ s₂ t ts h1 _ ih =>
    obtain ⟨x, rest, -, ⟨k, hx⟩, hR'⟩ := (C114_stream hr he V s bs hR).1 t s₁ h1
    intro u hu
    rcases List.mem_cons.mp hu with rfl | hu
    · exact ⟨customFormAt_mapsOk _ _ hx, customFormAt_supported he ht k u x hx⟩
    · exact ih hR' u hu

/-- **C121** Nobody can change the past of a ledger with records of customised types: whatever bytes take the place of the
log, if the factory reads tags from them and these pass the checks with the hash of the last record of the original, then
they are records of the same content as the original ones, one by one, or a collision of the hash function is found. -/
theorem C121_tampered (hr : MemoryOk) {e : Engine P} (he : Regular e) (hT : Tidy e) (H : Bytes → Bytes) (g h : Bytes)
    {σ σ' : Type} [Reader σ] [Reader σ'] (V : View σ) (V' : View σ') {s₁ s₂ : σ} {s₁' s₂' : σ'} {bs bs' : Bytes}
    (hR : V.R s₁ bs) (hR' : V'.R s₁' bs') (ts us : List (Tag P)) (h1 : ReadSeq e s₁ ts s₂) (h2 : ReadSeq e s₁' us s₂')
    (ht : followChain H g ts = some h) (hu : followChain H g us = some h) : SameTags ts us ∨ Collision H g ts us :=
  C119_fixed hr e H g h ts us (readSeq_tidy hr he hT V h1 hR) (readSeq_tidy hr he hT V' h2 hR') ht hu

/-- Messages read one after another. -/
theorem readSeq_messages {e : Engine P} {σ : Type} [Reader σ] (V : View σ) (ws : List Bytes) (us : List (Tag P))
    (h : ws.map (Factory.fromBytes e) = us.map .ok) (x : Bytes) (s : σ) (hR : V.R s (ws.flatten ++ x)) :
    ∃ s', ReadSeq e s us s' ∧ V.R s' x := by
  induction ws generalizing us s with
  | nil =>
    cases us with
    | nil => exact ⟨s, .nil s, by simpa using hR⟩
    | cons => simp at h
  | cons w ws ih =>
    cases us with
    | nil => simp at h
    | cons u us =>
      simp only [List.map_cons, List.cons.injEq] at h
      rw [List.flatten_cons, List.append_assoc] at hR
      have htop := (fromBytes_ok_iff _ _ _).mp h.1
      obtain ⟨used, h2, h3⟩ := (Local.top e).ok htop
      rw [List.append_nil] at h2
      subst h2
      obtain ⟨s₁, h4, h5⟩ := deserialize_ok_of_top V hR (h3 _)
      obtain ⟨s', h6, h7⟩ := ih us h.2 s₁ h5
      exact ⟨s', .cons h4 h6, h7⟩

/-- **C121** A ledger that is sent through relays: whatever records the receiver would have read from the messages,
canonical or not, it reads records of the same content from what arrives, and the checks have the same result: the same
hash of the last record, or the same failure. -/
theorem C121_relayed (hr : MemoryOk) {E : Engine P} (hE : Regular E) (hT : Tidy E) (es : List (Engine P))
    (hes : ∀ e ∈ es, Regular e ∧ PayloadRelayFor e E) (H : Bytes → Bytes) (g : Bytes) (bss : List Bytes) (ts : List (Tag P))
    (hb : bss.map (Factory.fromBytes E) = ts.map .ok) :
    ∃ ws : List Bytes, bss.map (passAlong es) = ws.map .ok ∧
      ∀ {σ : Type} [Reader σ] (V : View σ) (s : σ) (x : Bytes), V.R s (ws.flatten ++ x) →
        ∃ us s', ReadSeq E s us s' ∧ V.R s' x ∧ SameTags ts us ∧ followChain H g us = followChain H g ts := by
  have key : ∃ (ws : List Bytes) (us : List (Tag P)), bss.map (passAlong es) = ws.map .ok ∧
      ws.map (Factory.fromBytes E) = us.map .ok ∧ SameTags ts us ∧ (∀ t ∈ ts, MapsOk t ∧ PayloadsOk t ∧ Supported E t) ∧
      ∀ u ∈ us, MapsOk u := by
    induction bss generalizing ts with
    | nil =>
      cases ts with
      | nil => exact ⟨[], [], rfl, rfl, ⟨rfl, fun i hi => absurd hi (by simp)⟩, by simp, by simp⟩
      | cons => simp at hb
    | cons bs bss ih =>
      cases ts with
      | nil => simp at hb
      | cons t ts =>
        simp only [List.map_cons, List.cons.injEq] at hb
        obtain ⟨ws, us, h1, h2, h3, h4, h5⟩ := ih ts hb.2
        obtain ⟨w, t', h6, -, h7, h8⟩ := C117_chain hr hE es hes bs t hb.1
        refine ⟨w :: ws, t' :: us, by simp [h1, h6], by simp [h2, h7], ⟨by simp [h3.1], fun i hi hi' => ?_⟩, ?_, ?_⟩
        · cases i with
          | zero => exact h8.symm
          | succ i => exact h3.2 i (by simpa using hi) (by simpa using hi')
        · intro u hu
          rcases List.mem_cons.mp hu with rfl | hu
          · exact tidy_supported hr hE hT hb.1
          · exact h4 u hu
        · intro u hu
          rcases List.mem_cons.mp hu with rfl | hu
          · exact accepted_maps hr hE h7
          · exact h5 u hu
  obtain ⟨ws, us, h1, h2, h3, h4, h5⟩ := key
  refine ⟨ws, h1, fun V s x hR => ?_⟩
  obtain ⟨s', h6, h7⟩ := readSeq_messages V ws us h2 x s hR
  refine ⟨us, s', h6, h7, h3, (C119_content H ts us h3 (fun t ht => ?_) h5 g).symm⟩
  obtain ⟨hm, hp, hs⟩ := h4 t ht
  have := enc_length_le hs
  have h9 : maxValue = 536870912 := rfl
  exact ⟨hm, hp, by omega⟩

/-- What a relay sees of a tag the receiver supports. -/
theorem relay_sees {e E : Engine P} (he : Regular e) (hrel : RelayFor e E) {t : Tag P} (hs : SupportedHere E t) :
    SupportedHere e t ∨ Hidden e t := by
  obtain ⟨⟨t₀, h1, h2, h3, h4⟩, h5, h6⟩ := hs
  obtain ⟨t₁, g1, g2⟩ := hrel _ _ h1
  have hid := he.own _ _ g1
  rcases g2 with ⟨g2, g3⟩ | ⟨g2, g3⟩
  · refine .inl ⟨⟨t₁, g1, g2.trans h2, hid, ?_⟩, h5, h6⟩
    rintro id₀ p₀ id p rfl -
    exact absurd g2.symm g3
  · exact .inr ⟨g2, ⟨t₁, g1, g3, hid⟩, h5⟩

theorem within_of_seen {e : Engine P} {u t : Tag P} (h : Seen e u t) : Within u t := by
  induction h with
  | refl => exact .refl _
  | seq _ hm _ ih => exact .seq hm ih
  | array _ hm _ ih => exact .array hm ih
  | dict _ hm _ ih => exact .dict hm ih

/-- **C121** A relay may check the ledger as well: if the records are as they were written, then whatever is in them that
the relay does not know, provided it knows the sequences that are the records and byte arrays, what the receiver finds
right the relay finds right, with the same hash of the last record. -/
theorem C121_relay_check (hr : MemoryOk) {e E : Engine P} (he : Regular e) (hE : Regular E) (hT : Tidy E)
    (hrel : RelayFor e E) (H : Bytes → Bytes) (g h : Bytes) (bss : List Bytes) (ts us : List (Tag P))
    (hb : bss.map (Factory.fromBytes E) = ts.map .ok) (hc : ts.map Tag.toBytes = bss.map .ok)
    (hu : bss.map (Factory.fromBytes e) = us.map .ok)
    (hseq : ∀ t ∈ ts, ∃ t₁, e.createTag t.id = .ok (some t₁) ∧ t₁.kind = .seq)
    (hbytes : ∃ t₁, e.createTag 16 = .ok (some t₁) ∧ t₁.kind = .byteArray)
    (ht : followChain H g ts = some h) : followChain H g us = some h := by
  induction bss generalizing ts us g with
  | nil =>
    cases ts with
    | nil =>
      cases us with
      | nil => exact ht
      | cons => simp at hu
    | cons => simp at hb
  | cons bs bss ih =>
    cases ts with
    | nil => simp at hb
    | cons t ts =>
      cases us with
      | nil => simp at hu
      | cons u us =>
        simp only [List.map_cons, List.cons.injEq] at hb hc hu
        simp only [followChain] at ht ⊢
        split at ht
        · rename_i hcar
          rw [hc.1] at ht
          obtain ⟨hm, hp, hs⟩ := tidy_supported hr hE hT hb.1
          have henc := toBytes_eq_enc hr hm hp hs
          rw [hc.1] at henc
          cases henc
          -- the record
          match t, hcar with
          | .seq i [b, .atom (.byteArray v)], hcar =>
            have hv : v = g := by simpa [carried] using hcar
            subst hv
            obtain ⟨u₀, hu₀⟩ : ∃ u₀, Relay.Echo e b u₀ := Relay.seen b (hm.of (within_seq (by simp)))
              fun w hw => relay_sees he hrel (hs w ((within_of_seen hw).trans (within_seq (by simp))))
            obtain ⟨t₁, k1, k2⟩ := hseq _ (List.mem_cons_self ..)
            obtain ⟨t₂, k3, k4⟩ := hbytes
            have hv : encValue (.seq i [u₀, .atom (.byteArray v)] : Tag P) = encValue (.seq i [b, .atom (.byteArray v)] : Tag P) := by
              rw [encValue, encValue, encTags_eq, encTags_eq]
              simp only [List.flatMap_cons, Relay.echo_enc hu₀]
            have henc : enc (.seq i [u₀, .atom (.byteArray v)] : Tag P) = enc (.seq i [b, .atom (.byteArray v)] : Tag P) := by
              unfold enc
              rw [hv]
              rfl
            have hself := hs _ (.refl _)
            have hbsup := hs (.atom (.byteArray v)) (within_seq (by simp))
            have hm' : MapsOk (.seq i [u₀, .atom (.byteArray v)] : Tag P) := by
              intro w hw
              cases hw with
              | refl => trivial
              | seq hx hw =>
                simp only [List.mem_cons, List.not_mem_nil, or_false] at hx
                rcases hx with rfl | rfl
                · exact hu₀.2.2.1 w hw
                · cases hw; trivial
            have hs' : Supported e (.seq i [u₀, .atom (.byteArray v)] : Tag P) := by
              intro w hw
              cases hw with
              | refl =>
                refine ⟨⟨t₁, k1, k2, he.own _ _ k1, ?_⟩, by rw [hv]; exact hself.fits, fun hi => ?_⟩
                · rintro _ _ _ _ - hc; cases hc
                · have := he.implicit _ _ k1 hi
                  rw [k2] at this
                  exact std_sized (u := (.seq i [u₀, .atom (.byteArray v)] : Tag P)) this hi
              | seq hx hw =>
                simp only [List.mem_cons, List.not_mem_nil, or_false] at hx
                rcases hx with rfl | rfl
                · exact hu₀.2.2.2.1 w hw
                · cases hw
                  refine ⟨⟨t₂, k3, k4, he.own _ _ k3, ?_⟩, hbsup.fits, hbsup.sized⟩
                  rintro _ _ _ _ - hc; cases hc
            have hp' : PayloadsOk (.seq i [u₀, .atom (.byteArray v)] : Tag P) := by
              intro id p hw
              cases hw with
              | seq hx hw =>
                simp only [List.mem_cons, List.not_mem_nil, or_false] at hx
                rcases hx with rfl | rfl
                · exact hp id p (.seq (List.mem_cons_self ..) (hu₀.2.2.2.2 id p hw))
                · cases hw
            obtain ⟨bs', u', q1, q2, q3⟩ := C30_round_trip hr e _ hm' hp' hs'
            have q1' := toBytes_eq_enc hr hm' hp' hs'
            rw [q1] at q1'
            cases q1'
            rw [henc, hu.1] at q2
            cases q2
            have hl := enc_length_le hs'
            have h9 : maxValue = 536870912 := rfl
            have hub := (C38_hash_order _ u q3 hm' (accepted_maps hr he hu.1) hp' (by omega)).2.2.1
            have hcu : carried u = some v := by rw [← carried_same q3]; rfl
            rw [if_pos hcu, ← hub, q1, henc]
            exact ih _ ts us hb.2 hc.2 hu.2 (fun t ht => hseq t (by simp [ht])) ht
        · cases ht
end

/-! ### The hypotheses are met -/

section
attribute [local instance] bigEnv

/-- The receiver knows the payload under the id 5000, the relay does not. -/
theorem counter_relay : RelayFor (Engine.std false) (withPayload false 5000 (.num 0 : Counter)) :=
  C115_standard _ fun id => by
    by_cases hid : id = 5000
    · subst hid
      exact .inr (.inl ⟨by decide, fun k => by cases k <;> decide⟩)
    · exact .inl (withPayload_other _ _ hid)

/-- Two records, the body of the first is a payload. -/
def twoRecords : List Bytes := [[22, 9, 249, 18, 144, 2, 10, 7, 16, 1, 0], [22, 6, 10, 5, 16, 2, 222, 11]]

/-- What a factory reads from messages: which bodies are raw tags, what the records are serialized to, and the result of the
checks. -/
def checked (e : Engine Counter) (bss : List Bytes) : Option (List Bool × List (Option Bytes) × Option Bytes) :=
  match bss.mapM fun bs => (match Factory.fromBytes e bs with | .ok t => some t | _ => none) with
  | some ts => some (ts.map (fun t => match t with | .seq _ (b :: _) => b.kind == .raw | _ => false), ts.map (fun t => match t.toBytes with | .ok bs => some bs | _ => none),
      followChain weakHash [0] ts)
  | none => none

/-- The relay sees a raw tag instead of the payload; both find the ledger right, with the same hash of the last record. -/
example : (checked (withPayload false 5000 (.num 0 : Counter)) twoRecords ==
      some ([false, false], twoRecords.map some, some [38, 8])) = true ∧
    (checked (Engine.std false) twoRecords == some ([true, false], twoRecords.map some, some [38, 8])) = true := by
  unfold checked Factory.fromBytes
  simp only [deserialize_eq]
  decide +kernel

/-- The theorem about relays applies to whatever they read from these. -/
example (ts us : List (Tag Counter)) (hb : twoRecords.map (Factory.fromBytes (withPayload false 5000 (.num 0 : Counter))) = ts.map .ok)
    (hc : ts.map Tag.toBytes = twoRecords.map .ok) (hu : twoRecords.map (Factory.fromBytes (Engine.std false)) = us.map .ok)
    (hid : ∀ t ∈ ts, t.id = 22) (h : Bytes) (ht : followChain weakHash [0] ts = some h) :
    followChain weakHash [0] us = some h :=
  C121_relay_check bigEnv_ok (std_regular false) (counter_regular _) counter_tidy counter_relay weakHash [0] h twoRecords ts us
    hb hc hu (fun t ht => ⟨.seq 22 [], by rw [hid t ht]; rfl, rfl⟩) ⟨.atom (.byteArray []), rfl, rfl⟩ ht

/-- **C121** That the records are as they were written is needed for this (not for what the receiver finds): a record
accepted by both, with a number in the payload in a longer form than needed.  The receiver writes the number in the
shortest form, the relay keeps the bytes it does not understand; they get different hashes. -/
theorem C121_canonical_needed : ∃ (bs : Bytes) (t u : Tag Counter) (x y : Bytes),
    Factory.fromBytes (withPayload false 5000 (.num 0)) bs = .ok t ∧ Factory.fromBytes (Engine.std false) bs = .ok u ∧
    t.toBytes = .ok x ∧ u.toBytes = .ok y ∧ x ≠ y ∧
    ∀ H : Bytes → Bytes, followChain H [0] [t] = some (H x) ∧ followChain H [0] [u] = some (H y) := by
  have h1 : (match Factory.fromBytes (withPayload false 5000 (.num 0 : Counter)) [22, 11, 249, 18, 144, 4, 10, 249, 0, 7, 16, 1, 0] with
      | .ok t => decide (carried t = some [0] ∧ t.toBytes = .ok [22, 10, 249, 18, 144, 3, 10, 248, 7, 16, 1, 0])
      | _ => false) = true ∧
    (match Factory.fromBytes (Engine.std false : Engine Counter) [22, 11, 249, 18, 144, 4, 10, 249, 0, 7, 16, 1, 0] with
      | .ok t => decide (carried t = some [0] ∧ t.toBytes = .ok [22, 11, 249, 18, 144, 4, 10, 249, 0, 7, 16, 1, 0])
      | _ => false) = true := by
    unfold Factory.fromBytes
    simp only [deserialize_eq]
    decide +kernel
  obtain ⟨h1, h2⟩ := h1
  cases h3 : Factory.fromBytes (withPayload false 5000 (.num 0 : Counter)) [22, 11, 249, 18, 144, 4, 10, 249, 0, 7, 16, 1, 0] with
  | ok t =>
    rw [h3] at h1
    obtain ⟨h1, h1'⟩ := of_decide_eq_true h1
    cases h4 : Factory.fromBytes (Engine.std false : Engine Counter) [22, 11, 249, 18, 144, 4, 10, 249, 0, 7, 16, 1, 0] with
    | ok u =>
      rw [h4] at h2
      obtain ⟨h2, h2'⟩ := of_decide_eq_true h2
      exact ⟨_, t, u, _, _, h3, h4, h1', h2', by decide, fun H =>
        ⟨by simp only [followChain, h1, h1', if_true], by simp only [followChain, h2, h2', if_true]⟩⟩
    | _ => rw [h4] at h2; cases h2
  | _ => rw [h3] at h1; cases h1
end

end Verif.Props
