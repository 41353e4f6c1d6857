import Verif.Props.Serialize
import Verif.Proof.FromBytes
import Verif.Proof.Std
/-!
# Reading tags back (C30–C34, C36 on byte strings, C45, C65, C66)
-/
namespace Verif.Props
open Verif Verif.Spec
variable {P : Type}

/-! ### Auxiliary -/

theorem enc_length_le [TagPayload P] [Env] {e : Engine P} {t : Tag P} (hs : Supported e t) :
    (enc t).length ≤ maxValue + 18 := by
  have h := (hs t (.refl t)).fits
  have h1 := ilint_le9 t.id.toNat
  have h2 := ilint_le9 (encValue t).length
  unfold enc wrap
  simp only [List.length_append]
  split
  · simp only [List.length_nil]; omega
  · omega

theorem toBytes_eq_enc [TagPayload P] [Env] (hr : MemoryOk) {e : Engine P} {t : Tag P} (hm : MapsOk t)
    (hp : PayloadsOk t) (hs : Supported e t) : t.toBytes = .ok (enc t) := by
  have hl := enc_length_le hs
  have hm' : maxValue = 536870912 := rfl
  refine C29_to_bytes t hm hp (by omega) ?_
  unfold MemoryOk at hr
  omega

/-! ### C30 -/

/-- **C30** Every tag whose ids, at every level, are those the factory maps to its types and whose values are within
the 512 MiB limit: `to_bytes` succeeds and `from_bytes` on the result gives a tag of the same types, ids and content. -/
theorem C30_round_trip [TagPayload P] [Env] (hr : MemoryOk) (e : Engine P) (t : Tag P) (hm : MapsOk t)
    (hp : PayloadsOk t) (hs : Supported e t) :
    ∃ bs t', t.toBytes = .ok bs ∧ Factory.fromBytes e bs = .ok t' ∧ Same t t' := by
  refine ⟨enc t, canon t, toBytes_eq_enc hr hm hp hs, ?_, same_canon hm⟩
  rw [fromBytes_ok_iff]
  simpa using top_enc hr e t hm hs []

/-- **C30** With the standard factory, strict or not, for every tag made of the standard types under their standard
ids (and, for the non-strict factory, raw tags under other explicit ids). -/
theorem C30_standard [TagPayload P] [Env] (hr : MemoryOk) (strict : Bool) (t : Tag P) (hm : MapsOk t)
    (hs : ∀ u, Within u t → StdTag strict u ∧ (encValue u).length ≤ maxValue) :
    ∃ bs t', t.toBytes = .ok bs ∧ Factory.fromBytes (Engine.std strict) bs = .ok t' ∧ Same t t' := by
  refine C30_round_trip hr _ t hm (fun id p hu => ?_) (std_supported hs)
  rcases (hs _ hu).1 with h | ⟨-, h, -⟩
  · simp [Tag.kind, Atom.kind, standardId] at h
  · simp [Tag.kind, Atom.kind] at h

/-- A machine with plenty of memory. -/
@[reducible] def bigEnv : Env := ⟨1099511627776⟩
attribute [local instance] bigEnv
theorem bigEnv_ok : MemoryOk := show 16 * maxValue ≤ 1099511627776 by decide

/-- The non-strict standard factory with one more type: ILInt tags under the id 1000. -/
def sampleEngine : Engine Empty := ((Engine.std false).register 1000 (withIdCreatorOf .ilint)).2

theorem sample_supported : Supported sampleEngine sample :=
  supported_of_B (by decide +kernel)

theorem sample_payloads (t : Tag Empty) : PayloadsOk t := fun _ p _ => p.elim

example : ∃ bs t', Tag.toBytes sample = .ok bs ∧ Factory.fromBytes sampleEngine bs = .ok t' ∧
    Same sample t' :=
  C30_round_trip bigEnv_ok sampleEngine sample sample_maps (sample_payloads _) sample_supported

/-- A sample for the standard factory. -/
def stdSample : Tag Empty :=
  .dict Id.dict [("k", .seq Id.tagSeq [.atom (.null Id.null), .atom (.raw 300 [1, 2, 3]), .atom (.signedILInt Id.signedILInt (-300))]),
    ("a", .array Id.tagArray [.atom (.range Id.range 5 6), .atom (.oid Id.oid [1, 2, 3000])])]

theorem stdSample_std : ∀ u, Within u stdSample → StdTag false u ∧ (encValue u).length ≤ maxValue := by
  intro u hu
  have hmem := Within.mem_nested hu
  refine ⟨?_, ?_⟩
  · simp only [stdSample, nested, nestedEntries, nestedTags, List.mem_cons, List.append_nil,
      List.mem_append, List.not_mem_nil, or_false] at hmem
    rcases hmem with rfl | (rfl | rfl | rfl | rfl) | rfl | rfl | rfl
    any_goals exact .inl rfl
    refine .inr ⟨rfl, rfl, by decide, fun k => by cases k <;> decide⟩
  · have : (nested stdSample).all (fun u => decide ((encValue u).length ≤ maxValue)) = true := by decide +kernel
    simpa using List.all_eq_true.mp this u hmem

example : ∃ bs t', Tag.toBytes stdSample = .ok bs ∧
    Factory.fromBytes (Engine.std false) bs = .ok t' ∧ Same stdSample t' :=
  C30_standard bigEnv_ok false stdSample (mapsOk_of_B (by decide +kernel)) stdSample_std

/-! ### C31 -/

/-- **C31** From any well-behaved reader holding the serialization of a tag followed by anything, `deserialize` returns
that tag and leaves exactly what follows. -/
theorem C31_self_delimiting [TagPayload P] [Env] (hr : MemoryOk) (e : Engine P) (t : Tag P) (hm : MapsOk t)
    (hp : PayloadsOk t) (hs : Supported e t) {bs : Bytes} (hb : t.toBytes = .ok bs)
    {σ : Type} [Reader σ] (V : View σ) (s : σ) (x : Bytes) (hR : V.R s (bs ++ x)) :
    ∃ t' s', Factory.deserialize e σ s = (.ok t', s') ∧ Same t t' ∧ V.R s' x := by
  rw [toBytes_eq_enc hr hm hp hs, Res.ok.injEq] at hb
  subst hb
  have h := deserialize_matches e V hR
  rw [top_enc hr e t hm hs x] at h
  obtain ⟨s', h, hR'⟩ := h
  exact ⟨canon t, s', h, same_canon hm, hR'⟩

/-- Successive successful calls of `deserialize` returning the given tags. -/
inductive ReadSeq [TagPayload P] [Env] (e : Engine P) {σ : Type} [Reader σ] : σ → List (Tag P) → σ → Prop where
  | nil (s) : ReadSeq e s [] s
  | cons {s s₁ s₂ t ts} : Factory.deserialize e σ s = (.ok t, s₁) → ReadSeq e s₁ ts s₂ → ReadSeq e s (t :: ts) s₂

/-- **C31** Any list of tags written one after another is read back in order, up to exactly what follows. -/
theorem C31_lists [TagPayload P] [Env] (hr : MemoryOk) (e : Engine P) (ts : List (Tag P)) (bss : List Bytes)
    (hts : ∀ t ∈ ts, MapsOk t ∧ PayloadsOk t ∧ Supported e t) (hb : ts.map Tag.toBytes = bss.map .ok)
    {σ : Type} [Reader σ] (V : View σ) (s : σ) (x : Bytes) (hR : V.R s (bss.flatten ++ x)) :
    ∃ us s', ReadSeq e s us s' ∧ us.length = ts.length ∧
      (∀ (i : Nat) (h : i < ts.length) (h' : i < us.length), Same ts[i] us[i]) ∧ V.R s' x := by
  induction ts generalizing bss s with
  | nil =>
    cases bss with
    | nil => exact ⟨[], s, .nil s, rfl, (fun i h => by simp at h), by simpa using hR⟩
    | cons => simp at hb
  | cons t ts ih =>
    cases bss with
    | nil => simp at hb
    | cons bs bss =>
      simp only [List.map_cons, List.cons.injEq] at hb
      obtain ⟨hm, hp, hs⟩ := hts t (by simp)
      rw [List.flatten_cons, List.append_assoc] at hR
      obtain ⟨t', s₁, h1, h2, h3⟩ := C31_self_delimiting hr e t hm hp hs hb.1 V s _ hR
      obtain ⟨us, s', h4, h5, h6, h7⟩ := ih bss (fun t ht => hts t (by simp [ht])) hb.2 s₁ h3
      refine ⟨t' :: us, s', .cons h1 h4, by simp [h5], fun i h h' => ?_, h7⟩
      cases i with
      | zero => simpa using h2
      | succ i => simpa using h6 i (by simpa using h) (by simpa using h')

/-- The sample written twice, followed by two bytes, read from an array. -/
example : ∃ us s', ReadSeq sampleEngine
      (ByteArrayReader.new (([enc sample, enc sample] : List Bytes).flatten ++ [7, 8])) us s' ∧
    us.length = 2 ∧ ByteArrayReader.view.R s' [7, 8] := by
  have hb : sample.toBytes = .ok (enc sample) :=
    toBytes_eq_enc bigEnv_ok sample_maps (sample_payloads _) sample_supported
  obtain ⟨us, s', h1, h2, -, h3⟩ := C31_lists bigEnv_ok sampleEngine [sample, sample] [enc sample, enc sample]
    (by intro t ht; simp at ht; subst ht; exact ⟨sample_maps, sample_payloads _, sample_supported⟩) (by simp [hb])
    ByteArrayReader.view.toView (ByteArrayReader.new (([enc sample, enc sample] : List Bytes).flatten ++ [7, 8])) [7, 8]
    (ByteArrayReader.view_new _)
  exact ⟨us, s', h1, h2, h3⟩

/-! ### C32 -/

/-- **C32** Two tags a factory supports with serializations of which one is a prefix of the other: nothing is left
over, and the tags have the same type, id and content. -/
theorem C32_prefix_free [TagPayload P] [Env] (hr : MemoryOk) (e : Engine P) (t u : Tag P)
    (ht : MapsOk t ∧ PayloadsOk t ∧ Supported e t) (hu : MapsOk u ∧ PayloadsOk u ∧ Supported e u)
    {bs x : Bytes} (hb : t.toBytes = .ok bs) (hb' : u.toBytes = .ok (bs ++ x)) : x = [] ∧ Same t u := by
  rw [toBytes_eq_enc hr ht.1 ht.2.1 ht.2.2, Res.ok.injEq] at hb
  rw [toBytes_eq_enc hr hu.1 hu.2.1 hu.2.2, Res.ok.injEq] at hb'
  have h1 := top_enc hr e t ht.1 ht.2.2 x
  have h2 := top_enc hr e u hu.1 hu.2.2 []
  rw [List.append_nil, hb', ← hb, h1] at h2
  simp only [PRes.ok.injEq] at h2
  exact ⟨h2.2, (same_canon ht.1).trans (h2.1 ▸ (same_canon hu.1).symm)⟩

/-- **C32** Equal serializations come from equal tags. -/
theorem C32_injective [TagPayload P] [Env] (hr : MemoryOk) (e : Engine P) (t u : Tag P)
    (ht : MapsOk t ∧ PayloadsOk t ∧ Supported e t) (hu : MapsOk u ∧ PayloadsOk u ∧ Supported e u)
    (h : t.toBytes = u.toBytes) : Same t u := by
  have hb := toBytes_eq_enc hr ht.1 ht.2.1 ht.2.2
  exact (C32_prefix_free hr e t u ht hu hb (x := []) (by rw [← h, hb, List.append_nil])).2

example : Tag.toBytes sample = Tag.toBytes sample' ∧ Same sample sample' := by
  have h : sample.toBytes = sample'.toBytes := by decide +kernel
  refine ⟨h, C32_injective bigEnv_ok sampleEngine sample sample' ⟨sample_maps, sample_payloads _, sample_supported⟩
    ⟨mapsOk_of_B (by decide +kernel), sample_payloads _, supported_of_B (by decide +kernel)⟩ h⟩

/-! ### C33, C34 -/

/-- **C33** What `from_bytes` accepts is rejected as corrupted when anything is appended to it. -/
theorem C33_trailing [TagPayload P] [Env] (e : Engine P) (bs x : Bytes) (t : Tag P)
    (h : Factory.fromBytes e bs = .ok t) (hx : x ≠ []) : Factory.fromBytes e (bs ++ x) = .err .corruptedData := by
  rw [fromBytes_ok_iff] at h
  obtain ⟨used, h1, h2⟩ := (Local.top e).ok h
  rw [List.append_nil] at h1
  subst h1
  have := fromBytes_cases e (bs ++ x)
  rw [h2 x] at this
  simpa [hx] using this

/-- The sample is accepted. -/
theorem sample_accepted : Factory.fromBytes sampleEngine (enc sample) = .ok (canon sample) := by
  rw [fromBytes_ok_iff]
  simpa using top_enc bigEnv_ok sampleEngine sample sample_maps sample_supported []

example : Factory.fromBytes sampleEngine (enc sample ++ [0]) = .err .corruptedData :=
  C33_trailing _ _ _ _ sample_accepted (by simp)

/-- A parser that accepts `bs₁ ++ bs₂` consuming more than `bs₁` runs out of data on `bs₁`. -/
theorem short_of_prefix {α : Type} {p : Parser α} (hp : Local p) {bs₁ bs₂ rest : Bytes} {a : α}
    (h : p (bs₁ ++ bs₂) = .ok a rest) (hl : rest.length < bs₂.length) : p bs₁ = .short := by
  cases hq : p bs₁ with
  | ok a' rest' =>
    obtain ⟨used, h1, h2⟩ := hp.ok hq
    have := h2 (rest' ++ bs₂)
    rw [← List.append_assoc, ← h1, h] at this
    simp only [PRes.ok.injEq] at this
    have := congrArg List.length this.2
    simp only [List.length_append] at this
    omega
  | short => rfl
  | fail x => have := hp.more (bs := bs₁) (by rw [hq]; trivial) bs₂; rw [h, hq] at this; simp at this
  | panic => have := hp.more (bs := bs₁) (by rw [hq]; trivial) bs₂; rw [h, hq] at this; simp at this
  | diverge => have := hp.more (bs := bs₁) (by rw [hq]; trivial) bs₂; rw [h, hq] at this; simp at this

/-- **C34** No proper prefix of an accepted input is accepted: it fails with an i/o error. -/
theorem C34_prefix [TagPayload P] [Env] (e : Engine P) (bs x : Bytes) (t : Tag P)
    (h : Factory.fromBytes e (bs ++ x) = .ok t) (hx : x ≠ []) : ∃ i, Factory.fromBytes e bs = .err (.ioError i) := by
  rw [fromBytes_ok_iff] at h
  have := short_of_prefix (Local.top e) h (by cases x <;> simp_all)
  have hc := fromBytes_cases e bs
  rw [this] at hc
  exact hc

example : ∃ i, Factory.fromBytes sampleEngine ((enc sample).take 20) = .err (.ioError i) := by
  refine C34_prefix sampleEngine _ ((enc sample).drop 20) (canon sample) ?_ ?_
  · rw [List.take_append_drop]; exact sample_accepted
  · intro h; have := congrArg List.length h; simp [sample_len] at this

/-- **C34** A stream that a successful `deserialize` would have consumed as `used`, cut anywhere inside `used`: the
result is an i/o error, for every well-behaved reader. -/
theorem C34_truncated_stream [TagPayload P] [Env] (e : Engine P) {σ σ' : Type} [Reader σ] [Reader σ'] (V : View σ)
    (V' : View σ') (s s₁ : σ) (s' : σ') (cut missing rest : Bytes) (t : Tag P) (hR : V.R s (cut ++ missing ++ rest))
    (h : Factory.deserialize e σ s = (.ok t, s₁)) (hR₁ : V.R s₁ rest) (hne : missing ≠ []) (hR' : V'.R s' cut) :
    ∃ i s₂, Factory.deserialize e σ' s' = (.err (.ioError i), s₂) := by
  have hm := deserialize_matches e V hR
  cases hq : Parser.top e (cut ++ missing ++ rest) with
  | ok t' r =>
    rw [hq] at hm
    obtain ⟨s₂, h2, hR₂⟩ := hm
    rw [h] at h2
    simp only [Prod.mk.injEq] at h2
    rw [← h2.2] at hR₂
    have := V.unique hR₁ hR₂
    subst this
    rw [List.append_assoc] at hq
    have := short_of_prefix (Local.top e) hq (by
      simp only [List.length_append]
      have := List.length_pos_iff.mpr hne
      omega)
    have hm' := deserialize_matches e V' hR'
    rw [this] at hm'
    obtain ⟨i, s₂, h3, -⟩ := hm'
    exact ⟨i, s₂, h3⟩
  | short => rw [hq] at hm; obtain ⟨_, _, h2, _⟩ := hm; rw [h] at h2; simp at h2
  | fail x => rw [hq] at hm; obtain ⟨_, h2⟩ := hm; rw [h] at h2; simp at h2
  | panic => rw [hq] at hm; obtain ⟨_, h2⟩ := hm; rw [h] at h2; simp at h2
  | diverge => rw [hq] at hm; obtain ⟨_, h2⟩ := hm; rw [h] at h2; simp at h2

example : ∃ (s s₁ : ByteArrayReader), ByteArrayReader.view.R s ((enc sample).take 20 ++ (enc sample).drop 20 ++ [1]) ∧
    Factory.deserialize sampleEngine _ s = (.ok (canon sample), s₁) ∧ ByteArrayReader.view.R s₁ [1] := by
  refine ⟨ByteArrayReader.new (enc sample ++ [1]), ?_⟩
  have h := deserialize_matches sampleEngine ByteArrayReader.view.toView (ByteArrayReader.view_new (enc sample ++ [1]))
  rw [top_enc bigEnv_ok sampleEngine sample sample_maps sample_supported [1]] at h
  obtain ⟨s₁, h1, h2⟩ := h
  refine ⟨s₁, ?_, h1, h2⟩
  rw [List.take_append_drop]
  exact ByteArrayReader.view_new _

/-! ### C36 (byte strings) -/

/-- **C36** The standard factory, strict or not, terminates with `Ok` or `Err` on every byte string: no panic, no
endless loop. -/
theorem C36_bytes [TagPayload P] [Env] (hr : MemoryOk) (strict : Bool) (bs : Bytes) :
    (∃ t, Factory.fromBytes (Engine.std strict : Engine P) bs = .ok t) ∨
    ∃ x, Factory.fromBytes (Engine.std strict : Engine P) bs = .err x := by
  have h := Calm.top hr (Engine.std strict : Engine P) (std_calm strict) bs
  have hc := fromBytes_cases (Engine.std strict : Engine P) bs
  cases hq : Parser.top (Engine.std strict : Engine P) bs with
  | ok t rest => rw [hq] at hc; simp only at hc; rw [hc]; split <;> simp
  | short => rw [hq] at hc; obtain ⟨x, hc⟩ := hc; rw [hc]; simp
  | fail x => rw [hq] at hc; simp only at hc; rw [hc]; simp
  | panic => rw [hq] at h; exact h.elim
  | diverge => rw [hq] at h; exact h.elim

/-- **C36** The same for any factory whose creators and payload readers do not panic, on any well-behaved reader. -/
theorem C36_streams [TagPayload P] [Env] (hr : MemoryOk) (e : Engine P) (he : CalmCreators e) {σ : Type} [Reader σ]
    (V : View σ) (s : σ) (bs : Bytes) (hR : V.R s bs) :
    (∃ t, (Factory.deserialize e σ s).1 = .ok t) ∨ ∃ x, (Factory.deserialize e σ s).1 = .err x := by
  have h := Calm.top hr e he bs
  have hm := deserialize_matches e V hR
  cases hq : Parser.top e bs with
  | ok t rest => rw [hq] at hm; obtain ⟨_, hm, _⟩ := hm; rw [hm]; simp
  | short => rw [hq] at hm; obtain ⟨_, _, hm, _⟩ := hm; rw [hm]; simp
  | fail x => rw [hq] at hm; obtain ⟨_, hm⟩ := hm; rw [hm]; simp
  | panic => rw [hq] at h; exact h.elim
  | diverge => rw [hq] at h; exact h.elim

example : CalmCreators (Engine.std true : Engine Empty) := std_calm true

/-- For concrete cases: does the parser fail with this error? -/
def failsWith {α : Type} (x : TagErr) : PRes α → Bool
  | .fail y => y == x
  | _ => false
theorem failsWith_iff {α : Type} {x : TagErr} {r : PRes α} : failsWith x r = true ↔ r = .fail x := by
  cases r <;> simp [failsWith]

/-- A hostile count: a tag array of 2^64 - 1 elements in a value of 10 bytes, and sizes of 2^63. -/
example : Factory.fromBytes (Engine.std true : Engine Empty) [21, 9, 255, 255, 255, 255, 255, 255, 255, 255, 7] =
    .err .corruptedData := by
  have : Parser.top (Engine.std true : Engine Empty) [21, 9, 255, 255, 255, 255, 255, 255, 255, 255, 7] =
      .fail .corruptedData := failsWith_iff.mp (by rw [top_eq]; decide +kernel)
  have h := fromBytes_cases (Engine.std true : Engine Empty) [21, 9, 255, 255, 255, 255, 255, 255, 255, 255, 7]
  rw [this] at h
  exact h

/-! ### C45 -/

/-- **C45** For every id the standard engine returns `Ok`.  For the id of a standard type it is a tag of that type with
that id; the 27 standard ids are distinct; for any other id it is nothing in strict mode, and otherwise an empty raw tag
with that id if it is explicit and nothing if it is implicit. -/
theorem C45_standard_engine (strict : Bool) (id : UInt64) :
    (∀ k, standardId k = some id.toNat →
      ∃ t : Tag P, (Engine.std strict).createTag id = .ok (some t) ∧ t.kind = k ∧ t.id = id) ∧
    ((∀ k, standardId k ≠ some id.toNat) →
      (Engine.std strict : Engine P).createTag id =
        if strict = false ∧ 16 ≤ id.toNat then .ok (some (.atom (.raw id []))) else .ok none) :=
  ⟨fun _ h => std_create h, std_unknown⟩

/-- **C45** There are 27 standard types, all with different ids. -/
theorem C45_standard_ids : standardKinds.length = 27 ∧ (∀ k, k ∈ standardKinds ↔ (standardId k).isSome) ∧
    ∀ k k' n, standardId k = some n → standardId k' = some n → k = k' := by
  refine ⟨rfl, fun k => by cases k <;> decide, ?_⟩
  intro k k' n h h'
  cases k <;> simp only [standardId, Option.some.injEq, reduceCtorEq] at h <;> subst h <;> cases k' <;>
    first | rfl | (simp [standardId] at h')

example : ((Engine.std true).createTag 21 : Res TagErr (Option (Tag Empty))) = .ok (some (.array 21 [])) ∧
    ((Engine.std true).createTag 15 : Res TagErr (Option (Tag Empty))) = .ok none ∧
    ((Engine.std false).createTag 26 : Res TagErr (Option (Tag Empty))) = .ok (some (.atom (.raw 26 []))) :=
  ⟨rfl, rfl, rfl⟩

/-! ### C65 -/

/-- The same outcome, or two i/o errors. -/
def SameClass {α : Type} : Res TagErr α → Res TagErr α → Prop
  | .err (.ioError _), .err (.ioError _) => True
  | r, r' => r = r'

/-- **C65** Deserializing the same bytes through any two well-behaved readers gives the same tag or the same failure
(i/o errors may differ in detail), and after success both readers hold the same remaining bytes. -/
theorem C65_only_bytes [TagPayload P] [Env] (e : Engine P) {σ σ' : Type} [Reader σ] [Reader σ'] (V : View σ)
    (V' : View σ') (s : σ) (s' : σ') (bs : Bytes) (hR : V.R s bs) (hR' : V'.R s' bs) :
    SameClass (Factory.deserialize e σ s).1 (Factory.deserialize e σ' s').1 ∧
    ((Factory.deserialize e σ s).1.isOk = true → ∃ rest, V.R (Factory.deserialize e σ s).2 rest ∧
      V'.R (Factory.deserialize e σ' s').2 rest) := by
  have h := deserialize_matches e V hR
  have h' := deserialize_matches e V' hR'
  cases hq : Parser.top e bs with
  | ok t rest =>
    rw [hq] at h h'
    obtain ⟨_, h1, h2⟩ := h
    obtain ⟨_, h1', h2'⟩ := h'
    rw [h1, h1']
    exact ⟨rfl, fun _ => ⟨rest, h2, h2'⟩⟩
  | short =>
    rw [hq] at h h'
    obtain ⟨_, _, h1, _⟩ := h
    obtain ⟨_, _, h1', _⟩ := h'
    rw [h1, h1']
    exact ⟨trivial, by simp [Res.isOk]⟩
  | fail x =>
    rw [hq] at h h'
    obtain ⟨_, h1⟩ := h
    obtain ⟨_, h1'⟩ := h'
    rw [h1, h1']
    exact ⟨by cases x <;> first | rfl | trivial, by simp [Res.isOk]⟩
  | panic =>
    rw [hq] at h h'
    obtain ⟨_, h1⟩ := h
    obtain ⟨_, h1'⟩ := h'
    rw [h1, h1']
    exact ⟨rfl, by simp [Res.isOk]⟩
  | diverge =>
    rw [hq] at h h'
    obtain ⟨_, h1⟩ := h
    obtain ⟨_, h1'⟩ := h'
    rw [h1, h1']
    exact ⟨rfl, by simp [Res.isOk]⟩

end Verif.Props
