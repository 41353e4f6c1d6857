import Verif.Proof.Depth
import Verif.Proof.Upto
import Verif.Props.Equality
import Verif.Props.Grammar
import Verif.Props.Depth
/-!
# C116: how deep the calls on a tag nest

`levels t` is the number of tags on the longest way from `t` inwards.  The functions with `At k` are those of the program
with room for `k` nested calls: a call beyond that does not return.
-/
namespace Verif.Props
open Verif Verif.Spec
variable {P : Type} [TagPayload P]
set_option linter.unusedSectionVars false

/-- **C116** `value_size` and `size` need exactly as many nested calls as the tag has levels. -/
theorem C116_size (k : Nat) (t : Tag P) :
    t.valueSizeAt k = (if levels t ≤ k then .ok t.valueSize else .diverge) ∧
    t.sizeAt k = (if levels t ≤ k then .ok t.size else .diverge) := ⟨Deep.valueSize_at k t, Deep.size_at k t⟩

/-- **C116** `serialize` needs no more nested calls than the tag has levels, whatever the writer does; with fewer it never
succeeds. -/
theorem C116_serialize (k : Nat) (t : Tag P) {ω : Type} [Writer ω] :
    (levels t ≤ k → (t.serializeAt k : Act TagErr ω Unit) = t.serialize) ∧
    (MapsOk t → k < levels t → ∀ w w' : ω, t.serializeAt k w ≠ (.ok (), w')) :=
  ⟨Deep.serialize_at, fun hm h => Deep.never_serialize hm h⟩

/-- **C116** `to_bytes` needs exactly as many nested calls as the tag has levels. -/
theorem C116_to_bytes [Env] (k : Nat) (t : Tag P) :
    t.toBytesAt k = if levels t ≤ k then t.toBytes else .diverge := by
  rw [Tag.toBytesAt, Deep.size_at]
  split
  · rename_i h
    rw [Deep.serialize_at h]
    rfl
  · rfl

/-- **C116** `iltag_are_equal` with room for the levels of both tags. -/
theorem C116_equal [Env] (k : Nat) (a b : Tag P) (ha : levels a ≤ k) (hb : levels b ≤ k) :
    tagsAreEqualAt k a b = tagsAreEqual a b := by
  unfold tagsAreEqualAt tagsAreEqual
  rw [C116_to_bytes, C116_to_bytes, if_pos ha, if_pos hb]
  rfl

/-- **C116** Whatever the factory and the reader: a tag that was read with at most `k` nested calls of `deserialize` has at
most `k` levels. -/
theorem C116_read [Env] (e : Engine P) (k : Nat) {σ : Type} [Reader σ] (s s' : σ) (t : Tag P)
    (h : Factory.deserializeFuel e k σ none s = (.ok t, s')) : levels t ≤ k := Deep.gives_levels e k σ s s' t h

/-- **C116** Hence with the stack that was enough to read tags they can be measured, written and compared. -/
theorem C116_after_reading [Env] (e e' : Engine P) (k : Nat) {σ σ' : Type} [Reader σ] [Reader σ'] (s₁ s₂ : σ) (s₃ s₄ : σ')
    (t u : Tag P) (h : Factory.deserializeFuel e k σ none s₁ = (.ok t, s₂))
    (h' : Factory.deserializeFuel e' k σ' none s₃ = (.ok u, s₄)) :
    t.sizeAt k = .ok t.size ∧ (∀ (ω : Type) [Writer ω], (t.serializeAt k : Act TagErr ω Unit) = t.serialize) ∧
    t.toBytesAt k = t.toBytes ∧ tagsAreEqualAt k t u = tagsAreEqual t u := by
  have ht := C116_read e k s₁ s₂ t h
  have hu := C116_read e' k s₃ s₄ u h'
  refine ⟨?_, fun ω _ => (C116_serialize k t).1 ht, ?_, C116_equal k t u ht hu⟩
  · rw [(C116_size k t).2, if_pos ht]
  · rw [C116_to_bytes, if_pos ht]

/-- **C116** Whatever the factory and the reader: a call of `deserialize` that returns with room for `k` nested calls, with a
tag, an error or a panic, does what it does with any more room. -/
theorem C116_enough [Env] (e : Engine P) (k : Nat) {σ : Type} [Reader σ] (s : σ)
    (h : (Factory.deserializeFuel e k σ none s).1 ≠ .diverge) :
    Factory.deserialize e σ s = Factory.deserializeFuel e k σ none s := Upto.methods e k σ none s h

/-- **C116** The standard factory reads bytes with at most `k` nested calls exactly if they have a form with at most `k`
levels, entries of dictionaries that are overwritten later included. -/
theorem C116_read_exactly [Env] (hr : MemoryOk) (strict : Bool) (k : Nat) {σ : Type} [Reader σ] (V : View σ) (s : σ)
    (bs : Bytes) (h : V.R s bs) :
    (∀ t s', Factory.deserializeFuel (Engine.std strict) k σ none s = (.ok t, s') →
      ∃ x rest, bs = x ++ rest ∧ FormAt (fun _ => Latest) strict k (t : Tag P) x ∧ V.R s' rest ∧
        Factory.deserialize (Engine.std strict) σ s = (.ok t, s')) ∧
    (∀ (t : Tag P) x rest, bs = x ++ rest → FormAt (fun _ => Latest) strict k t x →
      ∃ t' s', Factory.deserializeFuel (Engine.std strict) k σ none s = (.ok t', s') ∧ Same t' t ∧ V.R s' rest) := by
  have hd := sim_deserializeFuel (Engine.std strict : Engine P) k σ V none s bs h
  constructor
  · intro t s' ht
    cases hp : Parser.tag (Engine.std strict : Engine P) k none bs with
    | ok t' rest =>
      rw [hp] at hd
      obtain ⟨s1, h1, h2⟩ := hd
      rw [ht] at h1
      cases h1
      obtain ⟨x, h3, h4⟩ := (Acc.tag hr strict _ _ _ _).mp hp
      refine ⟨x, rest, h3, formAt_mono (fun _ _ _ => latest_made) (fun _ h => h) (Nat.le_refl _) t _ h4, h2, ?_⟩
      exact (C116_enough _ k s (by rw [ht]; simp)).trans ht
    | short => rw [hp] at hd; obtain ⟨e, s1, h1, -⟩ := hd; rw [ht] at h1; cases h1
    | fail e => rw [hp] at hd; obtain ⟨s1, h1⟩ := hd; rw [ht] at h1; cases h1
    | panic => rw [hp] at hd; obtain ⟨s1, h1⟩ := hd; rw [ht] at h1; cases h1
    | diverge => rw [hp] at hd; obtain ⟨s1, h1⟩ := hd; rw [ht] at h1; cases h1
  · intro t x rest hb hx
    obtain ⟨t', h1, h2⟩ := formAt_made t x hx
    rw [(Acc.tag hr strict k bs t' rest).mpr ⟨x, hb, h1⟩] at hd
    obtain ⟨s', h3, h4⟩ := hd
    exact ⟨t', s', h3, h2, h4⟩

theorem standard_payloads {strict : Bool} {t : Tag P} (hs : ∀ u, Within u t → StdTag strict u) : PayloadsOk t := by
  intro id p hu
  rcases hs _ hu with h | ⟨-, h, -⟩
  · simp [Tag.kind, Atom.kind, standardId] at h
  · simp [Tag.kind, Atom.kind] at h

theorem fromBytesAt_eq [Env] (e : Engine P) (k : Nat) (bs : Bytes) (h : Factory.fromBytesAt e k bs ≠ .diverge) :
    Factory.fromBytes e bs = Factory.fromBytesAt e k bs := by
  have := C116_enough e k (ByteArrayReader.new bs) (fun hd => h (by
    unfold Factory.fromBytesAt
    rcases hr : Factory.deserializeFuel e k ByteArrayReader none (ByteArrayReader.new bs) with ⟨r, s⟩
    rw [hr] at hd
    simp only at hd
    subst hd
    rfl))
  unfold Factory.fromBytes Factory.fromBytesAt
  rw [this]
  rfl

/-- **C116** The bytes of a tag can be read back with room for as many nested calls as the tag has levels, and not with
room for fewer. -/
theorem C116_canonical [Env] (hr : MemoryOk) (strict : Bool) (k : Nat) (t : Tag P) (bs : Bytes) (hm : MapsOk t)
    (hs : ∀ u, Within u t → StdTag strict u ∧ (encValue u).length ≤ maxValue) (hb : t.toBytes = .ok bs) :
    Factory.fromBytesAt (Engine.std strict : Engine P) k bs =
      if levels t ≤ k then Factory.fromBytes (Engine.std strict) bs else .diverge := by
  have he := toBytes_eq_enc hr hm (standard_payloads fun u hu => (hs u hu).1) (std_supported hs)
  rw [he] at hb
  obtain rfl : enc t = bs := by injection hb
  have hback : Factory.fromBytes (Engine.std strict) (enc t) = .ok (canon t) := by
    rw [fromBytes_ok_iff]; simpa using top_enc hr (Engine.std strict) t hm (std_supported hs) []
  have hsame := same_canon hm
  by_cases hl : levels t ≤ k
  · rw [if_pos hl]
    refine (fromBytesAt_eq _ k _ ?_).symm
    obtain ⟨j, hf⟩ := C77_sound hr strict _ _ hback
    have h1 := Deep.enc_formAt k j t _ hl (formAt_same _ _ _ hf hsame.symm hm) fun u hu => (hs u hu).2
    obtain ⟨t', s', h2, -, h3⟩ := (C116_read_exactly hr strict k ByteArrayReader.view.toView _ _ (ByteArrayReader.view_new (enc t))).2
      t (enc t) [] (by simp) h1
    unfold Factory.fromBytesAt
    rw [h2]
    simp only
    split <;> simp
  · rw [if_neg hl]
    refine Classical.byContradiction fun hd => ?_
    have h1 := (fromBytesAt_eq _ k _ hd).symm.trans hback
    unfold Factory.fromBytesAt at h1
    rcases h2 : Factory.deserializeFuel (Engine.std strict : Engine P) k ByteArrayReader none (ByteArrayReader.new (enc t)) with ⟨r, s⟩
    rw [h2] at h1
    cases r with
    | ok u =>
      simp only at h1
      split at h1
      · obtain rfl : u = canon t := by injection h1
        have := C116_read _ k _ _ _ h2
        have := Deep.same_levels hsame
        omega
      · simp at h1
    | _ => simp at h1

/-- **C116** Likewise a copy made with the standard factory. -/
theorem C116_clone [Env] (hr : MemoryOk) (strict : Bool) (k : Nat) (t : Tag P) (hm : MapsOk t)
    (hs : ∀ u, Within u t → StdTag strict u ∧ (encValue u).length ≤ maxValue) :
    tagCloneWithFactoryAt (Engine.std strict) k t =
      if levels t ≤ k then tagCloneWithFactory (Engine.std strict) t else .diverge := by
  have he := toBytes_eq_enc hr hm (standard_payloads fun u hu => (hs u hu).1) (std_supported hs)
  unfold tagCloneWithFactoryAt tagCloneWithFactory
  rw [C116_to_bytes]
  split
  · rename_i hl
    rw [he]
    show Factory.fromBytesAt _ _ _ = Factory.fromBytes _ _
    rw [C116_canonical hr strict k t _ hm hs he, if_pos hl]
  · rfl

/-- **C116** A tag read by a standard factory with room for `k` nested calls can be copied with the same room, by
serializing it and reading the bytes. -/
theorem C116_copy [Env] (hr : MemoryOk) (strict : Bool) (k : Nat) (bs : Bytes) (t : Tag P)
    (h : Factory.fromBytesAt (Engine.std strict) k bs = .ok t) :
    ∃ t', tagCloneWithFactoryAt (Engine.std strict) k t = .ok t' ∧ Same t t' := by
  have h0 := (fromBytesAt_eq _ k bs (by rw [h]; simp)).trans h
  obtain ⟨hm, hs⟩ := C35_accepted_tags strict bs t h0
  have hl : levels t ≤ k := by
    unfold Factory.fromBytesAt at h
    rcases h2 : Factory.deserializeFuel (Engine.std strict : Engine P) k ByteArrayReader none (ByteArrayReader.new bs) with ⟨r, s⟩
    rw [h2] at h
    cases r with
    | ok u =>
      simp only at h
      split at h
      · obtain rfl : u = t := by injection h
        exact C116_read _ k _ _ _ h2
      · simp at h
    | _ => simp at h
  refine ⟨canon t, ?_, same_canon hm⟩
  rw [C116_clone hr strict k t hm hs, if_pos hl]
  unfold tagCloneWithFactory
  rw [toBytes_eq_enc hr hm (standard_payloads fun u hu => (hs u hu).1) (std_supported hs)]
  show Factory.fromBytes _ _ = _
  rw [fromBytes_ok_iff]; simpa using top_enc hr (Engine.std strict) t hm (std_supported hs) []

/-- **C116** A tag read by the standard factory has at most half as many levels as it had bytes, plus one. -/
theorem C116_half [Env] (hr : MemoryOk) (strict : Bool) {σ : Type} [Reader σ] (V : View σ) (s s' : σ) (bs : Bytes)
    (hR : V.R s bs) (t : Tag P) (h : Factory.deserialize (Engine.std strict) σ s = (.ok t, s')) :
    levels t ≤ bs.length / 2 + 1 := by
  have h1 := C62_returns (P := P) hr strict V s bs hR _ (Nat.le_refl _)
  exact C116_read _ _ _ _ _ ((C116_enough _ _ _ h1).symm.trans h)

/-! ### The hypotheses are met -/

section
attribute [local instance] bigEnv

/-- Two sequences around a byte: three levels. -/
private def three : Tag Empty := .seq 22 [.seq 22 [.atom (.uint8 3 7)], .atom (.uint8 3 1)]

example : levels three = 3 := by decide +kernel
example : (match three.sizeAt 2, three.sizeAt 3 with
    | .diverge, .ok n => n == three.size
    | _, _ => false) = true := by decide +kernel
example : (match three.toBytesAt 2, three.toBytesAt 3 with
    | .diverge, .ok bs => bs == [22, 6, 22, 2, 3, 7, 3, 1]
    | _, _ => false) = true := by decide +kernel
example : (match Factory.fromBytesAt (Engine.std false : Engine Empty) 2 [22, 6, 22, 2, 3, 7, 3, 1],
      Factory.fromBytesAt (Engine.std false : Engine Empty) 3 [22, 6, 22, 2, 3, 7, 3, 1] with
    | .diverge, .ok t => levels t == 3
    | _, _ => false) = true := by decide +kernel
example : (match tagCloneWithFactoryAt (Engine.std false) 2 three, tagCloneWithFactoryAt (Engine.std false) 3 three with
    | .diverge, .ok t => levels t == 3
    | _, _ => false) = true := by decide +kernel
/-- The first value of the key `a` is replaced by the second: the tag read has two levels, reading it takes three. -/
example : (match Factory.fromBytesAt (Engine.std false : Engine Empty) 2 [30, 13, 2, 17, 1, 97, 22, 2, 3, 7, 17, 1, 97, 3, 7],
      Factory.fromBytesAt (Engine.std false : Engine Empty) 3 [30, 13, 2, 17, 1, 97, 22, 2, 3, 7, 17, 1, 97, 3, 7] with
    | .diverge, .ok t => levels t == 2
    | _, _ => false) = true := by decide +kernel
/-- A call that returns with an error. -/
example : (match Factory.fromBytesAt (Engine.std true : Engine Empty) 1 [77, 0] with
    | .err .unknownTag => true
    | _ => false) = true := by decide +kernel
end

end Verif.Props
