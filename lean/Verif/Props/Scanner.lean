import Verif.Proof.Scan
import Verif.Proof.Deliver
import Verif.Props.RoundTrip
import Verif.Props.Streams
/-!
# Property theorems: the raw tag scanner and raw offsets

`SkipView` describes the readers whose `skip`/`skip_u64` agree with reading: byte slices, vectors, plain streams and
limited readers over them.  `m` ranges over debug (checked) and release (wrapping) arithmetic.
-/
namespace Verif.Props
open Verif Verif.Spec
set_option linter.unusedSectionVars false

section
variable {σ : Type} [Reader σ] {m : ArithMode} {P : Type} [TagPayload P]

/-! ### C56 -/

theorem enc_eq (t : Tag P) : enc t = wrap t.id (encValue t) := rfl

theorem stdLayout_layout {t : Tag P} (h : StdLayout t) (hl : (encValue t).length < 2 ^ 64) :
    ∃ sz, enc t = Spec.ilint t.id.toNat ++ sz ++ encValue t ∧ sz.length = minSize t.id.toNat (encValue t) ∧
      Layout t.id.toNat sz (encValue t) := by
  have he : enc t = wrap t.id (encValue t) := enc_eq t
  rw [he]
  unfold Layout minSize
  rcases h with h | ⟨h, v, hv⟩ | ⟨h1, h2, h3, h4⟩
  · refine ⟨_, wrap_explicit (by omega) _, by rw [if_pos h], ?_⟩
    rw [if_pos h]; exact ILInt.isILInt_ilint hl
  · refine ⟨[], ?_, ?_, ?_⟩
    · rw [wrap_implicit (by omega)]; simp
    · rw [if_neg (by omega)]; rfl
    · rw [if_neg (by omega), if_pos h, hv]
      exact ⟨rfl, isILInt_tail (ILInt.isILInt_ilint v.toNat_lt)⟩
  · refine ⟨[], ?_, ?_, ?_⟩
    · rw [wrap_implicit (by omega)]; simp
    · rw [if_neg (by omega)]; rfl
    · rw [if_neg (by omega), if_neg (by omega)]
      exact ⟨rfl, by omega, h4⟩

theorem scan_from (V : SkipView σ) (ts : List (Tag P)) : ∀ (pos : Nat) (s : σ) (x : Bytes),
    V.R s (ts.flatMap enc ++ x) → (∀ t ∈ ts, StdLayout t) → pos + (ts.flatMap enc).length < 2 ^ 64 →
    ∃ s', ScanSeq m ⟨UInt64.ofNat pos, s⟩ (positions pos ts)
        ⟨UInt64.ofNat (pos + (ts.flatMap enc).length), s'⟩ ∧ V.R s' x := by
  induction ts with
  | nil => intro pos s x hR _ _; exact ⟨s, by simpa [positions] using ScanSeq.nil _, by simpa using hR⟩
  | cons t ts ih =>
    intro pos s x hR hl hp
    simp only [List.flatMap_cons, List.length_append] at hR hp
    have hlen : (encValue t).length ≤ (enc t).length := by rw [enc_eq]; exact Nat.le_of_succ_le (wrap_length_ge _ _)
    obtain ⟨sz, he, hsz, hlay⟩ := stdLayout_layout (hl t (List.mem_cons_self ..)) (by omega)
    have heq : (enc t).length = (Spec.ilint t.id.toNat).length + minSize t.id.toNat (encValue t) + (encValue t).length := by
      rw [he]; simp only [List.length_append, hsz]
    have hpos : (UInt64.ofNat pos).toNat = pos := ofNat_toNat64 (by omega)
    have hb : enc t ++ ts.flatMap enc ++ x = Spec.ilint t.id.toNat ++ sz ++ encValue t ++ (ts.flatMap enc ++ x) := by
      rw [he]; simp
    obtain ⟨s₁, h1, h2⟩ := nextTag_of_layout (m := m) (off := UInt64.ofNat pos) (ILInt.isILInt_ilint t.id.toNat_lt) hlay
      (V := V) (rest := ts.flatMap enc ++ x) (by rw [← hb]; exact hR) (by rw [hpos, ← heq]; omega)
    obtain ⟨s₂, h3, h4⟩ := ih (pos + (enc t).length) s₁ x h2 (fun u hu => hl u (List.mem_cons_of_mem _ hu)) (by omega)
    refine ⟨s₂, ?_, h4⟩
    rw [List.flatMap_cons, List.length_append, ← Nat.add_assoc]
    refine .cons ?_ h3
    rw [h1, ← UInt64.ofNat_add, ← heq,
      show (Spec.ilint t.id.toNat).length + minSize t.id.toNat (encValue t) = (enc t).length - (encValue t).length by omega]

/-- **C56** Scanning the serialized tags, written one after another and followed by anything, finds the tags where they
are, one by one, and leaves the reader behind the last one. -/
theorem C56_scan (V : SkipView σ) (ts : List (Tag P)) (s : σ) (x : Bytes) (hR : V.R s (ts.flatMap enc ++ x))
    (hl : ∀ t ∈ ts, StdLayout t) (hlen : (ts.flatMap enc).length < 2 ^ 64) :
    ∃ s', ScanSeq m (RawTagScanner.new s) (positions 0 ts) ⟨UInt64.ofNat (ts.flatMap enc).length, s'⟩ ∧ V.R s' x := by
  have := scan_from (m := m) V ts 0 s x hR hl (by omega)
  rw [Nat.zero_add] at this
  exact this

theorem positions_length (ts : List (Tag P)) : ∀ pos, (positions pos ts).length = ts.length := by
  induction ts with
  | nil => intro pos; rfl
  | cons t ts ih => intro pos; simp [positions, ih]

theorem positions_split (a : List (Tag P)) (t : Tag P) (b : List (Tag P)) : ∀ pos,
    positions pos (a ++ t :: b) = positions pos a ++ positions (pos + (a.flatMap enc).length) (t :: b) := by
  induction a with
  | nil => intro pos; simp [positions]
  | cons u us ih =>
    intro pos
    simp only [List.cons_append, positions, ih, List.flatMap_cons, List.length_append, Nat.add_assoc]

theorem slice_mid (a v b : Bytes) : RawTagOffset.slice (a ++ v ++ b) a.length (a.length + v.length) = .ok v := by
  unfold RawTagOffset.slice
  rw [if_pos (by simp only [List.length_append]; omega)]
  congr 1
  rw [show a.length + v.length = (a ++ v).length by simp, List.take_left, List.drop_left]

/-- Slicing with the offsets of something that lies at `a.length`. -/
theorem slices_at (o : RawTagOffset) (a h v b : Bytes) (hlt : (a ++ h ++ v).length < 2 ^ 64)
    (ho : o.offset.toNat = a.length) (hh : o.headerSize.toNat = h.length) (hv : o.valueSize.toNat = v.length) :
    o.tagSlice m (a ++ h ++ v ++ b) = .ok (h ++ v) ∧ o.valueSlice m (a ++ h ++ v ++ b) = .ok v ∧
    o.nextTagOffset m = .ok (UInt64.ofNat (a ++ h ++ v).length) := by
  simp only [List.length_append] at hlt
  have e1 : (o.headerSize + o.valueSize).toNat = h.length + v.length := by
    rw [UInt64.toNat_add, hh, hv, Nat.mod_eq_of_lt (by omega)]
  have e2 : (o.offset + (o.headerSize + o.valueSize)).toNat = a.length + h.length + v.length := by
    rw [UInt64.toNat_add, e1, ho, Nat.mod_eq_of_lt (by omega)]; omega
  have e3 : (o.offset + o.headerSize).toNat = a.length + h.length := by
    rw [UInt64.toNat_add, ho, hh, Nat.mod_eq_of_lt (by omega)]
  have h1 : o.size m = .ok (o.headerSize + o.valueSize) := by
    unfold RawTagOffset.size; exact addU64_ok (by omega)
  have h2 : o.nextTagOffset m = .ok (o.offset + (o.headerSize + o.valueSize)) := by
    unfold RawTagOffset.nextTagOffset
    rw [h1]
    exact addU64_ok (by rw [e1]; omega)
  have h3 : o.valueOffset m = .ok (o.offset + o.headerSize) := by
    unfold RawTagOffset.valueOffset; exact addU64_ok (by omega)
  refine ⟨?_, ?_, ?_⟩
  · unfold RawTagOffset.tagSlice RawTagOffset.tagEnd RawTagOffset.valueEnd RawTagOffset.tagStart
    rw [h2]
    show RawTagOffset.slice _ _ (o.offset + (o.headerSize + o.valueSize)).toNat = _
    rw [e2, ho]
    have := slice_mid a (h ++ v) b
    rw [List.length_append, ← Nat.add_assoc] at this
    simpa only [List.append_assoc] using this
  · unfold RawTagOffset.valueSlice RawTagOffset.valueEnd RawTagOffset.valueStart
    rw [h2, h3]
    show RawTagOffset.slice _ (o.offset + o.headerSize).toNat (o.offset + (o.headerSize + o.valueSize)).toNat = _
    rw [e2, e3]
    have := slice_mid (a ++ h) v b
    rw [List.length_append] at this
    exact this
  · rw [h2]
    congr 1
    apply UInt64.toNat_inj.mp
    rw [e2, ofNat_toNat64 (by simp only [List.length_append]; omega)]
    simp only [List.length_append]

/-- **C56** With the reported positions, `tag_slice` and `value_slice` cut each tag and its value out of the raw bytes,
and each tag starts where the one before it ends. -/
theorem C56_slices (a : List (Tag P)) (t : Tag P) (b : List (Tag P)) (x : Bytes)
    (hlen : ((a ++ t :: b).flatMap enc).length < 2 ^ 64) :
    ∃ o, (positions 0 (a ++ t :: b))[a.length]? = some o ∧ o.id = t.id ∧
      o.tagSlice m ((a ++ t :: b).flatMap enc ++ x) = .ok (enc t) ∧
      o.valueSlice m ((a ++ t :: b).flatMap enc ++ x) = .ok (encValue t) ∧
      (∀ o', (positions 0 (a ++ t :: b))[a.length + 1]? = some o' → o.nextTagOffset m = .ok o'.offset) ∧
      (b = [] → o.nextTagOffset m = .ok (UInt64.ofNat ((a ++ t :: b).flatMap enc).length)) := by
  rw [positions_split a t b 0, Nat.zero_add]
  have e0 : (positions 0 a).length = a.length := positions_length a 0
  obtain ⟨hd, hhd⟩ : ∃ hd, enc t = hd ++ encValue t := by rw [enc_eq]; unfold wrap; exact ⟨_, rfl⟩
  have hcat : (a ++ t :: b).flatMap enc = a.flatMap enc ++ hd ++ encValue t ++ b.flatMap enc := by
    simp only [List.flatMap_append, List.flatMap_cons, hhd, List.append_assoc]
  have hle : (enc t).length - (encValue t).length = hd.length := by rw [hhd, List.length_append]; omega
  rw [hcat] at hlen ⊢
  have hlt : (a.flatMap enc ++ hd ++ encValue t).length < 2 ^ 64 := by
    simp only [List.length_append] at hlen ⊢; omega
  have hlt' := hlt
  simp only [List.length_append] at hlt'
  have hs := slices_at (m := m) ⟨t.id, UInt64.ofNat (a.flatMap enc).length, UInt64.ofNat ((enc t).length - (encValue t).length),
      UInt64.ofNat (encValue t).length⟩ (a.flatMap enc) hd (encValue t) (b.flatMap enc ++ x) hlt
    (ofNat_toNat64 (by omega)) (by simp only [hle]; exact ofNat_toNat64 (by omega)) (ofNat_toNat64 (by omega))
  refine ⟨⟨t.id, UInt64.ofNat (a.flatMap enc).length, UInt64.ofNat ((enc t).length - (encValue t).length),
      UInt64.ofNat (encValue t).length⟩, ?_, rfl, ?_, ?_, ?_, ?_⟩
  · rw [List.getElem?_append_right (by omega), e0, Nat.sub_self]
    rfl
  · rw [List.append_assoc, hs.1, hhd]
  · rw [List.append_assoc, hs.2.1]
  · intro o' ho'
    rw [List.getElem?_append_right (by omega), e0, Nat.add_sub_cancel_left] at ho'
    rw [hs.2.2]
    cases b with
    | nil => simp [positions] at ho'
    | cons u us =>
      simp only [positions, List.getElem?_cons_succ, List.getElem?_cons_zero, Option.some.injEq] at ho'
      rw [← ho', hhd]
      simp only [List.length_append, Nat.add_assoc]
  · rintro rfl
    rw [hs.2.2]; simp


/-- Sample: the list of a dictionary, an integer and an ILInt, scanned in a vector. -/
def scanSample : List (Tag Empty) := [stdSample, .atom (.uint16 5 7), .atom (.ilint 10 300), .atom (.raw 1000 [1, 2, 3])]

example : ∃ s', ScanSeq .checked (RawTagScanner.new (ByteArrayReader.new (scanSample.flatMap enc ++ [1, 2])))
    (positions 0 scanSample) ⟨UInt64.ofNat (scanSample.flatMap enc).length, s'⟩ ∧ ByteArrayReader.view.R s' [1, 2] :=
  C56_scan ByteArrayReader.view scanSample _ [1, 2] (ByteArrayReader.view_new _)
    (by
      intro t ht
      simp only [scanSample, List.mem_cons, List.not_mem_nil, or_false] at ht
      rcases ht with rfl | rfl | rfl | rfl
      · exact .inl (by decide)
      · exact .inr (.inr (by decide))
      · exact .inr (.inl ⟨by decide, 300, rfl⟩)
      · exact .inl (by decide))
    (by decide +kernel)
example : ((positions 0 scanSample).map fun o => (o.offset, o.headerSize, o.valueSize)) =
    [(0, 2, 36), (38, 1, 2), (41, 1, 2), (44, 4, 3)] := by decide +kernel

/-! ### C57 -/

section
variable [Env]

/-- **C57** Over a factory whose creators are faithful, if `next_tag` and `deserialize` both succeed on the same reader,
they find the same id and leave the reader holding the same bytes. -/
theorem C57_advance (V : SkipView σ) {e : Engine P} (he : Faithful e) {sc sc' : RawTagScanner σ} {s' : σ}
    {r : Option RawTagOffset} {t : Tag P} {bs : Bytes} (hR : V.R sc.reader bs)
    (h1 : RawTagScanner.nextTag m sc = (.ok r, sc')) (h2 : Factory.deserialize e σ sc.reader = (.ok t, s')) :
    ∃ o rest, r = some o ∧ o.id = t.id ∧ V.R sc'.reader rest ∧ V.R s' rest := by
  obtain ⟨o, idb, sz, value, rest, rfl, hb, hid, hlay, hrest, -⟩ := layout_of_nextTag h1 hR
  have hm := deserialize_matches e V.toView hR
  rw [h2] at hm
  cases hp : Parser.top e bs with
  | ok t' rest' =>
    rw [hp] at hm
    obtain ⟨s'', heq, hrest'⟩ := hm
    simp only [Prod.mk.injEq, Res.ok.injEq] at heq
    obtain ⟨rfl, rfl⟩ := heq
    obtain ⟨idb', sz', value', hb', hid', hlay'⟩ := top_layout he hp
    subst hb
    simp only [List.append_assoc] at hb'
    obtain ⟨rfl, hideq, hb'⟩ := isILInt_append hid hid' hb'
    have hido : o.id = t.id := UInt64.toNat_inj.mp hideq
    have h15 : t.id.toNat ≠ 15 := by
      intro h15
      rw [hideq, h15] at hlay
      unfold Layout at hlay
      rw [if_neg (by omega), if_neg (by omega)] at hlay
      exact hlay.2.1 rfl
    rw [hideq] at hlay
    obtain ⟨-, -, rfl⟩ := layout_unique hlay (hlay' h15) (by simpa only [List.append_assoc] using hb')
    exact ⟨o, rest, rfl, hido, hrest, hrest'⟩
  | short => rw [hp] at hm; obtain ⟨_, _, heq, _⟩ := hm; simp at heq
  | _ => rw [hp] at hm; obtain ⟨_, heq⟩ := hm; simp at heq

/-- **C57** What such a factory accepts, the scanner accepts too (the id 15 aside), as long as the data is shorter than
2^64 bytes. -/
theorem C57_scans (V : SkipView σ) {e : Engine P} (he : Faithful e) {sc : RawTagScanner σ} {s' : σ} {t : Tag P}
    {bs : Bytes} (hR : V.R sc.reader bs) (h : Factory.deserialize e σ sc.reader = (.ok t, s')) (h15 : t.id ≠ 15)
    (hlen : sc.offset.toNat + bs.length < 2 ^ 64) :
    ∃ o sc' rest, RawTagScanner.nextTag m sc = (.ok (some o), sc') ∧ o.id = t.id ∧ V.R sc'.reader rest ∧ V.R s' rest := by
  have hm := deserialize_matches e V.toView hR
  rw [h] at hm
  cases hp : Parser.top e bs with
  | ok t' rest' =>
    rw [hp] at hm
    obtain ⟨s'', heq, hrest'⟩ := hm
    simp only [Prod.mk.injEq, Res.ok.injEq] at heq
    obtain ⟨rfl, rfl⟩ := heq
    obtain ⟨idb, sz, value, rfl, hid, hlay⟩ := top_layout he hp
    have hlay := hlay (fun hx => h15 (UInt64.toNat_inj.mp hx))
    simp only [List.length_append] at hlen
    have hmin : minSize t.id.toNat value ≤ sz.length := by
      unfold Layout at hlay
      unfold minSize
      split
      · next h16 => rw [if_pos h16] at hlay; exact (ILInt.ilint_shortest hlay).1
      · omega
    have := (ILInt.ilint_shortest hid).1
    obtain ⟨s₃, h1, h2⟩ := nextTag_of_layout (V := V) (m := m) (off := sc.offset) hid hlay hR (by omega)
    exact ⟨_, _, _, h1, rfl, h2, hrest'⟩
  | short => rw [hp] at hm; obtain ⟨_, _, heq, _⟩ := hm; simp at heq
  | _ => rw [hp] at hm; obtain ⟨_, heq⟩ := hm; simp at heq

/-- **C57** The standard factories are of this kind. -/
theorem C57_standard (strict : Bool) : Faithful (Engine.std strict : Engine P) := std_faithful strict

end

section
attribute [local instance] bigEnv

/-- A raw tag with its id 300 in three bytes where two would do, and one byte after it. -/
def longIdTag : Bytes := [249, 0, 52, 3, 1, 2, 3, 9]

/-- The result is a tag with this id and this many bytes are left. -/
def okWith (id : UInt64) (left : Nat) : Res TagErr (Tag Empty) × ByteArrayReader → Bool
  | (.ok t, s) => t.id == id && s.available == left
  | _ => false
def scanWith (id : UInt64) (left : Nat) : Res TagErr (Option RawTagOffset) × RawTagScanner ByteArrayReader → Bool
  | (.ok (some o), s) => o.id == id && s.reader.available == left
  | _ => false

example : okWith 300 1 (Factory.deserialize (Engine.std false) ByteArrayReader (ByteArrayReader.new longIdTag)) = true ∧
    scanWith 300 1 (RawTagScanner.nextTag .checked (RawTagScanner.new (ByteArrayReader.new longIdTag))) = true := by
  constructor
  · rw [deserialize_eq]; decide +kernel
  · decide +kernel

/-- **C57** With other creators it need not hold.  A creator for the id 1000 that makes plain ILInt tags (id 10) has the
factory stop after the ILInt, two bytes before the end of the tag, and report the id 10. -/
theorem C57_unfaithful : ∃ (e : Engine Empty) (bs : Bytes),
    okWith 10 2 (Factory.deserialize e ByteArrayReader (ByteArrayReader.new bs)) = true ∧
    scanWith 1000 0 (RawTagScanner.nextTag .checked (RawTagScanner.new (ByteArrayReader.new bs))) = true := by
  refine ⟨((Engine.std false).register 1000 (fun _ => .ok (.atom (.ilint 10 0)))).2, [249, 2, 240, 3, 5, 6, 7], ?_, ?_⟩
  · rw [deserialize_eq]; decide +kernel
  · decide +kernel

/-- **C57** Also with the crate's own creators: a string type registered for the id 10 takes nine bytes, the scanner
one. -/
theorem C57_unfaithful_kind : ∃ bs : Bytes,
    okWith 10 0 (Factory.deserialize ((Engine.std false).register 10 (withIdCreatorOf .string)).2 ByteArrayReader
      (ByteArrayReader.new bs)) = true ∧
    scanWith 10 8 (RawTagScanner.nextTag .checked (RawTagScanner.new (ByteArrayReader.new bs))) = true := by
  refine ⟨[10, 65, 65, 65, 65, 65, 65, 65, 65, 65], ?_, ?_⟩
  · rw [deserialize_eq]; decide +kernel
  · decide +kernel
end

/-! ### C58 -/

/-- **C58** What `next_tag` accepts has the layout of a tag: identifier, size field, value.  The reported position is the
scanner's own, the value size is right, and the header size is the one of the shortest form: never more than the true
one, and equal to it exactly when identifier and size field are in their shortest form.  The scanner's position advances
by the reported size. -/
theorem C58_reported (V : SkipView σ) {sc sc' : RawTagScanner σ} {r : Option RawTagOffset} {bs : Bytes}
    (h : RawTagScanner.nextTag m sc = (.ok r, sc')) (hR : V.R sc.reader bs) :
    ∃ o idb sz value rest, r = some o ∧ bs = idb ++ sz ++ value ++ rest ∧ IsILInt idb o.id.toNat ∧
      Layout o.id.toNat sz value ∧ V.R sc'.reader rest ∧
      o.offset = sc.offset ∧ o.valueSize.toNat = value.length ∧
      sc'.offset = sc.offset + (o.headerSize + o.valueSize) ∧
      o.headerSize.toNat ≤ idb.length + sz.length ∧
      (o.headerSize.toNat = idb.length + sz.length ↔
        idb = Spec.ilint o.id.toNat ∧ (16 ≤ o.id.toNat → sz = Spec.ilint value.length)) := by
  obtain ⟨o, idb, sz, value, rest, rfl, hb, hid, hlay, hrest, h1, h2, h3, h4, h5⟩ := layout_of_nextTag h hR
  refine ⟨o, idb, sz, value, rest, rfl, hb, hid, hlay, hrest, h1, h4, ?_, ?_⟩
  · rw [h5, h2, h3, ← UInt64.ofNat_add]
  have hi := ILInt.ilint_shortest hid
  have hi9 := ilint_le9 o.id.toNat
  have hm9 : minSize o.id.toNat value ≤ 9 := by
    unfold minSize; split
    · exact ilint_le9 _
    · omega
  have hh : o.headerSize.toNat = (Spec.ilint o.id.toNat).length + minSize o.id.toNat value := by
    rw [h2]; exact ofNat_toNat64 (by omega)
  rw [hh]
  unfold minSize
  unfold Layout at hlay
  by_cases h16 : 16 ≤ o.id.toNat
  · rw [if_pos h16] at hlay ⊢
    have hs := ILInt.ilint_shortest hlay
    refine ⟨by omega, fun he => ⟨hi.2 (by omega), fun _ => hs.2 (by omega)⟩, fun ⟨e1, e2⟩ => ?_⟩
    rw [← e1, ← e2 h16]
  · rw [if_neg h16] at hlay ⊢
    obtain ⟨rfl, -⟩ := hlay
    refine ⟨by simp; omega, fun he => ⟨hi.2 (by simpa using he.symm), fun h => absurd h h16⟩, fun ⟨e1, _⟩ => ?_⟩
    rw [← e1]; simp

/-- **C58** So the offsets of the following tags drift: scanning `longIdTag` and then a null tag, the second tag is
reported at 6 while it lies at 7, and its slice is the last byte of the first one's value. -/
theorem C58_drift : ∃ (bs : Bytes) (o₁ o₂ : RawTagOffset) (sc' : RawTagScanner ByteArrayReader),
    ScanSeq .checked (RawTagScanner.new (ByteArrayReader.new bs)) [o₁, o₂] sc' ∧ sc'.reader.available = 0 ∧
    o₂.id = 0 ∧ bs[7]? = some 0 ∧ bs.length = 8 ∧ o₂.offset = 6 ∧ o₂.tagSlice .checked bs = .ok [3] :=
  ⟨[249, 0, 52, 3, 1, 2, 3, 0], ⟨300, 0, 3, 3⟩, ⟨0, 6, 1, 0⟩,
    ⟨7, ⟨[249, 0, 52, 3, 1, 2, 3, 0], 8⟩⟩, .cons (s' := ⟨6, ⟨[249, 0, 52, 3, 1, 2, 3, 0], 7⟩⟩) (by decide +kernel)
      (.cons (by decide +kernel) (.nil _)),
    rfl, rfl, rfl, rfl, rfl, rfl⟩

/-! ### C59 -/

/-- **C59** `next_tag` has no "no more tags": a success always carries a tag (for any reader). -/
theorem C59_never_none (sc : RawTagScanner σ) : (RawTagScanner.nextTag m sc).1 ≠ .ok none := by
  intro h
  rcases hx : RawTagScanner.nextTag m sc with ⟨r, sc'⟩
  rw [hx] at h
  simp only at h
  subst h
  obtain ⟨o, _, _, _, _, h, _⟩ := RawTagScanner.nextTag_inv hx
  cases h

example : (RawTagScanner.nextTag .checked (RawTagScanner.new (ByteArrayReader.new [17, 1, 97, 5]))).1 =
    .ok (some ⟨17, 0, 2, 1⟩) := by decide +kernel

/-- **C59** The end of the data is an error, like any data that ends before the tag does. -/
theorem C59_end (V : SkipView σ) (sc : RawTagScanner σ) (hR : V.R sc.reader []) :
    ∃ e sc', RawTagScanner.nextTag m sc = (.err (.ioError e), sc') ∧ V.E e := by
  obtain ⟨e, s', h1, h2⟩ := V.read_nil hR
  have h3 : (Ser.deserializeILInt : Act TagErr σ UInt64) sc.reader = (.err (.ioError e), s') := by
    rw [deserializeILInt_eq]
    exact Act.bind_err (by simp only [tagIo, Act.mapErr, h1, Res.mapErr])
  refine ⟨e, { sc with reader := s' }, ?_, h2⟩
  unfold RawTagScanner.nextTag
  exact Act.bind_err (RawTagScanner.onReader_apply h3)

example : (RawTagScanner.nextTag .checked (RawTagScanner.new (ByteArrayReader.new []))).1 = .err (.ioError .endOfData) := by
  decide +kernel

/-- **C59** A tag with the id 15 is rejected. -/
theorem C59_fifteen (sc : RawTagScanner σ) (s' : σ)
    (h : (Ser.deserializeILInt : Act TagErr σ UInt64) sc.reader = (.ok 15, s')) :
    RawTagScanner.nextTag m sc = (.err .corruptedData, { sc with reader := s' }) := by
  unfold RawTagScanner.nextTag
  rw [Act.bind_ok (RawTagScanner.onReader_apply h)]
  exact Act.bind_err rfl

example : (Ser.deserializeILInt : Act TagErr _ UInt64) (ByteArrayReader.new [15, 1]) = (.ok 15, ⟨[15, 1], 1⟩) := by
  decide +kernel

/-- **C59** `next_tag_if_id` is `next_tag`, with the tag rejected after the fact if it has another id. -/
theorem C59_if_id (sc : RawTagScanner σ) (id : UInt64) :
    RawTagScanner.nextTagIfId m id sc =
      match RawTagScanner.nextTag m sc with
      | (.ok (some o), sc') => if o.id = id then (.ok (some o), sc') else (.err .unexpectedTagType, sc')
      | out => out := by
  unfold RawTagScanner.nextTagIfId
  rcases hx : RawTagScanner.nextTag m sc with ⟨r, sc'⟩
  cases r with
  | ok o =>
    rw [Act.bind_ok hx]
    cases o with
    | none => rfl
    | some o => simp only; split <;> rfl
  | err e => rw [Act.bind_err hx]
  | panic => rw [Act.bind_panic hx]
  | diverge => rw [Act.bind_diverge hx]

/-- **C59** So it returns a tag exactly if `next_tag` returns one with that id. -/
theorem C59_if_id_iff (sc sc' : RawTagScanner σ) (id : UInt64) (o : RawTagOffset) :
    RawTagScanner.nextTagIfId m id sc = (.ok (some o), sc') ↔
      RawTagScanner.nextTag m sc = (.ok (some o), sc') ∧ o.id = id := by
  rw [C59_if_id]
  rcases hx : RawTagScanner.nextTag m sc with ⟨r, sc₁⟩
  cases r with
  | ok u =>
    cases u with
    | none => simp
    | some u =>
      simp only
      split
      · next h =>
        simp only [Prod.mk.injEq, Res.ok.injEq, Option.some.injEq]
        constructor
        · rintro ⟨rfl, rfl⟩; exact ⟨⟨rfl, rfl⟩, h⟩
        · rintro ⟨h, -⟩; exact h
      · next h =>
        simp only [Prod.mk.injEq, reduceCtorEq, false_and, false_iff, Res.ok.injEq, Option.some.injEq]
        rintro ⟨⟨rfl, -⟩, h'⟩; exact h h'
  | _ => simp

/-! ### C60 -/

/-- A tag with id 16 whose declared size is 2^64 - 10. -/
def hostile : Bytes := [16, 255, 255, 255, 255, 255, 255, 255, 254, 254]

theorem hostile_ilint (x : Bytes) : Parser.ilint (hostile ++ x) = .ok 16 (hostile.drop 1 ++ x) := by
  have := ilint_isILInt (bs := [16]) (v := 16) ⟨by decide, .inl ⟨16, rfl, by decide, rfl⟩⟩ (hostile.drop 1 ++ x)
  exact this
theorem hostile_size (x : Bytes) : Parser.ilint (hostile.drop 1 ++ x) = .ok 18446744073709551606 x := by
  have := ilint_isILInt (bs := hostile.drop 1) (v := 18446744073709551606)
    ⟨by decide, .inr ⟨255, [255, 255, 255, 255, 255, 255, 254, 254], rfl, by decide, by decide, by decide,
      by simp [beVal]⟩⟩ x
  exact this

/-- The content of the stream is `c`, its position is within it, and what follows the position is left to read; reads
are benign and seeks do not fail. -/
def seekView (m : ArithMode) (c : Bytes) : View (SeekStream m) where
  R s bs := Benign s.reads ∧ s.seeks = [] ∧ s.content = c ∧ s.pos.toNat ≤ c.length ∧ c.length < 2 ^ 64 ∧
    bs = c.drop s.pos.toNat
  E e := e = .unableToReadData
  read_cons := by
    rintro s b bs ⟨hb, hk, rfl, hp, hl, hbs⟩
    have hlen := congrArg List.length hbs
    simp at hlen
    obtain ⟨sc, hr, hbn⟩ := (SeekStream.readAll_benign hb hp (by omega) 1).1 (by omega)
    rw [← hbs] at hr
    refine ⟨_, Act.bind_ok hr, hbn, hk, rfl, ?_, hl, ?_⟩
    · rw [UInt64.toNat_ofNat', Nat.mod_eq_of_lt (by omega)]
      show s.pos.toNat + 1 ≤ s.content.length
      omega
    · rw [UInt64.toNat_ofNat', Nat.mod_eq_of_lt (by omega)]
      show bs = s.content.drop (s.pos.toNat + 1)
      rw [← List.drop_drop, ← hbs]; rfl
  read_nil := by
    rintro s ⟨hb, hk, rfl, hp, hl, hbs⟩
    have hlen := congrArg List.length hbs
    simp at hlen
    obtain ⟨sc, hr, hbn⟩ := (SeekStream.readAll_benign hb hp (by omega) 1).2 (by omega)
    exact ⟨_, _, Act.bind_err hr, rfl⟩
  readAll_ok := by
    rintro s bs n ⟨hb, hk, rfl, hp, hl, rfl⟩ hn
    simp at hn
    obtain ⟨sc, hr, hbn⟩ := (SeekStream.readAll_benign hb hp (by omega) n).1 (by omega)
    refine ⟨_, hr, hbn, hk, rfl, ?_, hl, ?_⟩
    · rw [UInt64.toNat_ofNat', Nat.mod_eq_of_lt (by omega)]
      show s.pos.toNat + n ≤ s.content.length
      omega
    · rw [UInt64.toNat_ofNat', Nat.mod_eq_of_lt (by omega)]
      simp
  readAll_short := by
    rintro s bs n ⟨hb, hk, rfl, hp, hl, rfl⟩ hn
    simp at hn
    obtain ⟨sc, hr, hbn⟩ := (SeekStream.readAll_benign hb hp (by omega) n).2 (by omega)
    exact ⟨_, _, hr, rfl⟩

/-- The stream after the header of `hostile` has been read from its start. -/
theorem hostile_header (m : ArithMode) (x : Bytes) {s : SeekStream m} (hb : Benign s.reads) (hk : s.seeks = [])
    (hc : s.content = hostile ++ x) (hp : s.pos = 0) (hl : (hostile ++ x).length < 2 ^ 64) :
    ∃ s₁ s₂, (Ser.deserializeILInt : Act TagErr (SeekStream m) UInt64) s = (.ok 16, s₁) ∧
      RawTagScanner.extractTagSize 16 s₁ = (.ok (9, 18446744073709551606, 18446744073709551606), s₂) ∧
      Benign s₂.reads ∧ s₂.seeks = [] ∧ s₂.content = hostile ++ x ∧ s₂.pos = 10 := by
  have hR : (seekView m (hostile ++ x)).R s (hostile ++ x) :=
    ⟨hb, hk, hc, by rw [hp]; simp, hl, by rw [hp]; rfl⟩
  have h1 := Sim.ilint (V := seekView m (hostile ++ x)) s _ hR
  rw [hostile_ilint] at h1
  obtain ⟨s₁, h1, hR1⟩ := h1
  have h2 := Sim.ilint (V := seekView m (hostile ++ x)) s₁ _ hR1
  rw [hostile_size] at h2
  obtain ⟨s₂, h2, hb2, hk2, hc2, hp2, -, hx2⟩ := h2
  refine ⟨s₁, s₂, h1, ?_, hb2, hk2, hc2, ?_⟩
  · unfold RawTagScanner.extractTagSize
    rw [if_neg (by decide), Act.bind_ok h2]
    rfl
  · have := congrArg List.length hx2
    simp only [List.length_drop] at this
    rw [List.length_append] at this hp2
    have h10 : hostile.length = 10 := rfl
    apply UInt64.toNat_inj.mp
    show s₂.pos.toNat = 10
    omega

/-- **C60** Release build, `Read + Seek` source: on this input, followed by anything, scanning succeeds any number of
times, reporting the same tag each time without ever reaching the end of the data: the source goes back to the start
each time. -/
theorem C60_for_ever (x : Bytes) (hx : x ≠ []) (hl : (hostile ++ x).length < 2 ^ 64) (n : Nat) :
    ∀ s : SeekStream .wrapping, Benign s.reads → s.seeks = [] → s.content = hostile ++ x → s.pos = 0 →
      ∃ s', ScanSeq .wrapping (RawTagScanner.new s) (List.replicate n ⟨16, 0, 10, 18446744073709551606⟩)
        (RawTagScanner.new s') ∧ s'.content = hostile ++ x ∧ s'.pos = 0 := by
  induction n with
  | zero => intro s _ _ hc hp; exact ⟨s, .nil _, hc, hp⟩
  | succ n ih =>
    intro s hb hk hc hp
    obtain ⟨s₁, s₂, h1, h2, hb2, hk2, hc2, hp2⟩ := hostile_header .wrapping x hb hk hc hp hl
    have hlen : 10 < s₂.content.length := by
      rw [hc2, List.length_append]
      have h10 : hostile.length = 10 := rfl
      have := List.length_pos_iff.mpr hx
      omega
    have h3 : Reader.skipU64 18446744073709551606 s₂ = (.ok (), { s₂ with pos := 0 }) := by
      show SeekStream.skipU64 _ _ = _
      rw [skipU64_unfold hk2 (by decide), if_neg, hp2,
        show (addU64 ArithMode.wrapping 10 18446744073709551606 : Res IoErr UInt64) = .ok 0 from rfl]
      · simp only
        rw [if_pos (by rw [UInt64.le_iff_toNat_le]; exact Nat.zero_le _)]
      · intro he
        have := congrArg UInt64.toNat he
        rw [hc2, ofNat_toNat64 hl, ← hc2, hp2] at this
        have h10 : (10 : UInt64).toNat = 10 := rfl
        omega
    obtain ⟨s', h4, h5⟩ := ih { s₂ with pos := 0 } hb2 hk2 hc2 rfl
    refine ⟨s', ?_, h5⟩
    rw [List.replicate_succ]
    refine .cons ?_ h4
    unfold RawTagScanner.nextTag
    rw [Act.bind_ok (RawTagScanner.onReader_apply (sc := RawTagScanner.new s) h1),
      Act.bind_ok (RawTagScanner.onReader_apply h2)]
    have h6 : (tagIo (Reader.skipU64 18446744073709551606) : Act TagErr (SeekStream .wrapping) Unit) s₂ =
        (.ok (), { s₂ with pos := 0 }) := by
      simp only [tagIo, Act.mapErr, h3, Res.mapErr]
    show ((RawTagScanner.onReader (tagIo (Reader.skipU64 18446744073709551606)) >>= fun _ => pure
      (some (⟨16, 0, 10, 18446744073709551606⟩ : RawTagOffset))) : Act TagErr _ _) (RawTagScanner.mk 0 s₂) = _
    rw [Act.bind_ok (RawTagScanner.onReader_apply h6)]
    rfl

/-- **C60** The same input makes a debug build panic. -/
theorem C60_panics (x : Bytes) (hl : (hostile ++ x).length < 2 ^ 64) (s : SeekStream .checked) (hb : Benign s.reads)
    (hk : s.seeks = []) (hc : s.content = hostile ++ x) (hp : s.pos = 0) :
    (RawTagScanner.nextTag .checked (RawTagScanner.new s)).1 = .panic := by
  obtain ⟨s₁, s₂, h1, h2, -⟩ := hostile_header .checked x hb hk hc hp hl
  unfold RawTagScanner.nextTag
  rw [Act.bind_ok (RawTagScanner.onReader_apply (sc := RawTagScanner.new s) h1),
    Act.bind_ok (RawTagScanner.onReader_apply h2)]
  rfl

example : ∃ s' : SeekStream .wrapping,
    ScanSeq .wrapping (RawTagScanner.new (⟨hostile ++ [0], 0, [.error .interrupted, .chunk 1], [], []⟩ : SeekStream .wrapping))
      (List.replicate 1000 ⟨16, 0, 10, 18446744073709551606⟩) (RawTagScanner.new s') ∧
    s'.content = hostile ++ [0] ∧ s'.pos = 0 :=
  C60_for_ever [0] (by decide) (by decide) 1000 _ (by simp [Benign]) rfl rfl rfl

/-- **C60** What does hold: in a debug build, and in a release build for declared sizes and data below 2^63, a successful
`next_tag` moves the source strictly forward and not beyond the end, so that scanning ends. -/
theorem C60_forward {m : ArithMode} {c : Bytes} (hl : c.length < 2 ^ 63) {sc sc' : RawTagScanner (SeekStream m)}
    {o : RawTagOffset} (hb : Benign sc.reader.reads) (hk : sc.reader.seeks = [])
    (hc : sc.reader.content = c) (hp : sc.reader.pos.toNat ≤ c.length)
    (h : RawTagScanner.nextTag m sc = (.ok (some o), sc')) (hm : m = .checked ∨ o.valueSize.toNat < 2 ^ 63) :
    sc.reader.pos < sc'.reader.pos ∧ sc'.reader.pos.toNat ≤ c.length ∧ sc'.reader.content = c ∧
      Benign sc'.reader.reads ∧ sc'.reader.seeks = [] := by
  obtain ⟨o', s₁, s₂, a, k, ho, h1, h2, h3, -⟩ := RawTagScanner.nextTag_inv h
  obtain rfl := Option.some.inj ho
  have hR : (seekView m c).R sc.reader (c.drop sc.reader.pos.toNat) := ⟨hb, hk, hc, hp, by omega, rfl⟩
  obtain ⟨r₁, p1, hR1⟩ := sim_ok (V := seekView m c) Sim.ilint hR h1
  have hs1 := ilint_shrinks p1
  have hs2 : ∃ r₂, (seekView m c).R s₂ r₂ ∧ r₂.length ≤ r₁.length ∧ k.toNat ≤ o.valueSize.toNat := by
    unfold RawTagScanner.extractTagSize at h2
    split at h2
    · split at h2
      · obtain ⟨hd, s₃, h7, h8⟩ := RawTagScanner.bind_ok_inv h2
        obtain ⟨r, p2, h9⟩ := sim_ok (V := seekView m c) Sim.byte hR1 h7
        simp only [Act.pure_apply, Prod.mk.injEq, Res.ok.injEq] at h8
        obtain ⟨⟨-, h10, rfl⟩, rfl⟩ := h8
        have := byte_ok p2
        refine ⟨r, h9, by rw [this]; simp, ?_⟩
        have ht := ilintTail_le hd
        rw [← h10, decodedSize_tail, ofNat_toNat64 (by omega), ofNat_toNat64 (by omega)]
        omega
      · split at h2
        · cases h2
        · simp only [Act.pure_apply, Prod.mk.injEq, Res.ok.injEq] at h2
          obtain ⟨⟨-, h10, rfl⟩, rfl⟩ := h2
          exact ⟨r₁, hR1, Nat.le_refl _, by rw [← h10]; exact Nat.le_refl _⟩
    · obtain ⟨v, s₃, h7, h8⟩ := RawTagScanner.bind_ok_inv h2
      obtain ⟨r, p2, h9⟩ := sim_ok (V := seekView m c) Sim.ilint hR1 h7
      simp only [Act.pure_apply, Prod.mk.injEq, Res.ok.injEq] at h8
      obtain ⟨⟨-, h10, rfl⟩, rfl⟩ := h8
      have := ilint_shrinks p2
      exact ⟨r, h9, by omega, by rw [← h10]; exact Nat.le_refl _⟩
  obtain ⟨r₂, ⟨hb2, hk2, hc2, hp2, -, rfl⟩, hlen2, hkv⟩ := hs2
  simp only [List.length_drop] at hs1 hlen2
  have hfwd : sc.reader.pos.toNat < s₂.pos.toNat := by omega
  replace h3 : SeekStream.skipU64 k s₂ = (.ok (), sc'.reader) := h3
  by_cases hk0 : k = 0
  · rw [SeekStream.skipU64, if_pos hk0] at h3
    simp only [Act.pure_apply, Prod.mk.injEq, true_and] at h3
    rw [← h3]
    exact ⟨UInt64.lt_iff_toNat_lt.mpr hfwd, hp2, hc2, hb2, hk2⟩
  · rw [skipU64_unfold hk2 hk0] at h3
    split at h3
    · simp at h3
    · have hno : m = .checked ∨ s₂.pos.toNat + k.toNat < 2 ^ 64 := by
        rcases hm with hm | hm
        · exact .inl hm
        · exact .inr (by omega)
      have hadd : ∀ p, (addU64 m s₂.pos k : Res IoErr UInt64) = .ok p → p.toNat = s₂.pos.toNat + k.toNat := by
        intro p ha
        unfold addU64 at ha
        split at ha
        · next hlt => rw [← Res.ok.inj ha, UInt64.toNat_add, Nat.mod_eq_of_lt hlt]
        · next hge =>
          rcases hno with rfl | hno
          · cases ha
          · exact absurd hno hge
      cases ha : (addU64 m s₂.pos k : Res IoErr UInt64) with
      | ok p =>
        have hp' := hadd p ha
        simp only [ha] at h3
        split at h3
        · next hle =>
          rw [UInt64.le_iff_toNat_le, hc2, ofNat_toNat64 (by omega)] at hle
          simp only [Prod.mk.injEq, true_and] at h3
          rw [← h3]
          exact ⟨UInt64.lt_iff_toNat_lt.mpr (by simp only; omega), hle, hc2, hb2, hk2⟩
        · simp at h3
      | _ => simp [ha] at h3

/-! ### C61 -/

theorem slice_eq_ok {raw v : Bytes} {a b : Nat} (h : RawTagOffset.slice raw a b = .ok v) :
    a ≤ b ∧ b ≤ raw.length ∧ v = (raw.take b).drop a := by
  unfold RawTagOffset.slice at h
  split at h
  · next hc => exact ⟨hc.1, hc.2, (Res.ok.inj h).symm⟩
  · cases h

/-- Slicing a slice. -/
theorem slice_slice {raw v : Bytes} {a b x y : Nat} (h : RawTagOffset.slice raw a b = .ok v) (hxy : x ≤ y) (hy : y ≤ b - a) :
    RawTagOffset.slice raw (a + x) (a + y) = RawTagOffset.slice v x y := by
  obtain ⟨h1, h2, rfl⟩ := slice_eq_ok h
  unfold RawTagOffset.slice
  rw [if_pos (by omega), if_pos (by simp only [List.length_drop, List.length_take]; omega)]
  congr 1
  rw [List.take_drop, List.take_take, List.drop_drop]
  congr 2
  omega

/-- **C61** If the raw data holds the parent's value, a child found in it (its own end not overflowing) maps to the
parent's space exactly if it ends within the value, and then both slices of the mapped child on the raw data are the
slices of the child on the value; otherwise the result is `CorruptedData`. -/
theorem C61_maps (t parent : RawTagOffset) (raw value : Bytes) (hp : parent.valueSlice m raw = .ok value)
    (ht : t.offset.toNat + t.headerSize.toNat + t.valueSize.toNat < 2 ^ 64) :
    (t.offset.toNat + t.headerSize.toNat + t.valueSize.toNat ≤ value.length →
      ∃ t' start, t.mapToParentSpace m parent = .ok t' ∧ t'.id = t.id ∧ t'.headerSize = t.headerSize ∧
        t'.valueSize = t.valueSize ∧ parent.valueStart m = .ok start ∧ t'.offset.toNat = start + t.offset.toNat ∧
        t'.tagSlice m raw = t.tagSlice m value ∧ t'.valueSlice m raw = t.valueSlice m value ∧
        ∃ w, t.tagSlice m value = .ok w) ∧
    (value.length < t.offset.toNat + t.headerSize.toNat + t.valueSize.toNat →
      t.mapToParentSpace m parent = .err .corruptedData) := by
  obtain ⟨vo, hpo, hst, hend, hs⟩ : ∃ vo, parent.valueOffset m = .ok vo ∧ parent.valueStart m = .ok vo.toNat ∧
      vo.toNat + parent.valueSize.toNat < 2 ^ 64 ∧
      RawTagOffset.slice raw vo.toNat (vo.toNat + parent.valueSize.toNat) = .ok value := by
    unfold RawTagOffset.valueSlice RawTagOffset.valueEnd RawTagOffset.nextTagOffset RawTagOffset.size at hp
    cases h1 : parent.valueOffset m with
    | ok vo =>
      have hst : parent.valueStart m = .ok vo.toNat := by unfold RawTagOffset.valueStart; rw [h1]; rfl
      rw [hst] at hp
      cases h2 : (addU64 m parent.headerSize parent.valueSize : Res TagErr UInt64) with
      | ok z =>
        rw [h2] at hp
        cases h3 : (addU64 m parent.offset z : Res TagErr UInt64) with
        | ok ne =>
          replace hp : (Res.map UInt64.toNat (addU64 m parent.offset z : Res TagErr UInt64) >>= fun e =>
            RawTagOffset.slice raw vo.toNat e) = .ok value := hp
          rw [h3] at hp
          replace hp : RawTagOffset.slice raw vo.toNat ne.toNat = .ok value := hp
          have e1 : vo = parent.offset + parent.headerSize := addU64_some h1
          have e3 : ne = vo + parent.valueSize := by
            rw [e1, addU64_some h3, addU64_some h2, UInt64.add_assoc]
          obtain ⟨hle, -, -⟩ := slice_eq_ok hp
          have hl : ne.toNat = vo.toNat + parent.valueSize.toNat := by
            have := vo.toNat_lt
            have := parent.valueSize.toNat_lt
            have e4 := congrArg UInt64.toNat e3
            rw [UInt64.toNat_add] at e4
            omega
          rw [hl] at hp
          exact ⟨vo, rfl, hst, by have := ne.toNat_lt; omega, hp⟩
        | _ =>
          replace hp : (Res.map UInt64.toNat (addU64 m parent.offset z : Res TagErr UInt64) >>= fun e =>
            RawTagOffset.slice raw vo.toNat e) = .ok value := hp
          rw [h3] at hp
          cases hp
      | _ => rw [h2] at hp; cases hp
    | _ =>
      unfold RawTagOffset.valueStart at hp
      rw [h1] at hp; cases hp
  obtain ⟨-, hs2, hs3⟩ := slice_eq_ok hs
  have hvo := vo.toNat_lt
  have hvl : value.length = parent.valueSize.toNat := by
    rw [hs3, List.length_drop, List.length_take]; omega
  -- what the three functions give for a child at any offset that does not overflow
  have key : ∀ (o : UInt64), o.toNat + t.headerSize.toNat + t.valueSize.toNat < 2 ^ 64 → ∀ w,
      (RawTagOffset.nextTagOffset m { t with offset := o } = .ok (o + (t.headerSize + t.valueSize)) ∧
        (o + (t.headerSize + t.valueSize)).toNat = o.toNat + t.headerSize.toNat + t.valueSize.toNat) ∧
      RawTagOffset.tagSlice m { t with offset := o } w =
        RawTagOffset.slice w o.toNat (o.toNat + t.headerSize.toNat + t.valueSize.toNat) ∧
      RawTagOffset.valueSlice m { t with offset := o } w =
        RawTagOffset.slice w (o.toNat + t.headerSize.toNat) (o.toNat + t.headerSize.toNat + t.valueSize.toNat) := by
    intro o ho w
    have f1 : (t.headerSize + t.valueSize).toNat = t.headerSize.toNat + t.valueSize.toNat := by
      rw [UInt64.toNat_add, Nat.mod_eq_of_lt (by omega)]
    have f2 : (o + (t.headerSize + t.valueSize)).toNat = o.toNat + t.headerSize.toNat + t.valueSize.toNat := by
      rw [UInt64.toNat_add, f1, Nat.mod_eq_of_lt (by omega)]; omega
    have f3 : (o + t.headerSize).toNat = o.toNat + t.headerSize.toNat := by
      rw [UInt64.toNat_add, Nat.mod_eq_of_lt (by omega)]
    have h1 : RawTagOffset.size m { t with offset := o } = .ok (t.headerSize + t.valueSize) := by
      unfold RawTagOffset.size; exact addU64_ok (by simp only; omega)
    have h2 : RawTagOffset.nextTagOffset m { t with offset := o } = .ok (o + (t.headerSize + t.valueSize)) := by
      unfold RawTagOffset.nextTagOffset
      rw [h1]
      exact addU64_ok (by simp only; rw [f1]; omega)
    have h3 : RawTagOffset.valueOffset m { t with offset := o } = .ok (o + t.headerSize) := by
      unfold RawTagOffset.valueOffset; exact addU64_ok (by simp only; omega)
    refine ⟨⟨h2, f2⟩, ?_, ?_⟩
    · unfold RawTagOffset.tagSlice RawTagOffset.tagEnd RawTagOffset.valueEnd RawTagOffset.tagStart
      rw [h2]
      show RawTagOffset.slice _ _ (o + (t.headerSize + t.valueSize)).toNat = _
      rw [f2]
    · unfold RawTagOffset.valueSlice RawTagOffset.valueEnd RawTagOffset.valueStart
      rw [h2, h3]
      show RawTagOffset.slice _ (o + t.headerSize).toNat (o + (t.headerSize + t.valueSize)).toNat = _
      rw [f2, f3]
  obtain ⟨⟨k1, k2⟩, k3, k4⟩ := key t.offset ht value
  constructor
  · intro hin
    have e4 : (vo + t.offset).toNat = vo.toNat + t.offset.toNat := by
      rw [UInt64.toNat_add, Nat.mod_eq_of_lt (by omega)]
    obtain ⟨-, q3, q4⟩ := key (vo + t.offset) (by rw [e4]; omega) raw
    refine ⟨{ t with offset := vo + t.offset }, vo.toNat, ?_, rfl, rfl, rfl, hst, e4, ?_, ?_, ?_⟩
    · unfold RawTagOffset.mapToParentSpace
      rw [k1]
      show (if _ then _ else _) = _
      rw [if_neg (by rw [gt_iff_lt, UInt64.lt_iff_toNat_lt, k2]; omega), hpo]
      show (addU64 m vo t.offset >>= _) = _
      rw [addU64_ok (by omega)]
      rfl
    · rw [q3, k3, e4, show vo.toNat + t.offset.toNat + t.headerSize.toNat + t.valueSize.toNat =
        vo.toNat + (t.offset.toNat + t.headerSize.toNat + t.valueSize.toNat) by omega]
      exact slice_slice hs (by omega) (by omega)
    · rw [q4, k4, e4, show vo.toNat + t.offset.toNat + t.headerSize.toNat + t.valueSize.toNat =
        vo.toNat + (t.offset.toNat + t.headerSize.toNat + t.valueSize.toNat) by omega,
        Nat.add_assoc vo.toNat t.offset.toNat]
      exact slice_slice hs (by omega) (by omega)
    · rw [k3]
      unfold RawTagOffset.slice
      rw [if_pos (by omega)]
      exact ⟨_, rfl⟩
  · intro hout
    unfold RawTagOffset.mapToParentSpace
    rw [k1]
    show (if _ then _ else _) = _
    rw [if_pos (by rw [gt_iff_lt, UInt64.lt_iff_toNat_lt, k2]; omega)]

/-- **C61** (the limit of the claim) If the child's end does not fit in 64 bits, a debug build panics; a release build
compares the end modulo 2^64, so that it accepts a child that is not within the parent if that is small enough (the
example below slices two bytes that begin before the parent's value). -/
theorem C61_overflow (t parent : RawTagOffset)
    (ht : 2 ^ 64 ≤ t.offset.toNat + t.headerSize.toNat + t.valueSize.toNat) :
    t.mapToParentSpace .checked parent = .panic ∧
    ((t.offset.toNat + t.headerSize.toNat + t.valueSize.toNat) % 2 ^ 64 ≤ parent.valueSize.toNat →
      ∃ t', t.mapToParentSpace .wrapping parent = .ok t' ∧ t'.id = t.id) ∧
    (parent.valueSize.toNat < (t.offset.toNat + t.headerSize.toNat + t.valueSize.toNat) % 2 ^ 64 →
      t.mapToParentSpace .wrapping parent = .err .corruptedData) := by
  have hadd : ∀ a b : UInt64, (addU64 .wrapping a b : Res TagErr UInt64) = .ok (a + b) := by
    intro a b; unfold addU64; split <;> rfl
  have hn : (t.offset + (t.headerSize + t.valueSize)).toNat =
      (t.offset.toNat + t.headerSize.toNat + t.valueSize.toNat) % 2 ^ 64 := by
    rw [UInt64.toNat_add, UInt64.toNat_add]; omega
  have hw : t.mapToParentSpace .wrapping parent =
      if t.offset + (t.headerSize + t.valueSize) > parent.valueSize then .err .corruptedData
      else .ok { t with offset := parent.offset + parent.headerSize + t.offset } := by
    unfold RawTagOffset.mapToParentSpace RawTagOffset.nextTagOffset RawTagOffset.size RawTagOffset.valueOffset
    rw [hadd, hadd]
    show (addU64 .wrapping t.offset (t.headerSize + t.valueSize) >>= _) = _
    rw [hadd]
    show (if _ then _ else _) = _
    split
    · rfl
    · show (addU64 .wrapping (parent.offset + parent.headerSize) t.offset >>= _) = _
      rw [hadd]
      rfl
  refine ⟨?_, ?_, ?_⟩
  · unfold RawTagOffset.mapToParentSpace RawTagOffset.nextTagOffset RawTagOffset.size
    by_cases h : t.headerSize.toNat + t.valueSize.toNat < 2 ^ 64
    · rw [addU64_ok h]
      show (addU64 .checked t.offset (t.headerSize + t.valueSize) >>= _) = _
      have : (addU64 .checked t.offset (t.headerSize + t.valueSize) : Res TagErr UInt64) = .panic := by
        unfold addU64
        rw [if_neg]
        rw [UInt64.toNat_add, Nat.mod_eq_of_lt h]; omega
      rw [this]; rfl
    · have : (addU64 .checked t.headerSize t.valueSize : Res TagErr UInt64) = .panic := by
        unfold addU64
        rw [if_neg h]
      rw [this]; rfl
  · intro h
    rw [hw, if_neg (by rw [gt_iff_lt, UInt64.lt_iff_toNat_lt, hn]; omega)]
    exact ⟨_, rfl, rfl⟩
  · intro h
    rw [hw, if_pos (by rw [gt_iff_lt, UInt64.lt_iff_toNat_lt, hn]; omega)]

example : (⟨3, 18446744073709551615, 1, 1⟩ : RawTagOffset).mapToParentSpace .checked ⟨22, 1, 2, 4⟩ = .panic ∧
    (⟨3, 18446744073709551615, 1, 1⟩ : RawTagOffset).mapToParentSpace .wrapping ⟨22, 1, 2, 4⟩ = .ok ⟨3, 2, 1, 1⟩ ∧
    (⟨3, 2, 1, 1⟩ : RawTagOffset).tagSlice .wrapping [0, 22, 4, 1, 1, 3, 7, 0] = .ok [4, 1] := by decide +kernel

/-- A sequence tag (22, four bytes of value) after one other byte, holding a boolean and a byte tag; the second child
starts at 2 in the value. -/
example : (⟨22, 1, 2, 4⟩ : RawTagOffset).valueSlice .checked [0, 22, 4, 1, 1, 3, 7, 0] = .ok [1, 1, 3, 7] ∧
    (⟨3, 2, 1, 1⟩ : RawTagOffset).mapToParentSpace .checked ⟨22, 1, 2, 4⟩ = .ok ⟨3, 5, 1, 1⟩ ∧
    (⟨3, 5, 1, 1⟩ : RawTagOffset).tagSlice .checked [0, 22, 4, 1, 1, 3, 7, 0] = .ok [3, 7] ∧
    (⟨3, 4, 1, 1⟩ : RawTagOffset).mapToParentSpace .checked ⟨22, 1, 2, 4⟩ = .err .corruptedData := by decide +kernel

end
end Verif.Props
