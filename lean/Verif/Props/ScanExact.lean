import Verif.Proof.Scan
import Verif.Proof.Deliver
import Verif.Spec.Scan
/-!
# C96: exactly what the tag scanner accepts, and how it fails
-/
namespace Verif.Props
open Verif Verif.Spec

section
variable {σ : Type} [Reader σ] {m : ArithMode}

theorem headILInt_cons (h : Byte) (r : Bytes) : headILInt (h :: r) =
    if r.length < ilintTail h then .short
    else if ilintTail h = 0 then .ok h.toNat r
    else if 248 + beVal (r.take (ilintTail h)) < 2 ^ 64 then
      .ok (248 + beVal (r.take (ilintTail h))) (r.drop (ilintTail h))
    else .tooBig := rfl

theorem parser_headILInt (bs : Bytes) : Parser.ilint bs =
    match headILInt bs with
    | .ok v r => .ok (UInt64.ofNat v) r
    | .tooBig => .fail (.ioError .corruptedData)
    | .short => .short := by
  cases bs with
  | nil => rfl
  | cons h r =>
    have h8 := ilintTail_le h
    rw [headILInt_cons]
    unfold Parser.ilint
    rw [Parser.bind_ok (show Parser.byte (h :: r) = .ok h r from rfl), decodedSize_tail]
    by_cases h0 : ilintTail h = 0
    · rw [if_pos (show 1 + ilintTail h = 1 by omega), if_neg (show ¬ r.length < ilintTail h by omega), if_pos h0]
      simp only [Parser.pure_apply, PRes.ok.injEq, and_true]
      apply UInt64.toNat_inj.mp
      rw [UInt64.toNat_ofNat_of_lt' (by have := h.toNat_lt; unfold UInt64.size; omega)]
      simp
    · rw [if_neg (show ¬ 1 + ilintTail h = 1 by omega), show 1 + ilintTail h - 1 = ilintTail h by omega]
      by_cases hs : r.length < ilintTail h
      · rw [if_pos hs, Parser.bind_apply]
        rw [show Parser.take (ilintTail h) r = .short by unfold Parser.take; rw [if_neg (by omega)]]
      · rw [if_neg hs, if_neg h0]
        rw [Parser.bind_ok (show Parser.take (ilintTail h) r = .ok (r.take (ilintTail h)) (r.drop (ilintTail h)) by
          unfold Parser.take; rw [if_pos (by omega)])]
        rw [ILInt.decodeBody_eq _ (by rw [List.length_take]; omega) (by rw [List.length_take]; omega)]
        split <;> rfl

theorem headILInt_lt {bs r : Bytes} {v : Nat} (h : headILInt bs = .ok v r) : v < 2 ^ 64 ∧ r.length < bs.length := by
  cases bs with
  | nil => simp [headILInt] at h
  | cons b bs =>
    rw [headILInt_cons] at h
    split at h
    · cases h
    · split at h
      · simp only [NumberRead.ok.injEq] at h
        obtain ⟨rfl, rfl⟩ := h
        have := b.toNat_lt
        simp only [List.length_cons]
        omega
      · split at h
        · rename_i hb
          simp only [NumberRead.ok.injEq] at h
          obtain ⟨rfl, rfl⟩ := h
          refine ⟨hb, ?_⟩
          simp only [List.length_cons, List.length_drop]
          omega
        · cases h

/-- The reading of an ILInt, by any reader. -/
theorem read_headILInt (V : View σ) {s : σ} {bs : Bytes} (hR : V.R s bs) :
    match headILInt bs with
    | .ok v r => ∃ s', (Ser.deserializeILInt : Act TagErr σ UInt64) s = (.ok (UInt64.ofNat v), s') ∧ V.R s' r
    | .tooBig => ∃ s', (Ser.deserializeILInt : Act TagErr σ UInt64) s = (.err (.ioError .corruptedData), s')
    | .short => ∃ e s', (Ser.deserializeILInt : Act TagErr σ UInt64) s = (.err (.ioError e), s') := by
  have hm := Sim.ilint (V := V) s bs hR
  rw [parser_headILInt] at hm
  cases hh : headILInt bs with
  | ok v r => rw [hh] at hm; exact hm
  | tooBig => rw [hh] at hm; exact hm
  | short => rw [hh] at hm; obtain ⟨e, s', h, -⟩ := hm; exact ⟨e, s', h⟩

/-- The reading of the size of a tag, by any reader; the reader may have got past the first byte of the value. -/
theorem read_headSize (V : View σ) {s : σ} {r : Bytes} (hR : V.R s r) (id : UInt64) :
    match headSize id.toNat r with
    | .ok f n r' => ∃ s' c pre, RawTagScanner.extractTagSize id s = (.ok (UInt64.ofNat f, UInt64.ofNat n, c), s') ∧
        n < 2 ^ 64 ∧ f ≤ 9 ∧ n = pre + c.toNat ∧ pre ≤ r'.length ∧ V.R s' (r'.drop pre) ∧ r'.length ≤ r.length
    | .tooBig => ∃ s', RawTagScanner.extractTagSize id s = (.err (.ioError .corruptedData), s')
    | .undefinedId => ∃ s', RawTagScanner.extractTagSize id s = (.err .corruptedData, s')
    | .short => ∃ e s', RawTagScanner.extractTagSize id s = (.err (.ioError e), s') := by
  unfold headSize RawTagScanner.extractTagSize
  by_cases h16 : 16 ≤ id.toNat
  · rw [if_pos h16, isImplicit_false h16]
    simp only [Bool.false_eq_true, if_false]
    have hm := read_headILInt V hR
    cases hh : headILInt r with
    | ok n r' =>
      rw [hh] at hm
      obtain ⟨s', h, hR'⟩ := hm
      have hlt := headILInt_lt hh
      refine ⟨s', UInt64.ofNat n, 0, ?_, hlt.1, ?_, ?_, by omega, ?_, by omega⟩
      · rw [Act.bind_ok h]
        have : ilSize (UInt64.ofNat n) = UInt64.ofNat (Spec.ilint n).length := by
          rw [ilSize_eq, ofNat_toNat64 hlt.1]
        rw [this]
        rfl
      · exact ilint_le9 _
      · rw [ofNat_toNat64 hlt.1]; omega
      · simpa using hR'
    | tooBig => rw [hh] at hm; obtain ⟨s', h⟩ := hm; exact ⟨s', Act.bind_err h⟩
    | short => rw [hh] at hm; obtain ⟨e, s', h⟩ := hm; exact ⟨e, s', Act.bind_err h⟩
  · rw [if_neg h16, isImplicitTag_iff.mpr (by omega), if_pos rfl]
    have e10 : (id = Id.ilint ∨ id = Id.signedILInt) ↔ (id.toNat = 10 ∨ id.toNat = 14) := by
      rw [← UInt64.toNat_inj, ← UInt64.toNat_inj]; rfl
    have e15 : (id = 15) ↔ (id.toNat = 15) := by rw [← UInt64.toNat_inj]; rfl
    by_cases h10 : id.toNat = 10 ∨ id.toNat = 14
    · rw [if_pos h10, if_pos (e10.mpr h10)]
      unfold RawTagScanner.extractImplicitILIntTagSize
      cases r with
      | nil =>
        obtain ⟨e, s', h, -⟩ := V.read_nil hR
        exact ⟨e, s', Act.bind_err (by simp only [tagIo, Act.mapErr, h, Res.mapErr])⟩
      | cons b r =>
        obtain ⟨s', h, hR'⟩ := V.read_cons hR
        have h8 := ilintTail_le b
        refine ⟨s', UInt64.ofNat (ilintTail b), 1, ?_, by omega, by omega, ?_, by simp, hR', Nat.le_refl _⟩
        · rw [Act.bind_ok (show tagIo Reader.read s = (.ok b, s') by simp only [tagIo, Act.mapErr, h, Res.mapErr])]
          rw [decodedSize_tail, show 1 + ilintTail b - 1 = ilintTail b by omega]
          rfl
        · rw [ofNat_toNat64 (by omega)]
    · rw [if_neg h10, if_neg (fun h => h10 (e10.mp h))]
      by_cases h15 : id.toNat = 15
      · rw [if_pos h15, if_pos (e15.mpr h15)]
        exact ⟨s, rfl⟩
      · rw [if_neg h15, if_neg (fun h => h15 (e15.mp h))]
        have hi := implicit_size id (by omega)
        have hle := implicitLen_le id.toNat
        refine ⟨s, implicitTagSize id, 0, ?_, by omega, by omega, by omega, by omega, by simpa using hR, Nat.le_refl _⟩
        rw [← hi, UInt64.ofNat_toNat]
        rfl

theorem addU64_wrapping {ε : Type} (a b : UInt64) : (addU64 .wrapping a b : Res ε UInt64) = .ok (a + b) := by
  unfold addU64; split <;> rfl

theorem addU64_over {ε : Type} {a b : UInt64} (h : 2 ^ 64 ≤ a.toNat + b.toNat) :
    (addU64 .checked a b : Res ε UInt64) = .panic := by
  unfold addU64; rw [if_neg (by omega)]

/-- What the last steps of `next_tag` do, the identifier and the size having been read. -/
theorem nextTag_tail {off : UInt64} {s s₁ s₂ : σ} {id a b c : UInt64}
    (h1 : (Ser.deserializeILInt : Act TagErr σ UInt64) s = (.ok id, s₁))
    (h2 : RawTagScanner.extractTagSize id s₁ = (.ok (a, b, c), s₂)) (ha : (ilSize id).toNat + a.toNat < 2 ^ 64) :
    if m = .checked ∧ 2 ^ 64 ≤ off.toNat + ((ilSize id).toNat + a.toNat + b.toNat) then
      ∃ sc', RawTagScanner.nextTag m ⟨off, s⟩ = (.panic, sc')
    else RawTagScanner.nextTag m ⟨off, s⟩ =
      match Reader.skipU64 c s₂ with
      | (.ok (), s₃) => (.ok (some ⟨id, off, ilSize id + a, b⟩), ⟨off + (ilSize id + a + b), s₃⟩)
      | (.err e, s₃) => (.err (.ioError e), ⟨off + (ilSize id + a + b), s₃⟩)
      | (.panic, s₃) => (.panic, ⟨off + (ilSize id + a + b), s₃⟩)
      | (.diverge, s₃) => (.diverge, ⟨off + (ilSize id + a + b), s₃⟩) := by
  have e1 : (ilSize id + a).toNat = (ilSize id).toNat + a.toNat := by
    rw [UInt64.toNat_add, Nat.mod_eq_of_lt (by omega)]
  unfold RawTagScanner.nextTag
  rw [Act.bind_ok (RawTagScanner.onReader_apply h1), Act.bind_ok (RawTagScanner.onReader_apply h2)]
  simp only
  rw [addU64_ok (by omega)]
  rw [Act.bind_ok (show Act.lift (Res.ok (ilSize id + a)) _ = (.ok _, _) from rfl)]
  rw [Act.bind_ok (show (Act.get : Act TagErr (RawTagScanner σ) _) _ = (.ok _, _) from rfl)]
  simp only
  have fin : ∀ t w : UInt64, ∀ r₁ r₂ : Res TagErr UInt64, r₁ = .ok t → r₂ = .ok w →
      (Act.lift r₁ >>= fun (_ : UInt64) => Act.lift r₂ >>= fun nw =>
        (Act.set (⟨nw, s₂⟩ : RawTagScanner σ) >>= fun _ =>
          (RawTagScanner.onReader (tagIo (Reader.skipU64 c)) >>= fun _ =>
            (Pure.pure (some ⟨id, off, ilSize id + a, b⟩) : Act TagErr (RawTagScanner σ) (Option RawTagOffset)))))
        (⟨off, s₂⟩ : RawTagScanner σ) =
      match Reader.skipU64 c s₂ with
      | (.ok (), s₃) => (.ok (some ⟨id, off, ilSize id + a, b⟩), ⟨w, s₃⟩)
      | (.err e, s₃) => (.err (.ioError e), ⟨w, s₃⟩)
      | (.panic, s₃) => (.panic, ⟨w, s₃⟩)
      | (.diverge, s₃) => (.diverge, ⟨w, s₃⟩) := by
    intro t w r₁ r₂ hr₁ hr₂
    subst hr₁ hr₂
    rw [Act.bind_ok (show Act.lift (Res.ok t) _ = (.ok _, _) from rfl)]
    rw [Act.bind_ok (show Act.lift (Res.ok w) _ = (.ok _, _) from rfl)]
    rw [Act.bind_ok (show Act.set _ _ = (.ok (), _) from rfl)]
    generalize hq : Reader.skipU64 c s₂ = q
    obtain ⟨q, s₃⟩ := q
    have h4 : (tagIo (Reader.skipU64 c) : Act TagErr σ Unit) s₂ = (q.mapErr .ioError, s₃) := by
      simp only [tagIo, Act.mapErr, hq]
    have h5 := RawTagScanner.onReader_apply (sc := ⟨w, s₂⟩) h4
    cases q with
    | ok u => rw [Act.bind_ok h5]; rfl
    | err e => rw [Act.bind_err h5]
    | panic => rw [Act.bind_panic h5]
    | diverge => rw [Act.bind_diverge h5]
  cases m with
  | wrapping =>
    rw [if_neg (by simp)]
    have := fin _ _ _ _ (addU64_wrapping (ilSize id + a) b) (addU64_wrapping off (ilSize id + a + b))
    rw [← this]
    simp only [addU64_wrapping]
    rfl
  | checked =>
    by_cases hb : (ilSize id + a).toNat + b.toNat < 2 ^ 64
    · have e2 : (ilSize id + a + b).toNat = (ilSize id).toNat + a.toNat + b.toNat := by
        rw [UInt64.toNat_add, Nat.mod_eq_of_lt (by omega)]; omega
      rw [addU64_ok hb, Act.bind_ok (show Act.lift (Res.ok (ilSize id + a + b)) _ = (.ok _, _) from rfl)]
      by_cases ho : off.toNat + (ilSize id + a + b).toNat < 2 ^ 64
      · rw [if_neg (by omega)]
        have := fin (ilSize id + a + b) _ _ _ rfl (addU64_ok (m := .checked) ho)
        rw [← this]
        rfl
      · rw [if_pos ⟨rfl, by omega⟩, addU64_over (by omega)]
        exact ⟨_, Act.bind_panic rfl⟩
    · rw [if_pos ⟨rfl, by omega⟩, addU64_over (by omega)]
      exact ⟨_, Act.bind_panic rfl⟩

/-- **C96** The call does what the specification says, for every byte string and whatever the reader. -/
theorem C96_exact (V : SkipView σ) (off : UInt64) {s : σ} {bs : Bytes} (hR : V.R s bs) :
    match scanHead m off.toNat bs with
    | .tag id header n rest => ∃ s', RawTagScanner.nextTag m ⟨off, s⟩ =
        (.ok (some ⟨UInt64.ofNat id, off, UInt64.ofNat header, UInt64.ofNat n⟩), ⟨off + UInt64.ofNat (header + n), s'⟩) ∧
        V.R s' rest
    | .tooFar => ∃ sc', RawTagScanner.nextTag m ⟨off, s⟩ = (.panic, sc')
    | .tooBig => ∃ sc', RawTagScanner.nextTag m ⟨off, s⟩ = (.err (.ioError .corruptedData), sc')
    | .undefinedId => ∃ sc', RawTagScanner.nextTag m ⟨off, s⟩ = (.err .corruptedData, sc')
    | .short => ∃ e sc', RawTagScanner.nextTag m ⟨off, s⟩ = (.err (.ioError e), sc') := by
  unfold scanHead
  have hm := read_headILInt V.toView hR
  cases hh : headILInt bs with
  | tooBig =>
    rw [hh] at hm; obtain ⟨s', h⟩ := hm
    exact ⟨_, Act.bind_err (RawTagScanner.onReader_apply h)⟩
  | short =>
    rw [hh] at hm; obtain ⟨e, s', h⟩ := hm
    exact ⟨e, _, Act.bind_err (RawTagScanner.onReader_apply h)⟩
  | ok id r =>
    rw [hh] at hm; obtain ⟨s₁, h1, hR₁⟩ := hm
    have hid := (headILInt_lt hh).1
    have hm := read_headSize V.toView hR₁ (UInt64.ofNat id)
    rw [ofNat_toNat64 hid] at hm
    simp only
    cases hz : headSize id r with
    | tooBig =>
      rw [hz] at hm; obtain ⟨s', h⟩ := hm
      exact ⟨_, (Act.bind_ok (RawTagScanner.onReader_apply h1)).trans (Act.bind_err (RawTagScanner.onReader_apply h))⟩
    | undefinedId =>
      rw [hz] at hm; obtain ⟨s', h⟩ := hm
      exact ⟨_, (Act.bind_ok (RawTagScanner.onReader_apply h1)).trans (Act.bind_err (RawTagScanner.onReader_apply h))⟩
    | short =>
      rw [hz] at hm; obtain ⟨e, s', h⟩ := hm
      exact ⟨e, _, (Act.bind_ok (RawTagScanner.onReader_apply h1)).trans (Act.bind_err (RawTagScanner.onReader_apply h))⟩
    | ok f n r' =>
      rw [hz] at hm
      obtain ⟨s₂, c, pre, h2, hn, hf, hpc, hpre, hR₂, -⟩ := hm
      have h9 := ilint_le9 id
      have ei : ilSize (UInt64.ofNat id) = UInt64.ofNat (Spec.ilint id).length := by
        rw [ilSize_eq, ofNat_toNat64 hid]
      have n1 : (ilSize (UInt64.ofNat id)).toNat = (Spec.ilint id).length := by rw [ei, ofNat_toNat64 (by omega)]
      have n2 : (UInt64.ofNat f).toNat = f := ofNat_toNat64 (by omega)
      have n3 : (UInt64.ofNat n).toNat = n := ofNat_toNat64 hn
      have ht := nextTag_tail (m := m) (off := off) h1 h2 (by omega)
      rw [n1, n2, n3] at ht
      simp only
      by_cases hc : m = .checked ∧ 2 ^ 64 ≤ off.toNat + ((Spec.ilint id).length + f + n)
      · rw [if_pos hc] at ht ⊢
        exact ht
      · rw [if_neg hc] at ht ⊢
        by_cases hs : r'.length < n
        · rw [if_pos hs]
          obtain ⟨e, s₃, h3⟩ := V.skipU64_short (n := c) hR₂ (by rw [List.length_drop]; omega)
          rw [h3] at ht
          exact ⟨e, _, ht⟩
        · rw [if_neg hs]
          obtain ⟨s₃, h3, hR₃⟩ := V.skipU64_ok (n := c) hR₂ (by rw [List.length_drop]; omega)
          rw [h3] at ht
          refine ⟨s₃, ?_, ?_⟩
          · rw [ht, ei]
            simp only [UInt64.ofNat_add]
          · rw [List.drop_drop, ← hpc] at hR₃
            exact hR₃

/-- **C96** In other words: the scanner accepts exactly the byte strings that start with a tag as laid out in the
format, as long as the count of bytes does not pass 2^64. -/
theorem C96_accepts (V : SkipView σ) {off : UInt64} {s : σ} {bs : Bytes} (hR : V.R s bs)
    (hlen : off.toNat + bs.length < 2 ^ 64) :
    (∃ r sc', RawTagScanner.nextTag m ⟨off, s⟩ = (.ok r, sc')) ↔
      ∃ id idb sz value rest, bs = idb ++ sz ++ value ++ rest ∧ IsILInt idb id ∧ Layout id sz value := by
  constructor
  · rintro ⟨r, sc', h⟩
    obtain ⟨o, idb, sz, value, rest, -, hb, hid, hl, -⟩ := layout_of_nextTag (V := V) h hR
    exact ⟨_, idb, sz, value, rest, hb, hid, hl⟩
  · rintro ⟨id, idb, sz, value, rest, rfl, hid, hl⟩
    simp only [List.length_append] at hlen
    have hmin : minSize id value ≤ sz.length := by
      unfold Layout at hl
      unfold minSize
      split
      · next h16 => rw [if_pos h16] at hl; exact (ILInt.ilint_shortest hl).1
      · omega
    have := (ILInt.ilint_shortest hid).1
    have e : (UInt64.ofNat id).toNat = id := ofNat_toNat64 hid.1
    obtain ⟨s', h, -⟩ := nextTag_of_layout (V := V) (m := m) (off := off) (id := UInt64.ofNat id) (by rw [e]; exact hid)
      (by rw [e]; exact hl) hR (by rw [e]; omega)
    exact ⟨_, _, h⟩

theorem scanHead_shorter {off : Nat} {bs rest : Bytes} {id h n : Nat} (hs : scanHead m off bs = .tag id h n rest) :
    rest.length < bs.length := by
  unfold scanHead at hs
  cases hh : headILInt bs with
  | ok v r =>
    rw [hh] at hs
    simp only at hs
    have h1 := (headILInt_lt hh).2
    cases hz : headSize v r with
    | ok f k r' =>
      rw [hz] at hs
      simp only at hs
      have h2 : r'.length ≤ r.length := by
        unfold headSize at hz
        split at hz
        · cases hq : headILInt r with
          | ok w q =>
            rw [hq] at hz
            simp only [SizeRead.ok.injEq] at hz
            rw [← hz.2.2]
            have := (headILInt_lt hq).2
            omega
          | tooBig => rw [hq] at hz; cases hz
          | short => rw [hq] at hz; cases hz
        · split at hz
          · cases r with
            | nil => cases hz
            | cons b r => simp only [SizeRead.ok.injEq] at hz; rw [← hz.2.2]; exact Nat.le_refl _
          · split at hz
            · cases hz
            · simp only [SizeRead.ok.injEq] at hz; rw [← hz.2.2]; exact Nat.le_refl _
      split at hs
      · cases hs
      · split at hs
        · cases hs
        · simp only [ScanVerdict.tag.injEq] at hs
          rw [← hs.2.2.2, List.length_drop]
          omega
    | tooBig => rw [hz] at hs; cases hs
    | undefinedId => rw [hz] at hs; cases hs
    | short => rw [hz] at hs; cases hs
  | tooBig => rw [hh] at hs; cases hs
  | short => rw [hh] at hs; cases hs

/-- **C96** The loop that calls the scanner until it stops answering with a tag ends, after at most as many tags as there
are bytes. -/
theorem C96_ends (V : SkipView σ) : ∀ (bs : Bytes) (off : UInt64) (s : σ), V.R s bs →
    ∃ os sc', ScanSeq m ⟨off, s⟩ os sc' ∧ os.length ≤ bs.length ∧ ∀ r, (RawTagScanner.nextTag m sc').1 ≠ .ok r := by
  intro bs
  induction hn : bs.length using Nat.strongRecOn generalizing bs with
  | ind k ih =>
    intro off s hR
    have hm := C96_exact (m := m) V off hR
    cases hs : scanHead m off.toNat bs with
    | tag id h n rest =>
      rw [hs] at hm
      obtain ⟨s', h1, hR'⟩ := hm
      have hlt := scanHead_shorter hs
      obtain ⟨os, sc', h2, h3, h4⟩ := ih rest.length (by omega) rest rfl (off + UInt64.ofNat (h + n)) s' hR'
      exact ⟨_ :: os, sc', .cons h1 h2, by simp only [List.length_cons]; omega, h4⟩
    | tooFar =>
      rw [hs] at hm; obtain ⟨sc', h1⟩ := hm
      exact ⟨[], _, .nil _, by simp, by rw [h1]; simp⟩
    | tooBig =>
      rw [hs] at hm; obtain ⟨sc', h1⟩ := hm
      exact ⟨[], _, .nil _, by simp, by rw [h1]; simp⟩
    | undefinedId =>
      rw [hs] at hm; obtain ⟨sc', h1⟩ := hm
      exact ⟨[], _, .nil _, by simp, by rw [h1]; simp⟩
    | short =>
      rw [hs] at hm; obtain ⟨e, sc', h1⟩ := hm
      exact ⟨[], _, .nil _, by simp, by rw [h1]; simp⟩

/-- Every outcome occurs: an explicit tag with a byte after it; a signed ILInt tag whose ILInt is not a valid one; a tag
that ends past 2^64, which panics or is found too short; an identifier that is too big; the undefined tag; a tag that is
too short. -/
def verdictIs (id header n left : Nat) : ScanVerdict → Bool
  | .tag i h k r => i == id && h == header && k == n && r.length == left
  | _ => false

example : verdictIs 1000 4 2 1 (scanHead .checked 5 [249, 2, 240, 2, 7, 8, 9]) = true ∧
    verdictIs 14 1 9 0 (scanHead .checked 5 [14, 255, 255, 255, 255, 255, 255, 255, 255, 255]) = true := by
  decide +kernel
example : (match scanHead .checked 5 [16, 255, 255, 255, 255, 255, 255, 255, 255, 7] with
      | .tooFar => true | _ => false) = true ∧
    (match scanHead .wrapping 5 [16, 255, 255, 255, 255, 255, 255, 255, 255, 7] with | .short => true | _ => false) = true ∧
    (match scanHead .checked 5 [255, 255, 255, 255, 255, 255, 255, 255, 255, 7] with
      | .tooBig => true | _ => false) = true ∧
    (match scanHead .checked 5 [15, 0] with | .undefinedId => true | _ => false) = true ∧
    (match scanHead .checked 5 [17, 3, 65, 66] with | .short => true | _ => false) = true := by
  decide +kernel

end
end Verif.Props
