import Verif.Props.Data
import Verif.Props.ILInt
import Verif.Spec.Fields
/-!
# C80: values read and written by type, one after another
-/
namespace Verif.Props
open Verif Verif.Spec

/-- What `Shape.read` does on a reader holding `bs`. -/
structure ReadsField [Env] (sh : Shape) : Prop where
  ok : ∀ {σ : Type} [Reader σ] (V : View σ) {s : σ} {f : Field} {enc rest : Bytes}, ShapeFits sh →
    shapeOf f = sh → FieldEnc f enc → V.R s (enc ++ rest) → ∃ s', sh.read s = (.ok f, s') ∧ V.R s' rest
  back : ∀ {σ : Type} [Reader σ] (V : View σ) {s s' : σ} {f : Field} {bs : Bytes}, ShapeFits sh →
    V.R s bs → sh.read s = (.ok f, s') → shapeOf f = sh ∧ ∃ enc rest, FieldEnc f enc ∧ bs = enc ++ rest ∧ V.R s' rest
  short : ∀ {σ : Type} [Reader σ] (V : View σ) {s : σ} {f : Field} {enc bs more : Bytes}, ShapeFits sh →
    shapeOf f = sh → FieldEnc f enc → enc = bs ++ more → more ≠ [] → V.R s bs →
    ∃ e s', sh.read s = (.err e, s') ∧ V.E e

theorem readsField_codec [Env] {α : Type} {width : Nat} {bits : α → Nat}
    {write : ∀ (ω : Type) [Writer ω], α → Act IoErr ω Unit} {read : ∀ (σ : Type) [Reader σ], Act IoErr σ α}
    (C : BigEndianCodec width bits write read) (mk : α → Field) (sh : Shape)
    (hr : ∀ (σ : Type) [Reader σ], (sh.read : Act IoErr σ Field) = (do let v ← read σ; pure (mk v)))
    (hs : ∀ f, shapeOf f = sh ↔ ∃ v, f = mk v) (he : ∀ v enc, FieldEnc (mk v) enc ↔ enc = be width (bits v)) :
    ReadsField sh where
  ok {σ} _ V {s f enc rest} _ h1 h2 h3 := by
    obtain ⟨v, rfl⟩ := (hs f).mp h1
    rw [(he v enc).mp h2] at h3
    obtain ⟨s', h4, h5⟩ := C.read_exact _ V s v rest h3
    exact ⟨s', by rw [hr, Act.bind_ok h4]; rfl, h5⟩
  back {σ} _ V {s s' f bs} _ hR h := by
    by_cases hl : width ≤ bs.length
    · obtain ⟨v, s1, h4, h5, h6⟩ := C.read_any _ V s bs hR hl
      rw [hr, Act.bind_ok h4] at h
      simp only [Act.pure_apply, Prod.mk.injEq, Res.ok.injEq] at h
      obtain ⟨rfl, rfl⟩ := h
      exact ⟨(hs _).mpr ⟨v, rfl⟩, _, _, (he _ _).mpr h6.symm, (List.take_append_drop width bs).symm, h5⟩
    · obtain ⟨e, s1, h4, -⟩ := C.read_short _ V s bs hR (by omega)
      rw [hr, Act.bind_err h4] at h
      simp at h
  short {σ} _ V {s f enc bs more} _ h1 h2 h3 h4 hR := by
    obtain ⟨v, rfl⟩ := (hs f).mp h1
    have hl : bs.length < width := by
      have : enc.length = width := by rw [(he v enc).mp h2]; simp
      rw [h3, List.length_append] at this
      have := List.length_pos_iff.mpr h4
      omega
    obtain ⟨e, s1, h5, h6⟩ := C.read_short _ V s bs hR hl
    exact ⟨e, s1, by rw [hr, Act.bind_err h5], h6⟩

theorem decode_short {bs more : Bytes} {v : Nat} (h : IsILInt (bs ++ more) v) (hm : more ≠ []) :
    ILInt.decodeFromBytes bs = .err .invalidFormat := by
  rw [(C04_slice_decoder bs).2.2.1]
  have hp := List.length_pos_iff.mpr hm
  cases bs with
  | nil => exact .inl rfl
  | cons b bs =>
    right
    obtain ⟨-, ⟨c, h1, -⟩ | ⟨c, body, h1, h2, h3, h4, -⟩⟩ := h
    · have := congrArg List.length h1
      simp at this; simp [this.2] at hp
    · simp only [List.cons_append, List.cons.injEq] at h1
      obtain ⟨rfl, rfl⟩ := h1
      exact ⟨b, bs, rfl, by omega, by simp at h4; omega⟩

theorem readILInt_view {σ : Type} [Reader σ] (V : View σ) {s : σ} {bs : Bytes} (hR : V.R s bs) :
    (∀ {enc rest : Bytes} {v : UInt64}, IsILInt enc v.toNat → bs = enc ++ rest →
      ∃ s', Data.readILInt s = (.ok v, s') ∧ V.R s' rest) ∧
    (∀ {v : UInt64} {s' : σ}, Data.readILInt s = (.ok v, s') →
      ∃ enc rest, IsILInt enc v.toNat ∧ bs = enc ++ rest ∧ V.R s' rest) ∧
    (∀ {more : Bytes} {v : Nat}, IsILInt (bs ++ more) v → more ≠ [] →
      ∃ e s', (Data.readILInt s : Res IoErr UInt64 × σ) = (.err e, s') ∧ V.E e) := by
  obtain ⟨h1, h2, h3⟩ := ILInt.decode_view V hR
  refine ⟨fun {enc rest v} he hb => ?_, fun {v s'} h => ?_, fun {more v} he hm => ?_⟩
  · subst hb
    obtain ⟨s', h4, h5⟩ := h1 _ _ (ILInt.decodeFromBytes_isILInt he rest)
    refine ⟨s', ?_, by simpa using h5⟩
    simp only [Data.readILInt, Act.mapErr_apply, h4, Res.mapErr]
    simp
  · rcases ILInt.decodeFromBytes_cases bs with ⟨w, n, hd⟩ | hd | hd
    · obtain ⟨s1, h4, h5⟩ := h1 _ _ hd
      obtain ⟨h6, h7, -⟩ := ILInt.decodeFromBytes_ok hd
      simp only [Data.readILInt, Act.mapErr_apply, h4, Res.mapErr, Prod.mk.injEq, Res.ok.injEq] at h
      obtain ⟨rfl, rfl⟩ := h
      exact ⟨_, _, h6, (List.take_append_drop n bs).symm, h5⟩
    · obtain ⟨s1, h4⟩ := h2 hd
      simp [Data.readILInt, Act.mapErr_apply, h4, Res.mapErr] at h
    · obtain ⟨e, s1, h4, -⟩ := h3 hd
      simp [Data.readILInt, Act.mapErr_apply, h4, Res.mapErr] at h
  · obtain ⟨e, s1, h4, h5⟩ := h3 (decode_short he hm)
    exact ⟨e, s1, by simp [Data.readILInt, Act.mapErr_apply, h4, Res.mapErr, Data.readILIntErr], h5⟩

theorem readSigned_eq {σ : Type} [Reader σ] :
    (Data.readSignedILInt : Act IoErr σ Int64) =
      (do let v ← Data.readILInt; pure (ILInt.decodeSign v)) := by
  unfold Data.readSignedILInt Data.readILInt ILInt.signedDecode
  rw [Act.mapErr_bind]
  rfl

theorem readsField [Env] (sh : Shape) : ReadsField sh := by
  cases sh with
  | u8 => exact readsField_codec C25_unsigned.1 .u8 .u8 (fun _ _ => rfl) (fun f => by cases f <;> simp [shapeOf]) (fun _ _ => Iff.rfl)
  | i8 => exact readsField_codec C25_signed.1 .i8 .i8 (fun _ _ => rfl) (fun f => by cases f <;> simp [shapeOf]) (fun _ _ => Iff.rfl)
  | u16 => exact readsField_codec C25_unsigned.2.1 .u16 .u16 (fun _ _ => rfl) (fun f => by cases f <;> simp [shapeOf]) (fun _ _ => Iff.rfl)
  | i16 => exact readsField_codec C25_signed.2.1 .i16 .i16 (fun _ _ => rfl) (fun f => by cases f <;> simp [shapeOf]) (fun _ _ => Iff.rfl)
  | u32 => exact readsField_codec C25_unsigned.2.2.1 .u32 .u32 (fun _ _ => rfl) (fun f => by cases f <;> simp [shapeOf]) (fun _ _ => Iff.rfl)
  | i32 => exact readsField_codec C25_signed.2.2.1 .i32 .i32 (fun _ _ => rfl) (fun f => by cases f <;> simp [shapeOf]) (fun _ _ => Iff.rfl)
  | u64 => exact readsField_codec C25_unsigned.2.2.2 .u64 .u64 (fun _ _ => rfl) (fun f => by cases f <;> simp [shapeOf]) (fun _ _ => Iff.rfl)
  | i64 => exact readsField_codec C25_signed.2.2.2 .i64 .i64 (fun _ _ => rfl) (fun f => by cases f <;> simp [shapeOf]) (fun _ _ => Iff.rfl)
  | f32 => exact readsField_codec C25_floats.1 .f32 .f32 (fun _ _ => rfl) (fun f => by cases f <;> simp [shapeOf]) (fun _ _ => Iff.rfl)
  | f64 => exact readsField_codec C25_floats.2 .f64 .f64 (fun _ _ => rfl) (fun f => by cases f <;> simp [shapeOf]) (fun _ _ => Iff.rfl)
  | ilint =>
    refine ⟨fun {σ} _ V {s f enc rest} _ h1 h2 hR => ?_, fun {σ} _ V {s s' f bs} _ hR h => ?_,
      fun {σ} _ V {s f enc bs more} _ h1 h2 h3 h4 hR => ?_⟩
    · cases f <;> simp only [shapeOf, reduceCtorEq] at h1
      obtain ⟨s', h3, h4⟩ := (readILInt_view V hR).1 h2 rfl
      exact ⟨s', by rw [Shape.read, Act.bind_ok h3]; rfl, h4⟩
    · rw [Shape.read] at h
      rcases hc : (Data.readILInt s : Res IoErr UInt64 × _) with ⟨_ | _ | _ | _, s1⟩
      · rw [Act.bind_ok hc] at h
        simp only [Act.pure_apply, Prod.mk.injEq, Res.ok.injEq] at h
        obtain ⟨rfl, rfl⟩ := h
        exact ⟨rfl, (readILInt_view V hR).2.1 hc⟩
      · rw [Act.bind_err hc] at h; simp at h
      · simp [Act.bind_apply, hc] at h
      · simp [Act.bind_apply, hc] at h
    · cases f <;> simp only [shapeOf, reduceCtorEq] at h1
      subst h3
      obtain ⟨e, s', h5, h6⟩ := (readILInt_view V hR).2.2 h2 h4
      exact ⟨e, s', by rw [Shape.read, Act.bind_err h5], h6⟩
  | signedILInt =>
    refine ⟨fun {σ} _ V {s f enc rest} _ h1 h2 hR => ?_, fun {σ} _ V {s s' f bs} _ hR h => ?_,
      fun {σ} _ V {s f enc bs more} _ h1 h2 h3 h4 hR => ?_⟩
    · cases f <;> simp only [shapeOf, reduceCtorEq] at h1
      rename_i v
      rw [FieldEnc, ← ILInt.encodeSign_eq] at h2
      obtain ⟨s', h3, h4⟩ := (readILInt_view V hR).1 h2 rfl
      refine ⟨s', ?_, h4⟩
      rw [Shape.read, readSigned_eq, Act.bind_assoc, Act.bind_ok h3, Act.pure_bind, ILInt.decodeSign_encodeSign]
      rfl
    · rw [Shape.read, readSigned_eq, Act.bind_assoc] at h
      rcases hc : (Data.readILInt s : Res IoErr UInt64 × _) with ⟨_ | _ | _ | _, s1⟩
      · rw [Act.bind_ok hc, Act.pure_bind] at h
        simp only [Act.pure_apply, Prod.mk.injEq, Res.ok.injEq] at h
        obtain ⟨rfl, rfl⟩ := h
        refine ⟨rfl, ?_⟩
        simp only [FieldEnc, ← ILInt.encodeSign_eq, ILInt.encodeSign_decodeSign]
        exact (readILInt_view V hR).2.1 hc
      · rw [Act.bind_err hc] at h; simp at h
      · simp [Act.bind_apply, hc] at h
      · simp [Act.bind_apply, hc] at h
    · cases f <;> simp only [shapeOf, reduceCtorEq] at h1
      subst h3
      obtain ⟨e, s', h5, h6⟩ := (readILInt_view V hR).2.2 h2 h4
      exact ⟨e, s', by rw [Shape.read, readSigned_eq, Act.bind_assoc, Act.bind_err h5], h6⟩
  | str n =>
    refine ⟨fun {σ} _ V {s f enc rest} ha h1 h2 hR => ?_, fun {σ} _ V {s s' f bs} ha hR h => ?_,
      fun {σ} _ V {s f enc bs more} ha h1 h2 h3 h4 hR => ?_⟩
    · cases f <;> simp only [shapeOf, reduceCtorEq, Shape.str.injEq] at h1
      cases h2; subst h1
      obtain ⟨s', h3, h4⟩ := C26_round_trip V s _ rest hR ha
      exact ⟨s', by rw [Shape.read, Act.bind_ok h3]; rfl, h4⟩
    · rw [Shape.read] at h
      by_cases hl : n ≤ bs.length
      · obtain ⟨h3, h4⟩ := C26_read_string V s bs n hR hl ha
        by_cases hx : ∃ str, Spec.utf8 str = bs.take n
        · obtain ⟨str, hx⟩ := hx
          obtain ⟨s1, h5, h6⟩ := h3 str hx
          rw [Act.bind_ok h5] at h
          simp only [Act.pure_apply, Prod.mk.injEq, Res.ok.injEq] at h
          obtain ⟨rfl, rfl⟩ := h
          refine ⟨?_, _, _, rfl, ?_, h6⟩
          · rw [shapeOf, hx, List.length_take, Nat.min_eq_left hl]
          · rw [hx, List.take_append_drop]
        · obtain ⟨s1, h5, h6⟩ := h4 fun str hs => hx ⟨str, hs⟩
          rw [Act.bind_err h5] at h; simp at h
      · obtain ⟨e, s1, h5, -⟩ := C26_read_string_short V s bs n hR (by omega) ha
        rw [Act.bind_err h5] at h; simp at h
    · cases f <;> simp only [shapeOf, reduceCtorEq, Shape.str.injEq] at h1
      have hl : bs.length < n := by
        rw [← h1, ← h2, h3, List.length_append]
        have := List.length_pos_iff.mpr h4
        omega
      obtain ⟨e, s1, h5, h6⟩ := C26_read_string_short V s bs n hR hl ha
      exact ⟨e, s1, by rw [Shape.read, Act.bind_err h5], h6⟩
  | bytes n =>
    have hread : ∀ {σ : Type} [Reader σ], ShapeFits (.bytes n) → (Shape.read (.bytes n) : Act IoErr σ Field) =
        (do let v ← Reader.readAll n; pure (.bytes v)) := by
      intro σ _ ha
      rw [ShapeFits] at ha
      simp only [Shape.read, Data.alloc, Nat.one_mul, ha, if_true, Act.pure_bind]
    refine ⟨fun {σ} _ V {s f enc rest} ha h1 h2 hR => ?_, fun {σ} _ V {s s' f bs} ha hR h => ?_,
      fun {σ} _ V {s f enc bs more} ha h1 h2 h3 h4 hR => ?_⟩
    · cases f <;> simp only [shapeOf, reduceCtorEq, Shape.bytes.injEq] at h1
      cases h2; subst h1
      obtain ⟨s', h3, h4⟩ := V.readAll_ok (n := enc.length) hR (by simp)
      rw [List.take_left] at h3
      exact ⟨s', by rw [hread ha, Act.bind_ok h3]; rfl, by simpa using h4⟩
    · rw [hread ha] at h
      by_cases hl : n ≤ bs.length
      · obtain ⟨s1, h3, h4⟩ := V.readAll_ok (n := n) hR hl
        rw [Act.bind_ok h3] at h
        simp only [Act.pure_apply, Prod.mk.injEq, Res.ok.injEq] at h
        obtain ⟨rfl, rfl⟩ := h
        exact ⟨by rw [shapeOf, List.length_take, Nat.min_eq_left hl], _, _, rfl, (List.take_append_drop n bs).symm, h4⟩
      · obtain ⟨e, s1, h3, -⟩ := V.readAll_short (n := n) hR (by omega)
        rw [Act.bind_err h3] at h; simp at h
    · cases f <;> simp only [shapeOf, reduceCtorEq, Shape.bytes.injEq] at h1
      have hl : bs.length < n := by
        rw [← h1, ← h2, h3, List.length_append]
        have := List.length_pos_iff.mpr h4
        omega
      obtain ⟨e, s1, h5, h6⟩ := V.readAll_short (n := n) hR hl
      exact ⟨e, s1, by rw [hread ha, Act.bind_err h5], h6⟩
theorem fieldBytes_enc (f : Field) : FieldEnc f (fieldBytes f) := by
  cases f with
  | ilint v => exact ILInt.isILInt_ilint v.toNat_lt
  | signedILInt v =>
    show IsILInt (Spec.ilint (zigzag v.toInt)) (zigzag v.toInt)
    rw [← ILInt.encodeSign_eq]
    exact ILInt.isILInt_ilint (ILInt.encodeSign v).toNat_lt
  | _ => rfl

theorem write_field {ω : Type} [Writer ω] (S : Sink ω) {w : ω} {pre : Bytes} (f : Field) (h : S.W w pre) :
    ∃ w', f.write w = (.ok (), w') ∧ S.W w' (pre ++ fieldBytes f) := by
  cases f with
  | u8 v => exact C25_unsigned.1.write_exact _ S w pre v h
  | i8 v => exact C25_signed.1.write_exact _ S w pre v h
  | u16 v => exact C25_unsigned.2.1.write_exact _ S w pre v h
  | i16 v => exact C25_signed.2.1.write_exact _ S w pre v h
  | u32 v => exact C25_unsigned.2.2.1.write_exact _ S w pre v h
  | i32 v => exact C25_signed.2.2.1.write_exact _ S w pre v h
  | u64 v => exact C25_unsigned.2.2.2.write_exact _ S w pre v h
  | i64 v => exact C25_signed.2.2.2.write_exact _ S w pre v h
  | f32 v => exact C25_floats.1.write_exact _ S w pre v h
  | f64 v => exact C25_floats.2.write_exact _ S w pre v h
  | ilint v =>
    obtain ⟨w', h1, h2⟩ := ILInt.encode_sink S v h
    exact ⟨w', by simp [Field.write, Data.writeILInt, Act.mapErr_apply, h1, Res.mapErr], h2⟩
  | signedILInt v =>
    obtain ⟨w', h1, h2⟩ := ILInt.encode_sink S (ILInt.encodeSign v) h
    refine ⟨w', by simp [Field.write, Data.writeSignedILInt, ILInt.signedEncode, Act.mapErr_apply, h1, Res.mapErr], ?_⟩
    rw [ILInt.encodeSign_eq] at h2
    exact h2
  | str v => exact (C26_write_string S w pre v h).1
  | bytes v => exact S.writeAll_ok v h

/-- **C80**, writing: on every writer that accepts everything, writing values of any types one after another succeeds
and appends their encodings in order. -/
theorem C80_write {ω : Type} [Writer ω] (S : Sink ω) (fs : List Field) (w : ω) (pre : Bytes) (h : S.W w pre) :
    ∃ w', Field.serializeAll fs w = (.ok (), w') ∧ S.W w' (pre ++ fs.flatMap fieldBytes) := by
  induction fs generalizing w pre with
  | nil => exact ⟨w, rfl, by simpa using h⟩
  | cons f fs ih =>
    obtain ⟨w1, h1, h2⟩ := write_field S f h
    obtain ⟨w2, h3, h4⟩ := ih w1 _ h2
    refine ⟨w2, ?_, by simpa [List.append_assoc] using h4⟩
    have h5 : (f.serialize w : Res TagErr Unit × ω) = (.ok (), w1) := by
      simp [Field.serialize, tagIo, Act.mapErr_apply, h1, Res.mapErr]
    rw [Field.serializeAll, Act.bind_ok h5, h3]

/-- The encodings written are encodings in the sense of the specification. -/
theorem record_written (fs : List Field) : RecordEnc fs (fs.flatMap fieldBytes) := by
  induction fs with
  | nil => rfl
  | cons f fs ih => exact ⟨_, _, rfl, fieldBytes_enc f, ih⟩

theorem deserialize_ok [Env] {σ : Type} {_ : Reader σ} {sh : Shape} {s s' : σ} {f : Field} :
    sh.deserialize s = (.ok f, s') ↔ sh.read s = (.ok f, s') := by
  unfold Shape.deserialize tagIo
  rw [Act.mapErr_apply]
  rcases (sh.read s : Res IoErr Field × σ) with ⟨_ | _ | _ | _, s1⟩ <;> simp [Res.mapErr]

/-- **C80**, reading: on every well-behaved reader the values come back, with the reader left behind them, exactly
when the bytes held begin with encodings of values of the requested types, in order. -/
theorem C80_read [Env] {σ : Type} [Reader σ] (V : View σ) (shs : List Shape) (s : σ) (bs : Bytes) (hR : V.R s bs)
    (ha : ∀ sh ∈ shs, ShapeFits sh) (fs : List Field) (rest : Bytes) :
    (∃ s', Shape.deserializeAll shs s = (.ok fs, s') ∧ V.R s' rest) ↔
      fs.map shapeOf = shs ∧ ∃ enc, RecordEnc fs enc ∧ bs = enc ++ rest := by
  induction shs generalizing s bs fs with
  | nil =>
    simp only [Shape.deserializeAll, Act.pure_apply, Prod.mk.injEq, Res.ok.injEq, List.map_eq_nil_iff]
    constructor
    · rintro ⟨s', ⟨rfl, rfl⟩, h⟩
      exact ⟨rfl, [], rfl, by rw [V.unique hR h]; rfl⟩
    · rintro ⟨rfl, enc, he, rfl⟩
      rw [RecordEnc] at he
      subst he
      exact ⟨s, ⟨rfl, rfl⟩, hR⟩
  | cons sh shs ih =>
    have ha1 := ha sh (by simp)
    have ha2 : ∀ sh ∈ shs, ShapeFits sh := fun x hx => ha x (by simp [hx])
    rw [Shape.deserializeAll]
    constructor
    · rintro ⟨s', h, h'⟩
      rcases hc : (sh.deserialize s : Res TagErr Field × σ) with ⟨_ | _ | _ | _, s1⟩
      · rename_i f
        rw [Act.bind_ok hc] at h
        obtain ⟨h1, enc, rest1, h2, h3, h4⟩ := (readsField sh).back V ha1 hR (deserialize_ok.mp hc)
        rcases hd : (Shape.deserializeAll shs s1 : Res TagErr (List Field) × σ) with ⟨_ | _ | _ | _, s2⟩
        · rename_i fs1
          rw [Act.bind_ok hd] at h
          simp only [Act.pure_apply, Prod.mk.injEq, Res.ok.injEq] at h
          obtain ⟨rfl, rfl⟩ := h
          obtain ⟨h5, enc2, h6, h7⟩ := (ih s1 rest1 h4 ha2 fs1).mp ⟨s2, hd, h'⟩
          refine ⟨by rw [List.map_cons, h1, h5], enc ++ enc2, ⟨_, _, rfl, h2, h6⟩, ?_⟩
          rw [h3, h7, List.append_assoc]
        all_goals simp [Act.bind_apply, hd] at h
      all_goals simp [Act.bind_apply, hc] at h
    · rintro ⟨h1, enc, h2, rfl⟩
      cases fs with
      | nil => simp at h1
      | cons f fs =>
        simp only [List.map_cons, List.cons.injEq] at h1
        obtain ⟨h1, h3⟩ := h1
        obtain ⟨a, b, rfl, h4, h5⟩ := h2
        rw [List.append_assoc] at hR
        obtain ⟨s1, h6, h7⟩ := (readsField sh).ok V ha1 h1 h4 hR
        obtain ⟨s2, h8, h9⟩ := (ih s1 _ h7 ha2 fs).mpr ⟨h3, b, h5, rfl⟩
        refine ⟨s2, ?_, h9⟩
        rw [Act.bind_ok (deserialize_ok.mpr h6), Act.bind_ok h8]
        rfl

/-- **C80**: what was written is read back, whatever follows it. -/
theorem C80_round_trip [Env] {σ : Type} [Reader σ] (V : View σ) (fs : List Field) (s : σ) (rest : Bytes)
    (hR : V.R s (fs.flatMap fieldBytes ++ rest)) (ha : ∀ f ∈ fs, ShapeFits (shapeOf f)) :
    ∃ s', Shape.deserializeAll (fs.map shapeOf) s = (.ok fs, s') ∧ V.R s' rest :=
  (C80_read V _ s _ hR (by simpa using ha) fs rest).mpr ⟨rfl, _, record_written fs, rfl⟩

/-- **C80**, truncated input: when the bytes end inside the encodings, reading fails with the reader's own error, and
every value whose encoding is complete can be read before that. -/
theorem C80_truncated [Env] {σ : Type} [Reader σ] (V : View σ) (fs : List Field) (s : σ) (bs more : Bytes)
    (henc : RecordEnc fs (bs ++ more)) (hm : more ≠ []) (hR : V.R s bs) (ha : ∀ f ∈ fs, ShapeFits (shapeOf f)) :
    (∃ e s', Shape.deserializeAll (fs.map shapeOf) s = (.err (.ioError e), s') ∧ V.E e) ∧
    ∀ done later enc tail, fs = done ++ later → RecordEnc done enc → bs = enc ++ tail →
      ∃ s', Shape.deserializeAll (done.map shapeOf) s = (.ok done, s') ∧ V.R s' tail := by
  constructor
  · induction fs generalizing s bs with
    | nil => simp [RecordEnc] at henc; exact absurd henc.2 hm
    | cons f fs ih =>
      obtain ⟨a, b, h1, h2, h3⟩ := henc
      have ha1 := ha f (by simp)
      rcases List.append_eq_append_iff.mp h1 with ⟨c, hc, hc'⟩ | ⟨c, hc, hc'⟩
      · by_cases hn : c = []
        · subst hn
          simp only [List.append_nil, List.nil_append] at hc hc'
          subst hc hc'
          obtain ⟨s1, h6, h7⟩ := (readsField (shapeOf f)).ok V (rest := []) ha1 rfl h2 (by simpa using hR)
          obtain ⟨e, s2, h8, h9⟩ := ih s1 [] h3 h7 (fun x hx => ha x (by simp [hx]))
          refine ⟨e, s2, ?_, h9⟩
          rw [List.map_cons, Shape.deserializeAll, Act.bind_ok (deserialize_ok.mpr h6), Act.bind_err h8]
        · obtain ⟨e, s1, h6, h7⟩ := (readsField (shapeOf f)).short V ha1 rfl h2 hc hn hR
          refine ⟨e, s1, ?_, h7⟩
          rw [List.map_cons, Shape.deserializeAll]
          apply Act.bind_err
          simp [Shape.deserialize, tagIo, Act.mapErr_apply, h6, Res.mapErr]
      · subst hc
        obtain ⟨s1, h6, h7⟩ := (readsField (shapeOf f)).ok V ha1 rfl h2 hR
        obtain ⟨e, s2, h8, h9⟩ := ih s1 c (hc' ▸ h3) h7 (fun x hx => ha x (by simp [hx]))
        refine ⟨e, s2, ?_, h9⟩
        rw [List.map_cons, Shape.deserializeAll, Act.bind_ok (deserialize_ok.mpr h6), Act.bind_err h8]
  · rintro done later enc tail rfl h1 rfl
    exact (C80_read V (done.map shapeOf) s _ hR
      (by simp only [List.mem_map]; rintro _ ⟨f, hf, rfl⟩; exact ha f (by simp [hf])) done tail).mpr ⟨rfl, enc, h1, rfl⟩

/-- A record of six types, its bytes, reading it back with bytes following, and reading it cut short. -/
example : let _ : Env := ⟨100⟩
    let rec_ : List Field := [.u8 7, .i16 (-2), .ilint 500, .signedILInt (-3), .str "é", .bytes [1, 2]]
    rec_.flatMap fieldBytes = [7, 0xFF, 0xFE, 0xF8, 0xFC, 5, 0xC3, 0xA9, 1, 2] ∧
    (Field.serializeAll rec_ VecWriter.new).2.vector = [7, 0xFF, 0xFE, 0xF8, 0xFC, 5, 0xC3, 0xA9, 1, 2] ∧
    (Shape.deserializeAll (rec_.map shapeOf)
      (ByteArrayReader.new [7, 0xFF, 0xFE, 0xF8, 0xFC, 5, 0xC3, 0xA9, 1, 2, 99])).1 = .ok rec_ ∧
    (Shape.deserializeAll (rec_.map shapeOf)
      (ByteArrayReader.new [7, 0xFF, 0xFE, 0xF8, 0xFC, 5, 0xC3])).1 =
      .err (.ioError .unableToReadData) := by
  decide +kernel


section
/-- Cut in the middle of the string, behind an integer that is not in its shortest form. -/
example : let _ : Env := ⟨100⟩
    ∃ e s', Shape.deserializeAll [.ilint, .str 2] (ByteArrayReader.new [249, 0, 52, 0xC3]) = (.err (.ioError e), s') := by
  intro _
  have h : RecordEnc [.ilint 300, .str "é"] ([249, 0, 52, 0xC3] ++ [0xA9]) :=
    ⟨[249, 0, 52], _, rfl, ⟨by decide, .inr ⟨249, [0, 52], rfl, by decide, by decide, by decide, by decide⟩⟩,
      [0xC3, 0xA9], [], rfl, by unfold FieldEnc; decide +kernel, rfl⟩
  obtain ⟨⟨e, s', h1, -⟩, -⟩ := C80_truncated ByteArrayReader.view.toView [.ilint 300, .str "é"]
    (ByteArrayReader.new [249, 0, 52, 0xC3]) _ _ h (by decide) (ByteArrayReader.view_new _) (by
      intro f hf
      simp only [List.mem_cons, List.not_mem_nil, or_false] at hf
      rcases hf with rfl | rfl
      · trivial
      · exact (by decide : (Verif.utf8 "é").length ≤ 100))
  exact ⟨e, s', h1⟩

end

end Verif.Props
