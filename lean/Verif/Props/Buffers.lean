import Verif.Model.Buffer
import Verif.Proof.Parser
/-!
# C87: what is left in a buffer or a tag when reading fails
-/
namespace Verif.Props
open Verif

/-- `buf'` is `buf` with its first bytes replaced by `got`. -/
def Overlaid (buf got buf' : Bytes) : Prop := got.length ≤ buf.length ∧ buf' = got ++ buf.drop got.length

theorem Overlaid.refl (buf : Bytes) : Overlaid buf [] buf := ⟨by simp, by simp⟩

theorem Overlaid.length {buf got buf' : Bytes} (h : Overlaid buf got buf') : buf'.length = buf.length := by
  obtain ⟨h1, rfl⟩ := h
  simp; omega

/-- `read_all` into a buffer of a reader of any kind: it gives the same result as and leaves the reader as in the model
used elsewhere (`Reader.readAll`); on success the buffer holds the bytes read.  Otherwise some bytes at its beginning
have been replaced. -/
def Exact (σ : Type) [Reader σ] [BufReader σ] : Prop :=
  ∀ (buf : Bytes) (s : σ), ∃ got buf',
    (BufReader.readInto (buf, s) : Res IoErr Unit × Bytes × σ) =
      ((Reader.readAll buf.length s).1.map fun _ => (), (buf', (Reader.readAll buf.length s).2)) ∧
    Overlaid buf got buf' ∧
    (∀ bs, (Reader.readAll buf.length s).1 = .ok bs → got = bs) ∧
    (∀ e, (Reader.readAll buf.length s).1 = .err e → got.length < buf.length)

/-- The loop of the default method. -/
theorem defaultReadInto_eq {σ : Type} (read : Act IoErr σ Byte) (buf : Bytes) (s : σ) : ∃ got buf',
    defaultReadInto read buf s =
      ((defaultReadAll read buf.length s).1.map fun _ => (), (buf', (defaultReadAll read buf.length s).2)) ∧
    Overlaid buf got buf' ∧
    (∀ bs, (defaultReadAll read buf.length s).1 = .ok bs → got = bs) ∧
    ((defaultReadAll read buf.length s).1.isOk = false → got.length < buf.length) ∧
    ∃ s₁, defaultReadAll read got.length s = (.ok got, s₁) ∧
      ((defaultReadAll read buf.length s).1.isOk = false →
        ((read s₁).1.map fun _ => ()) = (defaultReadAll read buf.length s).1.map (fun _ => ()) ∧
        (read s₁).2 = (defaultReadAll read buf.length s).2) := by
  induction buf generalizing s with
  | nil =>
    exact ⟨[], [], rfl, Overlaid.refl _, fun bs h => by simpa [defaultReadAll, pure, Act.pure] using h,
      fun h => by simp [defaultReadAll, pure, Act.pure, Res.isOk] at h, s, rfl,
      fun h => by simp [defaultReadAll, pure, Act.pure, Res.isOk] at h⟩
  | cons old buf ih =>
    rcases hr : read s with ⟨r, s₁⟩
    cases r with
    | ok b =>
      obtain ⟨got, buf', h1, h2, h3, h4, s₂, h5, h6⟩ := ih s₁
      have e : defaultReadAll read (buf.length + 1) s =
          (((defaultReadAll read buf.length s₁).1.map fun bs => b :: bs), (defaultReadAll read buf.length s₁).2) := by
        rw [defaultReadAll, Act.bind_ok hr]
        rcases hd : defaultReadAll read buf.length s₁ with ⟨r, s'⟩
        cases r with
        | ok bs => rw [Act.bind_ok hd]; rfl
        | _ => simp only [Act.bind_apply, hd]; rfl
      refine ⟨b :: got, b :: buf', ?_, ⟨by have := h2.1; simp; omega, by rw [h2.2]; simp⟩, ?_, ?_, s₂, ?_, ?_⟩
      · rw [List.length_cons, e, defaultReadInto, hr]
        simp only [h1]
        cases (defaultReadAll read buf.length s₁).1 <;> rfl
      · intro bs hbs
        rw [List.length_cons, e] at hbs
        cases hd : (defaultReadAll read buf.length s₁).1 with
        | ok bs' =>
          rw [hd] at hbs
          simp only [Res.map, Res.ok.injEq] at hbs
          rw [← hbs, h3 bs' hd]
        | _ => rw [hd] at hbs; simp [Res.map] at hbs
      · intro hf
        rw [List.length_cons, e] at hf
        have : (defaultReadAll read buf.length s₁).1.isOk = false := by
          cases hd : (defaultReadAll read buf.length s₁).1 <;> rw [hd] at hf <;> simp_all [Res.map, Res.isOk]
        have := h4 this
        simp; omega
      · rw [List.length_cons, defaultReadAll, Act.bind_ok hr, Act.bind_ok h5]; rfl
      · intro hf
        rw [List.length_cons, e] at hf ⊢
        have : (defaultReadAll read buf.length s₁).1.isOk = false := by
          cases hd : (defaultReadAll read buf.length s₁).1 <;> rw [hd] at hf <;> simp_all [Res.map, Res.isOk]
        obtain ⟨g1, g2⟩ := h6 this
        refine ⟨?_, g2⟩
        rw [g1]
        cases (defaultReadAll read buf.length s₁).1 <;> rfl
    | err x =>
      have e : defaultReadAll read (buf.length + 1) s = (.err x, s₁) := by rw [defaultReadAll, Act.bind_err hr]
      refine ⟨[], old :: buf, ?_, Overlaid.refl _, ?_, ?_, s, rfl, ?_⟩
      · rw [List.length_cons, e, defaultReadInto, hr]; rfl
      · intro bs hbs; rw [List.length_cons, e] at hbs; simp at hbs
      · intro _; simp
      · intro _; rw [List.length_cons, e, hr]; exact ⟨rfl, rfl⟩
    | panic =>
      have e : defaultReadAll read (buf.length + 1) s = (.panic, s₁) := by
        rw [defaultReadAll]; simp only [Act.bind_apply, hr]
      refine ⟨[], old :: buf, ?_, Overlaid.refl _, ?_, ?_, s, rfl, ?_⟩
      · rw [List.length_cons, e, defaultReadInto, hr]; rfl
      · intro bs hbs; rw [List.length_cons, e] at hbs; simp at hbs
      · intro _; simp
      · intro _; rw [List.length_cons, e, hr]; exact ⟨rfl, rfl⟩
    | diverge =>
      have e : defaultReadAll read (buf.length + 1) s = (.diverge, s₁) := by
        rw [defaultReadAll]; simp only [Act.bind_apply, hr]
      refine ⟨[], old :: buf, ?_, Overlaid.refl _, ?_, ?_, s, rfl, ?_⟩
      · rw [List.length_cons, e, defaultReadInto, hr]; rfl
      · intro bs hbs; rw [List.length_cons, e] at hbs; simp at hbs
      · intro _; simp
      · intro _; rw [List.length_cons, e, hr]; exact ⟨rfl, rfl⟩

/-- `read_exact` with the buffer. -/
theorem readExactInto_eq (data : Bytes) (sched : List ReadEv) (buf : Bytes) : ∃ got buf',
    readExactInto data sched buf =
      ((readExact data sched buf.length).1.map fun _ => (), buf', (readExact data sched buf.length).2) ∧
    Overlaid buf got buf' ∧
    (∀ bs, (readExact data sched buf.length).1 = .ok bs → got = bs) ∧
    ((readExact data sched buf.length).1.isOk = false → got.length < buf.length) ∧
    data = got ++ (readExact data sched buf.length).2.1 := by
  induction sched generalizing data buf with
  | nil =>
    cases buf with
    | nil => exact ⟨[], [], rfl, Overlaid.refl _, fun bs h => by simpa [readExact] using h,
        fun h => by simp [readExact, Res.isOk] at h, rfl⟩
    | cons x buf =>
      by_cases hl : buf.length + 1 ≤ data.length
      · refine ⟨data.take (buf.length + 1), data.take (buf.length + 1), ?_, ⟨?_, ?_⟩, ?_, ?_, ?_⟩
        · simp [readExactInto, readExact, hl, Res.map]
        · simp; omega
        · have : (data.take (buf.length + 1)).length = buf.length + 1 := by simp; omega
          rw [this]; simp
        · intro bs h; simpa [readExact, hl] using h
        · intro h; simp [readExact, hl, Res.isOk] at h
        · simp [readExact, hl]
      · refine ⟨data, data ++ (x :: buf).drop data.length, ?_, ⟨?_, rfl⟩, ?_, ?_, ?_⟩
        · simp [readExactInto, readExact, hl, Res.map]
        · simp; omega
        · intro bs h; simp [readExact, hl] at h
        · intro _; simp; omega
        · simp [readExact, hl]
  | cons ev sched ih =>
    cases buf with
    | nil => exact ⟨[], [], rfl, Overlaid.refl _, fun bs h => by simpa [readExact] using h,
        fun h => by simp [readExact, Res.isOk] at h, rfl⟩
    | cons x buf =>
      cases ev with
      | error e =>
        by_cases he : e = .interrupted
        · obtain ⟨got, buf', h1, h2, h3, h4, h5⟩ := ih data (x :: buf)
          have hr : readExact data (.error e :: sched) (buf.length + 1) = readExact data sched (buf.length + 1) := by
            rw [readExact, if_pos he]
          refine ⟨got, buf', ?_, h2, ?_, ?_, ?_⟩
          · rw [readExactInto, if_pos he, h1, List.length_cons, hr]
          · rw [List.length_cons, hr]; exact h3
          · rw [List.length_cons, hr]; exact h4
          · rw [List.length_cons, hr]; exact h5
        · refine ⟨[], x :: buf, ?_, Overlaid.refl _, ?_, ?_, ?_⟩
          · simp [readExactInto, readExact, he, Res.map]
          · intro bs h; simp [readExact, he] at h
          · intro _; simp
          · simp [readExact, he]
      | chunk k =>
        by_cases hc : (data.take (min k (buf.length + 1))).isEmpty = true
        · refine ⟨[], x :: buf, ?_, Overlaid.refl _, ?_, ?_, ?_⟩
          · simp only [readExactInto, readExact, hc, if_true, List.length_cons, Res.map]
          · intro bs h; simp only [readExact, hc, if_true, List.length_cons] at h; simp at h
          · intro _; simp
          · simp only [readExact, hc, if_true, List.length_cons, List.nil_append]
        · generalize hcd : data.take (min k (buf.length + 1)) = c at hc
          have hlen : c.length ≤ buf.length + 1 := by rw [← hcd]; simp; omega
          obtain ⟨got, buf', h1, h2, h3, h4, h5⟩ := ih (data.drop c.length) ((x :: buf).drop c.length)
          have hl2 : ((x :: buf).drop c.length).length = buf.length + 1 - c.length := by simp
          rw [hl2] at h1 h3 h4 h5
          have hdata : data = c ++ data.drop c.length := by
            generalize min k (buf.length + 1) = q at hcd
            subst hcd
            rw [List.length_take]
            rcases Nat.le_total q data.length with hh | hh
            · rw [Nat.min_eq_left hh, List.take_append_drop]
            · rw [Nat.min_eq_right hh, List.take_of_length_le hh]; simp
          have hr : readExact data (.chunk k :: sched) (buf.length + 1) =
              ((readExact (data.drop c.length) sched (buf.length + 1 - c.length)).1.map fun bs => c ++ bs,
                (readExact (data.drop c.length) sched (buf.length + 1 - c.length)).2) := by
            simp only [readExact, hcd, hc]
            rcases readExact (data.drop c.length) sched (buf.length + 1 - c.length) with ⟨r, d, sc⟩
            cases r <;> rfl
          refine ⟨c ++ got, c ++ buf', ?_, ⟨?_, ?_⟩, ?_, ?_, ?_⟩
          · rw [List.length_cons, hr]
            simp only [readExactInto, hcd, hc, h1]
            cases (readExact (data.drop c.length) sched (buf.length + 1 - c.length)).1 <;> rfl
          · have := h2.1
            rw [hl2] at this
            simp; omega
          · rw [h2.2, List.drop_drop, List.length_append, List.append_assoc]
          · intro bs hbs
            rw [List.length_cons, hr] at hbs
            cases hd : (readExact (data.drop c.length) sched (buf.length + 1 - c.length)).1 with
            | ok bs' =>
              rw [hd] at hbs
              simp only [Res.map, Res.ok.injEq] at hbs
              rw [← hbs, h3 bs' hd]
            | _ => rw [hd] at hbs; simp [Res.map] at hbs
          · intro hf
            rw [List.length_cons, hr] at hf
            have hf' : (readExact (data.drop c.length) sched (buf.length + 1 - c.length)).1.isOk = false := by
              rw [← hf]
              cases (readExact (data.drop c.length) sched (buf.length + 1 - c.length)).1 <;> rfl
            have := h4 hf'
            simp; omega
          · rw [List.length_cons, hr, List.append_assoc, ← h5]
            exact hdata

/-- The buffer of an in-memory reader. -/
theorem arrayReadInto_eq (buf : Bytes) (s : ByteArrayReader) : ∃ buf',
    ByteArrayReader.readInto (buf, s) = ((ByteArrayReader.readAll buf.length s).1.map fun _ => (), (buf', (ByteArrayReader.readAll buf.length s).2)) ∧
    match (ByteArrayReader.readAll buf.length s).1 with
    | .ok bs => buf' = bs
    | .err _ => buf' = buf ∧ 0 < buf.length
    | _ => buf' = buf := by
  unfold ByteArrayReader.readInto ByteArrayReader.readAll
  simp only
  cases hc : s.canRead buf.length with
  | ok u =>
    by_cases h2 : s.offset + buf.length ≤ s.array.length
    · simp only [if_pos h2]
      exact ⟨_, rfl, rfl⟩
    · simp only [if_neg h2]
      exact ⟨buf, rfl, rfl⟩
  | err e =>
    refine ⟨buf, rfl, rfl, Nat.pos_of_ne_zero fun h0 => ?_⟩
    simp [ByteArrayReader.canRead, assertCanRead, h0] at hc
  | panic => exact ⟨buf, rfl, rfl⟩
  | diverge => exact ⟨buf, rfl, rfl⟩

/-- The buffer of an in-memory reader. -/
theorem vecReadInto_eq (buf : Bytes) (s : VecReader) : ∃ buf',
    VecReader.readInto (buf, s) = ((VecReader.readAll buf.length s).1.map fun _ => (), (buf', (VecReader.readAll buf.length s).2)) ∧
    match (VecReader.readAll buf.length s).1 with
    | .ok bs => buf' = bs
    | .err _ => buf' = buf ∧ 0 < buf.length
    | _ => buf' = buf := by
  unfold VecReader.readInto VecReader.readAll
  simp only
  cases hc : s.canRead buf.length with
  | ok u =>
    by_cases h2 : s.offset + buf.length ≤ s.vector.length
    · simp only [if_pos h2]
      exact ⟨_, rfl, rfl⟩
    · simp only [if_neg h2]
      exact ⟨buf, rfl, rfl⟩
  | err e =>
    refine ⟨buf, rfl, rfl, Nat.pos_of_ne_zero fun h0 => ?_⟩
    simp [VecReader.canRead, assertCanRead, h0] at hc
  | panic => exact ⟨buf, rfl, rfl⟩
  | diverge => exact ⟨buf, rfl, rfl⟩

/-- **C87** `read_all` into a buffer gives, for every reader of the library, the result and the reader of
`Reader.readAll`; on success the buffer holds exactly the bytes read.  When it fails, fewer than all bytes of the buffer
have been replaced, at its beginning, and the others are as they were. -/
theorem C87_every_reader :
    Exact ByteArrayReader ∧ Exact VecReader ∧ Exact ReadReader ∧ (∀ m, Exact (SeekStream m)) ∧
    (∀ (σ : Type) [ReadByte σ], Exact (ByRead σ)) ∧
    (∀ (σ : Type) [Reader σ] [BufReader σ], Exact σ → Exact (Limited σ)) := by
  refine ⟨?_, ?_, ?_, ?_, ?_, ?_⟩
  · intro buf s
    rcases hr : ByteArrayReader.readAll buf.length s with ⟨r, s'⟩
    have hr' : (Reader.readAll buf.length s : Res IoErr Bytes × ByteArrayReader) = (r, s') := hr
    rw [hr']
    obtain ⟨buf', h1, h2⟩ := arrayReadInto_eq buf s
    rw [hr] at h1 h2
    cases r with
    | ok bs =>
      have hlen := ByteArrayReader.readAll_len _ _ _ _ hr
      exact ⟨bs, buf', h1, by rw [h2]; exact ⟨by omega, by rw [hlen]; simp⟩, fun _ h => by simpa using h,
        fun e h => by simp at h⟩
    | err e =>
      refine ⟨[], buf', h1, by rw [h2.1]; exact Overlaid.refl _, fun _ h => by simp at h, fun _ _ => h2.2⟩
    | panic => exact ⟨[], buf', h1, by rw [h2]; exact Overlaid.refl _, fun _ h => by simp at h, fun _ h => by simp at h⟩
    | diverge => exact ⟨[], buf', h1, by rw [h2]; exact Overlaid.refl _, fun _ h => by simp at h, fun _ h => by simp at h⟩
  · intro buf s
    rcases hr : VecReader.readAll buf.length s with ⟨r, s'⟩
    have hr' : (Reader.readAll buf.length s : Res IoErr Bytes × VecReader) = (r, s') := hr
    rw [hr']
    obtain ⟨buf', h1, h2⟩ := vecReadInto_eq buf s
    rw [hr] at h1 h2
    cases r with
    | ok bs =>
      have hlen := VecReader.readAll_len _ _ _ _ hr
      exact ⟨bs, buf', h1, by rw [h2]; exact ⟨by omega, by rw [hlen]; simp⟩, fun _ h => by simpa using h,
        fun e h => by simp at h⟩
    | err e =>
      refine ⟨[], buf', h1, by rw [h2.1]; exact Overlaid.refl _, fun _ h => by simp at h, fun _ _ => h2.2⟩
    | panic => exact ⟨[], buf', h1, by rw [h2]; exact Overlaid.refl _, fun _ h => by simp at h, fun _ h => by simp at h⟩
    | diverge => exact ⟨[], buf', h1, by rw [h2]; exact Overlaid.refl _, fun _ h => by simp at h, fun _ h => by simp at h⟩
  · intro buf s
    obtain ⟨got, buf', h1, h2, h3, h4, -⟩ := readExactInto_eq s.data s.sched buf
    have hr : (Reader.readAll buf.length s : Res IoErr Bytes × ReadReader) =
        ((readExact s.data s.sched buf.length).1.mapErr .ioError,
          ⟨(readExact s.data s.sched buf.length).2.1, (readExact s.data s.sched buf.length).2.2⟩) := rfl
    refine ⟨got, buf', ?_, h2, ?_, ?_⟩
    · show ReadReader.readInto (buf, s) = _
      rw [hr]
      simp only [ReadReader.readInto, h1]
      cases (readExact s.data s.sched buf.length).1 <;> rfl
    · intro bs h
      rw [hr] at h
      apply h3
      revert h
      cases (readExact s.data s.sched buf.length).1 <;> simp [Res.mapErr]
    · intro e h
      rw [hr] at h
      apply h4
      revert h
      cases (readExact s.data s.sched buf.length).1 <;> simp [Res.mapErr, Res.isOk]
  · intro m buf s
    obtain ⟨got, buf', h1, h2, h3, h4, -⟩ := readExactInto_eq (s.content.drop s.pos.toNat) s.reads buf
    have hr : (Reader.readAll buf.length s : Res IoErr Bytes × SeekStream m) =
        ((readExact (s.content.drop s.pos.toNat) s.reads buf.length).1.mapErr fun _ => .unableToReadData,
          { s with
            pos := s.pos + UInt64.ofNat ((s.content.drop s.pos.toNat).length -
              (readExact (s.content.drop s.pos.toNat) s.reads buf.length).2.1.length),
            reads := (readExact (s.content.drop s.pos.toNat) s.reads buf.length).2.2 }) := rfl
    refine ⟨got, buf', ?_, h2, ?_, ?_⟩
    · show SeekStream.readInto (buf, s) = _
      rw [hr]
      simp only [SeekStream.readInto, h1]
      cases (readExact (s.content.drop s.pos.toNat) s.reads buf.length).1 <;> rfl
    · intro bs h
      rw [hr] at h
      apply h3
      revert h
      cases (readExact (s.content.drop s.pos.toNat) s.reads buf.length).1 <;> simp [Res.mapErr]
    · intro e h
      rw [hr] at h
      apply h4
      revert h
      cases (readExact (s.content.drop s.pos.toNat) s.reads buf.length).1 <;> simp [Res.mapErr, Res.isOk]
  · intro σ _ buf s
    obtain ⟨got, buf', h1, h2, h3, h4, -⟩ := defaultReadInto_eq (ByRead.read (σ := σ)) buf s
    exact ⟨got, buf', h1, h2, h3, fun e h => h4 (by
      have h' : (defaultReadAll (ByRead.read (σ := σ)) buf.length s).1 = .err e := h
      rw [h']; rfl)⟩
  · intro σ _ _ he buf l
    by_cases hl : buf.length > l.available
    · have hr : (Reader.readAll buf.length l : Res IoErr Bytes × Limited σ) = (.err .unableToReadData, l) := by
        show Limited.readAll _ _ = _
        simp only [Limited.readAll, Limited.canRead, hl, if_true]
      refine ⟨[], buf, ?_, Overlaid.refl _, ?_, ?_⟩
      · show Limited.readInto _ = _
        rw [hr]
        simp only [Limited.readInto, Limited.canRead, hl, if_true, Res.map]
      · intro bs h; rw [hr] at h; simp at h
      · intro _; simp; omega
    · obtain ⟨got, buf', h1, h2, h3, h4⟩ := he buf l.source
      have hr : (Reader.readAll buf.length l : Res IoErr Bytes × Limited σ) =
          ((Reader.readAll buf.length l.source).1, ⟨(Reader.readAll buf.length l.source).2,
            if (Reader.readAll buf.length l.source).1.isOk then l.available - buf.length else l.available⟩) := by
        show Limited.readAll _ _ = _
        simp only [Limited.readAll, Limited.canRead, hl, if_false]
      refine ⟨got, buf', ?_, h2, ?_, ?_⟩
      · show Limited.readInto _ = _
        rw [hr]
        simp only [Limited.readInto, Limited.canRead, hl, if_false, h1]
        cases (Reader.readAll buf.length l.source).1 <;> rfl
      · intro bs h; rw [hr] at h; exact h3 bs h
      · intro e h; rw [hr] at h; exact h4 e h

/-- **C87** A failing `read_all` of an in-memory reader changes neither the reader nor the buffer. -/
theorem C87_in_memory (buf : Bytes) (a : ByteArrayReader) (v : VecReader) (e : IoErr) :
    ((Reader.readAll buf.length a).1 = .err e → BufReader.readInto (buf, a) = (.err e, (buf, a))) ∧
    ((Reader.readAll buf.length v).1 = .err e → BufReader.readInto (buf, v) = (.err e, (buf, v))) := by
  constructor
  · intro h
    have h' : (ByteArrayReader.readAll buf.length a).1 = .err e := h
    show ByteArrayReader.readInto (buf, a) = _
    revert h'
    unfold ByteArrayReader.readInto ByteArrayReader.readAll
    simp only
    cases a.canRead buf.length with
    | ok u => cases u; dsimp only; split <;> simp
    | err x => simp
    | panic => simp
    | diverge => simp
  · intro h
    have h' : (VecReader.readAll buf.length v).1 = .err e := h
    show VecReader.readInto (buf, v) = _
    revert h'
    unfold VecReader.readInto VecReader.readAll
    simp only
    cases v.canRead buf.length with
    | ok u => cases u; dsimp only; split <;> simp
    | err x => simp
    | panic => simp
    | diverge => simp

/-- **C87** A `read_all` beyond the limit of a `LimitedReader` changes neither the reader nor the buffer; within the limit
the buffer is that of the source. -/
theorem C87_limited {σ : Type} [Reader σ] [BufReader σ] (buf : Bytes) (l : Limited σ) :
    (l.available < buf.length → BufReader.readInto (buf, l) = (.err .unableToReadData, (buf, l))) ∧
    (buf.length ≤ l.available →
      (BufReader.readInto (buf, l) : Res IoErr Unit × Bytes × Limited σ).2.1 =
        (BufReader.readInto (buf, l.source) : Res IoErr Unit × Bytes × σ).2.1) := by
  constructor
  · intro h
    show Limited.readInto _ = _
    simp [Limited.readInto, Limited.canRead, h]
  · intro h
    show (Limited.readInto _).2.1 = _
    simp [Limited.readInto, Limited.canRead, Nat.not_lt.mpr h]

/-- **C87** With the inherited `read_all`, when a `read` fails the buffer begins with the bytes that were read before it,
and the rest of it is as it was; the error is that of the failing `read`. -/
theorem C87_default {σ : Type} [ReadByte σ] (buf : Bytes) (s s' : ByRead σ) (e : IoErr)
    (h : Reader.readAll buf.length s = (.err e, s')) : ∃ got buf' s₁,
    BufReader.readInto (buf, s) = (.err e, (buf', s')) ∧ Overlaid buf got buf' ∧
    Reader.readAll got.length s = (.ok got, s₁) ∧ Reader.read s₁ = (.err e, s') := by
  have h' : defaultReadAll (ByRead.read (σ := σ)) buf.length s = (.err e, s') := h
  obtain ⟨got, buf', h1, h2, -, -, s₁, h5, h6⟩ := defaultReadInto_eq (ByRead.read (σ := σ)) buf s
  rw [h'] at h1 h6
  obtain ⟨g1, g2⟩ := h6 rfl
  refine ⟨got, buf', s₁, h1, h2, h5, ?_⟩
  show ByRead.read s₁ = _
  rcases hr : ByRead.read s₁ with ⟨r, s₂⟩
  rw [hr] at g1 g2
  simp only at g2
  subst g2
  cases r <;> simp [Res.map] at g1
  rw [g1]

/-- **C87** A `ReadReader` whose source fails or ends early has put exactly the bytes it took from the source at the
beginning of the buffer: none is lost. -/
theorem C87_std (buf : Bytes) (s s' : ReadReader) (e : IoErr) (h : Reader.readAll buf.length s = (.err e, s')) :
    ∃ got buf', BufReader.readInto (buf, s) = (.err e, (buf', s')) ∧ Overlaid buf got buf' ∧ s.data = got ++ s'.data := by
  obtain ⟨got, buf', h1, h2, -, -, h5⟩ := readExactInto_eq s.data s.sched buf
  have h' : ReadReader.readAll buf.length s = (.err e, s') := h
  refine ⟨got, buf', ?_, h2, ?_⟩
  · show ReadReader.readInto (buf, s) = _
    unfold ReadReader.readInto
    unfold ReadReader.readAll at h'
    simp only [h1]
    rcases hr : readExact s.data s.sched buf.length with ⟨r, d, sc⟩
    rw [hr] at h'
    simp only [Prod.mk.injEq] at h'
    obtain ⟨h3, rfl⟩ := h'
    cases r <;> simp [Res.mapErr, Res.map] at h3 ⊢
    exact h3
  · unfold ReadReader.readAll at h'
    rcases hr : readExact s.data s.sched buf.length with ⟨r, d, sc⟩
    rw [hr] at h' h5
    simp only [Prod.mk.injEq] at h'
    obtain ⟨-, rfl⟩ := h'
    exact h5

/-- **C87** So has a seekable stream: its position has moved by as many bytes as there are new ones in the buffer. -/
theorem C87_seekable {m : ArithMode} (buf : Bytes) (s s' : SeekStream m) (e : IoErr)
    (h : Reader.readAll buf.length s = (.err e, s')) :
    ∃ got buf', BufReader.readInto (buf, s) = (.err e, (buf', s')) ∧ Overlaid buf got buf' ∧
      got = (s.content.drop s.pos.toNat).take got.length ∧ s'.pos = s.pos + UInt64.ofNat got.length := by
  obtain ⟨got, buf', h1, h2, -, -, h5⟩ := readExactInto_eq (s.content.drop s.pos.toNat) s.reads buf
  have h' : SeekStream.readAll buf.length s = (.err e, s') := h
  unfold SeekStream.readAll at h'
  rcases hr : readExact (s.content.drop s.pos.toNat) s.reads buf.length with ⟨r, d, sc⟩
  rw [hr] at h' h5 h1
  simp only [Prod.mk.injEq] at h' h5
  obtain ⟨h3, rfl⟩ := h'
  refine ⟨got, buf', ?_, h2, ?_, ?_⟩
  · show SeekStream.readInto (buf, s) = _
    unfold SeekStream.readInto
    simp only [h1]
    cases r <;> simp [Res.mapErr, Res.map] at h3 ⊢
    exact h3
  · rw [h5]; simp
  · show s.pos + UInt64.ofNat _ = _
    rw [h5]; simp

/-! ### Vectors and tags -/

/-- **C87** `deserialize_bytes_into_vec`: same result and same reader as in the model used elsewhere, same vector on
success.  If it fails the vector has the new size and holds some bytes just read, then what was there before, then
zeros. -/
theorem C87_into_vec [Env] {σ : Type} [Reader σ] [BufReader σ] (hx : Exact σ) (size : Nat) (v : Bytes) (s : σ)
    (ha : size ≤ Env.allocMax) :
    ∃ got v', deserializeBytesIntoVecExact size (v, s) =
        ((deserializeBytesIntoVec size (v, s)).1, (v', (deserializeBytesIntoVec size (v, s)).2.2)) ∧
      Overlaid (v.take size ++ List.replicate (size - v.length) 0) got v' ∧
      ((deserializeBytesIntoVec size (v, s)).1 = .ok () → v' = got ∧ v' = (deserializeBytesIntoVec size (v, s)).2.1) ∧
      (∀ e, (deserializeBytesIntoVec size (v, s)).1 = .err e → got.length < size) := by
  have hl : (v.take size ++ List.replicate (size - v.length) 0).length = size := by simp; omega
  obtain ⟨got, v', h1, h2, h3, h4⟩ := hx (v.take size ++ List.replicate (size - v.length) 0) s
  rw [hl] at h1 h3 h4
  have hm : deserializeBytesIntoVec size (v, s) =
      match (Reader.readAll size s : Res IoErr Bytes × σ) with
      | (.ok bs, s') => (.ok (), (bs, s'))
      | (.err e, s') => (.err (.ioError e), (resizeZ v size, s'))
      | (.panic, s') => (.panic, (resizeZ v size, s'))
      | (.diverge, s') => (.diverge, (resizeZ v size, s')) := by
    unfold deserializeBytesIntoVec
    simp only [Data.alloc, Nat.one_mul, ha, if_true, Act.pure_bind]
    simp only [Act.bind_apply, modifySelf, onReader, tagIo, Act.mapErr, setSelf]
    rcases (Reader.readAll size s : Res IoErr Bytes × σ) with ⟨r, s'⟩
    cases r <;> rfl
  have he : deserializeBytesIntoVecExact size (v, s) =
      (((Reader.readAll size s : Res IoErr Bytes × σ).1.map fun _ => ()).mapErr .ioError,
        (v', (Reader.readAll size s : Res IoErr Bytes × σ).2)) := by
    unfold deserializeBytesIntoVecExact
    simp only [Data.alloc, Nat.one_mul, ha, if_true, Act.pure_bind]
    simp only [Act.bind_apply, modifySelf, tagIo, Act.mapErr, resizeZ, h1]
  refine ⟨got, v', ?_, h2, ?_, ?_⟩
  · rw [he, hm]
    rcases (Reader.readAll size s : Res IoErr Bytes × σ) with ⟨r, s'⟩
    cases r <;> rfl
  · intro hok
    rw [hm] at hok ⊢
    rcases hr : (Reader.readAll size s : Res IoErr Bytes × σ) with ⟨r, s'⟩
    rw [hr] at hok h3
    cases r with
    | ok bs =>
      have := h3 bs rfl
      subst this
      have hlen := Reader.readAll_len _ _ _ _ hr
      have : v' = got := by rw [h2.2, List.drop_of_length_le (by omega), List.append_nil]
      exact ⟨this, this⟩
    | _ => simp at hok
  · intro e hf
    rw [hm] at hf
    rcases hr : (Reader.readAll size s : Res IoErr Bytes × σ) with ⟨r, s'⟩
    rw [hr] at hf h4
    cases r with
    | err x => exact h4 x rfl
    | _ => simp at hf

/-- The vector a tag keeps and reads into. -/
def vectorOf {P : Type} : Atom P → Option Bytes
  | .raw _ v => some v
  | .byteArray v => some v
  | .bigInt v => some v
  | .bigDec _ _ v => some v
  | _ => none

/-- A vector `v` resized to `n` bytes, `read_all` having replaced some bytes at the beginning. -/
def Mixed (n : Nat) (v v' : Bytes) : Prop :=
  ∃ got, got.length < n ∧ Overlaid (v.take n ++ List.replicate (n - v.length) 0) got v'

/-- What may be left of a tag when reading a value of `n` bytes into it fails: the new bytes that arrived, then old ones,
then zeros.  A big decimal may have its new scale, or be untouched. -/
inductive LeftBehind {P : Type} (n : Nat) : Atom P → Atom P → Prop where
  | raw {id v v'} : Mixed n v v' → LeftBehind n (.raw id v) (.raw id v')
  | byteArray {v v'} : Mixed n v v' → LeftBehind n (.byteArray v) (.byteArray v')
  | bigInt {v v'} : Mixed n v v' → LeftBehind n (.bigInt v) (.bigInt v')
  | untouched {id sc v} : LeftBehind n (.bigDec id sc v) (.bigDec id sc v)
  | bigDec {id sc sc' v v'} : 4 ≤ n → Mixed (n - 4) v v' → LeftBehind n (.bigDec id sc v) (.bigDec id sc' v')

theorem zoom_exact {P : Type} [Env] {σ : Type} [Reader σ] [BufReader σ] (hx : Exact σ) (size : Nat) (v : Bytes) (s : σ)
    (ha : size ≤ Env.allocMax) (wrap : Bytes → Atom P) (a : Atom P) :
    ∃ b, zoom wrap v (deserializeBytesIntoVecExact size) (a, s) =
        ((zoom wrap v (deserializeBytesIntoVec size) (a, s)).1,
          (b, (zoom wrap v (deserializeBytesIntoVec size) (a, s)).2.2)) ∧
      ((zoom wrap v (deserializeBytesIntoVec size) (a, s)).1 = .ok () →
        b = (zoom wrap v (deserializeBytesIntoVec size) (a, s)).2.1) ∧
      (∀ e, (zoom wrap v (deserializeBytesIntoVec size) (a, s)).1 = .err e → ∃ v', Mixed size v v' ∧ b = wrap v') := by
  obtain ⟨got, v', h1, h2, h3, h4⟩ := C87_into_vec hx size v s ha
  refine ⟨wrap v', ?_, ?_, ?_⟩
  · simp only [zoom, h1]
  · intro hok
    simp only [zoom] at hok ⊢
    rw [(h3 hok).2]
  · intro e he
    simp only [zoom] at he
    exact ⟨v', ⟨got, h4 e he, h2⟩, rfl⟩

/-- Reading a big decimal, given the way its vector is read. -/
def bigDecWith {P σ : Type} [Reader σ] (K : Nat → Act TagErr (Bytes × σ) Unit) (n : Nat) (id : UInt64) (sc : Int32)
    (v : Bytes) (s : σ) : Res TagErr Unit × Atom P × σ :=
  (do
    Act.guardE (4 ≤ n) .corruptedData
    let scale ← onReader (tagIo Data.readI32)
    setSelf (.bigDec id scale v)
    zoom (.bigDec id scale) v (K (n - 4)) : Act TagErr (Atom P × σ) Unit) (.bigDec id sc v, s)

theorem bigDecWith_eq {P σ : Type} [Reader σ] (K : Nat → Act TagErr (Bytes × σ) Unit) (n : Nat) (id : UInt64) (sc : Int32)
    (v : Bytes) (s : σ) : (bigDecWith K n id sc v s : Res TagErr Unit × Atom P × σ) =
      if 4 ≤ n then
        match tagIo Data.readI32 s with
        | (.ok sc', s') => zoom (.bigDec id sc') v (K (n - 4)) (.bigDec id sc' v, s')
        | (.err e, s') => (.err e, (.bigDec id sc v, s'))
        | (.panic, s') => (.panic, (.bigDec id sc v, s'))
        | (.diverge, s') => (.diverge, (.bigDec id sc v, s'))
      else (.err .corruptedData, (.bigDec id sc v, s)) := by
  unfold bigDecWith
  by_cases h4 : 4 ≤ n
  · rw [if_pos h4]
    simp only [Act.guardE, if_pos h4, Act.bind_apply, Act.pure, onReader, setSelf]
    rcases (tagIo Data.readI32 s : Res TagErr Int32 × σ) with ⟨r, s'⟩
    cases r <;> rfl
  · rw [if_neg h4]
    simp only [Act.guardE, if_neg h4, Act.bind_apply, Act.fail]

/-- **C87** `deserialize_value` called on a tag with the vector read into: the result, the reader and, on success, the
tag are those of the model used elsewhere, and so is the tag of a type that keeps no vector.  When it fails, a tag that
does is left with a mixture of new bytes, old bytes and zeros, of the size asked for. -/
theorem C87_tag {P : Type} [TagPayload P] [Env] {σ : Type} [Reader σ] [BufReader σ] (hx : Exact σ) (f : FactoryDeser P)
    (n : Nat) (a : Atom P) (s : σ) (ha : n ≤ Env.allocMax) :
    ∃ b, Atom.deserializeValueExact f n a (a, s) =
        ((Atom.deserializeValue f n a (a, s)).1, (b, (Atom.deserializeValue f n a (a, s)).2.2)) ∧
      ((Atom.deserializeValue f n a (a, s)).1 = .ok () → b = (Atom.deserializeValue f n a (a, s)).2.1) ∧
      (vectorOf a = none → b = (Atom.deserializeValue f n a (a, s)).2.1) ∧
      (∀ e, (Atom.deserializeValue f n a (a, s)).1 = .err e → vectorOf a ≠ none → LeftBehind n a b) := by
  cases a with
  | raw id v =>
    obtain ⟨b, h1, h2, h3⟩ := zoom_exact hx n v s ha (.raw id : Bytes → Atom P) (.raw id v)
    exact ⟨b, h1, h2, fun h => by simp [vectorOf] at h, fun e he _ => by
      obtain ⟨v', hm, rfl⟩ := h3 e he; exact .raw hm⟩
  | byteArray v =>
    obtain ⟨b, h1, h2, h3⟩ := zoom_exact hx n v s ha (.byteArray : Bytes → Atom P) (.byteArray v)
    exact ⟨b, h1, h2, fun h => by simp [vectorOf] at h, fun e he _ => by
      obtain ⟨v', hm, rfl⟩ := h3 e he; exact .byteArray hm⟩
  | bigInt v =>
    obtain ⟨b, h1, h2, h3⟩ := zoom_exact hx n v s ha (.bigInt : Bytes → Atom P) (.bigInt v)
    exact ⟨b, h1, h2, fun h => by simp [vectorOf] at h, fun e he _ => by
      obtain ⟨v', hm, rfl⟩ := h3 e he; exact .bigInt hm⟩
  | bigDec id sc v =>
    have e1 : Atom.deserializeValueExact f n (.bigDec id sc v) (.bigDec id sc v, s) =
        bigDecWith deserializeBytesIntoVecExact n id sc v s := rfl
    have e2 : Atom.deserializeValue f n (.bigDec id sc v) (.bigDec id sc v, s) =
        bigDecWith deserializeBytesIntoVec n id sc v s := rfl
    rw [e1, e2, bigDecWith_eq, bigDecWith_eq]
    by_cases h4 : 4 ≤ n
    · simp only [if_pos h4]
      rcases (tagIo Data.readI32 s : Res TagErr Int32 × σ) with ⟨r, s'⟩
      cases r with
      | ok sc' =>
        obtain ⟨b, h1, h2, h3⟩ := zoom_exact hx (n - 4) v s' (by omega) (.bigDec id sc' : Bytes → Atom P)
          (.bigDec id sc' v)
        exact ⟨b, h1, h2, fun h => by simp [vectorOf] at h, fun e he _ => by
          obtain ⟨v', hm, rfl⟩ := h3 e he; exact .bigDec h4 hm⟩
      | err x => exact ⟨_, rfl, fun _ => rfl, fun _ => rfl, fun _ _ _ => .untouched⟩
      | panic => exact ⟨_, rfl, fun _ => rfl, fun _ => rfl, fun _ _ _ => .untouched⟩
      | diverge => exact ⟨_, rfl, fun _ => rfl, fun _ => rfl, fun _ _ _ => .untouched⟩
    · simp only [if_neg h4]
      exact ⟨_, rfl, fun _ => rfl, fun _ => rfl, fun _ _ _ => .untouched⟩
  | _ => exact ⟨_, rfl, fun _ => rfl, fun _ => rfl, fun _ _ h => absurd rfl h⟩

/-! ### Examples -/

/-- A source that delivers three bytes and then fails, read into a buffer of five. -/
example : BufReader.readInto ([9, 8, 7, 6, 5], (⟨[1, 2, 3, 4], [.chunk 2, .chunk 1, .error (.other 7)]⟩ : ReadReader)) =
    (.err (.ioError (.other 7)), ([1, 2, 3, 6, 5], (⟨[4], []⟩ : ReadReader))) := by decide +kernel

example : (Reader.readAll 5 (⟨[1, 2, 3, 4], [.chunk 2, .chunk 1, .error (.other 7)]⟩ : ReadReader)).1 =
    .err (.ioError (.other 7)) := by decide +kernel

/-- An in-memory reader leaves the buffer alone. -/
example : BufReader.readInto ([9, 8, 7], ByteArrayReader.new [1, 2]) =
    (.err .unableToReadData, ([9, 8, 7], ByteArrayReader.new [1, 2])) := by decide +kernel

/-- A reused raw tag of four bytes, read again with size 6 from a source that ends after two bytes: two new bytes, two
old ones and two zeros. -/
example : let _ : Env := ⟨1000⟩
    deserializeBytesIntoVecExact 6 ([0xA, 0xB, 0xC, 0xD], (⟨[1, 2], []⟩ : ReadReader)) =
      (.err (.ioError (.ioError .unexpectedEof)), ([1, 2, 0xC, 0xD, 0, 0], (⟨[], []⟩ : ReadReader))) := by
  decide +kernel

example : Exact ReadReader ∧ Exact (Limited VecReader) :=
  ⟨C87_every_reader.2.2.1, C87_every_reader.2.2.2.2.2 _ C87_every_reader.2.1⟩

end Verif.Props
