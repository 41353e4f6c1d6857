import Verif.Props.Streams
/-!
# C78: how the errors of a `std::io` stream are reported
-/
namespace Verif.Props
open Verif Verif.Spec

/-- The number of bytes the calls in the schedule deliver when so many are there and asked for. -/
def delivers : List ReadEv → Nat
  | [] => 0
  | .chunk k :: l => k + delivers l
  | .error _ :: l => delivers l

/-- The calls of `read_exact` up to a fault: everything delivered before it is consumed. -/
theorem readExact_fault (pre : List ReadEv) (hb : Benign pre) (data : Bytes) (n : Nat) (hn : delivers pre < n)
    (hd : delivers pre ≤ data.length) (post : List ReadEv) :
    (∀ e, e ≠ .interrupted →
      readExact data (pre ++ .error e :: post) n = (.err e, data.drop (delivers pre), post)) ∧
    readExact data (pre ++ .chunk 0 :: post) n = (.err .unexpectedEof, data.drop (delivers pre), post) := by
  induction pre generalizing data n with
  | nil =>
    obtain ⟨n, rfl⟩ : ∃ k, n = k + 1 := ⟨n - 1, by simp [delivers] at hn; omega⟩
    refine ⟨fun e he => ?_, ?_⟩
    · simp [readExact, he, delivers]
    · simp [readExact, delivers]
  | cons ev pre ih =>
    have hb' : Benign pre := fun x hx => hb x (List.mem_cons_of_mem _ hx)
    obtain ⟨n, rfl⟩ : ∃ k, n = k + 1 := ⟨n - 1, by omega⟩
    rcases hb ev List.mem_cons_self with ⟨k, rfl, hk⟩ | rfl
    · simp only [delivers] at hn hd
      have hmin : min k (n + 1) = k := by omega
      have hlen : (data.take k).length = k := by rw [List.length_take]; omega
      have hne : (data.take k).isEmpty = false := by
        rw [← Bool.not_eq_true, List.isEmpty_iff]; intro h; rw [h] at hlen; simp at hlen; omega
      obtain ⟨i1, i2⟩ := ih hb' (data.drop k) (n + 1 - k) (by omega) (by rw [List.length_drop]; omega)
      refine ⟨fun e he => ?_, ?_⟩
      · simp only [List.cons_append, readExact, hmin, hne, hlen, Bool.false_eq_true, if_false]
        rw [i1 e he]
        simp [delivers]
      · simp only [List.cons_append, readExact, hmin, hne, hlen, Bool.false_eq_true, if_false]
        rw [i2]
        simp [delivers]
    · obtain ⟨i1, i2⟩ := ih hb' data (n + 1) hn hd
      refine ⟨fun e he => ?_, ?_⟩
      · simp only [List.cons_append, readExact, if_true]
        exact i1 e he
      · simp only [List.cons_append, readExact, if_true]
        exact i2

/-- **C78** `ReadReader`: an error of the source is passed on as it is, wrapped as an i/o error; an early end of the data
is `UnexpectedEof`.  What the source had delivered before is consumed. -/
theorem C78_read_reader (pre post : List ReadEv) (hb : Benign pre) (data : Bytes) (n : Nat) (hn : delivers pre < n)
    (hd : delivers pre ≤ data.length) :
    (∀ e, e ≠ .interrupted → Reader.readAll n (⟨data, pre ++ .error e :: post⟩ : ReadReader) =
      (.err (.ioError e), ⟨data.drop (delivers pre), post⟩)) ∧
    (∀ e, e ≠ .interrupted → delivers pre = 0 → Reader.read (⟨data, pre ++ .error e :: post⟩ : ReadReader) =
      (.err (.ioError e), ⟨data, post⟩)) ∧
    Reader.readAll n (⟨data, pre ++ .chunk 0 :: post⟩ : ReadReader) =
      (.err (.ioError .unexpectedEof), ⟨data.drop (delivers pre), post⟩) := by
  refine ⟨fun e he => ?_, fun e he h0 => ?_, ?_⟩
  · show ReadReader.readAll n _ = _
    simp only [ReadReader.readAll, (readExact_fault pre hb data n hn hd post).1 e he]
    rfl
  · show ReadReader.read _ = _
    have := (readExact_fault pre hb data 1 (by omega) hd post).1 e he
    simp only [ReadReader.read, this]
    simp [h0]
  · show ReadReader.readAll n _ = _
    simp only [ReadReader.readAll, (readExact_fault pre hb data n hn hd post).2]
    rfl

section
variable {m : ArithMode}

theorem readExact_ok_or_err (data : Bytes) (sched : List ReadEv) (n : Nat) :
    ∃ r d sc, readExact data sched n = (r, d, sc) ∧ ((∃ bs, r = .ok bs ∧ bs.length = n) ∨ ∃ e, r = .err e) := by
  induction sched generalizing data n with
  | nil =>
    cases n with
    | zero => exact ⟨_, _, _, rfl, .inl ⟨[], rfl, rfl⟩⟩
    | succ n =>
      simp only [readExact]
      split
      · exact ⟨_, _, _, rfl, .inl ⟨_, rfl, by simp; omega⟩⟩
      · exact ⟨_, _, _, rfl, .inr ⟨_, rfl⟩⟩
  | cons ev sched ih =>
    cases n with
    | zero => exact ⟨.ok [], data, ev :: sched, by simp [readExact], .inl ⟨[], rfl, rfl⟩⟩
    | succ n =>
      cases ev with
      | error e =>
        simp only [readExact]
        split
        · exact ih data (n + 1)
        · exact ⟨_, _, _, rfl, .inr ⟨_, rfl⟩⟩
      | chunk k =>
        simp only [readExact]
        split
        · exact ⟨_, _, _, rfl, .inr ⟨_, rfl⟩⟩
        · obtain ⟨r, d, sc, h, hr⟩ := ih (data.drop (data.take (min k (n + 1))).length)
            (n + 1 - (data.take (min k (n + 1))).length)
          rw [h]
          rcases hr with ⟨bs, rfl, hl⟩ | ⟨e, rfl⟩
          · refine ⟨_, _, _, rfl, .inl ⟨_, rfl, ?_⟩⟩
            simp at hl ⊢
            omega
          · exact ⟨_, _, _, rfl, .inr ⟨e, rfl⟩⟩

/-- **C78** A reader over `Read + Seek` reports every failure to read as `UnableToReadData`, whatever the cause. -/
theorem C78_seek_reader (s : SeekStream m) (n : Nat) :
    ((∃ bs, (Reader.readAll n s).1 = .ok bs) ∨ (Reader.readAll n s).1 = .err .unableToReadData) ∧
    ((∃ b, (Reader.read s).1 = .ok b) ∨ (Reader.read s).1 = .err .unableToReadData) := by
  have key : ∀ n, ∃ s', (∃ bs : Bytes, SeekStream.readAll n s = (.ok bs, s') ∧ bs.length = n) ∨
      SeekStream.readAll n s = (.err .unableToReadData, s') := by
    intro n
    obtain ⟨r, d, sc, h, hr⟩ := readExact_ok_or_err (s.content.drop s.pos.toNat) s.reads n
    unfold SeekStream.readAll
    rw [h]
    rcases hr with ⟨bs, rfl, hl⟩ | ⟨e, rfl⟩
    · exact ⟨_, .inl ⟨bs, rfl, hl⟩⟩
    · exact ⟨_, .inr rfl⟩
  constructor
  · obtain ⟨s', ⟨bs, h, -⟩ | h⟩ := key n
    · exact .inl ⟨bs, congrArg Prod.fst h⟩
    · exact .inr (congrArg Prod.fst h)
  · obtain ⟨s', ⟨bs, h, hl⟩ | h⟩ := key 1
    · left
      obtain ⟨b, rfl⟩ := List.length_eq_one_iff.mp hl
      exact ⟨b, by show (SeekStream.read s).1 = _; rw [SeekStream.read, Act.bind_ok h]; rfl⟩
    · right
      show (SeekStream.read s).1 = _
      rw [SeekStream.read, Act.bind_err h]

/-- **C78** ... and the position has moved by what had been delivered before the failure. -/
theorem C78_seek_reader_position (s : SeekStream m) (n : Nat) (pre post : List ReadEv) (hb : Benign pre) (e : StdErr)
    (he : e ≠ .interrupted) (h : s.reads = pre ++ .error e :: post) (hn : delivers pre < n)
    (hd : s.pos.toNat + delivers pre ≤ s.content.length) :
    Reader.readAll n s = (.err .unableToReadData, { s with pos := s.pos + UInt64.ofNat (delivers pre), reads := post }) := by
  show SeekStream.readAll n s = _
  have h1 := (readExact_fault pre hb (s.content.drop s.pos.toNat) n hn (by rw [List.length_drop]; omega) post).1 e he
  simp only [SeekStream.readAll, h, h1]
  have h2 : (s.content.drop s.pos.toNat).length - ((s.content.drop s.pos.toNat).drop (delivers pre)).length =
      delivers pre := by
    simp only [List.length_drop]; omega
  rw [h2]
  rfl

/-- How an error of `seek` is reported. -/
def seekReport (e : StdErr) : IoErr := if e = .unexpectedEof then .endOfData else .boxedError e

theorem ioErrFromStd_eq (e : StdErr) : ioErrFromStd e = seekReport e := by cases e <;> rfl

theorem seekTo_fails (s : SeekStream m) (p : UInt64) (e : StdErr) (more : List (Option StdErr)) (h : s.seeks = some e :: more) :
    SeekStream.seekTo p s = (.err (seekReport e), { s with seeks := more }) := by
  simp only [SeekStream.seekTo, h, ioErrFromStd_eq]

theorem seekTo_works (s : SeekStream m) (p : UInt64) (more : List (Option StdErr)) (h : s.seeks = none :: more) :
    SeekStream.seekTo p s = (.ok p, { s with seeks := more, pos := p }) := by
  simp only [SeekStream.seekTo, h]

/-- **C78** Skipping over `Read + Seek`, any of its three seeks failing: the error of the seek is reported; if it was the
last one, the position is left at the end of the data. -/
theorem C78_skip_seek_fails (s : SeekStream m) (n : UInt64) (hn : n ≠ 0) (e : StdErr) (more : List (Option StdErr)) :
    (s.seeks = some e :: more → Reader.skipU64 n s = (.err (seekReport e), { s with seeks := more })) ∧
    (s.seeks = none :: some e :: more → Reader.skipU64 n s = (.err (seekReport e), { s with seeks := more })) ∧
    (s.seeks = none :: none :: some e :: more → s.content.length < 2 ^ 64 → s.pos.toNat + n.toNat ≤ s.content.length →
      Reader.skipU64 n s =
        (.err (seekReport e), { s with seeks := more, pos := UInt64.ofNat s.content.length })) := by
  refine ⟨fun h => ?_, fun h => ?_, fun h hl hf => ?_⟩ <;> show SeekStream.skipU64 n s = _ <;>
    rw [SeekStream.skipU64, if_neg hn]
  · exact Act.bind_err (seekTo_fails s s.pos e more h)
  · rw [Act.bind_ok (show SeekStream.seekCur s = _ from seekTo_works s s.pos _ h)]
    exact Act.bind_err (seekTo_fails _ _ e more rfl)
  · rw [Act.bind_ok (show SeekStream.seekCur s = _ from seekTo_works s s.pos _ h)]
    rw [Act.bind_ok (show SeekStream.seekEnd _ = _ from seekTo_works _ _ _ rfl)]
    have hend : (UInt64.ofNat s.content.length).toNat = s.content.length := UInt64.toNat_ofNat_of_lt' hl
    have hn0 : n.toNat ≠ 0 := fun h => hn (UInt64.toNat_inj.mp (by simpa using h))
    rw [if_neg (by intro h; have := congrArg UInt64.toNat h; simp only at this; rw [hend] at this; omega)]
    have hadd : (s.pos + n).toNat = s.pos.toNat + n.toNat := by
      rw [UInt64.toNat_add]; omega
    have hu : (addU64 m s.pos n : Res IoErr UInt64) = .ok (s.pos + n) := by
      unfold addU64; rw [if_pos (by omega)]
    simp only [hu]
    have hle : s.pos + n ≤ UInt64.ofNat s.content.length := by
      rw [UInt64.le_iff_toNat_le, hadd, hend]; exact hf
    show (if s.pos + n ≤ UInt64.ofNat s.content.length then _ else _ : Act IoErr (SeekStream m) Unit) _ = _
    rw [if_pos hle]
    exact Act.bind_err (seekTo_fails _ _ e more rfl)

/-- **C78** `SizedSeek`: a failing seek is reported the same way.  `len` leaves the position alone, unless the seek back
fails: then it is at the end of the data. -/
theorem C78_sized_seek_fails (s : SeekStream m) (e : StdErr) (more : List (Option StdErr)) :
    (s.seeks = some e :: more →
      SeekStream.len s = (.err (seekReport e), { s with seeks := more }) ∧
      SeekStream.isEmpty s = (.err (seekReport e), { s with seeks := more }) ∧
      SeekStream.offset s = (.err (seekReport e), { s with seeks := more }) ∧
      SeekStream.available s = (.err (seekReport e), { s with seeks := more })) ∧
    (s.seeks = none :: some e :: more → SeekStream.len s = (.err (seekReport e), { s with seeks := more })) ∧
    (s.seeks = none :: none :: some e :: more →
      SeekStream.len s = (.err (seekReport e), { s with seeks := more, pos := UInt64.ofNat s.content.length })) ∧
    (s.seeks = none :: none :: none :: some e :: more →
      SeekStream.available s = (.err (seekReport e), { s with seeks := more })) := by
  refine ⟨fun h => ?_, fun h => ?_, fun h => ?_, fun h => ?_⟩
  · have h1 : SeekStream.len s = (.err (seekReport e), { s with seeks := more }) :=
      Act.bind_err (seekTo_fails s s.pos e more h)
    exact ⟨h1, Act.bind_err h1, seekTo_fails s s.pos e more h, Act.bind_err h1⟩
  · rw [SeekStream.len, Act.bind_ok (show SeekStream.seekCur s = _ from seekTo_works s s.pos _ h)]
    exact Act.bind_err (seekTo_fails _ _ e more rfl)
  · rw [SeekStream.len, Act.bind_ok (show SeekStream.seekCur s = _ from seekTo_works s s.pos _ h)]
    rw [Act.bind_ok (show SeekStream.seekEnd _ = _ from seekTo_works _ _ _ rfl)]
    exact Act.bind_err (seekTo_fails _ _ e more rfl)
  · have h1 : SeekStream.len s = (.ok (UInt64.ofNat s.content.length), { s with seeks := some e :: more }) := by
      rw [SeekStream.len, Act.bind_ok (show SeekStream.seekCur s = _ from seekTo_works s s.pos _ h)]
      rw [Act.bind_ok (show SeekStream.seekEnd _ = _ from seekTo_works _ _ _ rfl)]
      rw [Act.bind_ok (show SeekStream.seekStart _ _ = _ from seekTo_works _ _ _ rfl)]
      rfl
    rw [SeekStream.available, Act.bind_ok h1]
    exact Act.bind_err (show SeekStream.offset { s with seeks := some e :: more } = _ from
      seekTo_fails { s with seeks := some e :: more } s.pos e more rfl)
end

/-! Non-vacuity. -/
example : Reader.readAll 4 (⟨[1, 2, 3, 4, 5], [.chunk 2, .error .interrupted, .chunk 1, .error (.other 5), .chunk 9]⟩ : ReadReader) =
    (.err (.ioError (.other 5)), ⟨[4, 5], [.chunk 9]⟩) :=
  (C78_read_reader [.chunk 2, .error .interrupted, .chunk 1] [.chunk 9] (by
    intro ev h
    simp only [List.mem_cons, List.not_mem_nil, or_false] at h
    rcases h with rfl | rfl | rfl
    · exact .inl ⟨2, rfl, by decide⟩
    · exact .inr rfl
    · exact .inl ⟨1, rfl, by decide⟩) [1, 2, 3, 4, 5] 4 (by decide) (by decide)).1 (.other 5) (by decide)

example : Reader.readAll 3 (⟨[1, 2, 3, 4, 5], 1, [.chunk 2, .error (.other 5)], [], []⟩ : SeekStream .checked) =
    (.err .unableToReadData, ⟨[1, 2, 3, 4, 5], 3, [], [], []⟩) :=
  C78_seek_reader_position _ 3 [.chunk 2] [] (by
    intro ev h
    simp only [List.mem_cons, List.not_mem_nil, or_false] at h
    exact .inl ⟨2, h, by decide⟩) (.other 5) (by decide) rfl (by decide) (by decide)

example : Reader.skipU64 1 (⟨[1, 2, 3], 1, [], [], [none, none, some .unexpectedEof]⟩ : SeekStream .checked) =
    (.err .endOfData, ⟨[1, 2, 3], 3, [], [], []⟩) :=
  (C78_skip_seek_fails ⟨[1, 2, 3], 1, [], [], [none, none, some .unexpectedEof]⟩ 1 (by decide) .unexpectedEof []).2.2 rfl
    (by decide) (by decide)

end Verif.Props
