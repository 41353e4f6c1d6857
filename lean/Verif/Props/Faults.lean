import Verif.Props.Readers
import Verif.Props.StdErrors
import Verif.Props.Streams
import Verif.Spec.Faults
/-!
# C97: faults of a source never change what is read
-/
namespace Verif.Props
open Verif Verif.Spec

section
variable {P : Type} {σ ρ : Type} [Reader σ] [Reader ρ]

theorem run_faulty [Env] {τ α : Type} (F : FaultyView σ) (V : View ρ) (T : Prog τ α) : ∀ {s : σ} {c : ρ} {bs : Bytes},
    F.R s bs → V.R c bs →
    (∃ k, (T.run s).1 = .err (.ioError k)) ∨
    (T.run s).1 = (T.run c).1 ∧ ((T.run s).1.isOk = true →
      ∃ rest, F.R (T.run s).2.2 rest ∧ V.R (T.run c).2.2 rest) := by
  induction T with
  | done r t => exact fun h1 h2 => .inr ⟨rfl, fun _ => ⟨_, h1, h2⟩⟩
  | read t k ih =>
    intro s c bs h1 h2
    simp only [Prog.run]
    rcases F.read_any h1 with ⟨b, r, s', rfl, hs, hR⟩ | ⟨e, s', hs⟩
    · obtain ⟨c', hc, hV⟩ := V.read_cons h2
      rw [hs, hc]
      exact ih b hR hV
    · rw [hs]
      exact .inl ⟨e, rfl⟩
  | readAll t n k ih =>
    intro s c bs h1 h2
    simp only [Prog.run]
    rcases F.readAll_any n h1 with ⟨hn, s', hs, hR⟩ | ⟨e, s', hs⟩
    · obtain ⟨c', hc, hV⟩ := V.readAll_ok h2 hn
      rw [hs, hc]
      exact ih _ hR hV
    · rw [hs]
      exact .inl ⟨e, rfl⟩
  | alloc t u n k ih =>
    intro s c bs h1 h2
    simp only [Prog.run]
    split
    · exact ih h1 h2
    · exact .inr ⟨rfl, by simp [Res.isOk]⟩

/-- **C97** Reading a tag through a reader that may fail at any call gives what a reader without faults gives on the same
bytes, and then stands at the same place, or it fails with an i/o error. -/
theorem C97_faults [TagPayload P] [Env] (e : Engine P) (F : FaultyView σ) (V : View ρ) {s : σ} {c : ρ} {bs : Bytes}
    (hR : F.R s bs) (hV : V.R c bs) :
    (∃ k, (Factory.deserialize e σ s).1 = .err (.ioError k)) ∨
    (Factory.deserialize e σ s).1 = (Factory.deserialize e ρ c).1 ∧
      ((Factory.deserialize e σ s).1.isOk = true →
        ∃ rest, F.R (Factory.deserialize e σ s).2 rest ∧ V.R (Factory.deserialize e ρ c).2 rest) := by
  obtain ⟨T, -, hT⟩ := C37_requests e
  rw [hT, hT]
  exact run_faulty F V T hR hV

end

theorem readExact_any (data : Bytes) (sched : List ReadEv) (n : Nat) :
    (n ≤ data.length ∧ ∃ sc, readExact data sched n = (.ok (data.take n), data.drop n, sc)) ∨
      ∃ e k sc, k ≤ data.length ∧ readExact data sched n = (.err e, data.drop k, sc) := by
  induction sched generalizing data n with
  | nil =>
    cases n with
    | zero => exact .inl ⟨by omega, [], by simp [readExact]⟩
    | succ n =>
      by_cases h : n + 1 ≤ data.length
      · exact .inl ⟨h, [], by simp [readExact, h]⟩
      · exact .inr ⟨.unexpectedEof, data.length, [], Nat.le_refl _, by simp [readExact, h]⟩
  | cons ev sched ih =>
    cases n with
    | zero => exact .inl ⟨by omega, ev :: sched, by simp [readExact]⟩
    | succ n =>
      cases ev with
      | error e =>
        by_cases he : e = .interrupted
        · subst he
          simp only [readExact, if_true]
          exact ih data (n + 1)
        · exact .inr ⟨e, 0, sched, by omega, by simp [readExact, he]⟩
      | chunk k =>
        simp only [readExact]
        by_cases hc : (data.take (min k (n + 1))).isEmpty = true
        · rw [if_pos hc]
          exact .inr ⟨.unexpectedEof, 0, sched, by omega, by simp⟩
        · rw [if_neg hc]
          have hlen : (data.take (min k (n + 1))).length = min (min k (n + 1)) data.length := List.length_take
          generalize hj : (data.take (min k (n + 1))).length = j at *
          have hjn : j ≤ n + 1 ∧ j ≤ data.length := by omega
          have htk : data.take (min k (n + 1)) = data.take j := by
            rw [hlen, ← List.take_eq_take_min]
          rcases ih (data.drop j) (n + 1 - j) with ⟨h1, sc, h2⟩ | ⟨e, i, sc, h1, h2⟩
          · rw [List.length_drop] at h1
            refine .inl ⟨by omega, sc, ?_⟩
            rw [h2, htk]
            simp only [Prod.mk.injEq, Res.ok.injEq, List.drop_drop, and_true]
            refine ⟨?_, by congr 1; omega⟩
            rw [← List.take_add]
            congr 1; omega
          · rw [List.length_drop] at h1
            refine .inr ⟨e, j + i, sc, by omega, ?_⟩
            rw [h2, List.drop_drop]

/-- A `ReadReader` over a source with any schedule: short reads, interrupts, failures and early ends of file. -/
def _root_.Verif.ReadReader.faulty : FaultyView ReadReader where
  R s bs := s.data = bs
  read_any := by
    rintro s bs rfl
    rcases readExact_any s.data s.sched 1 with ⟨h1, sc, h2⟩ | ⟨e, k, sc, -, h2⟩
    · obtain ⟨b, r, hd⟩ : ∃ b r, s.data = b :: r := by
        cases hd : s.data with
        | nil => rw [hd] at h1; simp at h1
        | cons b r => exact ⟨b, r, rfl⟩
      refine .inl ⟨b, r, ⟨r, sc⟩, hd, ?_, rfl⟩
      show ReadReader.read s = _
      unfold ReadReader.read
      rw [h2, hd]
      rfl
    · refine .inr ⟨.ioError e, ⟨s.data.drop k, sc⟩, ?_⟩
      show ReadReader.read s = _
      unfold ReadReader.read
      rw [h2]
  readAll_any := by
    rintro s bs n rfl
    rcases readExact_any s.data s.sched n with ⟨h1, sc, h2⟩ | ⟨e, k, sc, -, h2⟩
    · refine .inl ⟨h1, ⟨s.data.drop n, sc⟩, ?_, rfl⟩
      show ReadReader.readAll n s = _
      unfold ReadReader.readAll
      rw [h2]
      rfl
    · refine .inr ⟨.ioError e, ⟨s.data.drop k, sc⟩, ?_⟩
      show ReadReader.readAll n s = _
      unfold ReadReader.readAll
      rw [h2]
      rfl

/-- What `read_all` does to a seekable source, with any schedule. -/
theorem seek_readAll_any {m : ArithMode} (s : SeekStream m) (hl : s.content.length < 2 ^ 64) (n : Nat) :
    ∃ s', (n ≤ (s.content.drop s.pos.toNat).length ∧
        SeekStream.readAll n s = (.ok ((s.content.drop s.pos.toNat).take n), s') ∧
        s'.content.drop s'.pos.toNat = (s.content.drop s.pos.toNat).drop n ∨
      SeekStream.readAll n s = (.err .unableToReadData, s')) ∧ s'.content = s.content := by
  have hp := s.pos.toNat_lt
  unfold SeekStream.readAll
  rcases readExact_any (s.content.drop s.pos.toNat) s.reads n with ⟨h1, sc, h2⟩ | ⟨e, k, sc, -, h2⟩
  · rw [h2]
    refine ⟨_, .inl ⟨h1, rfl, ?_⟩, rfl⟩
    simp only [List.length_drop, List.drop_drop] at h1 ⊢
    rw [UInt64.toNat_add, UInt64.toNat_ofNat_of_lt' (by unfold UInt64.size; omega), Nat.mod_eq_of_lt (by omega)]
    by_cases hpl : s.pos.toNat ≤ s.content.length
    · congr 1; omega
    · rw [List.drop_eq_nil_of_le (by omega), List.drop_eq_nil_of_le (by omega)]
  · rw [h2]
    exact ⟨_, .inr rfl, rfl⟩

/-- A seekable source with content `c` and any schedule. -/
def _root_.Verif.SeekStream.faulty (m : ArithMode) (c : Bytes) (hl : c.length < 2 ^ 64) : FaultyView (SeekStream m) where
  R s bs := s.content = c ∧ bs = c.drop s.pos.toNat
  read_any := by
    rintro s bs ⟨rfl, rfl⟩
    obtain ⟨s', ⟨h1, h2, h3⟩ | h2, h4⟩ := seek_readAll_any s hl 1
    · obtain ⟨b, r, hd⟩ : ∃ b r, s.content.drop s.pos.toNat = b :: r := by
        cases hd : s.content.drop s.pos.toNat with
        | nil => rw [hd] at h1; simp at h1
        | cons b r => exact ⟨b, r, rfl⟩
      rw [hd] at h2 h3
      refine .inl ⟨b, r, s', hd, ?_, h4, ?_⟩
      · exact Act.bind_ok h2
      · rw [h4] at h3; exact h3.symm
    · exact .inr ⟨_, s', Act.bind_err h2⟩
  readAll_any := by
    rintro s bs n ⟨rfl, rfl⟩
    obtain ⟨s', ⟨h1, h2, h3⟩ | h2, h4⟩ := seek_readAll_any s hl n
    · refine .inl ⟨h1, s', h2, h4, ?_⟩
      rw [h4] at h3; exact h3.symm
    · exact .inr ⟨_, s', h2⟩

theorem run_keeps [Env] {σ τ α : Type} [Reader σ] (I : σ → Prop) (h1 : ∀ s, I s → I (Reader.read s).2)
    (h2 : ∀ n s, I s → I (Reader.readAll n s).2) (T : Prog τ α) : ∀ s, I s → I (T.run s).2.2 := by
  induction T with
  | done r t => exact fun s h => h
  | read t k ih =>
    intro s h
    have h' := h1 s h
    simp only [Prog.run]
    generalize Reader.read s = q at *
    obtain ⟨r, s'⟩ := q
    cases r with
    | ok b => exact ih b _ h'
    | _ => exact h'
  | readAll t n k ih =>
    intro s h
    have h' := h2 n s h
    simp only [Prog.run]
    generalize Reader.readAll n s = q at *
    obtain ⟨r, s'⟩ := q
    cases r with
    | ok b => exact ih b _ h'
    | _ => exact h'
  | alloc t u n k ih =>
    intro s h
    simp only [Prog.run]
    split
    · exact ih s h
    · exact h

section
variable {P : Type} [TagPayload P] [Env] {m : ArithMode}

theorem seek_read_content (s : SeekStream m) : (Reader.read s).2.content = s.content := by
  show (SeekStream.read s).2.content = _
  unfold SeekStream.read
  have h : (SeekStream.readAll 1 s).2.content = s.content := rfl
  generalize hq : SeekStream.readAll 1 s = q at *
  obtain ⟨r, s'⟩ := q
  cases r with
  | ok bs =>
    rw [Act.bind_ok hq]
    cases bs <;> exact h
  | err e => rw [Act.bind_err hq]; exact h
  | panic => rw [Act.bind_panic hq]; exact h
  | diverge => rw [Act.bind_diverge hq]; exact h

theorem attempts_content {e : Engine P} {s s' : SeekStream m} (h : Attempts e s s') : s'.content = s.content := by
  induction h with
  | none => rfl
  | read _ ih =>
    rw [← ih]
    obtain ⟨T, -, hT⟩ := C37_requests e
    rw [hT]
    refine run_keeps (fun x : SeekStream m => x.content = _) ?_ ?_ T _ rfl
    · intro x hx; rw [seek_read_content]; exact hx
    · intro n x hx; exact hx
  | seek p _ ih =>
    rw [← ih]
    unfold SeekStream.seekStart SeekStream.seekTo
    split <;> rfl

/-- **C97** A reader over a `std::io::Read`, whatever the schedule of its reads: a tag it gives is the tag the bytes
hold, with the same bytes left; and so is every failure that is not an i/o error. -/
theorem C97_stream (e : Engine P) (r : ReadReader) :
    (∃ k, (Factory.deserialize e ReadReader r).1 = .err (.ioError k)) ∨
    (Factory.deserialize e ReadReader r).1 = (Factory.deserialize e ByteArrayReader (ByteArrayReader.new r.data)).1 ∧
      ((Factory.deserialize e ReadReader r).1.isOk = true → ByteArrayReader.view.R
        (Factory.deserialize e ByteArrayReader (ByteArrayReader.new r.data)).2 (Factory.deserialize e ReadReader r).2.data) := by
  rcases C97_faults e ReadReader.faulty ByteArrayReader.view.toView (s := r) rfl (ByteArrayReader.view_new r.data) with
    h | ⟨h1, h2⟩
  · exact .inl h
  · refine .inr ⟨h1, fun h => ?_⟩
    obtain ⟨rest, h3, h4⟩ := h2 h
    rw [show (Factory.deserialize e ReadReader r).2.data = rest from h3]
    exact h4

/-- **C97** On a seekable source, after any attempts and seeks, failed or not, and a seek to `pos` that succeeded: the
next attempt fails with an i/o error or gives what the bytes from `pos` on hold. -/
theorem C97_retry (e : Engine P) {s s₁ s₂ : SeekStream m} {pos p : UInt64} (hl : s.content.length < 2 ^ 64)
    (h : Attempts e s s₁) (hseek : SeekStream.seekStart pos s₁ = (.ok p, s₂)) :
    (∃ k, (Factory.deserialize e (SeekStream m) s₂).1 = .err (.ioError k)) ∨
    (Factory.deserialize e (SeekStream m) s₂).1 =
      (Factory.deserialize e ByteArrayReader (ByteArrayReader.new (s.content.drop pos.toNat))).1 := by
  have h1 := attempts_content h
  have h2 := attempts_content (.seek pos h)
  rw [hseek] at h2
  have h3 : s₂.pos = pos := by
    unfold SeekStream.seekStart SeekStream.seekTo at hseek
    split at hseek <;> simp only [Prod.mk.injEq, Res.ok.injEq, reduceCtorEq, false_and] at hseek <;> rw [← hseek.2]
  rcases C97_faults e (SeekStream.faulty m s.content hl) ByteArrayReader.view.toView (s := s₂)
    (c := ByteArrayReader.new (s.content.drop pos.toNat)) ⟨h2, by rw [h3]⟩ (ByteArrayReader.view_new _) with h | h
  · exact .inl h
  · exact .inr h.1

end

section
attribute [local instance] bigEnv

/-- **C97** Without the seek this is false: after a fault in the middle of a byte array the next attempt on the same
source gives a tag, the string tag with which the bytes of the array happen to start. -/
theorem C97_no_retry : ∃ r : ReadReader,
    (match Factory.deserialize (Engine.std false : Engine Empty) ByteArrayReader (ByteArrayReader.new r.data) with
      | (.ok (.atom (.byteArray v)), _) => decide (v = [17, 0]) | _ => false) = true ∧
    (match Factory.deserialize (Engine.std false : Engine Empty) ReadReader r with
      | (.err (.ioError _), r') =>
        (match Factory.deserialize (Engine.std false : Engine Empty) ReadReader r' with
          | (.ok (.atom (.string id v)), _) => decide (id = 17 ∧ v = "") | _ => false)
      | _ => false) = true := by
  refine ⟨⟨[16, 2, 17, 0], [.chunk 1, .chunk 1, .error (.other 5)]⟩, ?_, ?_⟩
  · rw [deserialize_eq]; decide +kernel
  · rw [deserialize_eq]; decide +kernel

/-- A seekable source with a fault in the second read: the first attempt fails, and after a seek the second succeeds. -/
example : ∃ s₁ s₂ : SeekStream .checked,
    Attempts (Engine.std false : Engine Empty) ⟨[9, 16, 2, 17, 0], 1, [.chunk 1, .error (.other 5)], [], []⟩ s₁ ∧
    SeekStream.seekStart 1 s₁ = (.ok 1, s₂) ∧
    (match Factory.deserialize (Engine.std false : Engine Empty) _ s₂ with
      | (.ok (.atom (.byteArray v)), _) => decide (v = [17, 0]) | _ => false) = true := by
  refine ⟨⟨[9, 16, 2, 17, 0], 2, [], [], []⟩, ⟨[9, 16, 2, 17, 0], 1, [], [], []⟩, ?_, by decide +kernel, ?_⟩
  · have h := Attempts.read (e := (Engine.std false : Engine Empty))
      (.none (⟨[9, 16, 2, 17, 0], 1, [.chunk 1, .error (.other 5)], [], []⟩ : SeekStream .checked))
    rw [deserialize_eq] at h
    rw [show (⟨[9, 16, 2, 17, 0], 2, [], [], []⟩ : SeekStream .checked) = _ from ?_]
    · exact h
    · decide +kernel
  · rw [deserialize_eq]; decide +kernel

end

end Verif.Props
