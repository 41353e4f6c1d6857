import Verif.Proof.SimTag
import Verif.Spec.Writer
import Verif.Model.Array
import Verif.Model.StdIo
/-!
# The readers and writers of the crate as views and sinks
-/
namespace Verif
open Spec

/-! ### Default skips over a view -/
section
variable {σ : Type} [Reader σ]

theorem defaultSkip_ok (V : View σ) {s : σ} {bs : Bytes} (n : Nat) (h : V.R s bs) (hn : n ≤ bs.length) :
    ∃ s', defaultSkip (Reader.readAll (σ := σ)) n s = (.ok (), s') ∧ V.R s' (bs.drop n) := by
  induction n using Nat.strongRecOn generalizing s bs with
  | ind n ih =>
    rw [defaultSkip]
    by_cases h0 : n = 0
    · subst h0; exact ⟨s, rfl, by simpa using h⟩
    · obtain ⟨s1, hr, h1⟩ := V.readAll_ok (n := min n 512) h (by omega)
      obtain ⟨s2, hs, h2⟩ := ih (n - min n 512) (by omega) h1 (by simp; omega)
      refine ⟨s2, ?_, ?_⟩
      · rw [dif_neg h0, Act.bind_ok hr]; exact hs
      · rw [List.drop_drop] at h2
        rwa [show min n 512 + (n - min n 512) = n by omega] at h2

theorem defaultSkip_short (V : View σ) {s : σ} {bs : Bytes} (n : Nat) (h : V.R s bs) (hn : bs.length < n) :
    ∃ e s', defaultSkip (Reader.readAll (σ := σ)) n s = (.err e, s') ∧ V.E e := by
  induction n using Nat.strongRecOn generalizing s bs with
  | ind n ih =>
    rw [defaultSkip]
    have h0 : n ≠ 0 := by omega
    by_cases h1 : min n 512 ≤ bs.length
    · obtain ⟨s1, hr, h2⟩ := V.readAll_ok (n := min n 512) h h1
      obtain ⟨e, s2, hs, he⟩ := ih (n - min n 512) (by omega) h2 (by simp; omega)
      exact ⟨e, s2, by rw [dif_neg h0, Act.bind_ok hr]; exact hs, he⟩
    · obtain ⟨e, s1, hr, he⟩ := V.readAll_short (n := min n 512) h (by omega)
      exact ⟨e, s1, by rw [dif_neg h0, Act.bind_err hr], he⟩

/-- The default `skip_u64` over any correct `skip`, for any width of `usize`. -/
theorem defaultSkipU64Loop_ok {R : σ → Bytes → Prop} {skip : Nat → Act IoErr σ Unit} (usizeMax : Nat)
    (hs : ∀ {s bs n}, R s bs → n ≤ bs.length → ∃ s', skip n s = (.ok (), s') ∧ R s' (bs.drop n))
    {s : σ} {bs : Bytes} (n : Nat) (h : R s bs) (hn : n ≤ bs.length) :
    ∃ s', defaultSkipU64Loop usizeMax skip n s = (.ok (), s') ∧ R s' (bs.drop n) := by
  induction n using Nat.strongRecOn generalizing s bs with
  | ind n ih =>
    rw [defaultSkipU64Loop]
    by_cases h0 : n = 0
    · subst h0; exact ⟨s, rfl, by simpa using h⟩
    · obtain ⟨s1, hr, h1⟩ := hs (n := min n (max usizeMax 1)) h (by omega)
      obtain ⟨s2, hs2, h2⟩ := ih (n - min n (max usizeMax 1)) (by omega) h1 (by simp; omega)
      refine ⟨s2, ?_, ?_⟩
      · rw [dif_neg h0, Act.bind_ok hr]; exact hs2
      · rw [List.drop_drop] at h2
        rwa [show min n (max usizeMax 1) + (n - min n (max usizeMax 1)) = n by omega] at h2

theorem defaultSkipU64Loop_short {R : σ → Bytes → Prop} {E : IoErr → Prop} {skip : Nat → Act IoErr σ Unit}
    (usizeMax : Nat)
    (hs : ∀ {s bs n}, R s bs → n ≤ bs.length → ∃ s', skip n s = (.ok (), s') ∧ R s' (bs.drop n))
    (hf : ∀ {s bs n}, R s bs → bs.length < n → ∃ e s', skip n s = (.err e, s') ∧ E e)
    {s : σ} {bs : Bytes} (n : Nat) (h : R s bs) (hn : bs.length < n) :
    ∃ e s', defaultSkipU64Loop usizeMax skip n s = (.err e, s') ∧ E e := by
  induction n using Nat.strongRecOn generalizing s bs with
  | ind n ih =>
    rw [defaultSkipU64Loop]
    have h0 : n ≠ 0 := by omega
    by_cases h1 : min n (max usizeMax 1) ≤ bs.length
    · obtain ⟨s1, hr, h2⟩ := hs (n := min n (max usizeMax 1)) h h1
      obtain ⟨e, s2, hs2, he⟩ := ih (n - min n (max usizeMax 1)) (by omega) h2 (by simp; omega)
      exact ⟨e, s2, by rw [dif_neg h0, Act.bind_ok hr]; exact hs2, he⟩
    · obtain ⟨e, s1, hr, he⟩ := hf (n := min n (max usizeMax 1)) h (by omega)
      exact ⟨e, s1, by rw [dif_neg h0, Act.bind_err hr], he⟩

end

/-! ### In-memory readers -/

theorem assertCanRead_ok {a n : Nat} (h : n ≤ a) : assertCanRead a n = .ok () := by
  unfold assertCanRead
  split
  · rfl
  · cases a with
    | zero => omega
    | succ a => simp; omega

theorem assertCanRead_short {a n : Nat} (h : a < n) :
    assertCanRead a n = .err (if a = 0 then .endOfData else .unableToReadData) := by
  unfold assertCanRead
  rw [if_neg (by omega)]
  cases a with
  | zero => simp
  | succ a => simp; omega

namespace ByteArrayReader

theorem readAll_fits {r : ByteArrayReader} {n : Nat} (h : r.offset + n ≤ r.array.length) :
    readAll n r = (.ok ((r.array.drop r.offset).take n), { r with offset := r.offset + n }) := by
  unfold readAll canRead available len
  rw [assertCanRead_ok (by omega)]
  simp [h]

theorem readAll_refused {r : ByteArrayReader} {n : Nat} (hr : r.offset ≤ r.array.length)
    (h : r.array.length < r.offset + n) :
    readAll n r = (.err (if r.offset = r.array.length then .endOfData else .unableToReadData), r) := by
  unfold readAll canRead available len
  rw [assertCanRead_short (by omega)]
  simp only [show (r.array.length - r.offset = 0) ↔ (r.offset = r.array.length) by omega]

theorem read_fits {r : ByteArrayReader} (h : r.offset < r.array.length) :
    read r = (.ok r.array[r.offset], { r with offset := r.offset + 1 }) := by
  unfold read canRead available len
  rw [assertCanRead_ok (by omega)]
  simp [h]

theorem read_refused {r : ByteArrayReader} (h : r.offset = r.array.length) : read r = (.err .endOfData, r) := by
  unfold read canRead available len
  rw [assertCanRead_short (by omega), if_pos (by omega)]

theorem skip_fits {r : ByteArrayReader} {n : Nat} (h : r.offset + n ≤ r.array.length) :
    skip n r = (.ok (), { r with offset := r.offset + n }) := by
  unfold skip canRead available len
  rw [assertCanRead_ok (by omega)]

theorem skip_refused {r : ByteArrayReader} {n : Nat} (hr : r.offset ≤ r.array.length)
    (h : r.array.length < r.offset + n) :
    skip n r = (.err (if r.offset = r.array.length then .endOfData else .unableToReadData), r) := by
  unfold skip canRead available len
  rw [assertCanRead_short (by omega)]
  simp only [show (r.array.length - r.offset = 0) ↔ (r.offset = r.array.length) by omega]

/-- On a 64-bit platform one `skip` is enough. -/
theorem skipU64_eq (n : UInt64) (r : ByteArrayReader) : Reader.skipU64 n r = skip n.toNat r := by
  show defaultSkipU64Loop usizeMax64 skip n.toNat r = _
  have hn := n.toNat_lt
  rw [defaultSkipU64Loop]
  by_cases h0 : n.toNat = 0
  · rw [dif_pos h0, h0]
    simp [skip, canRead, assertCanRead, pure, Act.pure]
  · rw [dif_neg h0]
    have : min n.toNat (max usizeMax64 1) = n.toNat := by unfold usizeMax64; omega
    rw [this, Nat.sub_self]
    rcases hs : skip n.toNat r with ⟨r', s'⟩
    cases r' with
    | ok a => rw [Act.bind_ok hs, defaultSkipU64Loop]; simp [pure, Act.pure]
    | err e => rw [Act.bind_err hs]
    | panic => rw [Act.bind_panic hs]
    | diverge => rw [Act.bind_diverge hs]

def view : SkipView ByteArrayReader where
  R r bs := r.offset ≤ r.array.length ∧ bs = r.array.drop r.offset
  E e := e = .endOfData ∨ e = .unableToReadData
  read_cons := by
    rintro r b bs ⟨h, hb⟩
    have hl := congrArg List.length hb
    simp at hl
    have hlt : r.offset < r.array.length := by omega
    refine ⟨{ r with offset := r.offset + 1 }, (read_fits hlt).trans ?_, hlt, ?_⟩
    · rw [List.drop_eq_getElem_cons hlt] at hb
      rw [← (List.cons_eq_cons.mp hb).1]
    · rw [List.drop_eq_getElem_cons hlt] at hb
      exact (List.cons_eq_cons.mp hb).2
  read_nil := by
    rintro r ⟨h, hb⟩
    have hl := congrArg List.length hb
    simp at hl
    exact ⟨_, _, read_refused (by omega), .inl rfl⟩
  readAll_ok := by
    rintro r bs n ⟨h, rfl⟩ hn
    simp at hn
    exact ⟨_, readAll_fits (by omega), by show r.offset + n ≤ r.array.length; omega, by simp⟩
  readAll_short := by
    rintro r bs n ⟨h, rfl⟩ hn
    simp at hn
    refine ⟨_, _, readAll_refused h (by omega), ?_⟩
    split <;> simp
  skip_ok := by
    rintro r bs n ⟨h, rfl⟩ hn
    simp at hn
    exact ⟨_, skip_fits (by omega), by show r.offset + n ≤ r.array.length; omega, by simp⟩
  skip_short := by
    rintro r bs n ⟨h, rfl⟩ hn
    simp at hn
    exact ⟨_, _, skip_refused h (by omega)⟩
  skipU64_ok := by
    rintro r bs n ⟨h, rfl⟩ hn
    simp at hn
    exact ⟨_, (skipU64_eq n r).trans (skip_fits (by omega)), by show r.offset + n.toNat ≤ r.array.length; omega, by simp⟩
  skipU64_short := by
    rintro r bs n ⟨h, rfl⟩ hn
    simp at hn
    exact ⟨_, _, (skipU64_eq n r).trans (skip_refused h (by omega))⟩

theorem view_new (bs : Bytes) : view.R (new bs) bs := ⟨by simp [new], by simp [new]⟩

end ByteArrayReader

namespace VecReader

/-- The same reader over a slice. -/
def toBAR (r : VecReader) : ByteArrayReader := ⟨r.vector, r.offset⟩
def ofBAR (r : ByteArrayReader) : VecReader := ⟨r.array, r.offset⟩
def outBAR {α : Type} (p : Res IoErr α × ByteArrayReader) : Res IoErr α × VecReader := (p.1, ofBAR p.2)

theorem read_eq (r : VecReader) : read r = outBAR (ByteArrayReader.read r.toBAR) := by
  unfold read ByteArrayReader.read canRead ByteArrayReader.canRead available ByteArrayReader.available
    ByteArrayReader.len toBAR outBAR ofBAR
  cases assertCanRead (r.vector.length - r.offset) 1 <;> simp
  cases r.vector[r.offset]? <;> simp

theorem readAll_eq (n : Nat) (r : VecReader) : readAll n r = outBAR (ByteArrayReader.readAll n r.toBAR) := by
  unfold readAll ByteArrayReader.readAll canRead ByteArrayReader.canRead available ByteArrayReader.available
    ByteArrayReader.len toBAR outBAR ofBAR
  cases assertCanRead (r.vector.length - r.offset) n <;> simp
  split
  · simp [List.drop_take]
  · rfl

theorem skip_eq (n : Nat) (r : VecReader) : skip n r = outBAR (ByteArrayReader.skip n r.toBAR) := by
  unfold skip ByteArrayReader.skip canRead ByteArrayReader.canRead available ByteArrayReader.available
    ByteArrayReader.len toBAR outBAR ofBAR
  cases assertCanRead (r.vector.length - r.offset) n <;> simp

theorem defaultSkipU64Loop_eq (um n : Nat) (r : VecReader) :
    defaultSkipU64Loop um skip n r = outBAR (defaultSkipU64Loop um ByteArrayReader.skip n r.toBAR) := by
  induction n using Nat.strongRecOn generalizing r with
  | ind n ih =>
    rw [defaultSkipU64Loop]
    conv => rhs; rw [defaultSkipU64Loop]
    by_cases h0 : n = 0
    · rw [dif_pos h0, dif_pos h0]; rfl
    · rw [dif_neg h0, dif_neg h0]
      have hs := skip_eq (min n (max um 1)) r
      rcases hb : ByteArrayReader.skip (min n (max um 1)) r.toBAR with ⟨x, r'⟩
      rw [hb] at hs
      cases x with
      | ok a =>
        rw [Act.bind_ok hs, Act.bind_ok hb, ih _ (by omega)]
        rfl
      | err e => rw [Act.bind_err hs, Act.bind_err hb]; rfl
      | panic => rw [Act.bind_panic hs, Act.bind_panic hb]; rfl
      | diverge => rw [Act.bind_diverge hs, Act.bind_diverge hb]; rfl

theorem skipU64_eq (n : UInt64) (r : VecReader) :
    Reader.skipU64 n r = outBAR (Reader.skipU64 n r.toBAR) := defaultSkipU64Loop_eq _ _ r

def view : SkipView VecReader where
  R r bs := ByteArrayReader.view.R r.toBAR bs
  E := ByteArrayReader.view.E
  read_cons := by
    intro r b bs h
    obtain ⟨s', hr, h'⟩ := ByteArrayReader.view.read_cons h
    exact ⟨ofBAR s', by show read r = _; rw [read_eq]; exact congrArg outBAR hr, h'⟩
  read_nil := by
    intro r h
    obtain ⟨e, s', hr, h'⟩ := ByteArrayReader.view.read_nil h
    exact ⟨e, ofBAR s', by show read r = _; rw [read_eq]; exact congrArg outBAR hr, h'⟩
  readAll_ok := by
    intro r bs n h hn
    obtain ⟨s', hr, h'⟩ := ByteArrayReader.view.readAll_ok h hn
    exact ⟨ofBAR s', by show readAll n r = _; rw [readAll_eq]; exact congrArg outBAR hr, h'⟩
  readAll_short := by
    intro r bs n h hn
    obtain ⟨e, s', hr, h'⟩ := ByteArrayReader.view.readAll_short (n := n) h hn
    exact ⟨e, ofBAR s', by show readAll n r = _; rw [readAll_eq]; exact congrArg outBAR hr, h'⟩
  skip_ok := by
    intro r bs n h hn
    obtain ⟨s', hr, h'⟩ := ByteArrayReader.view.skip_ok h hn
    exact ⟨ofBAR s', by show skip n r = _; rw [skip_eq]; exact congrArg outBAR hr, h'⟩
  skip_short := by
    intro r bs n h hn
    obtain ⟨e, s', hr⟩ := ByteArrayReader.view.skip_short (n := n) h hn
    exact ⟨e, ofBAR s', by show skip n r = _; rw [skip_eq]; exact congrArg outBAR hr⟩
  skipU64_ok := by
    intro r bs n h hn
    obtain ⟨s', hr, h'⟩ := ByteArrayReader.view.skipU64_ok h hn
    exact ⟨ofBAR s', by rw [skipU64_eq]; exact congrArg outBAR hr, h'⟩
  skipU64_short := by
    intro r bs n h hn
    obtain ⟨e, s', hr⟩ := ByteArrayReader.view.skipU64_short (n := n) h hn
    exact ⟨e, ofBAR s', by rw [skipU64_eq]; exact congrArg outBAR hr⟩

theorem view_new (bs : Bytes) : view.R (new bs) bs := ⟨by simp [new, toBAR], by simp [new, toBAR]⟩

end VecReader

/-! ### `std::io::Read` -/

/-- A schedule of `std::io::Read` that only chunks and interrupts: no early end of file, no failure. -/
def Benign (sched : List ReadEv) : Prop :=
  ∀ ev ∈ sched, (∃ k, ev = .chunk k ∧ 1 ≤ k) ∨ ev = .error .interrupted

theorem readExact_benign {sched : List ReadEv} (hb : Benign sched) (data : Bytes) (n : Nat) :
    (n ≤ data.length → ∃ sc, readExact data sched n = (.ok (data.take n), data.drop n, sc) ∧ Benign sc) ∧
    (data.length < n → ∃ sc, readExact data sched n = (.err .unexpectedEof, [], sc) ∧ Benign sc) := by
  induction sched generalizing data n with
  | nil =>
    cases n with
    | zero => simp [readExact, hb]
    | succ n =>
      refine ⟨fun h => ⟨[], ?_, hb⟩, fun h => ⟨[], ?_, hb⟩⟩
      · simp [readExact, h]
      · simp only [readExact]; rw [if_neg (by omega)]
  | cons ev sched ih =>
    have hb' : Benign sched := fun e he => hb e (List.mem_cons_of_mem _ he)
    cases n with
    | zero => exact ⟨fun _ => ⟨ev :: sched, by simp [readExact], hb⟩, fun h => by omega⟩
    | succ n =>
      rcases hb ev (List.mem_cons_self ..) with ⟨k, rfl, hk⟩ | rfl
      · simp only [readExact]
        have hc : (data.take (min k (n + 1))).length = min (min k (n + 1)) data.length := by simp
        by_cases hd : data = []
        · subst hd
          exact ⟨fun h => by simp at h, fun _ => ⟨sched, by simp, hb'⟩⟩
        · have hdl := List.length_pos_iff.mpr hd
          have hne : (data.take (min k (n + 1))).isEmpty = false := by
            cases h : data.take (min k (n + 1)) with
            | nil => rw [h] at hc; simp at hc; omega
            | cons a b => rfl
          rw [hne]
          obtain ⟨h1, h2⟩ := ih hb' (data.drop (data.take (min k (n + 1))).length)
            (n + 1 - (data.take (min k (n + 1))).length)
          refine ⟨fun h => ?_, fun h => ?_⟩
          · obtain ⟨sc, hr, hbs⟩ := h1 (by simp; omega)
            refine ⟨sc, ?_, hbs⟩
            rw [hr]
            have hml : min (min k (n + 1)) data.length = min k (n + 1) := by omega
            simp only [hc, hml, List.drop_drop]
            have : min k (n + 1) + (n + 1 - min k (n + 1)) = n + 1 := by omega
            rw [this]
            simp only [Bool.false_eq_true, if_false, Prod.mk.injEq, Res.ok.injEq, and_true]
            conv => rhs; rw [← this, List.take_add]
          · obtain ⟨sc, hr, hbs⟩ := h2 (by simp; omega)
            exact ⟨sc, by rw [hr]; rfl, hbs⟩
      · simp only [readExact, if_true]
        exact ih hb' data (n + 1)

namespace ReadReader

theorem readAll_benign {r : ReadReader} (hb : Benign r.sched) (n : Nat) :
    (n ≤ r.data.length → ∃ sc, readAll n r = (.ok (r.data.take n), ⟨r.data.drop n, sc⟩) ∧ Benign sc) ∧
    (r.data.length < n → ∃ sc, readAll n r = (.err (.ioError .unexpectedEof), ⟨[], sc⟩) ∧ Benign sc) := by
  obtain ⟨h1, h2⟩ := readExact_benign hb r.data n
  constructor
  · intro h
    obtain ⟨sc, hr, hbs⟩ := h1 h
    exact ⟨sc, by simp [readAll, hr, Res.mapErr], hbs⟩
  · intro h
    obtain ⟨sc, hr, hbs⟩ := h2 h
    exact ⟨sc, by simp [readAll, hr, Res.mapErr], hbs⟩

def viewE : View ReadReader where
  R r bs := r.data = bs ∧ Benign r.sched
  E e := e = .ioError .unexpectedEof
  read_cons := by
    rintro r b bs ⟨h, hb⟩
    obtain ⟨sc, hr, hbs⟩ := (readExact_benign hb r.data 1).1 (by simp [h])
    refine ⟨⟨bs, sc⟩, ?_, rfl, hbs⟩
    rw [h] at hr
    simp [Reader.read, read, hr, h]
  read_nil := by
    rintro r ⟨h, hb⟩
    obtain ⟨sc, hr, hbs⟩ := (readExact_benign hb r.data 1).2 (by simp [h])
    exact ⟨_, ⟨[], sc⟩, by simp [Reader.read, read, hr], rfl⟩
  readAll_ok := by
    rintro r bs n ⟨rfl, hb⟩ hn
    obtain ⟨sc, hr, hbs⟩ := (readAll_benign hb n).1 hn
    exact ⟨_, hr, rfl, hbs⟩
  readAll_short := by
    rintro r bs n ⟨rfl, hb⟩ hn
    obtain ⟨sc, hr, hbs⟩ := (readAll_benign hb n).2 hn
    exact ⟨_, _, hr, rfl⟩

def view : SkipView ReadReader where
  toView := viewE
  skip_ok := fun h hn => defaultSkip_ok viewE _ h hn
  skip_short := fun h hn => by
    obtain ⟨e, s', hs, -⟩ := defaultSkip_short viewE _ h hn
    exact ⟨e, s', hs⟩
  skipU64_ok := fun h hn => defaultSkipU64Loop_ok (R := viewE.R) _ (fun h hn => defaultSkip_ok viewE _ h hn) _ h hn
  skipU64_short := fun h hn => by
    obtain ⟨e, s', hs, -⟩ := defaultSkipU64Loop_short (R := viewE.R) (E := viewE.E) _
      (fun h hn => defaultSkip_ok viewE _ h hn) (fun h hn => defaultSkip_short viewE _ h hn) _ h hn
    exact ⟨e, s', hs⟩

end ReadReader

/-! ### Limited readers -/

/-- A limited reader whose source has (at least) the whole window. -/
def limSkipView {σ : Type} [Reader σ] (V : View σ) (slack : Nat) (D : Bytes) : SkipView (Limited σ) where
  toView := limView V slack D
  skip_ok := fun h hn => defaultSkip_ok (limView V slack D) _ h hn
  skip_short := fun h hn => by
    obtain ⟨e, s', hs, -⟩ := defaultSkip_short (limView V slack D) _ h hn
    exact ⟨e, s', hs⟩
  skipU64_ok := fun h hn => defaultSkipU64Loop_ok (R := (limView V slack D).R) _
    (fun h hn => defaultSkip_ok (limView V slack D) _ h hn) _ h hn
  skipU64_short := fun h hn => by
    obtain ⟨e, s', hs, -⟩ := defaultSkipU64Loop_short (R := (limView V slack D).R) (E := (limView V slack D).E) _
      (fun h hn => defaultSkip_ok (limView V slack D) _ h hn)
      (fun h hn => defaultSkip_short (limView V slack D) _ h hn) _ h hn
    exact ⟨e, s', hs⟩

/-! ### `Read + Seek` -/
namespace SeekStream
variable {m : ArithMode}

theorem readAll_benign {s : SeekStream m} (hb : Benign s.reads) (hp : s.pos.toNat ≤ s.content.length)
    (hl : s.content.length < 2 ^ 64) (n : Nat) :
    (n ≤ s.content.length - s.pos.toNat → ∃ sc, readAll n s = (.ok ((s.content.drop s.pos.toNat).take n),
      { s with pos := UInt64.ofNat (s.pos.toNat + n), reads := sc }) ∧ Benign sc) ∧
    (s.content.length - s.pos.toNat < n → ∃ sc, readAll n s = (.err .unableToReadData,
      { s with pos := UInt64.ofNat s.content.length, reads := sc }) ∧ Benign sc) := by
  obtain ⟨h1, h2⟩ := readExact_benign hb (s.content.drop s.pos.toNat) n
  constructor
  · intro h
    obtain ⟨sc, hr, hbs⟩ := h1 (by simpa using h)
    refine ⟨sc, ?_, hbs⟩
    have hpos : s.pos + UInt64.ofNat (s.content.length - s.pos.toNat - (s.content.length - (s.pos.toNat + n)))
        = UInt64.ofNat (s.pos.toNat + n) := by
      apply UInt64.toNat_inj.mp
      rw [UInt64.toNat_add, UInt64.toNat_ofNat', UInt64.toNat_ofNat']
      have := s.pos.toNat_lt
      rw [Nat.mod_eq_of_lt (a := s.content.length - s.pos.toNat - (s.content.length - (s.pos.toNat + n))) (by omega)]
      congr 1; omega
    simp only [readAll, hr, Res.mapErr, List.length_drop, List.drop_drop, hpos]
  · intro h
    obtain ⟨sc, hr, hbs⟩ := h2 (by simpa using h)
    refine ⟨sc, ?_, hbs⟩
    have hpos : s.pos + UInt64.ofNat (s.content.length - s.pos.toNat - 0)
        = UInt64.ofNat s.content.length := by
      apply UInt64.toNat_inj.mp
      rw [UInt64.toNat_add, UInt64.toNat_ofNat', UInt64.toNat_ofNat']
      have := s.pos.toNat_lt
      rw [Nat.mod_eq_of_lt (a := s.content.length - s.pos.toNat - 0) (by omega)]
      congr 1; omega
    simp only [readAll, hr, Res.mapErr, List.length_drop, List.length_nil, hpos]

/-- The stream holds what follows its position; reads are benign and seeks do not fail. -/
def view0 (m : ArithMode) : View (SeekStream m) where
  R s bs := Benign s.reads ∧ s.seeks = [] ∧ s.pos.toNat ≤ s.content.length ∧ s.content.length < 2 ^ 63 ∧
    bs = s.content.drop s.pos.toNat
  E e := e = .unableToReadData
  read_cons := by
    rintro s b bs ⟨hb, hk, hp, hl, hbs⟩
    have hlen := congrArg List.length hbs
    simp at hlen
    obtain ⟨sc, hr, hbn⟩ := (readAll_benign hb hp (by omega) 1).1 (by omega)
    rw [← hbs] at hr
    refine ⟨_, Act.bind_ok hr, hbn, hk, ?_, hl, ?_⟩
    · rw [UInt64.toNat_ofNat', Nat.mod_eq_of_lt (by omega)]
      show s.pos.toNat + 1 ≤ s.content.length
      omega
    · rw [UInt64.toNat_ofNat', Nat.mod_eq_of_lt (by omega)]
      show bs = s.content.drop (s.pos.toNat + 1)
      rw [← List.drop_drop, ← hbs]; rfl
  read_nil := by
    rintro s ⟨hb, hk, hp, hl, hbs⟩
    have hlen := congrArg List.length hbs
    simp at hlen
    obtain ⟨sc, hr, hbn⟩ := (readAll_benign hb hp (by omega) 1).2 (by omega)
    exact ⟨_, _, Act.bind_err hr, rfl⟩
  readAll_ok := by
    rintro s bs n ⟨hb, hk, hp, hl, rfl⟩ hn
    simp at hn
    obtain ⟨sc, hr, hbn⟩ := (readAll_benign hb hp (by omega) n).1 (by omega)
    refine ⟨_, hr, hbn, hk, ?_, hl, ?_⟩
    · rw [UInt64.toNat_ofNat', Nat.mod_eq_of_lt (by omega)]
      show s.pos.toNat + n ≤ s.content.length
      omega
    · rw [UInt64.toNat_ofNat', Nat.mod_eq_of_lt (by omega)]
      simp
  readAll_short := by
    rintro s bs n ⟨hb, hk, hp, hl, rfl⟩ hn
    simp at hn
    obtain ⟨sc, hr, hbn⟩ := (readAll_benign hb hp (by omega) n).2 (by omega)
    exact ⟨_, _, hr, rfl⟩

end SeekStream

/-! ### Writers -/

namespace VecWriter
/-- A `VecWriter` positioned at its end has collected its content. -/
def sink : Sink VecWriter where
  W w bs := w.readOnly = false ∧ w.offset = w.vector.length ∧ w.vector = bs
  write_ok := by
    rintro w bs b ⟨h1, h2, rfl⟩
    refine ⟨⟨w.vector ++ [b], w.offset + 1, w.readOnly⟩, ?_, h1, by simp [h2], rfl⟩
    simp [Writer.write, write, vecWrite, h1, h2]
  writeAll_ok := by
    rintro w bs buf ⟨h1, h2, rfl⟩
    refine ⟨⟨w.vector ++ buf, w.offset + buf.length, w.readOnly⟩, ?_, h1, by simp [h2], rfl⟩
    cases buf with
    | nil => simp [Writer.writeAll, writeAll, vecWriteAll, h1, h2, copyInto]
    | cons b bs =>
      simp [Writer.writeAll, writeAll, vecWriteAll, h1, h2, copyInto, resizeZ, List.take_of_length_le]

theorem sink_new : sink.W new [] := ⟨rfl, rfl, rfl⟩
end VecWriter

namespace BorrowedVecWriter
/-- A `BorrowedVecWriter` over a vector that held `pre`, positioned at its end. -/
def sink (pre : Bytes) : Sink BorrowedVecWriter where
  W w bs := w.readOnly = false ∧ w.offset = w.vector.length ∧ w.vector = pre ++ bs
  write_ok := by
    rintro w bs b ⟨h1, h2, h3⟩
    refine ⟨⟨w.vector ++ [b], w.initialOffset, w.offset + 1, w.readOnly⟩, ?_, h1, by simp [h2], by simp [h3]⟩
    simp [Writer.write, write, vecWrite, h1, h2]
  writeAll_ok := by
    rintro w bs buf ⟨h1, h2, h3⟩
    refine ⟨⟨w.vector ++ buf, w.initialOffset, w.offset + buf.length, w.readOnly⟩, ?_, h1, by simp [h2], by simp [h3]⟩
    cases buf with
    | nil => simp [Writer.writeAll, writeAll, vecWriteAll, h1, h2, copyInto]
    | cons b bs =>
      simp [Writer.writeAll, writeAll, vecWriteAll, h1, h2, copyInto, resizeZ, List.take_of_length_le]
end BorrowedVecWriter

namespace WriteWriter
/-- A `WriteWriter` over a destination that accepts whole buffers. -/
def sink : Sink WriteWriter where
  W w bs := w.sched = [] ∧ w.out = bs
  write_ok := by
    rintro w bs b ⟨h1, rfl⟩
    exact ⟨⟨w.out ++ [b], []⟩, by simp [Writer.write, write, stdWrite, h1], rfl, rfl⟩
  writeAll_ok := by
    rintro w bs buf ⟨h1, rfl⟩
    exact ⟨⟨w.out ++ buf, []⟩, by simp [Writer.writeAll, writeAll, stdWrite, h1], rfl, rfl⟩
end WriteWriter

end Verif
