import Verif.Proof.Views
import Verif.Spec.Memory
/-!
# Properties C11–C17: in-memory readers and writers
-/
namespace Verif.Props
open Spec

/-! ### Readers -/

theorem barStep {r : ByteArrayReader} (h : r.offset ≤ r.array.length) (op : ReadOp) :
    readStep (fun n r => ByteArrayReader.setOffset r n) r op =
      ((cursorStep r.array r.offset op).1, ⟨r.array, (cursorStep r.array r.offset op).2⟩) ∧
    (cursorStep r.array r.offset op).2 ≤ r.array.length := by
  have hskip : ∀ n, ByteArrayReader.skip n r =
      ((cursorTake r.array r.offset n).1.map (fun _ => ()), ⟨r.array, (cursorTake r.array r.offset n).2⟩) := by
    intro n
    unfold cursorTake
    split
    · rename_i hn; rw [ByteArrayReader.skip_fits hn]; rfl
    · rename_i hn; rw [ByteArrayReader.skip_refused h (by omega)]; rfl
  have hle : ∀ n, (cursorTake r.array r.offset n).2 ≤ r.array.length := by
    intro n
    unfold cursorTake
    split
    · rename_i hn; exact hn
    · exact h
  have hmm : ∀ n, ((cursorTake r.array r.offset n).1.map fun _ => ()).map (fun _ => ([] : Bytes)) =
      (cursorTake r.array r.offset n).1.map fun _ => [] := by
    intro n
    cases (cursorTake r.array r.offset n).1 <;> rfl
  cases op with
  | read =>
    refine ⟨?_, hle _⟩
    unfold readStep cursorStep cursorTake
    simp only [Reader.read]
    split
    · rename_i hn
      rw [ByteArrayReader.read_fits (by omega)]
      have : r.offset < r.array.length := by omega
      rw [List.drop_eq_getElem_cons this]; rfl
    · rename_i hn
      rw [ByteArrayReader.read_refused (by omega), if_pos (by omega)]; rfl
  | readAll n =>
    refine ⟨?_, hle _⟩
    unfold readStep cursorStep cursorTake
    simp only [Reader.readAll]
    split
    · rename_i hn; rw [ByteArrayReader.readAll_fits hn]
    · rename_i hn; rw [ByteArrayReader.readAll_refused h (by omega)]
  | skip n =>
    refine ⟨?_, hle _⟩
    simp only [readStep, cursorStep, Reader.skip, hskip, hmm]
  | skipU64 n =>
    refine ⟨?_, hle _⟩
    simp only [readStep, cursorStep, ByteArrayReader.skipU64_eq, hskip, hmm]
  | setOffset n => exact ⟨rfl, by simp only [cursorStep]; omega⟩

/-- **C11** From any array and any valid position, `ByteArrayReader` answers every history of calls exactly as a
cursor over the array; the array never changes and the offset stays within it. -/
theorem C11_ByteArrayReader (a : Bytes) (pos : Nat) (hp : pos ≤ a.length) (ops : List ReadOp) :
    readRun (fun n r => ByteArrayReader.setOffset r n) ⟨a, pos⟩ ops =
      ((cursorRun a pos ops).1, ⟨a, (cursorRun a pos ops).2⟩) ∧
    (cursorRun a pos ops).2 ≤ a.length := by
  induction ops generalizing pos with
  | nil => exact ⟨rfl, hp⟩
  | cons op ops ih =>
    obtain ⟨h1, h2⟩ := barStep (r := ⟨a, pos⟩) hp op
    obtain ⟨h3, h4⟩ := ih _ h2
    simp only [readRun, cursorRun, h1, h3, h4, and_self]

theorem vecStep (r : VecReader) (op : ReadOp) :
    readStep (fun n r => VecReader.setOffset r n) r op =
      VecReader.outBAR (readStep (fun n r => ByteArrayReader.setOffset r n) r.toBAR op) := by
  cases op with
  | read => simp only [readStep, Reader.read, VecReader.read_eq]; rfl
  | readAll n => simp only [readStep, Reader.readAll, VecReader.readAll_eq]
  | skip n => simp only [readStep, Reader.skip, VecReader.skip_eq]; rfl
  | skipU64 n => simp only [readStep, VecReader.skipU64_eq]; rfl
  | setOffset n => rfl

/-- **C12** Whatever the array, the position (valid or not) and the history of calls, `VecReader` and
`ByteArrayReader` give the same answers and end at the same offset. -/
theorem C12_interchangeable (a : Bytes) (pos : Nat) (ops : List ReadOp) :
    let v := readRun (fun n r => VecReader.setOffset r n) ⟨a, pos⟩ ops
    let b := readRun (fun n r => ByteArrayReader.setOffset r n) ⟨a, pos⟩ ops
    v.1 = b.1 ∧ v.2.offset = b.2.offset ∧ v.2.vector = b.2.array := by
  suffices H : ∀ (r : VecReader), readRun (fun n r => VecReader.setOffset r n) r ops =
      ((readRun (fun n r => ByteArrayReader.setOffset r n) r.toBAR ops).1,
        VecReader.ofBAR (readRun (fun n r => ByteArrayReader.setOffset r n) r.toBAR ops).2) by
    have := H ⟨a, pos⟩
    refine ⟨?_, ?_, ?_⟩ <;> rw [this] <;> rfl
  induction ops with
  | nil => intro r; rfl
  | cons op ops ih =>
    intro r
    simp only [readRun, vecStep, VecReader.outBAR, ih]
    rfl

/-- **C11** The same for `VecReader`. -/
theorem C11_VecReader (a : Bytes) (pos : Nat) (hp : pos ≤ a.length) (ops : List ReadOp) :
    (readRun (fun n r => VecReader.setOffset r n) ⟨a, pos⟩ ops).1 = (cursorRun a pos ops).1 ∧
    (readRun (fun n r => VecReader.setOffset r n) ⟨a, pos⟩ ops).2 = ⟨a, (cursorRun a pos ops).2⟩ ∧
    (cursorRun a pos ops).2 ≤ a.length := by
  obtain ⟨h1, h2⟩ := C11_ByteArrayReader a pos hp ops
  obtain ⟨h3, h4, h5⟩ := C12_interchangeable a pos ops
  rw [h1] at h3 h4 h5
  refine ⟨h3, ?_, h2⟩
  rcases hv : (readRun (fun n r => VecReader.setOffset r n) ⟨a, pos⟩ ops).2 with ⟨v, o⟩
  rw [hv] at h4 h5
  simp only at h4 h5
  rw [h4, h5]

/-- A new reader starts at 0; a history with an all-or-nothing failure and an end of data. -/
example : (readRun (fun n r => ByteArrayReader.setOffset r n) (ByteArrayReader.new [1, 2, 3])
    [.read, .readAll 3, .readAll 2, .read, .setOffset 9, .setOffset 1, .skip 1, .readAll 0]) =
    ([.ok [1], .err .unableToReadData, .ok [2, 3], .err .endOfData, .ok [], .ok [], .ok [], .ok []], ⟨[1, 2, 3], 2⟩) := by
  decide +kernel

/-- **C13** The default `skip` on every well-behaved reader succeeds exactly when `n` bytes remain, and leaves the
reader holding what it would hold after `read_all` of `n` bytes; otherwise both fail. -/
theorem C13_default_skip {σ : Type} [Reader σ] (V : View σ) (s : σ) (bs : Bytes) (n : Nat) (h : V.R s bs) :
    (n ≤ bs.length → ∃ s1 s2, defaultSkip Reader.readAll n s = (.ok (), s1) ∧ V.R s1 (bs.drop n) ∧
      Reader.readAll n s = (.ok (bs.take n), s2) ∧ V.R s2 (bs.drop n)) ∧
    (bs.length < n → ∃ e1 s1 e2 s2, defaultSkip Reader.readAll n s = (.err e1, s1) ∧ V.E e1 ∧
      Reader.readAll n s = (.err e2, s2) ∧ V.E e2) := by
  constructor
  · intro hn
    obtain ⟨s1, h1, r1⟩ := defaultSkip_ok V n h hn
    obtain ⟨s2, h2, r2⟩ := V.readAll_ok h hn
    exact ⟨s1, s2, h1, r1, h2, r2⟩
  · intro hn
    obtain ⟨e1, s1, h1, r1⟩ := defaultSkip_short V n h hn
    obtain ⟨e2, s2, h2, r2⟩ := V.readAll_short (n := n) h hn
    exact ⟨e1, s1, e2, s2, h1, r1, h2, r2⟩

/-- **C13** The default `skip_u64` over any correct `skip` does the same for every `usize` width `usizeMax`. -/
theorem C13_default_skip_u64 {σ : Type} [Reader σ] (V : SkipView σ) (usizeMax : Nat) (s : σ) (bs : Bytes) (n : UInt64)
    (h : V.R s bs) :
    (n.toNat ≤ bs.length → ∃ s', defaultSkipU64Loop usizeMax Reader.skip n.toNat s = (.ok (), s') ∧
      V.R s' (bs.drop n.toNat)) ∧
    (bs.length < n.toNat → ∃ e s', defaultSkipU64Loop usizeMax Reader.skip n.toNat s = (.err e, s')) := by
  constructor
  · exact fun hn => defaultSkipU64Loop_ok (R := V.R) usizeMax (fun h hn => V.skip_ok h hn) _ h hn
  · intro hn
    obtain ⟨e, s', hs, -⟩ := defaultSkipU64Loop_short (R := V.R) (E := fun _ => True) usizeMax
      (fun h hn => V.skip_ok h hn)
      (fun h hn => by obtain ⟨e, s', hs⟩ := V.skip_short h hn; exact ⟨e, s', hs, trivial⟩) _ h hn
    exact ⟨e, s', hs⟩

/-- **C13** The same for `skip_u64` as compiled for a 64-bit platform. -/
theorem C13_default_skip_u64_64bit {σ : Type} [Reader σ] (V : SkipView σ) (s : σ) (bs : Bytes) (n : UInt64)
    (h : V.R s bs) :
    (n.toNat ≤ bs.length → ∃ s', defaultSkipU64 Reader.skip n s = (.ok (), s') ∧ V.R s' (bs.drop n.toNat)) ∧
    (bs.length < n.toNat → ∃ e s', defaultSkipU64 Reader.skip n s = (.err e, s')) :=
  C13_default_skip_u64 V usizeMax64 s bs n h

/-- **C13** The `skip` the in-memory readers define themselves is exactly `read_all` with the data thrown away:
same success, same error, same state. -/
theorem C13_in_memory_skip (n : Nat) :
    (∀ r : ByteArrayReader, r.offset ≤ r.array.length →
      Reader.skip n r = ((Reader.readAll n r).1.map fun _ => (), (Reader.readAll n r).2)) ∧
    (∀ r : VecReader, r.offset ≤ r.vector.length →
      Reader.skip n r = ((Reader.readAll n r).1.map fun _ => (), (Reader.readAll n r).2)) := by
  have hb : ∀ r : ByteArrayReader, r.offset ≤ r.array.length →
      Reader.skip n r = ((Reader.readAll n r).1.map fun _ => (), (Reader.readAll n r).2) := by
    intro r hr
    simp only [Reader.skip, Reader.readAll]
    by_cases h : r.offset + n ≤ r.array.length
    · rw [ByteArrayReader.skip_fits h, ByteArrayReader.readAll_fits h]; rfl
    · rw [ByteArrayReader.skip_refused hr (by omega), ByteArrayReader.readAll_refused hr (by omega)]; rfl
  refine ⟨hb, fun r hr => ?_⟩
  have := hb r.toBAR hr
  simp only [Reader.skip, Reader.readAll] at this ⊢
  rw [VecReader.skip_eq, VecReader.readAll_eq, this]
  rfl

/-- All readers of the crate with their own or the default `skip` meet the hypotheses: here a chunked stream and a
limited one, skipping 600 bytes of 1000 on a platform with a 16-bit `usize`. -/
example : ReadReader.view.R ⟨List.replicate 1000 7, [.chunk 3]⟩ (List.replicate 1000 7) :=
  ⟨rfl, fun ev h => by simp at h; exact .inl ⟨3, h, by omega⟩⟩
example : (defaultSkipU64Loop 65535 Reader.skip 600 (⟨List.replicate 1000 7, [.chunk 3]⟩ : ReadReader)).2.data.length
    = 400 := by decide +kernel

/-! ### Writers -/

/-- The abstract file of a `VecWriter`. -/
def vecFile (w : VecWriter) : File := ⟨w.vector, w.offset, w.readOnly⟩

theorem resize_copy (v : Bytes) (off : Nat) (buf : Bytes) (h : off ≤ v.length) :
    copyInto (if off + buf.length > v.length then resizeZ v (off + buf.length) else v) off buf =
      some (overwrite v off buf) := by
  split
  · rename_i hgt
    have hl : (resizeZ v (off + buf.length)).length = off + buf.length := by
      unfold resizeZ; simp; omega
    unfold copyInto overwrite
    rw [if_pos (by omega)]
    have h1 : (resizeZ v (off + buf.length)).take off = v.take off := by
      unfold resizeZ
      rw [List.take_append_of_le_length (by simp; omega), List.take_take]
      congr 1; omega
    have h2 : (resizeZ v (off + buf.length)).drop (off + buf.length) = [] :=
      List.drop_eq_nil_of_le (by omega)
    have h3 : v.drop (off + buf.length) = [] := List.drop_eq_nil_of_le (by omega)
    rw [h1, h2, h3]
  · unfold copyInto overwrite
    rw [if_pos (by omega)]

theorem vecWrite_eq (b : Byte) (v : Bytes) (off : Nat) (h : off ≤ v.length) :
    vecWrite b v off false = (.ok (), overwrite v off [b], off + 1) := by
  unfold vecWrite overwrite
  simp only [Bool.false_eq_true, if_false]
  by_cases he : off = v.length
  · subst he; simp
  · rw [if_neg he, if_pos (by omega)]
    have : off < v.length := by omega
    simp [List.set_eq_take_append_cons_drop, this]

theorem vecWriteAll_eq (buf v : Bytes) (off : Nat) (h : off ≤ v.length) :
    vecWriteAll buf v off false = (.ok (), overwrite v off buf, off + buf.length) := by
  unfold vecWriteAll
  simp only [Bool.false_eq_true, if_false]
  rw [resize_copy v off buf h]

theorem overwrite_length (v : Bytes) (off : Nat) (buf : Bytes) (h : off ≤ v.length) :
    (overwrite v off buf).length = max v.length (off + buf.length) := by
  unfold overwrite; simp; omega

/-- **C14** Every history of calls on a `VecWriter` gives the outcomes and the content, position and protection of a
growable file. -/
theorem C14_VecWriter_is_file (w : VecWriter) (h : w.offset ≤ w.vector.length) (ops : List WriteOp) :
    let r := runHist (writeStep (fun n w => VecWriter.setOffset w n) (fun b w => VecWriter.setReadOnly w b)) w ops
    let f := runHist File.step (vecFile w) ops
    r.1 = f.1 ∧ vecFile r.2 = f.2 ∧ r.2.offset ≤ r.2.vector.length ∧ w.vector.length ≤ r.2.vector.length := by
  induction ops generalizing w with
  | nil => exact ⟨rfl, rfl, h, Nat.le_refl _⟩
  | cons op ops ih =>
    have hstep : ∃ w', writeStep (fun n w => VecWriter.setOffset w n) (fun b w => VecWriter.setReadOnly w b) w op =
        ((File.step (vecFile w) op).1, w') ∧ vecFile w' = (File.step (vecFile w) op).2 ∧
        w'.offset ≤ w'.vector.length ∧ w.vector.length ≤ w'.vector.length := by
      cases op with
      | setOffset n =>
        exact ⟨_, rfl, rfl, by simp only [VecWriter.setOffset]; omega, Nat.le_refl _⟩
      | setReadOnly b => exact ⟨_, rfl, rfl, h, Nat.le_refl _⟩
      | write b =>
        simp only [writeStep, Writer.write, VecWriter.write, File.step, vecFile, WriteOp.data]
        rcases Bool.eq_false_or_eq_true w.readOnly with hro | hro
        · exact ⟨w, by rcases w with ⟨⟩; simp at hro; subst hro; rfl, by simp [hro], h, Nat.le_refl _⟩
        · simp only [hro, vecWrite_eq b _ _ h, Bool.false_eq_true, if_false]
          refine ⟨⟨overwrite w.vector w.offset [b], w.offset + 1, false⟩, ?_, by simp, ?_, ?_⟩
          · simp
          all_goals
            have := overwrite_length w.vector w.offset [b] h
            simp at this
            simp only
            omega
      | writeAll bs =>
        simp only [writeStep, Writer.writeAll, VecWriter.writeAll, File.step, vecFile, WriteOp.data]
        rcases Bool.eq_false_or_eq_true w.readOnly with hro | hro
        · exact ⟨w, by rcases w with ⟨⟩; simp at hro; subst hro; rfl, by simp [hro], h, Nat.le_refl _⟩
        · simp only [hro, vecWriteAll_eq bs _ _ h, Bool.false_eq_true, if_false]
          refine ⟨⟨overwrite w.vector w.offset bs, w.offset + bs.length, false⟩, ?_, by simp, ?_, ?_⟩
          · simp
          all_goals
            have := overwrite_length w.vector w.offset bs h
            simp only
            omega
    obtain ⟨w', h1, h2, h3, h4⟩ := hstep
    obtain ⟨i1, i2, i3, i4⟩ := ih w' h3
    rw [h2] at i1 i2
    simp only [runHist, h1]
    exact ⟨by rw [i1], i2, i3, by omega⟩

/-- A new writer satisfies the hypothesis; a history with overwriting, a refused write and extension. -/
example : (runHist (writeStep (fun n w => VecWriter.setOffset w n) (fun b w => VecWriter.setReadOnly w b)) VecWriter.new
    [.writeAll [1, 2, 3], .setOffset 1, .write 9, .setReadOnly true, .write 4, .setReadOnly false, .writeAll [5, 6]]) =
    ([.ok (), .ok (), .ok (), .ok (), .err .unableToWriteData, .ok (), .ok ()], ⟨[1, 9, 5, 6], 4, false⟩) := by
  decide +kernel

/-- The abstract file of a `BorrowedVecWriter`. -/
def borrowedFile (w : BorrowedVecWriter) : File := ⟨w.vector, w.offset, w.readOnly⟩

theorem borrowedStep {w : BorrowedVecWriter} (h : w.offset ≤ w.vector.length) (op : WriteOp) :
    ∃ w', writeStep (fun n w => BorrowedVecWriter.setOffset w n) (fun b w => BorrowedVecWriter.setReadOnly w b) w op =
      ((File.step (borrowedFile w) op).1, w') ∧ borrowedFile w' = (File.step (borrowedFile w) op).2 ∧
      w'.offset ≤ w'.vector.length ∧ w.vector.length ≤ w'.vector.length ∧ w'.initialOffset = w.initialOffset := by
  cases op with
  | setOffset n =>
    exact ⟨_, rfl, rfl, by simp only [BorrowedVecWriter.setOffset]; omega, Nat.le_refl _, rfl⟩
  | setReadOnly b => exact ⟨_, rfl, rfl, h, Nat.le_refl _, rfl⟩
  | write b =>
    simp only [writeStep, Writer.write, BorrowedVecWriter.write, File.step, borrowedFile, WriteOp.data]
    rcases Bool.eq_false_or_eq_true w.readOnly with hro | hro
    · exact ⟨w, by rcases w with ⟨⟩; simp at hro; subst hro; rfl, by simp [hro], h, Nat.le_refl _, rfl⟩
    · simp only [hro, vecWrite_eq b _ _ h, Bool.false_eq_true, if_false]
      refine ⟨⟨overwrite w.vector w.offset [b], w.initialOffset, w.offset + 1, false⟩, ?_, by simp, ?_, ?_, rfl⟩
      · simp
      all_goals
        have := overwrite_length w.vector w.offset [b] h
        simp at this
        simp only
        omega
  | writeAll bs =>
    simp only [writeStep, Writer.writeAll, BorrowedVecWriter.writeAll, File.step, borrowedFile, WriteOp.data]
    rcases Bool.eq_false_or_eq_true w.readOnly with hro | hro
    · exact ⟨w, by rcases w with ⟨⟩; simp at hro; subst hro; rfl, by simp [hro], h, Nat.le_refl _, rfl⟩
    · simp only [hro, vecWriteAll_eq bs _ _ h, Bool.false_eq_true, if_false]
      refine ⟨⟨overwrite w.vector w.offset bs, w.initialOffset, w.offset + bs.length, false⟩, ?_, by simp, ?_, ?_, rfl⟩
      · simp
      all_goals
        have := overwrite_length w.vector w.offset bs h
        simp only
        omega

/-- **C16** (part 1) A `BorrowedVecWriter` is the same growable file, for every history. -/
theorem C16_BorrowedVecWriter_is_file (w : BorrowedVecWriter) (h : w.offset ≤ w.vector.length) (ops : List WriteOp) :
    let r := runHist (writeStep (fun n w => BorrowedVecWriter.setOffset w n)
      (fun b w => BorrowedVecWriter.setReadOnly w b)) w ops
    let f := runHist File.step (borrowedFile w) ops
    r.1 = f.1 ∧ borrowedFile r.2 = f.2 ∧ r.2.offset ≤ r.2.vector.length ∧ w.vector.length ≤ r.2.vector.length := by
  induction ops generalizing w with
  | nil => exact ⟨rfl, rfl, h, Nat.le_refl _⟩
  | cons op ops ih =>
    obtain ⟨w', h1, h2, h3, h4, -⟩ := borrowedStep h op
    obtain ⟨i1, i2, i3, i4⟩ := ih w' h3
    rw [h2] at i1 i2
    simp only [runHist, h1]
    exact ⟨by rw [i1], i2, i3, by omega⟩

/-- The data of the calls that succeeded. -/
def written : List WriteOp → List (Res IoErr Unit) → Bytes
  | op :: ops, r :: rs => (if r.isOk then op.data else []) ++ written ops rs
  | _, _ => []

/-- **C16** (part 2) Over any vector and any starting offset, for every history without `set_offset`: what was before
the starting offset is untouched, the successfully written data follows it contiguously, and `bytes_written` is its
length. -/
theorem C16_counts_and_preserves (v : Bytes) (off : Nat) (ops : List WriteOp) (hno : ∀ n, WriteOp.setOffset n ∉ ops)
    (m : ArithMode) :
    let r := runHist (writeStep (fun n w => BorrowedVecWriter.setOffset w n)
      (fun b w => BorrowedVecWriter.setReadOnly w b)) (BorrowedVecWriter.withOffset v off) ops
    let start := min off v.length
    r.2.vector = overwrite v start (written ops r.1) ∧
    r.2.vector.take start = v.take start ∧
    BorrowedVecWriter.bytesWritten m r.2 = .ok (written ops r.1).length := by
  intro r start
  suffices H : ∀ (w : BorrowedVecWriter) (pre : Bytes), w.initialOffset = start → w.offset = start + pre.length →
      w.vector = overwrite v start pre → w.offset ≤ w.vector.length →
      let r := runHist (writeStep (fun n w => BorrowedVecWriter.setOffset w n)
        (fun b w => BorrowedVecWriter.setReadOnly w b)) w ops
      r.2.vector = overwrite v start (pre ++ written ops r.1) ∧ r.2.initialOffset = start ∧
        r.2.offset = start + (pre ++ written ops r.1).length by
    have hs : start ≤ v.length := by omega
    obtain ⟨h1, h2, h3⟩ := H (BorrowedVecWriter.withOffset v off) [] rfl (by simp [BorrowedVecWriter.withOffset, start])
      (by simp [BorrowedVecWriter.withOffset, overwrite])
      (by simp only [BorrowedVecWriter.withOffset]; omega)
    simp only [List.nil_append] at h1 h2 h3
    have h1' : r.2.vector = overwrite v start (written ops r.1) := h1
    refine ⟨h1', ?_, ?_⟩
    · rw [h1']
      unfold overwrite
      rw [List.append_assoc, List.take_append_of_le_length (by simp; omega), List.take_take]
      simp
    · unfold BorrowedVecWriter.bytesWritten
      rw [show r.2.initialOffset = start from h2, show r.2.offset = start + (written ops r.1).length from h3,
        if_pos (by omega)]
      simp
  have hs : start ≤ v.length := by omega
  clear r
  induction ops with
  | nil =>
    intro w pre h1 h2 h3 h4
    simp only [runHist, written, List.append_nil]
    exact ⟨h3, h1, h2⟩
  | cons op ops ih =>
    intro w pre h1 h2 h3 h4
    obtain ⟨w', s1, s2, s3, s4, s5⟩ := borrowedStep h4 op
    have ih' := ih (fun n hn => hno n (List.mem_cons_of_mem _ hn)) w'
      (pre ++ if (File.step (borrowedFile w) op).1.isOk then op.data else []) (by rw [s5, h1])
    simp only [runHist, s1, written]
    have hcomb : ∀ d : Bytes, overwrite (overwrite v start pre) (start + pre.length) d = overwrite v start (pre ++ d) := by
      intro d
      unfold overwrite
      have ht : (v.take start).length = start := by simp; omega
      have e1 : (v.take start ++ pre ++ v.drop (start + pre.length)).take (start + pre.length) = v.take start ++ pre := by
        rw [List.take_append_of_le_length (by simp; omega)]
        rw [List.take_of_length_le (by simp; omega)]
      have e2 : (v.take start ++ pre ++ v.drop (start + pre.length)).drop (start + pre.length + d.length)
          = v.drop (start + pre.length + d.length) := by
        rw [List.drop_append, List.drop_eq_nil_of_le (by simp; omega), List.drop_drop]
        simp only [List.length_append, ht, List.nil_append]
        congr 1; omega
      rw [e1, e2]
      simp [Nat.add_assoc]
    have hfile : w'.vector = (File.step (borrowedFile w) op).2.content ∧
        w'.offset = (File.step (borrowedFile w) op).2.pos := by rw [← s2]; exact ⟨rfl, rfl⟩
    have key : w'.offset = start + (pre ++ if (File.step (borrowedFile w) op).1.isOk then op.data else []).length ∧
        w'.vector = overwrite v start (pre ++ if (File.step (borrowedFile w) op).1.isOk then op.data else []) := by
      rw [hfile.1, hfile.2]
      cases op with
      | setOffset n => exact absurd (List.mem_cons_self ..) (hno n)
      | setReadOnly b => simp [File.step, borrowedFile, Res.isOk, WriteOp.data, h2, h3]
      | write b =>
        simp only [File.step, borrowedFile]
        rcases Bool.eq_false_or_eq_true w.readOnly with hro | hro
        · simp [Res.isOk, h2, h3, hro]
        · simp only [hro, Bool.false_eq_true, if_false, Res.isOk, if_true, h3, h2, hcomb, and_true]
          simp [WriteOp.data, Nat.add_assoc]
      | writeAll bs =>
        simp only [File.step, borrowedFile]
        rcases Bool.eq_false_or_eq_true w.readOnly with hro | hro
        · simp [Res.isOk, h2, h3, hro]
        · simp only [hro, Bool.false_eq_true, if_false, Res.isOk, if_true, h3, h2, hcomb, and_true]
          simp [WriteOp.data, Nat.add_assoc]
    have := ih' key.1 key.2 s3
    simp only [List.append_assoc] at this
    exact this

example : (runHist (writeStep (fun n w => BorrowedVecWriter.setOffset w n)
      (fun b w => BorrowedVecWriter.setReadOnly w b)) (BorrowedVecWriter.withOffset [1, 2, 3, 4] 1)
      [.write 8, .setReadOnly true, .write 7, .setReadOnly false, .writeAll [9]]).2 = ⟨[1, 8, 9, 4], 1, 3, false⟩ := by
  decide +kernel

/-- **C16** A borrowed writer made by `new` starts at the beginning of the vector: the data goes over what was there,
and what it does not reach stays. -/
theorem C16_new_overwrites (v : Bytes) (ops : List WriteOp) (hno : ∀ n, WriteOp.setOffset n ∉ ops) (m : ArithMode) :
    let r := runHist (writeStep (fun n w => BorrowedVecWriter.setOffset w n)
      (fun b w => BorrowedVecWriter.setReadOnly w b)) (BorrowedVecWriter.new v) ops
    r.2.vector = written ops r.1 ++ v.drop (written ops r.1).length ∧
    BorrowedVecWriter.bytesWritten m r.2 = .ok (written ops r.1).length := by
  obtain ⟨h1, -, h3⟩ := C16_counts_and_preserves v 0 ops hno m
  refine ⟨?_, h3⟩
  rw [show min 0 v.length = 0 by omega] at h1
  simpa [overwrite, BorrowedVecWriter.new] using h1

example : (runHist (writeStep (fun n w => BorrowedVecWriter.setOffset w n)
      (fun b w => BorrowedVecWriter.setReadOnly w b)) (BorrowedVecWriter.new [1, 2, 3, 4])
      [.write 8, .writeAll [9]]).2 = ⟨[8, 9, 3, 4], 0, 2, false⟩ := by
  decide +kernel

/-- **C16** (the limit of the claim) After moving before the starting offset, `bytes_written` panics in a checked
build and reports an absurd number in a release build. -/
theorem C16_bytes_written_underflow (v : Bytes) (off to : Nat) (hv : v.length < 2 ^ 63) (h : to < min off v.length) :
    BorrowedVecWriter.bytesWritten .checked ((BorrowedVecWriter.withOffset v off).setOffset to) = .panic ∧
    ∃ n, BorrowedVecWriter.bytesWritten .wrapping ((BorrowedVecWriter.withOffset v off).setOffset to) = .ok n ∧
      2 ^ 63 < n ∧ n + min off v.length = 2 ^ 64 + to := by
  have hto : min to v.length = to := by omega
  constructor
  · simp only [BorrowedVecWriter.bytesWritten, BorrowedVecWriter.setOffset, BorrowedVecWriter.withOffset, hto]
    rw [if_neg (by omega)]
  · refine ⟨to + 2 ^ 64 - min off v.length, ?_, by omega, by omega⟩
    simp only [BorrowedVecWriter.bytesWritten, BorrowedVecWriter.setOffset, BorrowedVecWriter.withOffset, hto]
    rw [if_neg (by omega)]

example : BorrowedVecWriter.bytesWritten .wrapping ((BorrowedVecWriter.withOffset [1, 2, 3] 2).setOffset 1)
    = .ok (2 ^ 64 - 1) := by decide +kernel

/-- The abstract file of a `ByteArrayWriter`. -/
def arrayFile (w : ByteArrayWriter) : File := ⟨w.array, w.offset, false⟩

theorem canWrite_fits {w : ByteArrayWriter} {n : Nat} (h : w.offset + n ≤ w.array.length) : w.canWrite n = .ok () := by
  unfold ByteArrayWriter.canWrite ByteArrayWriter.available
  rw [if_pos (by omega)]

theorem canWrite_refused {w : ByteArrayWriter} {n : Nat} (hw : w.offset ≤ w.array.length)
    (h : w.array.length < w.offset + n) : w.canWrite n = .err .unableToWriteData := by
  unfold ByteArrayWriter.canWrite ByteArrayWriter.available
  rw [if_neg (by omega)]

/-- **C17** Every history of calls on a `ByteArrayWriter` gives the outcomes and the content and position of a file of
fixed length: a write that does not fit fails with `UnableToWriteData` and changes nothing, one that fits changes the
targeted bytes only. -/
theorem C17_ByteArrayWriter_is_fixed_file (w : ByteArrayWriter) (h : w.offset ≤ w.array.length) (ops : List WriteOp) :
    let r := runHist (writeStep (fun n w => ByteArrayWriter.setOffset w n) (fun _ w => w)) w ops
    let f := runHist File.stepFixed (arrayFile w) ops
    r.1 = f.1 ∧ arrayFile r.2 = f.2 ∧ r.2.offset ≤ r.2.array.length ∧ r.2.array.length = w.array.length := by
  induction ops generalizing w with
  | nil => exact ⟨rfl, rfl, h, rfl⟩
  | cons op ops ih =>
    have hstep : ∃ w', writeStep (fun n w => ByteArrayWriter.setOffset w n) (fun _ w => w) w op =
        ((File.stepFixed (arrayFile w) op).1, w') ∧ arrayFile w' = (File.stepFixed (arrayFile w) op).2 ∧
        w'.offset ≤ w'.array.length ∧ w'.array.length = w.array.length := by
      cases op with
      | setOffset n => exact ⟨_, rfl, rfl, by simp only [ByteArrayWriter.setOffset]; omega, rfl⟩
      | setReadOnly b => exact ⟨_, rfl, rfl, h, rfl⟩
      | write b =>
        simp only [writeStep, Writer.write, ByteArrayWriter.write,
          File.stepFixed, arrayFile, WriteOp.data, List.length_singleton]
        by_cases hf : w.offset + 1 ≤ w.array.length
        · have hlt : w.offset < w.array.length := by omega
          simp only [canWrite_fits hf, if_true, hlt, hf]
          refine ⟨_, rfl, ?_, by simpa using hf, by simp⟩
          simp [overwrite, List.set_eq_take_append_cons_drop, hlt]
        · simp only [canWrite_refused h (Nat.lt_of_not_le hf), if_false, hf]
          exact ⟨w, rfl, rfl, h, rfl⟩
      | writeAll bs =>
        simp only [writeStep, Writer.writeAll, ByteArrayWriter.writeAll,
          File.stepFixed, arrayFile, WriteOp.data]
        by_cases hf : w.offset + bs.length ≤ w.array.length
        · simp only [canWrite_fits hf, hf, if_true]
          have hlen := overwrite_length w.array w.offset bs h
          have hcopy : copyInto w.array w.offset bs = some (overwrite w.array w.offset bs) := by
            simp [copyInto, overwrite, hf]
          simp only [hcopy]
          exact ⟨_, rfl, rfl, by simp only; omega, by simp only; omega⟩
        · simp only [canWrite_refused h (Nat.lt_of_not_le hf), hf, if_false]
          exact ⟨w, rfl, rfl, h, rfl⟩
    obtain ⟨w', h1, h2, h3, h4⟩ := hstep
    obtain ⟨i1, i2, i3, i4⟩ := ih w' h3
    rw [h2] at i1 i2
    simp only [runHist, h1]
    exact ⟨by rw [i1], i2, i3, by omega⟩

example : (runHist (writeStep (fun n w => ByteArrayWriter.setOffset w n) (fun _ w => w)) (ByteArrayWriter.new [0, 0, 0])
    [.write 1, .writeAll [2, 3, 4], .writeAll [2, 3], .write 9, .setOffset 1, .write 7]) =
    ([.ok (), .err .unableToWriteData, .ok (), .err .unableToWriteData, .ok (), .ok ()], ⟨[1, 7, 3], 2⟩) := by
  decide +kernel

theorem overwrite_cons (v : Bytes) (off : Nat) (b : Byte) (bs : Bytes) (h : off ≤ v.length) :
    overwrite (overwrite v off [b]) (off + 1) bs = overwrite v off (b :: bs) := by
  unfold overwrite
  have ht : (v.take off).length = off := by simp; omega
  have e1 : (v.take off ++ [b] ++ v.drop (off + [b].length)).take (off + 1) = v.take off ++ [b] := by
    rw [List.take_append_of_le_length (by simp; omega)]
    rw [List.take_of_length_le (by simp; omega)]
  have e2 : (v.take off ++ [b] ++ v.drop (off + [b].length)).drop (off + 1 + bs.length)
      = v.drop (off + (b :: bs).length) := by
    rw [List.drop_append, List.drop_eq_nil_of_le (by simp; omega), List.drop_drop]
    simp only [List.length_append, ht, List.nil_append, List.length_cons, List.length_nil]
    congr 1; omega
  rw [e1, e2]
  simp

/-- **C15** A successful `write_all` leaves the writer exactly as writing the bytes one at a time, for the three
in-memory writers. -/
theorem C15_write_all_bytewise (buf : Bytes) :
    (∀ w w' : VecWriter, w.offset ≤ w.vector.length → Writer.writeAll buf w = (.ok (), w') →
      defaultWriteAll Writer.write buf w = (.ok (), w')) ∧
    (∀ w w' : BorrowedVecWriter, w.offset ≤ w.vector.length → Writer.writeAll buf w = (.ok (), w') →
      defaultWriteAll Writer.write buf w = (.ok (), w')) ∧
    (∀ w w' : ByteArrayWriter, w.offset ≤ w.array.length → Writer.writeAll buf w = (.ok (), w') →
      defaultWriteAll Writer.write buf w = (.ok (), w')) := by
  have hov0 : ∀ (v : Bytes) (off : Nat), overwrite v off [] = v := by intro v off; simp [overwrite]
  refine ⟨?_, ?_, ?_⟩
  · intro w w' h hw
    have hro : w.readOnly = false := by
      cases hr : w.readOnly
      · rfl
      · simp [Writer.writeAll, VecWriter.writeAll, vecWriteAll, hr] at hw
    simp only [Writer.writeAll, VecWriter.writeAll, hro, vecWriteAll_eq _ _ _ h, Prod.mk.injEq, true_and] at hw
    subst hw
    induction buf generalizing w with
    | nil => simp only [defaultWriteAll, hov0]; rcases w with ⟨v, o, r⟩; simp_all
    | cons b bs ih =>
      have hstep : (Writer.write b : Act IoErr VecWriter Unit) w =
          (.ok (), ⟨overwrite w.vector w.offset [b], w.offset + 1, false⟩) := by
        simp [Writer.write, VecWriter.write, hro, vecWrite_eq _ _ _ h]
      have hl := overwrite_length w.vector w.offset [b] h
      simp only [List.length_singleton] at hl
      rw [defaultWriteAll, Act.bind_ok hstep, ih _ (by simp only; omega) rfl]
      simp only [overwrite_cons _ _ _ _ h, List.length_cons]
      simp [Nat.add_assoc, Nat.add_comm 1]
  · intro w w' h hw
    have hro : w.readOnly = false := by
      cases hr : w.readOnly
      · rfl
      · simp [Writer.writeAll, BorrowedVecWriter.writeAll, vecWriteAll, hr] at hw
    simp only [Writer.writeAll, BorrowedVecWriter.writeAll, hro, vecWriteAll_eq _ _ _ h, Prod.mk.injEq, true_and] at hw
    subst hw
    induction buf generalizing w with
    | nil => simp only [defaultWriteAll, hov0]; rcases w with ⟨v, i, o, r⟩; simp_all
    | cons b bs ih =>
      have hstep : (Writer.write b : Act IoErr BorrowedVecWriter Unit) w =
          (.ok (), ⟨overwrite w.vector w.offset [b], w.initialOffset, w.offset + 1, false⟩) := by
        simp [Writer.write, BorrowedVecWriter.write, hro, vecWrite_eq _ _ _ h]
      have hl := overwrite_length w.vector w.offset [b] h
      simp only [List.length_singleton] at hl
      rw [defaultWriteAll, Act.bind_ok hstep, ih _ (by simp only; omega) rfl]
      simp only [overwrite_cons _ _ _ _ h, List.length_cons]
      simp [Nat.add_assoc, Nat.add_comm 1]
  · intro w w' h hw
    have hfit : w.offset + buf.length ≤ w.array.length ∧
        w' = ⟨overwrite w.array w.offset buf, w.offset + buf.length⟩ := by
      simp only [Writer.writeAll, ByteArrayWriter.writeAll] at hw
      by_cases hf : w.offset + buf.length ≤ w.array.length
      · rw [canWrite_fits hf] at hw
        simp [copyInto, hf] at hw
        exact ⟨hf, by rw [← hw]; simp [overwrite]⟩
      · rw [canWrite_refused h (Nat.lt_of_not_le hf)] at hw; simp at hw
    obtain ⟨hf, rfl⟩ := hfit
    clear hw
    induction buf generalizing w with
    | nil => simp only [defaultWriteAll, hov0]; rfl
    | cons b bs ih =>
      simp only [List.length_cons] at hf
      have hl := overwrite_length w.array w.offset [b] h
      simp only [List.length_singleton] at hl
      have hstep : (Writer.write b : Act IoErr ByteArrayWriter Unit) w =
          (.ok (), ⟨overwrite w.array w.offset [b], w.offset + 1⟩) := by
        simp only [Writer.write, ByteArrayWriter.write]
        rw [canWrite_fits (by omega)]
        have : w.offset < w.array.length := by omega
        simp [overwrite, List.set_eq_take_append_cons_drop, this]
      rw [defaultWriteAll, Act.bind_ok hstep, ih _ (by simp only; omega) (by simp only; omega)]
      simp only [overwrite_cons _ _ _ _ h, List.length_cons]
      simp [Nat.add_assoc, Nat.add_comm 1]

example : Writer.writeAll [7, 8] (⟨[1, 2, 3], 2, false⟩ : VecWriter) = (.ok (), ⟨[1, 2, 7, 8], 4, false⟩) := by
  decide +kernel

end Verif.Props
