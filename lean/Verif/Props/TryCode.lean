import Verif.Proof.TryCode
import Verif.Props.SkipCode
/-!
# C133: code that handles errors itself sees neither the kind of memory, the pieces of a stream, nor the build
-/
namespace Verif.Props
open Verif Verif.Spec

section
variable {P : Type} [TagPayload P] [Env] {α : Type} {m : ArithMode} {σ ρ : Type} [Reader σ] [Reader ρ]

/-- **C133** If a reader answers each single call exactly as another one does, errors included, whatever came before, then
code on it that handles errors itself has exactly the outcome it has on the other, and leaves it in a state that still answers as
the other. If it may also panic, so may the code. -/
theorem C133_exactly (c : TryCode P α) (F : Mirror σ ρ) {s : σ} {r : ρ} (h : F.Rel s r) :
    (F.panics ∧ (c.run m σ s).1 = .panic) ∨ (c.run m σ s).1 = (c.run m ρ r).1 ∧ F.Rel (c.run m σ s).2 (c.run m ρ r).2 :=
  c.exactly F (.inl rfl) s r h

/-- A byte array and a vector at the same position. -/
def memoryMirror : Mirror ByteArrayReader VecReader :=
  have hskip : ∀ n, ExactlyAs False (fun (s : ByteArrayReader) (r : VecReader) => r = ⟨s.array, s.offset⟩)
      (ByteArrayReader.skip n) (VecReader.skip n) := by
    rintro n s _ rfl
    unfold ByteArrayReader.skip VecReader.skip ByteArrayReader.canRead VecReader.canRead ByteArrayReader.available
      VecReader.available ByteArrayReader.len
    rcases assertCanRead (s.array.length - s.offset) n with _ | e | _ | _ <;> exact .inr ⟨rfl, rfl⟩
  have hread : ExactlyAs False (fun (s : ByteArrayReader) (r : VecReader) => r = ⟨s.array, s.offset⟩)
      ByteArrayReader.read VecReader.read := by
    rintro s _ rfl
    unfold ByteArrayReader.read VecReader.read ByteArrayReader.canRead VecReader.canRead ByteArrayReader.available
      VecReader.available ByteArrayReader.len
    rcases assertCanRead (s.array.length - s.offset) 1 with _ | e | _ | _
    · simp only
      rcases s.array[s.offset]? with _ | b <;> exact .inr ⟨rfl, rfl⟩
    all_goals exact .inr ⟨rfl, rfl⟩
  have hall : ∀ n, ExactlyAs False (fun (s : ByteArrayReader) (r : VecReader) => r = ⟨s.array, s.offset⟩)
      (ByteArrayReader.readAll n) (VecReader.readAll n) := by
    rintro n s _ rfl
    unfold ByteArrayReader.readAll VecReader.readAll ByteArrayReader.canRead VecReader.canRead ByteArrayReader.available
      VecReader.available ByteArrayReader.len
    rcases assertCanRead (s.array.length - s.offset) n with _ | e | _ | _
    · simp only
      by_cases h : s.offset + n ≤ s.array.length
      · rw [if_pos h, if_pos h]
        refine .inr ⟨?_, rfl⟩
        simp only [Res.ok.injEq]
        rw [List.drop_take, Nat.add_sub_cancel_left]
      · rw [if_neg h, if_neg h]; exact .inr ⟨rfl, rfl⟩
    all_goals exact .inr ⟨rfl, rfl⟩
  { Rel := fun s r => r = ⟨s.array, s.offset⟩
    read := hread
    readAll := hall
    skip := fun n _ => hskip n
    skipU64 := fun n => ExactlyAs.defaultSkipU64Loop usizeMax64 hskip n.toNat }

/-- **C133** Whether bytes are held in a slice or in a vector is not visible. -/
theorem C133_memory (c : TryCode P α) (bs : Bytes) (o : Nat) :
    (c.run m ByteArrayReader ⟨bs, o⟩).1 = (c.run m VecReader ⟨bs, o⟩).1 ∧
      (c.run m VecReader ⟨bs, o⟩).2 = ⟨(c.run m ByteArrayReader ⟨bs, o⟩).2.array, (c.run m ByteArrayReader ⟨bs, o⟩).2.offset⟩ :=
  (C133_exactly c memoryMirror (s := ⟨bs, o⟩) (r := ⟨bs, o⟩) rfl).resolve_left fun h => h.1

/-- Streams of the same bytes without failures. -/
def piecesMirror : Mirror ReadReader ReadReader :=
  have hall : ∀ n, ExactlyAs False (fun (s r : ReadReader) => s.data = r.data ∧ Benign s.sched ∧ Benign r.sched)
      (ReadReader.readAll n) (ReadReader.readAll n) := by
    rintro n ⟨d, sc⟩ ⟨_, sc'⟩ ⟨rfl, h, h'⟩
    by_cases hn : n ≤ d.length
    · obtain ⟨t, h1, h2⟩ := (ReadReader.readAll_benign (r := ⟨d, sc⟩) h n).1 hn
      obtain ⟨t', h3, h4⟩ := (ReadReader.readAll_benign (r := ⟨d, sc'⟩) h' n).1 hn
      rw [h1, h3]; exact .inr ⟨rfl, rfl, h2, h4⟩
    · obtain ⟨t, h1, h2⟩ := (ReadReader.readAll_benign (r := ⟨d, sc⟩) h n).2 (Nat.lt_of_not_le hn)
      obtain ⟨t', h3, h4⟩ := (ReadReader.readAll_benign (r := ⟨d, sc'⟩) h' n).2 (Nat.lt_of_not_le hn)
      rw [h1, h3]; exact .inr ⟨rfl, rfl, h2, h4⟩
  { Rel := fun s r => s.data = r.data ∧ Benign s.sched ∧ Benign r.sched
    read := by
      rintro ⟨d, sc⟩ ⟨_, sc'⟩ ⟨rfl, h, h'⟩
      simp only [show (Reader.read : Act IoErr ReadReader Byte) = ReadReader.read from rfl, ReadReader.read]
      by_cases hn : 1 ≤ d.length
      · obtain ⟨t, h1, h2⟩ := (readExact_benign h d 1).1 hn
        obtain ⟨t', h3, h4⟩ := (readExact_benign h' d 1).1 hn
        rw [h1, h3]
        cases d with
        | nil => simp at hn
        | cons b d => exact .inr ⟨rfl, rfl, h2, h4⟩
      · obtain ⟨t, h1, h2⟩ := (readExact_benign h d 1).2 (Nat.lt_of_not_le hn)
        obtain ⟨t', h3, h4⟩ := (readExact_benign h' d 1).2 (Nat.lt_of_not_le hn)
        rw [h1, h3]; exact .inr ⟨rfl, rfl, h2, h4⟩
    readAll := hall
    skip := fun n _ => ExactlyAs.defaultSkip hall n
    skipU64 := fun n => ExactlyAs.defaultSkipU64Loop usizeMax64 (ExactlyAs.defaultSkip hall) n.toNat }

/-- **C133** In which pieces a stream delivers its bytes, and how often it is interrupted, is not visible. -/
theorem C133_pieces (c : TryCode P α) (bs : Bytes) {sched sched' : List ReadEv} (h : Benign sched) (h' : Benign sched') :
    (c.run m ReadReader ⟨bs, sched⟩).1 = (c.run m ReadReader ⟨bs, sched'⟩).1 ∧
      (c.run m ReadReader ⟨bs, sched⟩).2.data = (c.run m ReadReader ⟨bs, sched'⟩).2.data := by
  obtain ⟨h1, h2, -⟩ := (C133_exactly c piecesMirror (m := m) (s := ⟨bs, sched⟩) (r := ⟨bs, sched'⟩) ⟨rfl, h, h'⟩).resolve_left
    fun h => h.1
  exact ⟨h1, h2⟩

/-- Any reader, and itself. -/
def selfMirror (σ : Type) [Reader σ] : Mirror σ σ where
  panics := True
  Rel := Eq
  read := by rintro s _ rfl; exact .inr ⟨rfl, rfl⟩
  readAll n := by rintro s _ rfl; exact .inr ⟨rfl, rfl⟩
  skip n _ := by rintro s _ rfl; exact .inr ⟨rfl, rfl⟩
  skipU64 n := by rintro s _ rfl; exact .inr ⟨rfl, rfl⟩

/-- **C133** On a reader that is the same in both builds: what does not panic in a debug build does exactly the same in a
release build. -/
theorem C133_builds (c : TryCode P α) (s : σ) (h : (c.run .checked σ s).1 ≠ .panic) : c.run .wrapping σ s = c.run .checked σ s := by
  rcases c.exactly (m := .checked) (m' := .wrapping) (selfMirror σ) (.inr ⟨trivial, rfl⟩) s s rfl with ⟨-, h1⟩ | ⟨h1, h2⟩
  · exact absurd h1 h
  · exact Prod.ext h1.symm (Eq.symm h2)

/-- A seekable source in a debug build and in a release build. -/
def buildMirror : Mirror (SeekStream .checked) (SeekStream .wrapping) :=
  have hall : ∀ n, ExactlyAs True (fun (s : SeekStream .checked) r => r = inBuild .wrapping s)
      (SeekStream.readAll n) (SeekStream.readAll n) := by
    rintro n s _ rfl
    exact .inr ⟨rfl, rfl⟩
  have hseek : ∀ f : Bytes × UInt64 → UInt64, ExactlyAs True (fun (s : SeekStream .checked) r => r = inBuild .wrapping s)
      (fun s => SeekStream.seekTo (f (s.content, s.pos)) s) (fun s => SeekStream.seekTo (f (s.content, s.pos)) s) := by
    rintro f s _ rfl
    have h := inBuild_seekTo (f (s.content, s.pos)) s
    exact .inr ⟨(congrArg Prod.fst h).symm, congrArg Prod.snd h⟩
  have hskip : ∀ n, ExactlyAs True (fun (s : SeekStream .checked) r => r = inBuild .wrapping s)
      (SeekStream.skipU64 n) (SeekStream.skipU64 n) := by
    intro n
    unfold SeekStream.skipU64
    by_cases hn : n = 0
    · rw [if_pos hn, if_pos hn]; exact ExactlyAs.pure ()
    · rw [if_neg hn, if_neg hn]
      refine ExactlyAs.bind (hseek fun x => x.2) fun p => ExactlyAs.bind (hseek fun x => UInt64.ofNat x.1.length) fun q => ?_
      by_cases hq : p = q
      · rw [if_pos hq, if_pos hq]; exact ExactlyAs.lift _
      · rw [if_neg hq, if_neg hq]
        refine ExactlyAs.bind (ExactlyAs.add (.inr ⟨trivial, rfl⟩) _ _) fun z => ?_
        by_cases hz : z ≤ q
        · rw [if_pos hz, if_pos hz]; exact ExactlyAs.bind (hseek fun _ => z) fun _ => ExactlyAs.pure ()
        · rw [if_neg hz, if_neg hz]; exact ExactlyAs.lift _
  { panics := True
    Rel := fun s r => r = inBuild .wrapping s
    read := ExactlyAs.bind (hall 1) fun bs => by
      cases bs with
      | nil => exact ExactlyAs.lift _
      | cons b bs => exact ExactlyAs.pure b
    readAll := hall
    skip := fun n _ => hskip _
    skipU64 := hskip }

/-- **C133** On a seekable source likewise, with faults of any kind. -/
theorem C133_seekable_builds (c : TryCode P α) (s : SeekStream .checked)
    (h : (c.run .checked (SeekStream .checked) s).1 ≠ .panic) :
    c.run .wrapping (SeekStream .wrapping) (inBuild .wrapping s) =
      ((c.run .checked (SeekStream .checked) s).1, inBuild .wrapping (c.run .checked (SeekStream .checked) s).2) := by
  rcases c.exactly (m := .checked) (m' := .wrapping) buildMirror (.inr ⟨trivial, rfl⟩) s _ rfl with ⟨-, h1⟩ | ⟨h1, h2⟩
  · exact absurd h1 h
  · exact Prod.ext h1.symm h2

end

/-! ### Looking for the next tag that can be read -/

section
attribute [local instance] bigEnv

/-- Reads numbers until one is found, giving up after `n` failures; says how many calls failed and what the last error was. -/
def findNumber (n : Nat) (failed : List TagErr) : TryCode Empty (Option UInt64 × List TagErr) :=
  match n with
  | 0 => .done (.ok (none, failed))
  | n + 1 => .within 3 (.attempt (.get (.ilint fun v => .done (.ok v)) fun v => .done (.ok v)) fun r =>
      match r with | .ok v => .done (.ok v) | .error e => .done (.err e)) fun r _ =>
    match r with
    | .ok v => .done (.ok (some v, failed))
    | .error e => .attempt (.skip 1 (.done (.ok ()))) fun _ => findNumber n (failed ++ [e])

example : ((findNumber 3 []).run .checked ByteArrayReader (.new [255, 255, 7, 9])).1 =
    .ok (some 7, [.ioError .unableToReadData]) := by decide +kernel
example : ((findNumber 3 []).run .checked ReadReader ⟨[255, 255, 7, 9], [.chunk 1, .error .interrupted]⟩).1 =
    .ok (some 7, [.ioError .unableToReadData]) := by decide +kernel
example := C133_memory (m := .checked) (findNumber 3 []) [255, 255, 7, 9] 1
example := C133_pieces (m := .checked) (findNumber 3 []) [255, 255, 7, 9] (sched := [.chunk 1, .error .interrupted]) (sched' := [])
  (by simp [Benign]) (by simp [Benign])
example := C133_builds (findNumber 3 []) (ByteArrayReader.new [255, 255, 7, 9]) (by decide +kernel)
example := C133_seekable_builds (findNumber 3 []) ⟨[255, 255, 7, 9], 0, [.chunk 1], [], [none, some (.other 5)]⟩ (by decide +kernel)
example := C133_exactly (m := .checked) (findNumber 3 []) memoryMirror (s := ⟨[255, 255, 7, 9], 1⟩) (r := ⟨[255, 255, 7, 9], 1⟩) rfl
/-- Code that handles errors does see whether it reads from an array or from a stream: the error at the end differs. -/
example : ((findNumber 1 []).run .checked ByteArrayReader (.new [])).1 = .ok (none, [.ioError .endOfData]) ∧
    ((findNumber 1 []).run .checked ReadReader ⟨[], []⟩).1 = .ok (none, [.ioError (.ioError .unexpectedEof)]) := by decide +kernel
end

end Verif.Props
