import Verif.Proof.HandleCode
import Verif.Props.TryCode
/-!
# C134: conversions that handle errors do the same on readers and writers that answer alike
-/
namespace Verif.Props
open Verif Verif.Spec

section
variable {P : Type} [TagPayload P] [Env] {α : Type} {m : ArithMode} {ω ψ σ ρ : Type} [Writer ω] [Writer ψ] [Reader σ] [Reader ρ]

/-- **C134** If a reader and a writer answer each single call exactly as others do, errors included, then code on them that
handles errors itself has exactly the outcome it has on the others, and leaves them in states that still answer as the others.
If the reader may also panic, so may the code. -/
theorem C134_exactly (c : HandleCode P α) (G : WriterMirror ω ψ) (F : Mirror σ ρ) {w : ω} {v : ψ} {s : σ} {r : ρ} (hG : G.Rel w v)
    (hF : F.Rel s r) : (F.panics ∧ (c.run m ω σ (w, s)).1 = .panic) ∨
      (c.run m ω σ (w, s)).1 = (c.run m ψ ρ (v, r)).1 ∧
        G.Rel (c.run m ω σ (w, s)).2.1 (c.run m ψ ρ (v, r)).2.1 ∧ F.Rel (c.run m ω σ (w, s)).2.2 (c.run m ψ ρ (v, r)).2.2 :=
  c.exactly G F (.inl rfl) (w, s) (v, r) ⟨hG, hF⟩

/-- A vector that is owned and one that is borrowed. -/
def vecMirror : WriterMirror VecWriter BorrowedVecWriter where
  Rel w v := v.vector = w.vector ∧ v.offset = w.offset ∧ v.readOnly = w.readOnly
  write b := by
    rintro ⟨x, o, ro⟩ ⟨_, i, _, _⟩ ⟨rfl, rfl, rfl⟩
    exact .inr ⟨rfl, rfl, rfl, rfl⟩
  writeAll bs := by
    rintro ⟨x, o, ro⟩ ⟨_, i, _, _⟩ ⟨rfl, rfl, rfl⟩
    exact .inr ⟨rfl, rfl, rfl, rfl⟩

/-- A stream that accepts everything, and a vector written at its end. -/
def acceptingMirror : WriterMirror WriteWriter VecWriter where
  Rel w v := w.sched = [] ∧ v = ⟨w.out, w.out.length, false⟩
  write b := by
    rintro ⟨o, _⟩ _ ⟨rfl, rfl⟩
    refine .inr ⟨?_, rfl, ?_⟩
    · show (WriteWriter.write b ⟨o, []⟩).1 = (VecWriter.write b ⟨o, o.length, false⟩).1
      simp [WriteWriter.write, WriteWriter.stdWrite, VecWriter.write, vecWrite]
    · show (VecWriter.write b ⟨o, o.length, false⟩).2 = ⟨(WriteWriter.write b ⟨o, []⟩).2.out, (WriteWriter.write b ⟨o, []⟩).2.out.length, false⟩
      simp [WriteWriter.write, WriteWriter.stdWrite, VecWriter.write, vecWrite]
  writeAll bs := by
    rintro ⟨o, _⟩ _ ⟨rfl, rfl⟩
    have hv : vecWriteAll bs o o.length false = (.ok (), o ++ bs, o.length + bs.length) := by
      unfold vecWriteAll
      cases bs with
      | nil => simp [copyInto]
      | cons b bs =>
        simp only [Bool.false_eq_true, if_false, List.length_cons]
        rw [if_pos (by omega)]
        have hr : resizeZ o (o.length + (bs.length + 1)) = o ++ List.replicate (bs.length + 1) 0 := by
          unfold resizeZ
          rw [List.take_of_length_le (by omega), Nat.add_sub_cancel_left]
        rw [hr]
        simp [copyInto]
    refine .inr ⟨?_, rfl, ?_⟩
    · show (WriteWriter.writeAll bs ⟨o, []⟩).1 = (VecWriter.writeAll bs ⟨o, o.length, false⟩).1
      simp [WriteWriter.writeAll, WriteWriter.stdWrite, VecWriter.writeAll, hv]
    · show (VecWriter.writeAll bs ⟨o, o.length, false⟩).2 =
        ⟨(WriteWriter.writeAll bs ⟨o, []⟩).2.out, (WriteWriter.writeAll bs ⟨o, []⟩).2.out.length, false⟩
      simp [WriteWriter.writeAll, WriteWriter.stdWrite, VecWriter.writeAll, hv]

/-- **C134** From memory to memory: whether the bytes to read are in a slice or in a vector, and whether the vector written to is
owned or borrowed, makes no difference to the result, to what is written and to where both stand then. -/
theorem C134_memory (c : HandleCode P α) (bs : Bytes) (o : Nat) (x : Bytes) (i k : Nat) (ro : Bool) :
    let a := c.run m VecWriter ByteArrayReader (⟨x, k, ro⟩, ⟨bs, o⟩)
    let b := c.run m BorrowedVecWriter VecReader (⟨x, i, k, ro⟩, ⟨bs, o⟩)
    a.1 = b.1 ∧ (b.2.1.vector = a.2.1.vector ∧ b.2.1.offset = a.2.1.offset ∧ b.2.1.readOnly = a.2.1.readOnly) ∧
      b.2.2 = ⟨a.2.2.array, a.2.2.offset⟩ :=
  (C134_exactly c vecMirror memoryMirror (w := ⟨x, k, ro⟩) (v := ⟨x, i, k, ro⟩) (s := ⟨bs, o⟩) (r := ⟨bs, o⟩) ⟨rfl, rfl, rfl⟩
    rfl).resolve_left fun h => h.1

/-- **C134** From stream to stream: in which pieces the input comes makes no difference, and a destination that accepts
everything gets what a new vector would. -/
theorem C134_streams (c : HandleCode P α) (bs : Bytes) {sched sched' : List ReadEv} (h : Benign sched) (h' : Benign sched') :
    let a := c.run m WriteWriter ReadReader (⟨[], []⟩, ⟨bs, sched⟩)
    let b := c.run m VecWriter ReadReader (.new, ⟨bs, sched'⟩)
    a.1 = b.1 ∧ a.2.1.out = b.2.1.vector ∧ a.2.2.data = b.2.2.data := by
  obtain ⟨h1, ⟨-, h2⟩, h3, -⟩ := (C134_exactly (m := m) c acceptingMirror piecesMirror (w := ⟨[], []⟩) (v := .new) (s := ⟨bs, sched⟩)
    (r := ⟨bs, sched'⟩) ⟨rfl, rfl⟩ ⟨rfl, h, h'⟩).resolve_left fun h => h.1
  exact ⟨h1, by rw [h2], h3⟩

/-- Any writer, and itself. -/
def selfWriterMirror (ω : Type) [Writer ω] : WriterMirror ω ω where
  Rel := Eq
  write b := by rintro s _ rfl; exact .inr ⟨rfl, rfl⟩
  writeAll n := by rintro s _ rfl; exact .inr ⟨rfl, rfl⟩

/-- **C134** What does not panic in a debug build does exactly the same in a release build, on any reader and writer that are
the same in both. -/
theorem C134_builds (c : HandleCode P α) (w : ω) (s : σ) (h : (c.run .checked ω σ (w, s)).1 ≠ .panic) :
    c.run .wrapping ω σ (w, s) = c.run .checked ω σ (w, s) := by
  rcases c.exactly (m := .checked) (m' := .wrapping) (selfWriterMirror ω) (selfMirror σ) (.inr ⟨trivial, rfl⟩) (w, s) (w, s)
    ⟨rfl, rfl⟩ with ⟨-, h1⟩ | ⟨h1, h2, h3⟩
  · exact absurd h1 h
  · exact Prod.ext h1.symm (Prod.ext (Eq.symm h2) (Eq.symm h3))

/-- **C134** Likewise from a seekable source, with faults of any kind, to any writer. -/
theorem C134_seekable_builds (c : HandleCode P α) (w : ω) (s : SeekStream .checked)
    (h : (c.run .checked ω (SeekStream .checked) (w, s)).1 ≠ .panic) :
    let a := c.run .checked ω (SeekStream .checked) (w, s)
    c.run .wrapping ω (SeekStream .wrapping) (w, inBuild .wrapping s) = (a.1, a.2.1, inBuild .wrapping a.2.2) := by
  rcases c.exactly (m := .checked) (m' := .wrapping) (selfWriterMirror ω) buildMirror (.inr ⟨trivial, rfl⟩) (w, s)
    (w, inBuild .wrapping s) ⟨rfl, rfl⟩ with ⟨-, h1⟩ | ⟨h1, h2, h3⟩
  · exact absurd h1 h
  · exact Prod.ext h1.symm (Prod.ext (Eq.symm h2) h3)

end

/-! ### Copying what can be read -/

section
attribute [local instance] bigEnv

/-- Reads `n` numbers and writes each again; for one that cannot be read it writes 0 and goes on
where the failed call left the reader; says how many writes failed. -/
def salvage (n failed : Nat) : HandleCode Empty Nat :=
  match n with
  | 0 => .done (.ok failed)
  | n + 1 => .get (.within 2 (.attempt (.get (.ilint fun v => .done (.ok v)) fun v => .done (.ok v)) fun r =>
      match r with | .ok v => .done (.ok v) | .error e => .done (.err e)) fun r _ =>
      match r with | .ok v => .done (.ok v) | .error e => .done (.err e)) fun r =>
    .put (.ilint (match r with | .ok v => v | .error _ => 0)) fun r =>
      match r with | .ok () => salvage n failed | .error _ => salvage n (failed + 1)

example : (salvage 4 0).run .checked VecWriter ByteArrayReader (.new, .new [5, 255, 248, 1, 9]) =
    (.ok 0, (⟨[5, 0, 248, 1, 9], 5, false⟩, ⟨[5, 255, 248, 1, 9], 5⟩)) := by decide +kernel
example : ((salvage 4 0).run .checked VecWriter ReadReader (.new, ⟨[5, 255, 248, 1, 9], [.chunk 1, .error .interrupted]⟩)).1 = .ok 0 := by
  decide +kernel
/-- A vector that is read-only refuses all. -/
example : ((salvage 4 0).run .checked VecWriter ByteArrayReader (⟨[], 0, true⟩, .new [5, 255, 248, 1, 9])).1 = .ok 4 := by decide +kernel
/-- What a failed write has written stays. -/
example : (salvage 2 0).run .checked WriteWriter ByteArrayReader (⟨[], [.accept 1]⟩, .new [248, 1, 9]) =
    (.ok 1, (⟨[248, 9], []⟩, ⟨[248, 1, 9], 3⟩)) := by decide +kernel
example := C134_memory (m := .checked) (salvage 4 0) [5, 255, 248, 1, 9] 0 [1, 2, 3] 1 2 false
example := C134_streams (m := .checked) (salvage 4 0) [5, 255, 248, 1, 9] (sched := [.chunk 1, .error .interrupted]) (sched' := [])
  (by simp [Benign]) (by simp [Benign])
example := C134_builds (salvage 4 0) VecWriter.new (ByteArrayReader.new [5, 255, 248, 1, 9]) (by decide +kernel)
example := C134_seekable_builds (salvage 4 0) (WriteWriter.mk [] [.error (.other 5)])
  ⟨[5, 255, 248, 1, 9], 0, [.chunk 1], [], []⟩ (by decide +kernel)
example := C134_exactly (m := .checked) (salvage 4 0) acceptingMirror memoryMirror (w := ⟨[1], []⟩) (v := ⟨[1], 1, false⟩)
  (s := ⟨[5, 255], 0⟩) (r := ⟨[5, 255], 0⟩) ⟨rfl, rfl⟩ rfl
end

end Verif.Props
