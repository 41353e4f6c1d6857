import Verif.Proof.ReadCode
import Verif.Props.Faults
import Verif.Props.ValueApi
/-!
# C130: code that reads sees nothing but the bytes
-/
namespace Verif.Props
open Verif Verif.Spec

section
variable {P : Type} [TagPayload P] [Env] {α : Type} {σ ρ : Type} [Reader σ] [Reader ρ]

/-- **C130** Code that reads, run on two well-behaved readers that hold the same bytes, has the same result (i/o errors may
differ in detail), and after success both readers hold the same remaining bytes. -/
theorem C130_only_bytes (c : ReadCode P α) (V : View σ) (W : View ρ) {s : σ} {r : ρ} {bs : Bytes} (hV : V.R s bs)
    (hW : W.R r bs) : SameClass (c.run σ s).1 (c.run ρ r).1 ∧
      ((c.run σ s).1.isOk = true → ∃ rest, V.R (c.run σ s).2 rest ∧ W.R (c.run ρ r).2 rest) := by
  obtain ⟨T, hT⟩ := c.calls
  have h1 := hT inferInstance σ inferInstance s
  have h2 := hT inferInstance ρ inferInstance r
  simp only at h1 h2
  rw [h1, h2]
  have h3 := T.run_eval V hV
  have h4 := T.run_eval W hW
  rcases he : T.eval bs with _ | ⟨o, t, rest⟩
  · rw [he] at h3 h4
    obtain ⟨_, _, _, h5, -⟩ := h3
    obtain ⟨_, _, _, h6, -⟩ := h4
    rw [h5, h6]
    exact ⟨trivial, by simp [Res.isOk]⟩
  · rw [he] at h3 h4
    obtain ⟨_, h5, h7⟩ := h3
    obtain ⟨_, h6, h8⟩ := h4
    rw [h5, h6]
    refine ⟨?_, fun _ => ⟨rest, h7, h8⟩⟩
    simp only
    unfold SameClass
    split <;> trivial

/-- **C130** Code that reads, run on a reader that may fail at any call, has the result it has on a reader without faults over
the same bytes, and then stands at the same place, or it fails with an i/o error. -/
theorem C130_faults (c : ReadCode P α) (F : FaultyView σ) (V : View ρ) {s : σ} {r : ρ} {bs : Bytes} (hF : F.R s bs)
    (hV : V.R r bs) : (∃ k, (c.run σ s).1 = .err (.ioError k)) ∨
      (c.run σ s).1 = (c.run ρ r).1 ∧
        ((c.run σ s).1.isOk = true → ∃ rest, F.R (c.run σ s).2 rest ∧ V.R (c.run ρ r).2 rest) := by
  obtain ⟨T, hT⟩ := c.calls
  have h1 := hT inferInstance σ inferInstance s
  have h2 := hT inferInstance ρ inferInstance r
  simp only at h1 h2
  rw [h1, h2]
  exact run_faulty F V T hF hV

/-- **C130** On any reader whatsoever.  As soon as a call on the reader fails no other call is made, and the outcome is that
failure.  If no call fails, the outcome is the one on every well-behaved reader that starts with the delivered bytes, which
are exactly what the code takes from it. -/
theorem C130_first_failure (c : ReadCode P α) (s : σ) :
    let o := c.run (Watched σ) (.start s)
    c.run σ s = (o.1, o.2.source) ∧
    ((∃ x, o.2.failed = [x] ∧ x.isOk = false ∧ o.1 = ofFailure x) ∨
     (o.2.failed = [] ∧ ∀ (ρ : Type) [Reader ρ] (V : View ρ) (r : ρ) (y : Bytes), V.R r (o.2.log ++ y) →
        ∃ r', c.run ρ r = (o.1, r') ∧ V.R r' y)) := by
  obtain ⟨T, hT⟩ := c.calls
  have h1 := hT inferInstance σ inferInstance s
  have h2 := hT inferInstance (Watched σ) inferInstance (.start s)
  simp only at h1 h2 ⊢
  rw [h1, h2]
  obtain ⟨h3, -, h4⟩ := T.run_source (Watched.start s)
  obtain ⟨D, hD, h⟩ := T.run_watched (Watched.start s)
  simp only [Watched.start, List.nil_append] at h3 h4 hD h ⊢
  refine ⟨by rw [h3, h4], ?_⟩
  rcases h with ⟨h5, h6⟩ | h
  · refine .inr ⟨h5, fun ρ _ V r y hr => ?_⟩
    rw [hD] at hr
    have h7 := T.run_eval V hr
    rw [h6 y] at h7
    obtain ⟨r', h8, h9⟩ := h7
    have h10 := hT inferInstance ρ inferInstance r
    simp only at h10
    exact ⟨r', by rw [h10, h8], h9⟩
  · exact .inl h

/-- **C130** On a limited reader inside a limited reader code does what it does under the smaller limit. -/
theorem C130_nested (c : ReadCode P α) : Composes (fun σ _ => c.run (Limited σ)) := by
  intro σ _ s k v
  obtain ⟨T, hT⟩ := c.calls
  obtain ⟨h1, h2⟩ := nested_run T s k v
  have h3 := hT inferInstance (Limited σ) inferInstance ⟨s, min k v⟩
  have h4 := hT inferInstance (Limited (Limited σ)) inferInstance ⟨⟨s, k⟩, v⟩
  simp only at h3 h4
  refine ⟨(T.run (⟨s, min k v⟩ : Limited σ)).1, (T.run (⟨s, min k v⟩ : Limited σ)).2.2.source,
    min k v - (T.run (⟨s, min k v⟩ : Limited σ)).2.2.available, by omega, ?_, ?_⟩
  · show c.run (Limited σ) _ = _
    rw [h3, show min k v - (min k v - (T.run (⟨s, min k v⟩ : Limited σ)).2.2.available) =
      (T.run (⟨s, min k v⟩ : Limited σ)).2.2.available by omega]
  · show c.run (Limited (Limited σ)) _ = _
    rw [h4]
    show ((T.run (nestLim s k v)).1, (T.run (nestLim s k v)).2.2) = _
    rw [h2]
    rfl

/-- **C130** Code succeeds under a limit exactly if it succeeds without one and takes no more bytes than the limit; the
result is the same, and the reader is left in the same state. -/
theorem C130_limit (c : ReadCode P α) (w : Watched σ) (k : Nat) (a : α) (l : Limited (Watched σ)) :
    c.run (Limited (Watched σ)) ⟨w, k⟩ = (.ok a, l) ↔
      c.run (Watched σ) w = (.ok a, l.source) ∧ l.source.log.length + l.available = w.log.length + k := by
  obtain ⟨T, hT⟩ := c.calls
  have h3 := hT inferInstance (Watched σ) inferInstance w
  have h4 := hT inferInstance (Limited (Watched σ)) inferInstance ⟨w, k⟩
  have h5 := T.run_allowance w k
  simp only at h3 h4
  rw [h3, h4]
  rcases l with ⟨w', a'⟩
  constructor
  · intro h
    rcases hr : T.run (⟨w, k⟩ : Limited (Watched σ)) with ⟨r, u, l⟩
    rw [hr] at h h5
    simp only [Prod.mk.injEq] at h
    obtain ⟨rfl, rfl⟩ := h
    rw [unlimited_run T w k hr]
    exact ⟨rfl, h5⟩
  · rintro ⟨h, h6⟩
    rcases hr : T.run w with ⟨r, u, s'⟩
    rw [hr] at h
    simp only [Prod.mk.injEq] at h
    obtain ⟨rfl, rfl⟩ := h
    simp only at h6
    rw [limited_run T w hr k (by omega)]
    simp only [Prod.mk.injEq, Limited.mk.injEq, true_and]
    omega

omit [Env] in
/-- A program of calls with less memory does the same, or has a request refused. -/
theorem run_less {τ β : Type} (T : Prog τ β) (E E' : Env) (hE : E.allocMax ≤ E'.allocMax) (s : σ) :
    @Prog.run τ β E σ _ T s = @Prog.run τ β E' σ _ T s ∨ (@Prog.run τ β E σ _ T s).1 = .panic := by
  induction T generalizing s with
  | done r t => exact .inl rfl
  | read t k ih =>
    simp only [Prog.run]
    rcases Reader.read s with ⟨r, s'⟩
    cases r <;> first | exact ih _ _ | exact .inl rfl
  | readAll t n k ih =>
    simp only [Prog.run]
    rcases Reader.readAll n s with ⟨r, s'⟩
    cases r <;> first | exact ih _ _ | exact .inl rfl
  | alloc t u c k ih =>
    simp only [Prog.run]
    by_cases h : u * c ≤ E.allocMax
    · rw [if_pos h, if_pos (Nat.le_trans h hE)]; exact ih s
    · rw [if_neg h]; exact .inr rfl

omit [Env] in
/-- **C130** With less memory code does the same on every reader, or a request of memory is refused. -/
theorem C130_memory (c : ReadCode P α) (E E' : Env) (hE : E.allocMax ≤ E'.allocMax) (s : σ) :
    @ReadCode.run P _ E α c σ _ s = @ReadCode.run P _ E' α c σ _ s ∨ (@ReadCode.run P _ E α c σ _ s).1 = .panic := by
  obtain ⟨T, hT⟩ := c.calls
  have h1 := hT E σ inferInstance s
  have h2 := hT E' σ inferInstance s
  simp only at h1 h2
  rcases run_less T E E' hE s with h | h
  · exact .inl (by rw [h1, h2, h])
  · exact .inr (by rw [h1]; exact h)

end

/-! ### A record: a length, that many bytes of which the first two are a pair of numbers, and a byte after it -/

section
attribute [local instance] bigEnv

/-- Reads a length, a number and some more bytes within that length, and a byte after it; fails if a part of the length is
left over. -/
def recordCode : ReadCode Empty (UInt64 × Bytes × Byte) :=
  .ilint fun n =>
  .within n.toNat (.ilint fun a => .bytes 2 fun b => .done (.ok (a, b))) fun r left =>
  if left ≠ 0 then .done (.err .corruptedData) else
  .read fun x => .done (.ok (r.1, r.2, x))

/-- The record on an array, with a byte left over. -/
example : recordCode.run ByteArrayReader (.new [3, 9, 7, 8, 5, 6]) =
    (.ok (9, [7, 8], 5), ⟨[3, 9, 7, 8, 5, 6], 5⟩) := by decide +kernel
/-- A length that is too short, and one that is too long. -/
example : (recordCode.run ByteArrayReader (.new [2, 9, 7, 8, 5, 6])).1 = .err (.ioError .unableToReadData) ∧
    (recordCode.run ByteArrayReader (.new [4, 9, 7, 8, 5, 6])).1 = .err .corruptedData := by decide +kernel
/-- A stream that delivers the record in small pieces, and one that breaks inside it. -/
example : ReadReader.faulty.R ⟨[3, 9, 7, 8, 5, 6], [.chunk 1, .error .interrupted, .chunk 1, .chunk 1]⟩ [3, 9, 7, 8, 5, 6] ∧
    ByteArrayReader.view.R (.new [3, 9, 7, 8, 5, 6]) [3, 9, 7, 8, 5, 6] ∧
    (recordCode.run ReadReader ⟨[3, 9, 7, 8, 5, 6], [.chunk 1, .error .interrupted, .chunk 1, .chunk 1]⟩).1 =
      .ok (9, [7, 8], 5) ∧
    (recordCode.run ReadReader ⟨[3, 9, 7, 8, 5, 6], [.chunk 1, .chunk 1, .error (.other 5)]⟩).1 = .err (.ioError (.ioError (.other 5))) :=
  ⟨rfl, ByteArrayReader.view_new _, by decide +kernel, by decide +kernel⟩
/-- The calls of the record on a scripted reader. -/
example : (recordCode.run (Watched Script) (.start ⟨[.ok 3, .ok 9, .ok 7, .ok 8, .ok 5]⟩)).2.log = [3, 9, 7, 8, 5] ∧
    (recordCode.run (Watched Script) (.start ⟨[.ok 3, .ok 9, .err .unableToReadData]⟩)).2.failed =
      [.err .unableToReadData] := by decide +kernel
/-- The record under a limit of five bytes and of four. -/
example : (recordCode.run (Limited ByteArrayReader) ⟨.new [3, 9, 7, 8, 5, 6], 5⟩).1 = .ok (9, [7, 8], 5) ∧
    (recordCode.run (Limited ByteArrayReader) ⟨.new [3, 9, 7, 8, 5, 6], 4⟩).1 = .err (.ioError .unableToReadData) := by
  decide +kernel
/-- With too little memory for the two bytes of the record, and with just enough. -/
example : (@ReadCode.run Empty _ ⟨1⟩ _ recordCode ByteArrayReader _ (.new [3, 9, 7, 8, 5, 6])).1 = .panic ∧
    (@ReadCode.run Empty _ ⟨2⟩ _ recordCode ByteArrayReader _ (.new [3, 9, 7, 8, 5, 6])).1 = .ok (9, [7, 8], 5) := by
  decide +kernel

/-- The other calls. -/
def callsCode : ReadCode Empty (Bytes × Int64 × String) :=
  .readAll 2 fun a => .signedILInt fun b => .stringTag fun c => .done (.ok (a, b, c))
example : callsCode.run ByteArrayReader (.new [4, 5, 3, 17, 1, 65, 9]) =
    (.ok ([4, 5], -2, "A"), ⟨[4, 5, 3, 17, 1, 65, 9], 6⟩) := by decide +kernel

/-- A tag, the same tag read into another, and a value read directly, within nine bytes. -/
def tagsCode : ReadCode Empty (Tag Empty × Tag Empty × Tag Empty × Nat) :=
  .within 9 (.tag (Engine.std true) fun a => .into (Engine.std true) (.atom (.bool 1 true)) fun b =>
    .value (Engine.std true) 2 (.atom (.byteArray [])) fun c => .done (.ok (a, b, c))) fun r left =>
  .done (.ok (r.1, r.2.1, r.2.2, left))

example : ((tagsCode.run ByteArrayReader (.new [3, 200, 1, 0, 5, 6, 7, 8, 9, 10])).1 matches
      .ok (.atom (.uint8 3 200), .atom (.bool 1 false), .atom (.byteArray [5, 6]), 3)) = true ∧
    (tagsCode.run ByteArrayReader (.new [3, 200, 1, 0, 5, 6, 7, 8, 9, 10])).2.offset = 6 ∧
    ((tagsCode.run ByteArrayReader (.new [3, 200, 3, 0, 5, 6, 7, 8, 9, 10])).1 matches .err .unexpectedTagType) = true := by
  simp only [tagsCode, ReadCode.run, Factory.deserializeInto]
  rw [deserialize_eq]
  decide +kernel
end

end Verif.Props
