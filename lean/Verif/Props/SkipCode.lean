import Verif.Proof.SkipCode
import Verif.Props.ReadCode
import Verif.Props.Index
/-!
# C132: code that reads, skips and scans cannot tell apart readers that answer alike
-/
namespace Verif.Props
open Verif Verif.Spec

section
variable {P : Type} [TagPayload P] [Env] {α : Type} {m : ArithMode} {σ ρ : Type} [Reader σ] [Reader ρ]

/-- **C132** If a reader answers each single call as another one does, or reports an error, then code on it has the same
outcome as on the other, and leaves it in a state that still answers as the other, or fails with an i/o error. If it may
also panic, so may the code. -/
theorem C132_follows (c : SkipCode P α) (F : Follows σ ρ) {s : σ} {r : ρ} (h : F.Rel s r) :
    (∃ k, (c.run m σ s).1 = .err (.ioError k)) ∨ (F.panics ∧ (c.run m σ s).1 = .panic) ∨
      (c.run m σ s).1 = (c.run m ρ r).1 ∧ ((c.run m σ s).1.isOk = true → F.Rel (c.run m σ s).2 (c.run m ρ r).2) :=
  c.agrees F (.inl rfl) s r h

/-- **C132** Code on two readers that answer each single call alike has the same outcome (i/o errors may differ in detail),
and leaves them in states that answer alike. -/
theorem C132_alike (c : SkipCode P α) (A : Alike σ ρ) {s : σ} {r : ρ} (h : A.right.Rel s r) :
    SameClass (c.run m σ s).1 (c.run m ρ r).1 ∧ ((c.run m σ s).1.isOk = true → A.right.Rel (c.run m σ s).2 (c.run m ρ r).2) := by
  rcases C132_follows c A.right h with ⟨k, hk⟩ | ⟨hp, -⟩ | ⟨h1, h2⟩
  · rcases C132_follows c A.left ((A.same s r).mp h) with ⟨k', hk'⟩ | ⟨hp, -⟩ | ⟨h1, -⟩
    · rw [hk, hk']; exact ⟨trivial, by simp [Res.isOk]⟩
    · exact absurd hp A.noPanic.2
    · rw [h1, hk]; exact ⟨trivial, by simp [Res.isOk]⟩
  · exact absurd hp A.noPanic.1
  · refine ⟨?_, h2⟩
    rw [h1]
    unfold SameClass
    split <;> trivial

/-- Readers that hold the same bytes and skip within them. -/
def viewsFollow (V : SkipView σ) (W : SkipView ρ) : Follows σ ρ where
  Rel s r := ∃ bs, V.R s bs ∧ W.R r bs
  read := by
    rintro s r ⟨bs, h, h'⟩
    cases bs with
    | nil =>
      obtain ⟨e, s', h1, -⟩ := V.read_nil h
      exact .inr (.inl ⟨e, s', h1⟩)
    | cons b bs =>
      obtain ⟨s', h1, h2⟩ := V.read_cons h
      obtain ⟨r', h3, h4⟩ := W.read_cons h'
      exact .inl ⟨b, s', r', h1, h3, bs, h2, h4⟩
  readAll n := by
    rintro s r ⟨bs, h, h'⟩
    by_cases hn : n ≤ bs.length
    · obtain ⟨s', h1, h2⟩ := V.readAll_ok h hn
      obtain ⟨r', h3, h4⟩ := W.readAll_ok h' hn
      exact .inl ⟨_, s', r', h1, h3, _, h2, h4⟩
    · obtain ⟨e, s', h1, -⟩ := V.readAll_short (n := n) h (by omega)
      exact .inr (.inl ⟨e, s', h1⟩)
  skip n _ := by
    rintro s r ⟨bs, h, h'⟩
    by_cases hn : n ≤ bs.length
    · obtain ⟨s', h1, h2⟩ := V.skip_ok h hn
      obtain ⟨r', h3, h4⟩ := W.skip_ok h' hn
      exact .inl ⟨_, s', r', h1, h3, _, h2, h4⟩
    · obtain ⟨e, s', h1⟩ := V.skip_short (n := n) h (by omega)
      exact .inr (.inl ⟨e, s', h1⟩)
  skipU64 n := by
    rintro s r ⟨bs, h, h'⟩
    by_cases hn : n.toNat ≤ bs.length
    · obtain ⟨s', h1, h2⟩ := V.skipU64_ok h hn
      obtain ⟨r', h3, h4⟩ := W.skipU64_ok h' hn
      exact .inl ⟨_, s', r', h1, h3, _, h2, h4⟩
    · obtain ⟨e, s', h1⟩ := V.skipU64_short (n := n) h (by omega)
      exact .inr (.inl ⟨e, s', h1⟩)

def viewsAlike (V : SkipView σ) (W : SkipView ρ) : Alike σ ρ where
  right := viewsFollow V W
  left := viewsFollow W V
  noPanic := ⟨id, id⟩
  same _ _ := ⟨fun ⟨bs, h, h'⟩ => ⟨bs, h', h⟩, fun ⟨bs, h, h'⟩ => ⟨bs, h', h⟩⟩

/-- **C132** In particular on two well-behaved readers that hold the same bytes: the same outcome, and the same bytes left. -/
theorem C132_only_bytes (c : SkipCode P α) (V : SkipView σ) (W : SkipView ρ) {s : σ} {r : ρ} {bs : Bytes} (hV : V.R s bs)
    (hW : W.R r bs) : SameClass (c.run m σ s).1 (c.run m ρ r).1 ∧
      ((c.run m σ s).1.isOk = true → ∃ rest, V.R (c.run m σ s).2 rest ∧ W.R (c.run m ρ r).2 rest) :=
  C132_alike c (viewsAlike V W) ⟨bs, hV, hW⟩

theorem faulty_skip (F : FaultyView σ) (n : Nat) : ∀ {s : σ} {bs : Bytes}, F.R s bs →
    (n ≤ bs.length ∧ ∃ s', defaultSkip Reader.readAll n s = (.ok (), s') ∧ F.R s' (bs.drop n)) ∨
      ∃ e s', defaultSkip Reader.readAll n s = (.err e, s') := by
  induction n using Nat.strongRecOn with
  | ind n ih =>
    intro s bs h
    rw [defaultSkip.eq_1 _ n]
    by_cases hn : n = 0
    · rw [dif_pos hn]; subst hn; exact .inl ⟨by omega, s, rfl, h⟩
    · rw [dif_neg hn]
      rcases F.readAll_any (min n 512) h with ⟨h1, s', h2, h3⟩ | ⟨e, s', h2⟩
      · rw [Act.bind_ok h2]
        rcases ih (n - min n 512) (by omega) h3 with ⟨h4, s₂, h5, h6⟩ | h4
        · rw [List.length_drop] at h4
          refine .inl ⟨by omega, s₂, h5, ?_⟩
          rw [List.drop_drop, show min n 512 + (n - min n 512) = n by omega] at h6
          exact h6
        · exact .inr h4
      · rw [Act.bind_err h2]; exact .inr ⟨e, s', rfl⟩

theorem faulty_skipU64 (F : FaultyView σ) (n : UInt64) {s : σ} {bs : Bytes} (h : F.R s bs) :
    (n.toNat ≤ bs.length ∧ ∃ s', defaultSkipU64 (defaultSkip Reader.readAll) n s = (.ok (), s') ∧ F.R s' (bs.drop n.toNat)) ∨
      ∃ e s', defaultSkipU64 (defaultSkip Reader.readAll) n s = (.err e, s') := by
  have hlt := n.toNat_lt
  unfold defaultSkipU64
  rw [defaultSkipU64Loop.eq_1 _ _ n.toNat]
  by_cases hn : n.toNat = 0
  · rw [dif_pos hn, hn]; exact .inl ⟨by omega, s, rfl, h⟩
  · rw [dif_neg hn]
    have hmin : min n.toNat (max usizeMax64 1) = n.toNat := by unfold usizeMax64; omega
    rw [hmin, Nat.sub_self, defaultSkipU64Loop.eq_1 _ _ 0]
    rcases faulty_skip F n.toNat h with ⟨h1, s', h2, h3⟩ | ⟨e, s', h2⟩
    · rw [Act.bind_ok h2]; exact .inl ⟨h1, s', rfl, h3⟩
    · rw [Act.bind_err h2]; exact .inr ⟨e, s', rfl⟩

/-- A reader over a source with faults whose skips move by as much as they are asked to, or fail, answers as a well-behaved
reader of the same bytes, or reports an error; if its skips may panic beyond the end, it may panic. -/
def faultyFollows (F : FaultyView σ) (W : SkipView ρ) (p : Prop)
    (hskip : ∀ {s bs} (n : Nat), n < 2 ^ 64 → F.R s bs →
      (n ≤ bs.length ∧ ∃ s', Reader.skip n s = (.ok (), s') ∧ F.R s' (bs.drop n)) ∨ (∃ e s', Reader.skip n s = (.err e, s')) ∨
        p ∧ ∃ s', Reader.skip n s = (.panic, s'))
    (hskip64 : ∀ {s bs} (n : UInt64), F.R s bs →
      (n.toNat ≤ bs.length ∧ ∃ s', Reader.skipU64 n s = (.ok (), s') ∧ F.R s' (bs.drop n.toNat)) ∨
        (∃ e s', Reader.skipU64 n s = (.err e, s')) ∨ p ∧ ∃ s', Reader.skipU64 n s = (.panic, s')) : Follows σ ρ where
  panics := p
  Rel s r := ∃ bs, F.R s bs ∧ W.R r bs
  read := by
    rintro s r ⟨bs, h, h'⟩
    rcases F.read_any h with ⟨b, bs, s', rfl, h1, h2⟩ | ⟨e, s', h1⟩
    · obtain ⟨r', h3, h4⟩ := W.read_cons h'
      exact .inl ⟨b, s', r', h1, h3, bs, h2, h4⟩
    · exact .inr (.inl ⟨e, s', h1⟩)
  readAll n := by
    rintro s r ⟨bs, h, h'⟩
    rcases F.readAll_any n h with ⟨hn, s', h1, h2⟩ | ⟨e, s', h1⟩
    · obtain ⟨r', h3, h4⟩ := W.readAll_ok h' hn
      exact .inl ⟨_, s', r', h1, h3, _, h2, h4⟩
    · exact .inr (.inl ⟨e, s', h1⟩)
  skip n hn := by
    rintro s r ⟨bs, h, h'⟩
    rcases hskip n hn h with ⟨hn, s', h1, h2⟩ | h1
    · obtain ⟨r', h3, h4⟩ := W.skip_ok h' hn
      exact .inl ⟨_, s', r', h1, h3, _, h2, h4⟩
    · exact .inr h1
  skipU64 n := by
    rintro s r ⟨bs, h, h'⟩
    rcases hskip64 n h with ⟨hn, s', h1, h2⟩ | h1
    · obtain ⟨r', h3, h4⟩ := W.skipU64_ok h' hn
      exact .inl ⟨_, s', r', h1, h3, _, h2, h4⟩
    · exact .inr h1

/-- A stream with faults of any kind. -/
def streamFollows (W : SkipView ρ) : Follows ReadReader ρ :=
  faultyFollows ReadReader.faulty W False
    (fun n _ h => (faulty_skip ReadReader.faulty n h).imp id .inl)
    (fun n h => (faulty_skipU64 ReadReader.faulty n h).imp id .inl)

/-- In a debug build a skip on a seekable source moves by as much as it is asked to, fails or panics. -/
theorem seek_skipU64 (c : Bytes) (hl : c.length < 2 ^ 64) (n : UInt64) {s : SeekStream .checked} {bs : Bytes}
    (h : (SeekStream.faulty .checked c hl).R s bs) :
    (n.toNat ≤ bs.length ∧ ∃ s', Reader.skipU64 n s = (.ok (), s') ∧ (SeekStream.faulty .checked c hl).R s' (bs.drop n.toNat)) ∨
      (∃ e s', Reader.skipU64 n s = (.err e, s')) ∨ True ∧ ∃ s', Reader.skipU64 n s = (.panic, s') := by
  by_cases hn : n.toNat ≤ bs.length
  · rcases (SeekStream.faultySkip .checked c hl).skipU64_any n h hn with h1 | h1
    · exact .inl ⟨hn, h1⟩
    · exact .inr (.inl h1)
  · refine .inr ?_
    obtain ⟨rfl, rfl⟩ := h
    show (∃ e s', SeekStream.skipU64 n s = _) ∨ True ∧ ∃ s', SeekStream.skipU64 n s = _
    unfold SeekStream.skipU64
    have h0 : n ≠ 0 := by rintro rfl; simp at hn
    rw [if_neg h0]
    rw [List.length_drop] at hn
    have he : (UInt64.ofNat s.content.length).toNat = s.content.length := ofNat_toNat64 hl
    obtain ⟨s₁, ⟨h1, hp1⟩ | ⟨e, h1, -⟩, hc1⟩ := seekTo_any s.pos s
    rotate_left
    · exact .inl ⟨e, s₁, Act.bind_err h1⟩
    rw [show (SeekStream.seekCur >>= _ : Act IoErr (SeekStream .checked) Unit) s = _ from Act.bind_ok h1]
    obtain ⟨s₂, ⟨h2, hp2⟩ | ⟨e, h2, -⟩, hc2⟩ := seekTo_any (UInt64.ofNat s₁.content.length) s₁
    rotate_left
    · exact .inl ⟨e, s₂, Act.bind_err h2⟩
    rw [show (SeekStream.seekEnd >>= _ : Act IoErr (SeekStream .checked) Unit) s₁ = _ from Act.bind_ok h2]
    rw [hc1]
    by_cases heq : s.pos = UInt64.ofNat s.content.length
    · rw [if_pos heq]; exact .inl ⟨_, _, rfl⟩
    · rw [if_neg heq]
      by_cases hov : s.pos.toNat + n.toNat < 2 ^ 64
      · rw [addU64_ok hov, Act.bind_ok (show Act.lift (Res.ok (s.pos + n)) _ = (.ok _, _) from rfl)]
        have hpn : (s.pos + n).toNat = s.pos.toNat + n.toNat := by
          rw [UInt64.toNat_add, Nat.mod_eq_of_lt (by omega)]
        rw [if_neg (by rw [UInt64.le_iff_toNat_le, hpn, he]; omega)]
        exact .inl ⟨_, _, rfl⟩
      · have hadd : addU64 (ε := IoErr) .checked s.pos n = .panic := by
          unfold addU64; rw [if_neg (by omega)]
        rw [hadd]
        exact .inr ⟨trivial, _, Act.bind_panic rfl⟩

/-- A seekable source with faults of any kind, in a debug build. -/
def seekFollows (W : SkipView ρ) (c : Bytes) (hl : c.length < 2 ^ 64) : Follows (SeekStream .checked) ρ :=
  faultyFollows (SeekStream.faulty .checked c hl) W True
    (fun n hn h => by
      have := seek_skipU64 c hl (UInt64.ofNat n) h
      rw [ofNat_toNat64 hn] at this
      exact this)
    (fun n h => seek_skipU64 c hl n h)

/-- **C132** In particular on a stream with short reads, interrupts, failures and early ends: the outcome on any
well-behaved reader of the same bytes, or an i/o error. -/
theorem C132_stream (c : SkipCode P α) (W : SkipView ρ) (s : ReadReader) {r : ρ} (hW : W.R r s.data) :
    (∃ k, (c.run m ReadReader s).1 = .err (.ioError k)) ∨
      (c.run m ReadReader s).1 = (c.run m ρ r).1 ∧
        ((c.run m ReadReader s).1.isOk = true → W.R (c.run m ρ r).2 (c.run m ReadReader s).2.data) := by
  rcases C132_follows c (streamFollows W) ⟨s.data, rfl, hW⟩ with h | ⟨hp, -⟩ | ⟨h1, h2⟩
  · exact .inl h
  · exact hp.elim
  · refine .inr ⟨h1, fun hok => ?_⟩
    obtain ⟨_, rfl, h3⟩ := h2 hok
    exact h3

/-- **C132** On a seekable source with faults of any kind, in a debug build: the outcome on any well-behaved reader of the
bytes that follow, or an i/o error, or a panic. -/
theorem C132_seekable (c : SkipCode P α) (W : SkipView ρ) (s : SeekStream .checked) (hl : s.content.length < 2 ^ 64) {r : ρ}
    (hW : W.R r (s.content.drop s.pos.toNat)) :
    (∃ k, (c.run .checked (SeekStream .checked) s).1 = .err (.ioError k)) ∨ (c.run .checked (SeekStream .checked) s).1 = .panic ∨
      (c.run .checked (SeekStream .checked) s).1 = (c.run .checked ρ r).1 ∧
        ((c.run .checked (SeekStream .checked) s).1.isOk = true → (c.run .checked (SeekStream .checked) s).2.content = s.content ∧
          W.R (c.run .checked ρ r).2 (s.content.drop (c.run .checked (SeekStream .checked) s).2.pos.toNat)) := by
  rcases C132_follows c (seekFollows W s.content hl) ⟨_, ⟨rfl, rfl⟩, hW⟩ with h | ⟨-, h⟩ | ⟨h1, h2⟩
  · exact .inl h
  · exact .inr (.inl h)
  · refine .inr (.inr ⟨h1, fun hok => ?_⟩)
    obtain ⟨_, ⟨h3, rfl⟩, h4⟩ := h2 hok
    exact ⟨h3, h4⟩

/-- The same source in another build. -/
def inBuild {m : ArithMode} (m' : ArithMode) (s : SeekStream m) : SeekStream m' := ⟨s.content, s.pos, s.reads, s.writes, s.seeks⟩

theorem inBuild_seekTo (p : UInt64) (s : SeekStream .checked) :
    SeekStream.seekTo p (inBuild .wrapping s) = ((SeekStream.seekTo p s).1, inBuild .wrapping (SeekStream.seekTo p s).2) := by
  unfold SeekStream.seekTo inBuild
  rcases s.seeks with _ | ⟨_ | e, sk⟩ <;> rfl

/-- A seekable source in a debug build answers as in a release build, or fails, or panics. -/
def buildFollows : Follows (SeekStream .checked) (SeekStream .wrapping) :=
  have hall : ∀ n, AnswersAs True (fun (s : SeekStream .checked) r => r = inBuild .wrapping s)
      (SeekStream.readAll n) (SeekStream.readAll n) := by
    rintro n s _ rfl
    unfold SeekStream.readAll inBuild
    rcases readExact_any (s.content.drop s.pos.toNat) s.reads n with ⟨-, sc, h⟩ | ⟨e, k, sc, -, h⟩
    · simp only [h]; exact .inl ⟨_, _, _, rfl, rfl, rfl⟩
    · simp only [h]; exact .inr (.inl ⟨_, _, rfl⟩)
  have hseek : ∀ f : Bytes × UInt64 → UInt64, AnswersAs True (fun (s : SeekStream .checked) r => r = inBuild .wrapping s)
      (fun s => SeekStream.seekTo (f (s.content, s.pos)) s) (fun s => SeekStream.seekTo (f (s.content, s.pos)) s) := by
    rintro f s _ rfl
    have h := inBuild_seekTo (f (s.content, s.pos)) s
    simp only [show (inBuild .wrapping s).content = s.content from rfl, show (inBuild .wrapping s).pos = s.pos from rfl]
    rw [h]
    obtain ⟨s', ⟨h1, -⟩ | ⟨e, h1, -⟩, -⟩ := seekTo_any (f (s.content, s.pos)) s
    · rw [h1]; exact .inl ⟨_, _, _, rfl, rfl, rfl⟩
    · rw [h1]; exact .inr (.inl ⟨_, _, rfl⟩)
  have hskip : ∀ n, AnswersAs True (fun (s : SeekStream .checked) r => r = inBuild .wrapping s)
      (SeekStream.skipU64 n) (SeekStream.skipU64 n) := by
    intro n
    unfold SeekStream.skipU64
    by_cases hn : n = 0
    · rw [if_pos hn, if_pos hn]; exact AnswersAs.pure ()
    · rw [if_neg hn, if_neg hn]
      refine AnswersAs.bind (hseek fun x => x.2) fun p => AnswersAs.bind (hseek fun x => UInt64.ofNat x.1.length) fun q => ?_
      by_cases hq : p = q
      · rw [if_pos hq, if_pos hq]; exact fun s r h => .inr (.inl ⟨_, _, rfl⟩)
      · rw [if_neg hq, if_neg hq]
        by_cases hov : p.toNat + n.toNat < 2 ^ 64
        · rw [addU64_ok hov, addU64_ok hov]
          refine AnswersAs.bind (AnswersAs.pure _) fun z => ?_
          by_cases hz : z ≤ q
          · rw [if_pos hz, if_pos hz]; exact AnswersAs.bind (hseek fun _ => z) fun _ => AnswersAs.pure ()
          · rw [if_neg hz, if_neg hz]; exact fun s r h => .inr (.inl ⟨_, _, rfl⟩)
        · have hadd : addU64 (ε := IoErr) .checked p n = .panic := by unfold addU64; rw [if_neg (by omega)]
          rw [hadd]
          exact fun s r h => .inr (.inr ⟨trivial, _, Act.bind_panic rfl⟩)
  { panics := True
    Rel := fun s r => r = inBuild .wrapping s
    read := AnswersAs.bind (hall 1) fun bs => by
      cases bs with
      | nil => exact fun s r h => .inr (.inr ⟨trivial, _, rfl⟩)
      | cons b bs => exact AnswersAs.pure b
    readAll := hall
    skip := fun n _ => hskip _
    skipU64 := hskip }

/-- **C132** Code that succeeds on a seekable source in a debug build does the same in a release build. -/
theorem C132_release (c : SkipCode P α) (s : SeekStream .checked) {a : α} {s' : SeekStream .checked}
    (h : c.run .checked (SeekStream .checked) s = (.ok a, s')) :
    c.run .wrapping (SeekStream .wrapping) (inBuild .wrapping s) = (.ok a, inBuild .wrapping s') := by
  rcases c.agrees buildFollows (m := .checked) (m' := .wrapping) (.inr ⟨trivial, rfl⟩) s _ rfl with ⟨k, h1⟩ | ⟨-, h1⟩ | ⟨h1, h2⟩
  · rw [h] at h1; cases h1
  · rw [h] at h1; cases h1
  · rw [h] at h1 h2
    exact Prod.ext h1.symm (h2 rfl)

end

/-! ### A table of contents -/

section
attribute [local instance] bigEnv

/-- Scans `n` tags and returns their offsets; the value of every tag of id 17 is left alone as all others. -/
def contents (n : Nat) (off : UInt64) (acc : List RawTagOffset) : SkipCode Empty (List RawTagOffset) :=
  match n with
  | 0 => .done (.ok acc)
  | n + 1 => .scan off fun o next => contents n next (acc ++ o.toList)

/-- Skips a byte, reads a length, takes the first byte within it and leaves the rest, and lists the two tags after it. -/
def tocCode : SkipCode Empty (Byte × List RawTagOffset) :=
  .skip 1 (.get (.ilint fun n => .done (.ok n)) fun n =>
    .withinToEnd n (.get (.read fun b => .done (.ok b)) fun b => .done (.ok b)) fun b =>
    .get (.done (.ok ())) fun _ => bindPair b (contents 2 0 []))
where
  bindPair (b : Byte) (c : SkipCode Empty (List RawTagOffset)) : SkipCode Empty (Byte × List RawTagOffset) :=
    .within 100 c fun os _ => .done (.ok (b, os))

example : tocCode.run .checked ByteArrayReader (.new [99, 3, 7, 8, 9, 17, 2, 65, 66, 3, 200, 1]) =
    (.ok (7, [⟨17, 0, 2, 2⟩, ⟨3, 4, 1, 1⟩]), ⟨[99, 3, 7, 8, 9, 17, 2, 65, 66, 3, 200, 1], 11⟩) := by decide +kernel
/-- The same on a stream in pieces; a failure inside a skipped part. -/
example : (tocCode.run .checked ReadReader ⟨[99, 3, 7, 8, 9, 17, 2, 65, 66, 3, 200, 1], [.chunk 1, .chunk 1, .error .interrupted]⟩).1 =
      .ok (7, [⟨17, 0, 2, 2⟩, ⟨3, 4, 1, 1⟩]) ∧
    (tocCode.run .checked ReadReader ⟨[99, 3, 7, 8, 9, 17, 2, 65, 66, 3, 200, 1],
      [.chunk 1, .chunk 1, .chunk 1, .chunk 1, .error (.other 5)]⟩).1 = .err (.ioError (.ioError (.other 5))) := by decide +kernel
example := C132_stream (m := .checked) tocCode ByteArrayReader.view
  ⟨[99, 3, 7, 8, 9, 17, 2, 65, 66, 3, 200, 1], [.chunk 1, .chunk 1, .error .interrupted]⟩ (ByteArrayReader.view_new _)
example := C132_only_bytes (m := .checked) tocCode ByteArrayReader.view ReadReader.view
  (bs := [99, 3, 7, 8, 9, 17, 2, 65, 66, 3, 200, 1]) (ByteArrayReader.view_new _)
  (r := ⟨[99, 3, 7, 8, 9, 17, 2, 65, 66, 3, 200, 1], [.chunk 1]⟩) ⟨rfl, by simp [Benign]⟩
example := C132_follows (m := .checked) tocCode (streamFollows ByteArrayReader.view) (s := ⟨[99, 3, 7], [.error (.other 5)]⟩)
  ⟨[99, 3, 7], rfl, ByteArrayReader.view_new _⟩
example := C132_alike (m := .checked) tocCode (viewsAlike ByteArrayReader.view ByteArrayReader.view)
  ⟨[99, 3, 7], ByteArrayReader.view_new _, ByteArrayReader.view_new _⟩
/-- A skip beyond the end inside a limited reader fails alike. -/
example : ((SkipCode.withinToEnd 3 (.skip (P := Empty) 4 (.done (.ok ()))) fun _ => .done (.ok ())).run .checked ByteArrayReader (.new [1, 2, 3, 4, 5])).1 matches
      .err (.ioError _) := by decide +kernel
example := C132_seekable tocCode ByteArrayReader.view ⟨[0, 99, 3, 7, 8, 9], 1, [.chunk 1], [], []⟩ (by decide)
  (ByteArrayReader.view_new _)
example : (tocCode.run .checked (SeekStream .checked) ⟨[99, 3, 7, 8, 9, 17, 2, 65, 66, 3, 200, 1], 0, [], [], []⟩) =
    (.ok (7, [⟨17, 0, 2, 2⟩, ⟨3, 4, 1, 1⟩]), ⟨[99, 3, 7, 8, 9, 17, 2, 65, 66, 3, 200, 1], 11, [], [], []⟩) := by decide +kernel
example := C132_release tocCode ⟨[99, 3, 7, 8, 9, 17, 2, 65, 66, 3, 200, 1], 0, [], [], []⟩
  (a := (7, [⟨17, 0, 2, 2⟩, ⟨3, 4, 1, 1⟩])) (s' := ⟨[99, 3, 7, 8, 9, 17, 2, 65, 66, 3, 200, 1], 11, [], [], []⟩) (by decide +kernel)
/-- Near 2^64 a seekable source panics, or moves backwards in a release build, where others fail (C23, C60). -/
example : ((SkipCode.skip (P := Empty) 1 (.skipU64 0xffffffffffffffff (.done (.ok ())))).run .checked ByteArrayReader (.new [1, 2])).1 =
      .err (.ioError .unableToReadData) ∧
    ((SkipCode.skip (P := Empty) 1 (.skipU64 0xffffffffffffffff (.done (.ok ())))).run .checked (SeekStream .checked) ⟨[1, 2], 0, [], [], []⟩).1 =
      .panic ∧
    (SkipCode.skip (P := Empty) 1 (.skipU64 0xffffffffffffffff (.done (.ok ())))).run .wrapping (SeekStream .wrapping) ⟨[1, 2], 0, [], [], []⟩ =
      (.ok (), ⟨[1, 2], 0, [], [], []⟩) := by decide +kernel
end

end Verif.Props
