import Verif.Proof.ConvCode
import Verif.Props.ReadCode
import Verif.Props.Serialize
/-!
# C131: an interrupted conversion has written a prefix of the right output
-/
namespace Verif.Props
open Verif Verif.Spec
set_option linter.unusedSectionVars false

section
variable {P : Type} [TagPayload P] [Env] {α : Type} {σ ρ ω ψ : Type} [Reader σ] [Reader ρ] [Writer ω] [Writer ψ]

/-- A writer that accepts everything has got some more bytes. -/
theorem put_sink (x : Out P) : ∃ (ops : List WOp) (r : Res TagErr Unit),
    (∀ (ω : Type) [Writer ω] (w : ω), x.run w = match runOps ops w with
      | (.ok (), w') => (r, w')
      | q => q) ∧
    ∀ (ω : Type) [Writer ω] (S : Sink ω) (w : ω) (L : Bytes), S.W w L →
      ∃ w', runOps ops w = (.ok (), w') ∧ x.run w = (r, w') ∧ S.W w' (L ++ opsBytes ops) := by
  obtain ⟨ops, r, h1, -⟩ := IsOps.out x
  have h0 : ∀ (ω : Type) [Writer ω] (w : ω), x.run w = match runOps ops w with
      | (.ok (), w') => (r, w')
      | q => q := by
    intro ω _ w
    have h2 : (x.run : Act TagErr ω Unit) = (do runOps ops; Act.lift r) := h1 ω
    rw [h2, Act.bind_apply]
    rcases (runOps ops w : Res TagErr Unit × ω) with ⟨o, w'⟩
    cases o <;> rfl
  refine ⟨ops, r, h0, fun ω _ S w L hS => ?_⟩
  obtain ⟨w', h3, h4⟩ := succeed_sink S ops hS
  refine ⟨w', runOps_succeed h3, ?_, h4⟩
  rw [h0, runOps_succeed h3]

theorem conv_grows (c : ConvCode P α) (S : Sink ψ) : ∀ {w : ψ} {L : Bytes} (r : ρ), S.W w L →
    ∃ out, S.W (c.run ψ ρ (w, r)).2.1 out ∧ L <+: out := by
  induction c with
  | done r => exact fun _ h => ⟨_, h, List.prefix_refl _⟩
  | get c k ih =>
    intro w L r hS
    simp only [ConvCode.run]
    have hm : onReader (c.run ρ) (w, r) = ((c.run ρ r).1, (w, (c.run ρ r).2)) := rfl
    rcases hc : (c.run ρ r).1 with b | e | _ | _ <;> rw [hc] at hm
    · rw [Act.bind_ok hm]; exact ih b _ hS
    · rw [Act.bind_err hm]; exact ⟨L, hS, List.prefix_refl _⟩
    · rw [Act.bind_panic hm]; exact ⟨L, hS, List.prefix_refl _⟩
    · rw [Act.bind_diverge hm]; exact ⟨L, hS, List.prefix_refl _⟩
  | put x k ih =>
    intro w L r hS
    simp only [ConvCode.run]
    obtain ⟨ops, o, -, h2⟩ := put_sink x
    obtain ⟨w', -, h3, h4⟩ := h2 ψ S w L hS
    have hm : onWriter (σ := ρ) x.run (w, r) = (o, (w', r)) := by unfold onWriter; rw [h3]
    cases o with
    | ok u =>
      rw [Act.bind_ok hm]
      obtain ⟨out, h5, h6⟩ := ih r h4
      exact ⟨out, h5, (List.prefix_append _ _).trans h6⟩
    | err e => rw [Act.bind_err hm]; exact ⟨_, h4, List.prefix_append _ _⟩
    | panic => rw [Act.bind_panic hm]; exact ⟨_, h4, List.prefix_append _ _⟩
    | diverge => rw [Act.bind_diverge hm]; exact ⟨_, h4, List.prefix_append _ _⟩

/-- What the run on a watched writer and a faulty reader has to do with the run without faults. -/
def CutShort (F : FaultyView σ) (V : View ρ) (o : Res TagErr α × Noted ω × σ) (p : Res TagErr α × ψ × ρ) (out : Bytes) :
    Prop :=
  (o.2.1.failed = [] ∧ o.1 = p.1 ∧ o.2.1.log = out ∧
    (o.1.isOk = true → ∃ rest, F.R o.2.2 rest ∧ V.R p.2.2 rest)) ∨
  (o.2.1.log <+: out ∧
    ((o.2.1.failed = [] ∧ ∃ k, o.1 = .err (.ioError k)) ∨ ∃ x, o.2.1.failed = [x] ∧ x.isOk = false ∧ o.1 = ofFailure x))

theorem conv_prefix (c : ConvCode P α) (F : FaultyView σ) (V : View ρ) (S : Sink ψ) : ∀ {s : σ} {r : ρ} {w : ω} {v : ψ}
    {bs L : Bytes}, F.R s bs → V.R r bs → S.W v L →
    ∃ out, S.W (c.run ψ ρ (v, r)).2.1 out ∧
      CutShort F V (c.run (Noted ω) σ (⟨w, L, []⟩, s)) (c.run ψ ρ (v, r)) out := by
  induction c with
  | done o => exact fun hF hV hS => ⟨_, hS, .inl ⟨rfl, rfl, rfl, fun _ => ⟨_, hF, hV⟩⟩⟩
  | get c k ih =>
    intro s r w v bs L hF hV hS
    have hf := C130_faults c F V hF hV
    have h1 : onReader (c.run σ) ((⟨w, L, []⟩ : Noted ω), s) = ((c.run σ s).1, (⟨w, L, []⟩, (c.run σ s).2)) := rfl
    have h2 : onReader (c.run ρ) (v, r) = ((c.run ρ r).1, (v, (c.run ρ r).2)) := rfl
    rcases hf with ⟨e, he⟩ | ⟨heq, hrest⟩
    · obtain ⟨out, h3, h4⟩ := conv_grows (.get c k) S r hS
      refine ⟨out, h3, .inr ?_⟩
      simp only [ConvCode.run]
      rw [he] at h1
      rw [Act.bind_err h1]
      exact ⟨h4, .inl ⟨rfl, e, rfl⟩⟩
    · rw [← heq] at h2
      simp only [ConvCode.run]
      rcases hc : (c.run σ s).1 with b | e | _ | _ <;> rw [hc] at h1 h2
      · rw [Act.bind_ok h1, Act.bind_ok h2]
        obtain ⟨rest, hF', hV'⟩ := hrest (by rw [hc]; rfl)
        exact ih b hF' hV' hS
      · rw [Act.bind_err h1, Act.bind_err h2]; exact ⟨L, hS, .inl ⟨rfl, rfl, rfl, by simp [Res.isOk]⟩⟩
      · rw [Act.bind_panic h1, Act.bind_panic h2]; exact ⟨L, hS, .inl ⟨rfl, rfl, rfl, by simp [Res.isOk]⟩⟩
      · rw [Act.bind_diverge h1, Act.bind_diverge h2]; exact ⟨L, hS, .inl ⟨rfl, rfl, rfl, by simp [Res.isOk]⟩⟩
  | put x k ih =>
    intro s r w v bs L hF hV hS
    obtain ⟨ops, o, ho, h2⟩ := put_sink x
    obtain ⟨v', -, h3, h4⟩ := h2 ψ S v L hS
    have hv : onWriter (σ := ρ) x.run (v, r) = (o, (v', r)) := by unfold onWriter; rw [h3]
    rcases Noted.runOps ops (⟨w, L, []⟩ : Noted ω) with ⟨w', h5, -⟩ | ⟨y, w', pre, hp, hy, h5, -⟩
    · have hw : onWriter (σ := σ) x.run ((⟨w, L, []⟩ : Noted ω), s) = (o, (⟨w', L ++ opsBytes ops, []⟩, s)) := by
        unfold onWriter; rw [ho, h5]
      simp only [ConvCode.run]
      cases o with
      | ok u => rw [Act.bind_ok hv, Act.bind_ok hw]; exact ih hF hV h4
      | err e => rw [Act.bind_err hv, Act.bind_err hw]; exact ⟨_, h4, .inl ⟨rfl, rfl, rfl, by simp [Res.isOk]⟩⟩
      | panic => rw [Act.bind_panic hv, Act.bind_panic hw]; exact ⟨_, h4, .inl ⟨rfl, rfl, rfl, by simp [Res.isOk]⟩⟩
      | diverge => rw [Act.bind_diverge hv, Act.bind_diverge hw]; exact ⟨_, h4, .inl ⟨rfl, rfl, rfl, by simp [Res.isOk]⟩⟩
    · have hw : onWriter (σ := σ) x.run ((⟨w, L, []⟩ : Noted ω), s) = (ofFailure y, (⟨w', L ++ pre, [y]⟩, s)) := by
        unfold onWriter
        rw [ho, h5]
        cases y <;> first | rfl | simp [Res.isOk] at hy
      have hgrow : ∃ out, S.W ((ConvCode.put x k).run ψ ρ (v, r)).2.1 out ∧ L ++ opsBytes ops <+: out := by
        simp only [ConvCode.run]
        cases o with
        | ok u => rw [Act.bind_ok hv]; exact conv_grows k S r h4
        | err e => rw [Act.bind_err hv]; exact ⟨_, h4, List.prefix_refl _⟩
        | panic => rw [Act.bind_panic hv]; exact ⟨_, h4, List.prefix_refl _⟩
        | diverge => rw [Act.bind_diverge hv]; exact ⟨_, h4, List.prefix_refl _⟩
      obtain ⟨out, h6, h7⟩ := hgrow
      refine ⟨out, h6, .inr ?_⟩
      simp only [ConvCode.run]
      rw [ofFailure_bind hy hw]
      exact ⟨((List.prefix_append_right_inj L).mpr hp).trans h7, .inr ⟨y, rfl, hy, rfl⟩⟩

/-- **C131** Code that converts, on a reader that may fail at any call and a writer of any kind.  Compared with a run without
faults on the same bytes, either no fault shows, and the result, the output and the place in the input are the same; or the
code ends with the first failure of its reader or writer, and the bytes accepted by the writer are a prefix of the right
output. -/
theorem C131_prefix (c : ConvCode P α) (F : FaultyView σ) (V : View ρ) (S : Sink ψ) {s : σ} {r : ρ} {v : ψ} {bs : Bytes}
    (hF : F.R s bs) (hV : V.R r bs) (hS : S.W v []) (w : ω) :
    let o := c.run (Noted ω) σ (.start w, s)
    let p := c.run ψ ρ (v, r)
    ∃ out, S.W p.2.1 out ∧
      ((o.2.1.failed = [] ∧ o.1 = p.1 ∧ o.2.1.log = out ∧
          (o.1.isOk = true → ∃ rest, F.R o.2.2 rest ∧ V.R p.2.2 rest)) ∨
       (o.2.1.log <+: out ∧ ((o.2.1.failed = [] ∧ ∃ k, o.1 = .err (.ioError k)) ∨
          ∃ x, o.2.1.failed = [x] ∧ x.isOk = false ∧ o.1 = ofFailure x))) :=
  conv_prefix c F V S hF hV hS

/-- **C131** Watching the writer changes nothing. -/
theorem C131_watching (c : ConvCode P α) (w : Noted ω) (s : σ) : c.run ω σ (w.writer, s) =
    ((c.run (Noted ω) σ (w, s)).1, (c.run (Noted ω) σ (w, s)).2.1.writer, (c.run (Noted ω) σ (w, s)).2.2) := by
  induction c generalizing w s with
  | done o => rfl
  | get c k ih =>
    simp only [ConvCode.run]
    have h1 : onReader (c.run σ) (w, s) = ((c.run σ s).1, (w, (c.run σ s).2)) := rfl
    have h2 : onReader (c.run σ) (w.writer, s) = ((c.run σ s).1, (w.writer, (c.run σ s).2)) := rfl
    rcases hc : (c.run σ s).1 with b | e | _ | _ <;> rw [hc] at h1 h2
    · rw [Act.bind_ok h1, Act.bind_ok h2]; exact ih b w _
    · rw [Act.bind_err h1, Act.bind_err h2]
    · rw [Act.bind_panic h1, Act.bind_panic h2]
    · rw [Act.bind_diverge h1, Act.bind_diverge h2]
  | put x k ih =>
    obtain ⟨ops, o, ho, -⟩ := put_sink x
    simp only [ConvCode.run]
    rcases Noted.runOps ops w with ⟨w', h5, h6⟩ | ⟨y, w', pre, hp, hy, h5, h6⟩
    · have hw : onWriter (σ := σ) x.run (w, s) = (o, (⟨w', w.log ++ opsBytes ops, w.failed⟩, s)) := by
        unfold onWriter; rw [ho, h5]
      have hv : onWriter (σ := σ) x.run (w.writer, s) = (o, (w', s)) := by
        unfold onWriter; rw [ho, h6]
      cases o with
      | ok u => rw [Act.bind_ok hv, Act.bind_ok hw]; exact ih ⟨w', _, _⟩ s
      | err e => rw [Act.bind_err hv, Act.bind_err hw]
      | panic => rw [Act.bind_panic hv, Act.bind_panic hw]
      | diverge => rw [Act.bind_diverge hv, Act.bind_diverge hw]
    · have hw : onWriter (σ := σ) x.run (w, s) = (ofFailure y, (⟨w', w.log ++ pre, w.failed ++ [y]⟩, s)) := by
        unfold onWriter; rw [ho, h5]; cases y <;> first | rfl | simp [Res.isOk] at hy
      have hv : onWriter (σ := σ) x.run (w.writer, s) = (ofFailure y, (w', s)) := by
        unfold onWriter; rw [ho, h6]; cases y <;> first | rfl | simp [Res.isOk] at hy
      rw [ofFailure_bind hy hw, ofFailure_bind hy hv]

/-- A watched writer that accepts everything holds what was noted. -/
theorem noted_sink (c : ConvCode P α) (S : Sink ω) (w : Noted ω) (s : σ) (hS : S.W w.writer w.log) :
    S.W (c.run (Noted ω) σ (w, s)).2.1.writer (c.run (Noted ω) σ (w, s)).2.1.log ∧
      (c.run (Noted ω) σ (w, s)).2.1.failed = w.failed := by
  induction c generalizing w s with
  | done o => exact ⟨hS, rfl⟩
  | get c k ih =>
    simp only [ConvCode.run]
    have h1 : onReader (c.run σ) (w, s) = ((c.run σ s).1, (w, (c.run σ s).2)) := rfl
    rcases hc : (c.run σ s).1 with b | e | _ | _ <;> rw [hc] at h1
    · rw [Act.bind_ok h1]; exact ih b w _ hS
    · rw [Act.bind_err h1]; exact ⟨hS, rfl⟩
    · rw [Act.bind_panic h1]; exact ⟨hS, rfl⟩
    · rw [Act.bind_diverge h1]; exact ⟨hS, rfl⟩
  | put x k ih =>
    obtain ⟨ops, o, ho, h2⟩ := put_sink x
    obtain ⟨v, h3, -, h4⟩ := h2 ω S w.writer w.log hS
    simp only [ConvCode.run]
    rcases Noted.runOps ops w with ⟨w', h5, h6⟩ | ⟨y, w', pre, hp, hy, h5, h6⟩
    · have hw : onWriter (σ := σ) x.run (w, s) = (o, (⟨w', w.log ++ opsBytes ops, w.failed⟩, s)) := by
        unfold onWriter; rw [ho, h5]
      rw [h3] at h6
      obtain rfl : v = w' := by simpa using h6
      cases o with
      | ok u => rw [Act.bind_ok hw]; exact ih ⟨v, _, _⟩ s h4
      | err e => rw [Act.bind_err hw]; exact ⟨h4, rfl⟩
      | panic => rw [Act.bind_panic hw]; exact ⟨h4, rfl⟩
      | diverge => rw [Act.bind_diverge hw]; exact ⟨h4, rfl⟩
    · rw [h3] at h6
      cases y <;> simp [ofFailure, Res.isOk] at h6 hy

/-- A reader that holds `bs`, seen as one over a longer source that fails at the end of `bs`. -/
def cutView (V : View σ) (more : Bytes) : FaultyView σ where
  R s x := ∃ bs, V.R s bs ∧ x = bs ++ more
  read_any := by
    rintro s _ ⟨bs, h, rfl⟩
    cases bs with
    | nil =>
      obtain ⟨e, s', h1, -⟩ := V.read_nil h
      exact .inr ⟨e, s', h1⟩
    | cons b bs =>
      obtain ⟨s', h1, h2⟩ := V.read_cons h
      exact .inl ⟨b, bs ++ more, s', rfl, h1, bs, h2, rfl⟩
  readAll_any := by
    rintro s _ n ⟨bs, h, rfl⟩
    by_cases hn : n ≤ bs.length
    · obtain ⟨s', h1, h2⟩ := V.readAll_ok h hn
      refine .inl ⟨by simp; omega, s', by rw [h1, List.take_append_of_le_length hn], bs.drop n, h2, ?_⟩
      rw [List.drop_append_of_le_length hn]
    · obtain ⟨e, s', h1, -⟩ := V.readAll_short (n := n) h (by omega)
      exact .inr ⟨e, s', h1⟩

/-- **C131** Input that arrives in part.  On a part of the input, with writers that accept everything, either the result and the
output are those on the whole, and what was left of the part is left; or the code fails with an i/o error, having written a
prefix of the output on the whole. -/
theorem C131_cut {φ : Type} [Writer φ] (c : ConvCode P α) (V : View σ) (W : View ρ) (Q : Sink φ) (S : Sink ψ) {s : σ} {r : ρ} {u : φ} {v : ψ}
    {bs more : Bytes} (hV : V.R s bs) (hW : W.R r (bs ++ more)) (hQ : Q.W u []) (hS : S.W v []) :
    let o := c.run φ σ (u, s)
    let p := c.run ψ ρ (v, r)
    ∃ part out, Q.W o.2.1 part ∧ S.W p.2.1 out ∧
      ((o.1 = p.1 ∧ part = out ∧ (o.1.isOk = true → ∃ rest, V.R o.2.2 rest ∧ W.R p.2.2 (rest ++ more))) ∨
       (part <+: out ∧ ∃ k, o.1 = .err (.ioError k))) := by
  have h1 := C131_watching c (Noted.start u) s
  obtain ⟨h2, h3⟩ := noted_sink c Q (Noted.start u) s hQ
  obtain ⟨out, h4, h5⟩ := C131_prefix c (cutView V more) W S ⟨bs, hV, rfl⟩ hW hS u
  simp only [Noted.start] at h1 h2 h3 h4 h5 ⊢
  rw [h1]
  refine ⟨_, out, h2, h4, ?_⟩
  rcases h5 with ⟨-, h6, h7, h8⟩ | ⟨h6, ⟨-, h7⟩ | ⟨x, h7, -⟩⟩
  · refine .inl ⟨h6, h7, fun hok => ?_⟩
    obtain ⟨_, ⟨rest, hr, rfl⟩, hr'⟩ := h8 hok
    exact ⟨rest, hr, hr'⟩
  · exact .inr ⟨h6, h7⟩
  · rw [h3] at h7; simp at h7

/-- **C131** Conversions one after another.  A second conversion `d` reads, through any well-behaved reader, what the writer of
an interrupted first one `c` has accepted.  What it writes is a prefix of what it writes on the right output of the first; and
if it does not fail with an i/o error, it is the whole, with the same result. -/
theorem C131_pipeline {β σ₂ ρ₂ φ : Type} [Reader σ₂] [Reader ρ₂] [Writer φ] (c : ConvCode P α) (d : ConvCode P β)
    (F : FaultyView σ) (V : View ρ) (S : Sink ψ) (V₂ : View σ₂) (W₂ : View ρ₂) (Q : Sink φ) {s : σ} {r : ρ} {v : ψ}
    {bs : Bytes} (hF : F.R s bs) (hV : V.R r bs) (hS : S.W v []) (w : ω) {u : φ} (hQ : Q.W u []) :
    ∃ out, S.W (c.run ψ ρ (v, r)).2.1 out ∧ ∀ (s₂ : σ₂) (r₂ : ρ₂),
      V₂.R s₂ (c.run (Noted ω) σ (.start w, s)).2.1.log → W₂.R r₂ out →
      ∃ part whole, Q.W (d.run φ σ₂ (u, s₂)).2.1 part ∧ Q.W (d.run φ ρ₂ (u, r₂)).2.1 whole ∧ part <+: whole ∧
        ((part = whole ∧ (d.run φ σ₂ (u, s₂)).1 = (d.run φ ρ₂ (u, r₂)).1) ∨
          ∃ k, (d.run φ σ₂ (u, s₂)).1 = .err (.ioError k)) := by
  obtain ⟨out, h1, h2⟩ := C131_prefix c F V S hF hV hS w
  refine ⟨out, h1, fun s₂ r₂ hs hr => ?_⟩
  have hp : (c.run (Noted ω) σ (.start w, s)).2.1.log <+: out := by
    rcases h2 with ⟨-, -, h, -⟩ | ⟨h, -⟩
    · rw [h]; exact List.prefix_refl _
    · exact h
  obtain ⟨more, rfl⟩ := hp
  obtain ⟨part, whole, h3, h4, h5⟩ := C131_cut d V₂ W₂ Q Q hs hr hQ hQ
  refine ⟨part, whole, h3, h4, ?_⟩
  rcases h5 with ⟨h6, rfl, -⟩ | ⟨h6, h7⟩
  · exact ⟨List.prefix_refl _, .inl ⟨rfl, h6⟩⟩
  · exact ⟨h6, .inr h7⟩

end

/-! ### A filter -/

section
attribute [local instance] bigEnv

/-- Copies `n` tags to the output, each with its length as an ILInt before it; tags of id 16 are dropped. -/
def framedCopy : Nat → ConvCode Empty Unit
  | 0 => .done (.ok ())
  | n + 1 => .get (.tag (Engine.std true) fun t => .done (.ok t)) fun t =>
    if t.id = 16 then framedCopy n else .put (.ilint t.size) (.put (.tag t) (framedCopy n))

/-- Three tags, one of which is dropped: without faults, with a writer that takes three calls, and with a reader that breaks
inside the third tag. -/
example : (framedCopy 3).run VecWriter ByteArrayReader (.new, .new [3, 200, 16, 1, 7, 17, 2, 65, 66, 9]) =
      (.ok (), (⟨[2, 3, 200, 4, 17, 2, 65, 66], 8, false⟩, ⟨[3, 200, 16, 1, 7, 17, 2, 65, 66, 9], 9⟩)) ∧
    ((framedCopy 3).run (Noted Recorder) ByteArrayReader (.start ⟨4, [], .endOfData⟩, .new [3, 200, 16, 1, 7, 17, 2, 65, 66, 9])).1 =
      .err (.ioError .endOfData) ∧
    ((framedCopy 3).run (Noted Recorder) ByteArrayReader
      (.start ⟨4, [], .endOfData⟩, .new [3, 200, 16, 1, 7, 17, 2, 65, 66, 9])).2.1.log = [2, 3, 200, 4] ∧
    ((framedCopy 3).run (Noted VecWriter) ReadReader (.start .new,
      ⟨[3, 200, 16, 1, 7, 17, 2, 65, 66, 9], [.chunk 1, .chunk 1, .chunk 1, .chunk 1, .chunk 1, .chunk 1, .error (.other 5)]⟩)).2.1.log =
        [2, 3, 200] := by
  simp only [framedCopy, ConvCode.run, ReadCode.run]
  simp only [deserialize_eq]
  decide +kernel

/-- Everything that can be written. -/
example : ((ConvCode.put (.byte 1) (.put (.all [2, 3]) (.put (.ilint 300) (.put (.signedILInt (-2)) (.put (.stringTag "A")
      (.put (.tag (.atom (.uint8 3 9))) (.put (.value (.atom (.uint8 3 9))) (.done (.ok ())))))))) : ConvCode Empty Unit).run
        VecWriter ByteArrayReader (.new, .new [])).2.1.vector = [1, 2, 3, 248, 52, 3, 17, 1, 65, 3, 9, 9] := by
  decide +kernel

/-- Takes the frames of `framedCopy` off again. -/
def unframe : Nat → ConvCode Empty Unit
  | 0 => .done (.ok ())
  | n + 1 => .get (.ilint fun k => .bytes k.toNat fun bs => .done (.ok bs)) fun bs => .put (.all bs) (unframe n)

example : ((unframe 2).run VecWriter ByteArrayReader (.new, .new [2, 3, 200, 4, 17, 2, 65, 66])).2.1.vector =
      [3, 200, 17, 2, 65, 66] ∧
    ((unframe 2).run VecWriter ByteArrayReader (.new, .new [2, 3, 200, 4])).2.1.vector = [3, 200] ∧
    ((unframe 2).run VecWriter ByteArrayReader (.new, .new [2, 3, 200, 4])).1 = .err (.ioError .endOfData) := by
  decide +kernel

/-- The hypotheses of the theorems. -/
example := C131_pipeline (framedCopy 3) (unframe 2) ReadReader.faulty ByteArrayReader.view.toView VecWriter.sink
  ByteArrayReader.view.toView ByteArrayReader.view.toView VecWriter.sink
  (s := ⟨[3, 200, 16, 1, 7, 17, 2, 65, 66, 9], [.chunk 1, .error .interrupted, .chunk 1, .error (.other 5)]⟩) rfl
  (ByteArrayReader.view_new _) VecWriter.sink_new (⟨3, [], .endOfData⟩ : Recorder) VecWriter.sink_new

example := C131_prefix (framedCopy 3) ReadReader.faulty ByteArrayReader.view.toView VecWriter.sink
  (s := ⟨[3, 200, 16, 1, 7, 17, 2, 65, 66, 9], [.chunk 1, .error .interrupted, .chunk 1, .error (.other 5)]⟩) rfl
  (ByteArrayReader.view_new _) VecWriter.sink_new (⟨3, [], .endOfData⟩ : Recorder)

example := C131_cut (framedCopy 3) ByteArrayReader.view.toView ByteArrayReader.view.toView VecWriter.sink VecWriter.sink
  (bs := [3, 200, 16, 1]) (more := [7, 17, 2, 65, 66, 9]) (ByteArrayReader.view_new _) (ByteArrayReader.view_new _)
  VecWriter.sink_new VecWriter.sink_new
end

end Verif.Props
