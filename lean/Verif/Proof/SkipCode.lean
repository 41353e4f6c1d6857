import Verif.Model.SkipCode
import Verif.Spec.Follows
import Verif.Proof.ReadCode
/-!
# Code on readers that answer as others do
-/
namespace Verif
open Spec
set_option linter.unusedSectionVars false

section
variable {ε σ ρ α β : Type} {p : Prop} {Rel : σ → ρ → Prop}

theorem AnswersAs.pure (a : α) : AnswersAs p Rel (Pure.pure a : Act ε σ α) (Pure.pure a) :=
  fun s r h => .inl ⟨a, s, r, rfl, rfl, h⟩

theorem AnswersAs.bind {x : Act ε σ α} {y : Act ε ρ α} {k : α → Act ε σ β} {k' : α → Act ε ρ β} (h : AnswersAs p Rel x y)
    (hk : ∀ a, AnswersAs p Rel (k a) (k' a)) : AnswersAs p Rel (x >>= k) (y >>= k') := by
  intro s r hr
  rcases h s r hr with ⟨a, s', r', h1, h2, h3⟩ | ⟨e, s', h1⟩ | ⟨hp, s', h1⟩
  · rw [Act.bind_ok h1, Act.bind_ok h2]; exact hk a s' r' h3
  · rw [Act.bind_err h1]; exact .inr (.inl ⟨e, s', rfl⟩)
  · rw [Act.bind_panic h1]; exact .inr (.inr ⟨hp, s', rfl⟩)

theorem AnswersAs.defaultSkip {x : Nat → Act IoErr σ Bytes} {y : Nat → Act IoErr ρ Bytes} (h : ∀ n, AnswersAs p Rel (x n) (y n))
    (n : Nat) : AnswersAs p Rel (Verif.defaultSkip x n) (Verif.defaultSkip y n) := by
  induction n using Nat.strongRecOn with
  | ind n ih =>
    rw [Verif.defaultSkip.eq_1 x n, Verif.defaultSkip.eq_1 y n]
    by_cases hn : n = 0
    · rw [dif_pos hn, dif_pos hn]; exact AnswersAs.pure ()
    · rw [dif_neg hn, dif_neg hn]
      exact AnswersAs.bind (h _) fun _ => ih _ (by omega)

theorem AnswersAs.defaultSkipU64Loop {x : Nat → Act IoErr σ Unit} {y : Nat → Act IoErr ρ Unit} (u : Nat)
    (h : ∀ n, AnswersAs p Rel (x n) (y n)) (n : Nat) :
    AnswersAs p Rel (Verif.defaultSkipU64Loop u x n) (Verif.defaultSkipU64Loop u y n) := by
  induction n using Nat.strongRecOn with
  | ind n ih =>
    rw [Verif.defaultSkipU64Loop.eq_1 u x n, Verif.defaultSkipU64Loop.eq_1 u y n]
    by_cases hn : n = 0
    · rw [dif_pos hn, dif_pos hn]; exact AnswersAs.pure ()
    · rw [dif_neg hn, dif_neg hn]
      exact AnswersAs.bind (h _) fun _ => ih _ (by omega)

/-- The outcomes are the same, or the first is an i/o error, or a panic if that is allowed. -/
def Tracks (p : Prop) (Rel : σ → ρ → Prop) (x : Act TagErr σ α) (y : Act TagErr ρ α) : Prop :=
  ∀ s r, Rel s r → (∃ k, (x s).1 = .err (.ioError k)) ∨ (p ∧ (x s).1 = .panic) ∨
    ((x s).1 = (y r).1 ∧ ((x s).1.isOk = true → Rel (x s).2 (y r).2))

theorem Tracks.lift (o : Res TagErr α) : Tracks p Rel (Act.lift o) (Act.lift o) := fun _ _ h => .inr (.inr ⟨rfl, fun _ => h⟩)
theorem Tracks.pure (a : α) : Tracks p Rel (Pure.pure a) (Pure.pure a) := Tracks.lift (.ok a)

theorem Tracks.bind {x : Act TagErr σ α} {y : Act TagErr ρ α} {k : α → Act TagErr σ β} {k' : α → Act TagErr ρ β}
    (h : Tracks p Rel x y) (hk : ∀ a, Tracks p Rel (k a) (k' a)) : Tracks p Rel (x >>= k) (y >>= k') := by
  intro s r hr
  have h0 := h s r hr
  rcases hx : x s with ⟨o, s'⟩
  rcases hy : y r with ⟨o', r'⟩
  rw [hx, hy] at h0
  rcases h0 with ⟨e, h1⟩ | ⟨hp, h1⟩ | ⟨h1, h2⟩
  · simp only at h1
    subst h1
    rw [Act.bind_err hx]; exact .inl ⟨e, rfl⟩
  · simp only at h1
    subst h1
    rw [Act.bind_panic hx]; exact .inr (.inl ⟨hp, rfl⟩)
  · simp only at h1 h2
    subst h1
    cases o with
    | ok a => rw [Act.bind_ok hx, Act.bind_ok hy]; exact hk a s' r' (h2 rfl)
    | err e => rw [Act.bind_err hx, Act.bind_err hy]; exact .inr (.inr ⟨rfl, by simp [Res.isOk]⟩)
    | panic => rw [Act.bind_panic hx, Act.bind_panic hy]; exact .inr (.inr ⟨rfl, by simp [Res.isOk]⟩)
    | diverge => rw [Act.bind_diverge hx, Act.bind_diverge hy]; exact .inr (.inr ⟨rfl, by simp [Res.isOk]⟩)

theorem Tracks.io {x : Act IoErr σ α} {y : Act IoErr ρ α} (h : AnswersAs p Rel x y) : Tracks p Rel (tagIo x) (tagIo y) := by
  intro s r hr
  unfold tagIo Act.mapErr
  rcases h s r hr with ⟨a, s', r', h1, h2, h3⟩ | ⟨e, s', h1⟩ | ⟨hp, s', h1⟩
  · rw [h1, h2]; exact .inr (.inr ⟨rfl, fun _ => h3⟩)
  · rw [h1]; exact .inl ⟨e, rfl⟩
  · rw [h1]; exact .inr (.inl ⟨hp, rfl⟩)

end

namespace Spec.Follows
variable {σ ρ : Type} [Reader σ] [Reader ρ]

/-- Through a limited reader. -/
def limited (F : Follows σ ρ) : Follows (Limited σ) (Limited ρ) :=
  have hall : ∀ n, AnswersAs F.panics (fun l l' : Limited _ => F.Rel l.source l'.source ∧ l.available = l'.available ∧ l.available < 2 ^ 64)
      (Limited.readAll n : Act IoErr (Limited σ) Bytes) (Limited.readAll n) := by
    rintro n ⟨s, k⟩ ⟨r, _⟩ ⟨h, rfl, hk⟩
    simp only [Limited.readAll, Limited.canRead]
    by_cases hn : n > k
    · rw [if_pos hn]; exact .inr (.inl ⟨_, _, rfl⟩)
    · rw [if_neg hn]
      rcases F.readAll n s r h with ⟨a, s', r', h1, h2, h3⟩ | ⟨e, s', h1⟩ | ⟨hp, s', h1⟩
      · rw [h1, h2]; exact .inl ⟨a, _, _, rfl, rfl, h3, rfl, by simp only [Res.isOk, if_true] at hk ⊢; omega⟩
      · rw [h1]; exact .inr (.inl ⟨e, _, rfl⟩)
      · rw [h1]; exact .inr (.inr ⟨hp, _, rfl⟩)
  { panics := F.panics
    Rel := fun l l' => F.Rel l.source l'.source ∧ l.available = l'.available ∧ l.available < 2 ^ 64
    read := by
      rintro ⟨s, k⟩ ⟨r, _⟩ ⟨h, rfl, hk⟩
      simp only [show (Reader.read : Act IoErr (Limited σ) Byte) = Limited.read from rfl,
        show (Reader.read : Act IoErr (Limited ρ) Byte) = Limited.read from rfl, Limited.read, Limited.canRead]
      by_cases hn : 1 > k
      · rw [if_pos hn]; exact .inr (.inl ⟨_, _, rfl⟩)
      · rw [if_neg hn]
        rcases F.read s r h with ⟨a, s', r', h1, h2, h3⟩ | ⟨e, s', h1⟩ | ⟨hp, s', h1⟩
        · rw [h1, h2]; exact .inl ⟨a, _, _, rfl, rfl, h3, rfl, by simp only [Res.isOk, if_true] at hk ⊢; omega⟩
        · rw [h1]; exact .inr (.inl ⟨e, _, rfl⟩)
        · rw [h1]; exact .inr (.inr ⟨hp, _, rfl⟩)
    readAll := hall
    skip := fun n _ => AnswersAs.defaultSkip hall n
    skipU64 := fun n => AnswersAs.defaultSkipU64Loop usizeMax64 (AnswersAs.defaultSkip hall) n.toNat }

theorem gotoEnd (F : Follows σ ρ) : AnswersAs F.panics F.limited.Rel (Limited.gotoEnd : Act IoErr (Limited σ) Unit) Limited.gotoEnd := by
  rintro ⟨s, k⟩ ⟨r, _⟩ ⟨h, rfl, hk⟩
  simp only [Limited.gotoEnd]
  by_cases hz : k > 0
  · rw [if_pos hz, if_pos hz]
    rcases F.skip k hk s r h with ⟨a, s', r', h1, h2, h3⟩ | ⟨e, s', h1⟩ | ⟨hp, s', h1⟩
    · rw [h1, h2]; exact .inl ⟨a, _, _, rfl, rfl, h3, rfl, by simp only [Res.isOk, if_true] at hk ⊢; omega⟩
    · rw [h1]; exact .inr (.inl ⟨e, _, rfl⟩)
    · rw [h1]; exact .inr (.inr ⟨hp, _, rfl⟩)
  · rw [if_neg hz, if_neg hz]; exact .inl ⟨(), _, _, rfl, rfl, h, rfl, hk⟩

variable [Env] {τ α β : Type}

theorem prog (F : Follows σ ρ) (T : Prog τ α) :
    Tracks F.panics F.Rel (fun s => ((T.run s).1, (T.run s).2.2)) fun r => ((T.run r).1, (T.run r).2.2) := by
  induction T with
  | done o t => exact fun _ _ h => .inr (.inr ⟨rfl, fun _ => h⟩)
  | read t k ih =>
    intro s r h
    simp only [Prog.run]
    rcases F.read s r h with ⟨a, s', r', h1, h2, h3⟩ | ⟨e, s', h1⟩ | ⟨hp, s', h1⟩
    · rw [h1, h2]; exact ih a s' r' h3
    · rw [h1]; exact .inl ⟨e, rfl⟩
    · rw [h1]; exact .inr (.inl ⟨hp, rfl⟩)
  | readAll t n k ih =>
    intro s r h
    simp only [Prog.run]
    rcases F.readAll n s r h with ⟨a, s', r', h1, h2, h3⟩ | ⟨e, s', h1⟩ | ⟨hp, s', h1⟩
    · rw [h1, h2]; exact ih a s' r' h3
    · rw [h1]; exact .inl ⟨e, rfl⟩
    · rw [h1]; exact .inr (.inl ⟨hp, rfl⟩)
  | alloc t u c k ih =>
    intro s r h
    simp only [Prog.run]
    by_cases hc : u * c ≤ Env.allocMax
    · simp only [if_pos hc]; exact ih s r h
    · simp only [if_neg hc]; exact .inr (.inr ⟨trivial, by simp [Res.isOk]⟩)

theorem calls {m : Gen α} (F : Follows σ ρ) (h : IsCalls m) :
    Tracks F.panics F.Rel (m inferInstance σ inferInstance) (m inferInstance ρ inferInstance) := by
  obtain ⟨T, hT⟩ := h
  rw [show m inferInstance σ inferInstance = _ from funext (hT inferInstance σ inferInstance),
    show m inferInstance ρ inferInstance = _ from funext (hT inferInstance ρ inferInstance)]
  exact F.prog T

end Spec.Follows

theorem extractTagSize_calls (id : UInt64) : IsCalls fun _ _ _ => RawTagScanner.extractTagSize id := by
  unfold RawTagScanner.extractTagSize RawTagScanner.extractImplicitILIntTagSize
  by_cases h1 : isImplicitTag id = true
  · simp only [h1, if_true]
    by_cases h2 : id = Id.ilint ∨ id = Id.signedILInt
    · simp only [h2, if_true]
      exact IsR.read.calls.bind fun _ => (IsR.pure _).calls
    · simp only [h2, if_false]
      by_cases h3 : id = 15
      · simp only [h3, if_true]; exact (IsR.fail _).calls
      · simp only [h3, if_false]; exact (IsR.pure _).calls
  · simp only [h1, if_false, Bool.false_eq_true]
    exact IsR.ilint.calls.bind fun _ => (IsR.pure _).calls

/-- The scanner, step by step. -/
theorem scanAt_eq {σ : Type} [Reader σ] (m : ArithMode) (off : UInt64) : (scanAt m off : Act TagErr σ _) = (do
    let id ← Ser.deserializeILInt
    let info ← RawTagScanner.extractTagSize id
    let h ← Act.lift (addU64 m (ilSize id) info.1)
    let total ← Act.lift (addU64 m h info.2.1)
    let next ← Act.lift (addU64 m off total)
    tagIo (Reader.skipU64 info.2.2)
    pure (some ⟨id, off, h, info.2.1⟩, next)) := by
  funext s
  simp only [scanAt, RawTagScanner.nextTag, Act.bind_apply, RawTagScanner.onReader]
  rcases (Ser.deserializeILInt s : Res TagErr UInt64 × σ) with ⟨o, s₁⟩
  cases o with
  | ok id =>
    simp only
    rcases (RawTagScanner.extractTagSize id s₁ : Res TagErr _ × σ) with ⟨o, s₂⟩
    cases o with
    | ok info =>
      simp only [Act.lift]
      rcases addU64 m (ilSize id) info.1 with h | e | _ | _
      · simp only [Act.get]
        rcases addU64 m h info.2.1 with t | e | _ | _
        · simp only
          rcases addU64 m off t with t | e | _ | _
          · simp only [Act.set]
            rcases (tagIo (Reader.skipU64 info.2.2) s₂ : Res TagErr Unit × σ) with ⟨o, s₃⟩
            cases o <;> rfl
          all_goals rfl
        all_goals rfl
      all_goals rfl
    | err e => rfl
    | panic => rfl
    | diverge => rfl
  | err e => rfl
  | panic => rfl
  | diverge => rfl

section
variable {P : Type} [TagPayload P] [Env] {α : Type}

/-- An addition in two builds. -/
theorem Tracks.add {p : Prop} {σ ρ : Type} {Rel : σ → ρ → Prop} {m m' : ArithMode} (hm : m = m' ∨ p ∧ m = .checked) (a b : UInt64) :
    Tracks p Rel (Act.lift (addU64 m a b)) (Act.lift (addU64 m' a b)) := by
  rcases hm with rfl | ⟨hp, rfl⟩
  · exact Tracks.lift _
  · by_cases hov : a.toNat + b.toNat < 2 ^ 64
    · unfold addU64; rw [if_pos hov, if_pos hov]; exact Tracks.lift _
    · have hadd : addU64 (ε := TagErr) .checked a b = .panic := by unfold addU64; rw [if_neg (by omega)]
      rw [hadd]
      exact fun _ _ _ => .inr (.inl ⟨hp, rfl⟩)

theorem SkipCode.agrees (c : SkipCode P α) {m m' : ArithMode} : ∀ {σ ρ : Type} [Reader σ] [Reader ρ] (F : Follows σ ρ),
    (m = m' ∨ F.panics ∧ m = .checked) → Tracks F.panics F.Rel (c.run m σ) (c.run m' ρ) := by
  induction c with
  | done o => exact fun F hm => Tracks.lift o
  | get c k ih => exact fun F hm => (F.calls c.calls).bind fun b => ih b F hm
  | skip n k ih => exact fun F hm => (Tracks.io (F.skip _ n.toNat_lt)).bind fun _ => ih F hm
  | skipU64 n k ih => exact fun F hm => (Tracks.io (F.skipU64 n)).bind fun _ => ih F hm
  | scan off k ih =>
    intro σ ρ _ _ F hm
    simp only [SkipCode.run, scanAt_eq]
    exact ((F.calls IsR.ilint.calls).bind fun id => (F.calls (extractTagSize_calls id)).bind fun info =>
      (Tracks.add hm _ _).bind fun h => (Tracks.add hm _ _).bind fun t => (Tracks.add hm _ _).bind fun n =>
      (Tracks.io (F.skipU64 _)).bind fun _ => Tracks.pure _).bind fun r => ih r.1 r.2 F hm
  | within n body k ihb ih =>
    intro σ ρ _ _ F hm
    refine Tracks.bind ?_ fun r => ih r.1 r.2 F hm
    intro s r h
    have h1 := ihb F.limited hm ⟨s, n.toNat⟩ ⟨r, n.toNat⟩ ⟨h, rfl, n.toNat_lt⟩
    unfold limitedTo
    rcases hx : body.run m (Limited σ) ⟨s, n.toNat⟩ with ⟨o, l⟩
    rcases hy : body.run m' (Limited ρ) ⟨r, n.toNat⟩ with ⟨o', l'⟩
    rw [hx, hy] at h1
    rcases h1 with ⟨e, h1⟩ | ⟨hp, h1⟩ | ⟨h1, h2⟩
    · cases h1; exact .inl ⟨e, rfl⟩
    · cases h1; exact .inr (.inl ⟨hp, rfl⟩)
    · cases h1
      cases o with
      | ok b =>
        obtain ⟨h3, h4, -⟩ := h2 rfl
        exact .inr (.inr ⟨by show Res.ok (b, l.available) = Res.ok (b, l'.available); rw [show l.available = l'.available from h4],
          fun _ => h3⟩)
      | err e => exact .inr (.inr ⟨rfl, by simp [Res.isOk, Res.map]⟩)
      | panic => exact .inr (.inr ⟨rfl, by simp [Res.isOk, Res.map]⟩)
      | diverge => exact .inr (.inr ⟨rfl, by simp [Res.isOk, Res.map]⟩)
  | withinToEnd n body k ihb ih =>
    intro σ ρ _ _ F hm
    refine Tracks.bind ?_ fun r => ih r F hm
    intro s r h
    have h1 := ((ihb F.limited hm).bind fun b => (Tracks.io F.gotoEnd).bind fun _ => Tracks.pure b) ⟨s, n.toNat⟩ ⟨r, n.toNat⟩ ⟨h, rfl, n.toNat_lt⟩
    unfold limitedToEnd
    rcases h1 with h1 | h1 | ⟨h1, h2⟩
    · exact .inl h1
    · exact .inr (.inl h1)
    · exact .inr (.inr ⟨h1, fun hok => (h2 hok).1⟩)

end
end Verif
