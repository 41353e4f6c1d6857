import Verif.Model.TryCode
import Verif.Spec.Mirror
import Verif.Proof.SkipCode
/-!
# Code on readers that answer exactly as others do
-/
namespace Verif
open Spec
set_option linter.unusedSectionVars false

section
variable {ε σ ρ α β : Type} {p : Prop} {Rel : σ → ρ → Prop}

theorem Spec.ExactlyAs.lift (o : Res ε α) : ExactlyAs p Rel (Act.lift o) (Act.lift o) := fun _ _ h => .inr ⟨rfl, h⟩
theorem Spec.ExactlyAs.pure (a : α) : ExactlyAs p Rel (Pure.pure a : Act ε σ α) (Pure.pure a) := ExactlyAs.lift (.ok a)

theorem Spec.ExactlyAs.bind {x : Act ε σ α} {y : Act ε ρ α} {k : α → Act ε σ β} {k' : α → Act ε ρ β} (h : ExactlyAs p Rel x y)
    (hk : ∀ a, ExactlyAs p Rel (k a) (k' a)) : ExactlyAs p Rel (x >>= k) (y >>= k') := by
  intro s r hr
  have h0 := h s r hr
  rcases hx : x s with ⟨o, s'⟩
  rcases hy : y r with ⟨o', r'⟩
  rw [hx, hy] at h0
  rcases h0 with ⟨hp, h1⟩ | ⟨h1, h2⟩
  · simp only at h1
    subst h1
    rw [Act.bind_panic hx]; exact .inl ⟨hp, rfl⟩
  · simp only at h1 h2
    subst h1
    cases o with
    | ok a => rw [Act.bind_ok hx, Act.bind_ok hy]; exact hk a s' r' h2
    | err e => rw [Act.bind_err hx, Act.bind_err hy]; exact .inr ⟨rfl, h2⟩
    | panic => rw [Act.bind_panic hx, Act.bind_panic hy]; exact .inr ⟨rfl, h2⟩
    | diverge => rw [Act.bind_diverge hx, Act.bind_diverge hy]; exact .inr ⟨rfl, h2⟩

theorem Spec.ExactlyAs.io {x : Act IoErr σ α} {y : Act IoErr ρ α} (h : ExactlyAs p Rel x y) : ExactlyAs p Rel (tagIo x) (tagIo y) := by
  intro s r hr
  unfold tagIo Act.mapErr
  rcases h s r hr with ⟨hp, h1⟩ | ⟨h1, h2⟩
  · refine .inl ⟨hp, ?_⟩
    rcases hx : x s with ⟨o, s'⟩
    rw [hx] at h1; simp only at h1; subst h1; rfl
  · refine .inr ?_
    rcases hx : x s with ⟨o, s'⟩
    rcases hy : y r with ⟨o', r'⟩
    rw [hx, hy] at h1 h2; simp only at h1 h2; subst h1
    exact ⟨rfl, h2⟩

theorem Spec.ExactlyAs.defaultSkip {x : Nat → Act IoErr σ Bytes} {y : Nat → Act IoErr ρ Bytes} (h : ∀ n, ExactlyAs p Rel (x n) (y n))
    (n : Nat) : ExactlyAs p Rel (Verif.defaultSkip x n) (Verif.defaultSkip y n) := by
  induction n using Nat.strongRecOn with
  | ind n ih =>
    rw [Verif.defaultSkip.eq_1 x n, Verif.defaultSkip.eq_1 y n]
    by_cases hn : n = 0
    · rw [dif_pos hn, dif_pos hn]; exact ExactlyAs.pure ()
    · rw [dif_neg hn, dif_neg hn]
      exact ExactlyAs.bind (h _) fun _ => ih _ (by omega)

theorem Spec.ExactlyAs.defaultSkipU64Loop {x : Nat → Act IoErr σ Unit} {y : Nat → Act IoErr ρ Unit} (u : Nat)
    (h : ∀ n, ExactlyAs p Rel (x n) (y n)) (n : Nat) :
    ExactlyAs p Rel (Verif.defaultSkipU64Loop u x n) (Verif.defaultSkipU64Loop u y n) := by
  induction n using Nat.strongRecOn with
  | ind n ih =>
    rw [Verif.defaultSkipU64Loop.eq_1 u x n, Verif.defaultSkipU64Loop.eq_1 u y n]
    by_cases hn : n = 0
    · rw [dif_pos hn, dif_pos hn]; exact ExactlyAs.pure ()
    · rw [dif_neg hn, dif_neg hn]
      exact ExactlyAs.bind (h _) fun _ => ih _ (by omega)

/-- An addition in two builds. -/
theorem Spec.ExactlyAs.add {m m' : ArithMode} (hm : m = m' ∨ p ∧ m = .checked) (a b : UInt64) :
    ExactlyAs p Rel (Act.lift (addU64 (ε := ε) m a b)) (Act.lift (addU64 m' a b)) := by
  rcases hm with rfl | ⟨hp, rfl⟩
  · exact ExactlyAs.lift _
  · by_cases hov : a.toNat + b.toNat < 2 ^ 64
    · unfold addU64; rw [if_pos hov, if_pos hov]; exact ExactlyAs.lift _
    · have hadd : addU64 (ε := ε) .checked a b = .panic := by unfold addU64; rw [if_neg (by omega)]
      rw [hadd]
      exact fun _ _ _ => .inl ⟨hp, rfl⟩

theorem Spec.ExactlyAs.catching {x : Act TagErr σ β} {y : Act TagErr ρ β} {k : Except TagErr β → Act TagErr σ α}
    {k' : Except TagErr β → Act TagErr ρ α} (h : ExactlyAs p Rel x y) (hk : ∀ a, ExactlyAs p Rel (k a) (k' a)) :
    ExactlyAs p Rel (Verif.catching x k) (Verif.catching y k') := by
  intro s r hr
  have h0 := h s r hr
  unfold Verif.catching
  rcases hx : x s with ⟨o, s'⟩
  rcases hy : y r with ⟨o', r'⟩
  rw [hx, hy] at h0
  rcases h0 with ⟨hp, h1⟩ | ⟨h1, h2⟩
  · simp only at h1
    subst h1
    exact .inl ⟨hp, rfl⟩
  · simp only at h1 h2
    subst h1
    cases o with
    | ok a => exact hk _ s' r' h2
    | err e => exact hk _ s' r' h2
    | panic => exact .inr ⟨rfl, h2⟩
    | diverge => exact .inr ⟨rfl, h2⟩

end

namespace Spec.Mirror
variable {σ ρ : Type} [Reader σ] [Reader ρ]

/-- What a limited reader makes of a call. -/
theorem through {p : Prop} {Rel : σ → ρ → Prop} {α : Type} {x : Act IoErr σ α} {y : Act IoErr ρ α} (h : ExactlyAs p Rel x y)
    (f : Nat → Nat) (hf : ∀ k, f k ≤ k) {s : σ} {r : ρ} {k : Nat} (hr : Rel s r) (hk : k < 2 ^ 64) :
    (p ∧ (x s).1 = .panic) ∨ ((x s).1 = (y r).1 ∧ Rel (x s).2 (y r).2 ∧
      (if (x s).1.isOk then f k else k) = (if (y r).1.isOk then f k else k) ∧ (if (x s).1.isOk then f k else k) < 2 ^ 64) := by
  rcases h s r hr with h1 | ⟨h1, h2⟩
  · exact .inl h1
  · refine .inr ⟨h1, h2, by rw [h1], ?_⟩
    have := hf k
    split <;> omega

/-- Through a limited reader. -/
def limited (F : Mirror σ ρ) : Mirror (Limited σ) (Limited ρ) :=
  have hall : ∀ n, ExactlyAs F.panics (fun l l' : Limited _ => F.Rel l.source l'.source ∧ l.available = l'.available ∧ l.available < 2 ^ 64)
      (Limited.readAll n : Act IoErr (Limited σ) Bytes) (Limited.readAll n) := by
    rintro n ⟨s, k⟩ ⟨r, _⟩ ⟨h, rfl, hk⟩
    simp only [Limited.readAll, Limited.canRead]
    by_cases hn : n > k
    · rw [if_pos hn]; exact .inr ⟨rfl, h, rfl, hk⟩
    · rw [if_neg hn]
      exact through (F.readAll n) (· - n) (fun k => Nat.sub_le k n) h hk
  { panics := F.panics
    Rel := fun l l' => F.Rel l.source l'.source ∧ l.available = l'.available ∧ l.available < 2 ^ 64
    read := by
      rintro ⟨s, k⟩ ⟨r, _⟩ ⟨h, rfl, hk⟩
      simp only [show (Reader.read : Act IoErr (Limited σ) Byte) = Limited.read from rfl,
        show (Reader.read : Act IoErr (Limited ρ) Byte) = Limited.read from rfl, Limited.read, Limited.canRead]
      by_cases hn : 1 > k
      · rw [if_pos hn]; exact .inr ⟨rfl, h, rfl, hk⟩
      · rw [if_neg hn]
        exact through F.read (· - 1) (fun k => Nat.sub_le k 1) h hk
    readAll := hall
    skip := fun n _ => ExactlyAs.defaultSkip hall n
    skipU64 := fun n => ExactlyAs.defaultSkipU64Loop usizeMax64 (ExactlyAs.defaultSkip hall) n.toNat }

theorem gotoEnd (F : Mirror σ ρ) : ExactlyAs F.panics F.limited.Rel (Limited.gotoEnd : Act IoErr (Limited σ) Unit) Limited.gotoEnd := by
  rintro ⟨s, k⟩ ⟨r, _⟩ ⟨h, rfl, hk⟩
  simp only [Limited.gotoEnd]
  by_cases hz : k > 0
  · rw [if_pos hz, if_pos hz]
    exact through (F.skip k hk) (fun _ => 0) (fun k => Nat.zero_le k) h hk
  · rw [if_neg hz, if_neg hz]; exact .inr ⟨rfl, h, rfl, hk⟩

variable [Env] {τ α β : Type}

theorem prog (F : Mirror σ ρ) (T : Prog τ α) :
    ExactlyAs F.panics F.Rel (fun s => ((T.run s).1, (T.run s).2.2) : Act TagErr σ α) fun r => ((T.run r).1, (T.run r).2.2) := by
  induction T with
  | done o t => exact fun _ _ h => .inr ⟨rfl, h⟩
  | read t k ih =>
    intro s r h
    have h0 := F.read s r h
    simp only [Prog.run]
    rcases hx : (Reader.read s : Res IoErr Byte × σ) with ⟨o, s'⟩
    rcases hy : (Reader.read r : Res IoErr Byte × ρ) with ⟨o', r'⟩
    rw [hx, hy] at h0
    rcases h0 with ⟨hp, h1⟩ | ⟨h1, h2⟩
    · simp only at h1; subst h1; exact .inl ⟨hp, rfl⟩
    · simp only at h1 h2; subst h1
      cases o with
      | ok a => exact ih a s' r' h2
      | err e => exact .inr ⟨rfl, h2⟩
      | panic => exact .inr ⟨rfl, h2⟩
      | diverge => exact .inr ⟨rfl, h2⟩
  | readAll t n k ih =>
    intro s r h
    have h0 := F.readAll n s r h
    simp only [Prog.run]
    rcases hx : (Reader.readAll n s : Res IoErr Bytes × σ) with ⟨o, s'⟩
    rcases hy : (Reader.readAll n r : Res IoErr Bytes × ρ) with ⟨o', r'⟩
    rw [hx, hy] at h0
    rcases h0 with ⟨hp, h1⟩ | ⟨h1, h2⟩
    · simp only at h1; subst h1; exact .inl ⟨hp, rfl⟩
    · simp only at h1 h2; subst h1
      cases o with
      | ok a => exact ih a s' r' h2
      | err e => exact .inr ⟨rfl, h2⟩
      | panic => exact .inr ⟨rfl, h2⟩
      | diverge => exact .inr ⟨rfl, h2⟩
  | alloc t u c k ih =>
    intro s r h
    simp only [Prog.run]
    by_cases hc : u * c ≤ Env.allocMax
    · simp only [if_pos hc]; exact ih s r h
    · simp only [if_neg hc]; exact .inr ⟨trivial, h⟩

theorem calls {m : Gen α} (F : Mirror σ ρ) (h : IsCalls m) :
    ExactlyAs F.panics F.Rel (m inferInstance σ inferInstance) (m inferInstance ρ inferInstance) := by
  obtain ⟨T, hT⟩ := h
  rw [show m inferInstance σ inferInstance = _ from funext (hT inferInstance σ inferInstance),
    show m inferInstance ρ inferInstance = _ from funext (hT inferInstance ρ inferInstance)]
  exact F.prog T

end Spec.Mirror

section
variable {P : Type} [TagPayload P] [Env] {α : Type}

theorem SkipCode.exactly (c : SkipCode P α) {m m' : ArithMode} : ∀ {σ ρ : Type} [Reader σ] [Reader ρ] (F : Mirror σ ρ),
    (m = m' ∨ F.panics ∧ m = .checked) → ExactlyAs F.panics F.Rel (c.run m σ) (c.run m' ρ) := by
  induction c with
  | done o => exact fun F hm => ExactlyAs.lift o
  | get c k ih => exact fun F hm => (F.calls c.calls).bind fun b => ih b F hm
  | skip n k ih => exact fun F hm => (ExactlyAs.io (F.skip _ n.toNat_lt)).bind fun _ => ih F hm
  | skipU64 n k ih => exact fun F hm => (ExactlyAs.io (F.skipU64 n)).bind fun _ => ih F hm
  | scan off k ih =>
    intro σ ρ _ _ F hm
    simp only [SkipCode.run, scanAt_eq]
    exact ((F.calls IsR.ilint.calls).bind fun id => (F.calls (extractTagSize_calls id)).bind fun info =>
      (ExactlyAs.add hm _ _).bind fun h => (ExactlyAs.add hm _ _).bind fun t => (ExactlyAs.add hm _ _).bind fun n =>
      (ExactlyAs.io (F.skipU64 _)).bind fun _ => ExactlyAs.pure _).bind fun r => ih r.1 r.2 F hm
  | within n body k ihb ih =>
    intro σ ρ _ _ F hm
    refine ExactlyAs.bind ?_ fun r => ih r.1 r.2 F hm
    intro s r h
    have h1 := ihb F.limited hm ⟨s, n.toNat⟩ ⟨r, n.toNat⟩ ⟨h, rfl, n.toNat_lt⟩
    unfold limitedTo
    rcases hx : body.run m (Limited σ) ⟨s, n.toNat⟩ with ⟨o, l⟩
    rcases hy : body.run m' (Limited ρ) ⟨r, n.toNat⟩ with ⟨o', l'⟩
    rw [hx, hy] at h1
    rcases h1 with ⟨hp, h1⟩ | ⟨h1, h3, h4, -⟩
    · cases h1; exact .inl ⟨hp, rfl⟩
    · cases h1
      exact .inr ⟨by simp only at h4 ⊢; rw [h4], h3⟩
  | withinToEnd n body k ihb ih =>
    intro σ ρ _ _ F hm
    refine ExactlyAs.bind ?_ fun r => ih r F hm
    intro s r h
    have h1 := ((ihb F.limited hm).bind fun b => (ExactlyAs.io F.gotoEnd).bind fun _ => ExactlyAs.pure b) ⟨s, n.toNat⟩ ⟨r, n.toNat⟩
      ⟨h, rfl, n.toNat_lt⟩
    unfold limitedToEnd
    rcases h1 with h1 | ⟨h1, h2⟩
    · exact .inl h1
    · exact .inr ⟨h1, h2.1⟩

theorem TryCode.exactly (c : TryCode P α) {m m' : ArithMode} : ∀ {σ ρ : Type} [Reader σ] [Reader ρ] (F : Mirror σ ρ),
    (m = m' ∨ F.panics ∧ m = .checked) → ExactlyAs F.panics F.Rel (c.run m σ) (c.run m' ρ) := by
  induction c with
  | done o => exact fun F hm => ExactlyAs.lift o
  | attempt c k ih => exact fun F hm => (c.exactly F hm).catching fun a => ih a F hm
  | within n body k ihb ih =>
    intro σ ρ _ _ F hm s r h
    have h1 := ihb F.limited hm ⟨s, n.toNat⟩ ⟨r, n.toNat⟩ ⟨h, rfl, n.toNat_lt⟩
    simp only [TryCode.run]
    rcases hx : body.run m (Limited σ) ⟨s, n.toNat⟩ with ⟨o, l⟩
    rcases hy : body.run m' (Limited ρ) ⟨r, n.toNat⟩ with ⟨o', l'⟩
    rw [hx, hy] at h1
    rcases h1 with ⟨hp, h1⟩ | ⟨h1, h3, h4, -⟩
    · cases h1; exact .inl ⟨hp, rfl⟩
    · cases h1
      simp only at h4
      cases o with
      | ok b => simp only [h4]; exact ih _ _ F hm _ _ h3
      | err e => simp only [h4]; exact ih _ _ F hm _ _ h3
      | panic => exact .inr ⟨rfl, h3⟩
      | diverge => exact .inr ⟨rfl, h3⟩

end
end Verif
