import Verif.Proof.Prog
import Verif.Proof.FromBytes
import Verif.Spec.Watch
/-!
# Deserialization on any reader depends only on the bytes delivered and the first failure
-/
namespace Verif
open Spec
set_option linter.unusedSectionVars false

namespace Prog
variable {τ α : Type} [Env]

/-- The calls answered from a byte string; `none` if it is too short. -/
def eval : Prog τ α → Bytes → Option (Res TagErr α × τ × Bytes)
  | done r t, bs => some (r, t, bs)
  | read _ k, bs =>
    match bs with
    | [] => none
    | b :: bs => (k b).eval bs
  | readAll _ n k, bs => if n ≤ bs.length then (k (bs.take n)).eval (bs.drop n) else none
  | alloc t unit count k, bs => if unit * count ≤ Env.allocMax then k.eval bs else some (.panic, t, bs)

theorem run_eval {σ : Type} [Reader σ] (V : View σ) (p : Prog τ α) {s : σ} {bs : Bytes} (h : V.R s bs) :
    match p.eval bs with
    | some (r, t, rest) => ∃ s', p.run s = (r, (t, s')) ∧ V.R s' rest
    | none => ∃ e t s', p.run s = (.err (.ioError e), (t, s')) ∧ V.E e := by
  induction p generalizing s bs with
  | done r t => exact ⟨s, rfl, h⟩
  | read t k ih =>
    cases bs with
    | nil =>
      obtain ⟨e, s', hr, he⟩ := V.read_nil h
      exact ⟨e, t, s', by simp [run, hr], he⟩
    | cons b bs =>
      obtain ⟨s', hr, h'⟩ := V.read_cons h
      simp only [eval, run, hr]
      exact ih b h'
  | readAll t n k ih =>
    simp only [eval]
    by_cases hn : n ≤ bs.length
    · obtain ⟨s', hr, h'⟩ := V.readAll_ok h hn
      rw [if_pos hn]
      simp only [run, hr]
      exact ih _ h'
    · obtain ⟨e, s', hr, he⟩ := V.readAll_short (n := n) h (by omega)
      rw [if_neg hn]
      exact ⟨e, t, s', by simp [run, hr], he⟩
  | alloc t u c k ih =>
    simp only [eval, run]
    by_cases hc : u * c ≤ Env.allocMax
    · rw [if_pos hc, if_pos hc]; exact ih h
    · rw [if_neg hc, if_neg hc]; exact ⟨s, rfl, h⟩

/-- A watched reader behaves as the reader it watches. -/
theorem run_source {σ : Type} [Reader σ] (p : Prog τ α) (w : Watched σ) :
    (p.run w).1 = (p.run w.source).1 ∧ (p.run w).2.1 = (p.run w.source).2.1 ∧
      (p.run w).2.2.source = (p.run w.source).2.2 := by
  induction p generalizing w with
  | done r t => exact ⟨rfl, rfl, rfl⟩
  | read t k ih =>
    simp only [run, Reader.read, Watched.watch]
    rcases Reader.read w.source with ⟨r, s'⟩
    cases r <;> first | exact ih _ _ | exact ⟨rfl, rfl, rfl⟩
  | readAll t n k ih =>
    simp only [run, Reader.readAll, Watched.watch]
    rcases Reader.readAll n w.source with ⟨r, s'⟩
    cases r <;> first | exact ih _ _ | exact ⟨rfl, rfl, rfl⟩
  | alloc t u c k ih =>
    simp only [run]
    split
    · exact ih w
    · exact ⟨rfl, rfl, rfl⟩

/-- Either the first failing call decides the outcome, or the delivered bytes do. -/
theorem run_watched {σ : Type} [Reader σ] (p : Prog τ α) (w : Watched σ) :
    ∃ D, (p.run w).2.2.log = w.log ++ D ∧
      (((p.run w).2.2.failed = w.failed ∧ ∀ y, p.eval (D ++ y) = some ((p.run w).1, (p.run w).2.1, y)) ∨
       ∃ c, (p.run w).2.2.failed = w.failed ++ [c] ∧ c.isOk = false ∧ (p.run w).1 = ofFailure c) := by
  induction p generalizing w with
  | done r t => exact ⟨[], by simp [run], .inl ⟨rfl, fun y => rfl⟩⟩
  | read t k ih =>
    simp only [run, Reader.read, Watched.watch]
    rcases Reader.read w.source with ⟨r, s'⟩
    cases r with
    | ok b =>
      obtain ⟨D, hD, h⟩ := ih b ⟨s', w.log ++ [b], w.failed⟩
      refine ⟨b :: D, by simpa using hD, ?_⟩
      rcases h with ⟨h1, h2⟩ | h
      · exact .inl ⟨h1, fun y => h2 y⟩
      · exact .inr h
    | err e => exact ⟨[], by simp, .inr ⟨.err e, rfl, rfl, rfl⟩⟩
    | panic => exact ⟨[], by simp, .inr ⟨.panic, rfl, rfl, rfl⟩⟩
    | diverge => exact ⟨[], by simp, .inr ⟨.diverge, rfl, rfl, rfl⟩⟩
  | readAll t n k ih =>
    simp only [run, Reader.readAll, Watched.watch]
    rcases hr : Reader.readAll n w.source with ⟨r, s'⟩
    cases r with
    | ok bs =>
      have hl := Reader.readAll_len n _ _ _ hr
      obtain ⟨D, hD, h⟩ := ih bs ⟨s', w.log ++ bs, w.failed⟩
      refine ⟨bs ++ D, by simpa using hD, ?_⟩
      rcases h with ⟨h1, h2⟩ | h
      · refine .inl ⟨h1, fun y => ?_⟩
        rw [eval, if_pos (by simp; omega), List.append_assoc, List.take_left' hl, List.drop_left' hl]
        exact h2 y
      · exact .inr h
    | err e => exact ⟨[], by simp, .inr ⟨.err e, rfl, rfl, rfl⟩⟩
    | panic => exact ⟨[], by simp, .inr ⟨.panic, rfl, rfl, rfl⟩⟩
    | diverge => exact ⟨[], by simp, .inr ⟨.diverge, rfl, rfl, rfl⟩⟩
  | alloc t u c k ih =>
    simp only [run]
    split
    next hc =>
      obtain ⟨D, hD, h⟩ := ih w
      refine ⟨D, hD, ?_⟩
      simpa only [eval, if_pos hc] using h
    next hc => exact ⟨[], by simp, .inl ⟨rfl, fun y => by simp [eval, hc]⟩⟩

end Prog

section
variable {P : Type} [TagPayload P]

theorem Adm.true : Adm fun _ _ => True := fun _ _ => ⟨trivial, trivial, trivial⟩

theorem deserialize_source [Env] (e : Engine P) {σ : Type} [Reader σ] (w : Watched σ) :
    (Factory.deserialize e (Watched σ) w).1 = (Factory.deserialize e σ w.source).1 ∧
    (Factory.deserialize e (Watched σ) w).2.source = (Factory.deserialize e σ w.source).2 := by
  obtain ⟨T, -, hT⟩ := Rep.deserialize Adm.true e
  have h1 := hT inferInstance (Watched σ) inferInstance w
  have h2 := hT inferInstance σ inferInstance w.source
  have h := T.run_source w
  simp only at h1 h2
  rw [h1, h2]
  exact ⟨h.1, h.2.2⟩

theorem deserialize_watched [Env] (e : Engine P) {σ : Type} [Reader σ] (w : Watched σ) :
    ∃ D, (Factory.deserialize e (Watched σ) w).2.log = w.log ++ D ∧
      (((Factory.deserialize e (Watched σ) w).2.failed = w.failed ∧
        Factory.fromBytes e D = (Factory.deserialize e (Watched σ) w).1 ∧
        ∀ y (τ : Type) [Reader τ] (V : View τ) (s : τ), V.R s (D ++ y) →
          ∃ s', Factory.deserialize e τ s = ((Factory.deserialize e (Watched σ) w).1, s') ∧ V.R s' y) ∨
       ∃ c, (Factory.deserialize e (Watched σ) w).2.failed = w.failed ++ [c] ∧ c.isOk = false ∧
        (Factory.deserialize e (Watched σ) w).1 = ofFailure c) := by
  obtain ⟨T, -, hT⟩ := Rep.deserialize Adm.true e
  have h1 := hT inferInstance (Watched σ) inferInstance w
  simp only at h1
  rw [h1]
  obtain ⟨D, hD, h⟩ := T.run_watched w
  refine ⟨D, hD, ?_⟩
  rcases h with ⟨h2, h3⟩ | h
  · have key : ∀ y (τ : Type) [Reader τ] (V : View τ) (s : τ), V.R s (D ++ y) →
        ∃ s', Factory.deserialize e τ s = ((T.run w).1, s') ∧ V.R s' y := by
      intro y τ _ V s hs
      have h4 := T.run_eval V hs
      rw [h3 y] at h4
      obtain ⟨s', h5, h6⟩ := h4
      have h7 := hT inferInstance τ inferInstance s
      simp only at h7
      exact ⟨s', by rw [h7, h5], h6⟩
    refine .inl ⟨h2, ?_, key⟩
    obtain ⟨s', h5, h6⟩ := key [] ByteArrayReader ByteArrayReader.view.toView (ByteArrayReader.new D)
      (by rw [List.append_nil]; exact ByteArrayReader.view_new D)
    unfold Factory.fromBytes
    rw [h5]
    have h7 := (ByteArrayReader.rest_eq_nil h6).mpr rfl
    cases (T.run w).1 <;> simp [h7]
  · exact .inr h

end
end Verif

namespace Verif
open Spec

/-! ### Through a limited reader -/

theorem Watched.read_log {σ : Type} [Reader σ] {w w' : Watched σ} {r : Res IoErr Byte} (h : Reader.read w = (r, w')) :
    w'.log.length = w.log.length + if r.isOk then 1 else 0 := by
  simp only [Reader.read, Watched.watch] at h
  rcases hx : Reader.read w.source with ⟨q, s'⟩
  rw [hx] at h
  cases q <;> simp only [Prod.mk.injEq] at h <;> obtain ⟨rfl, rfl⟩ := h <;> simp [Res.isOk]

theorem Watched.readAll_log {σ : Type} [Reader σ] {w w' : Watched σ} {n : Nat} {r : Res IoErr Bytes}
    (h : Reader.readAll n w = (r, w')) : w'.log.length = w.log.length + if r.isOk then n else 0 := by
  simp only [Reader.readAll, Watched.watch] at h
  rcases hx : Reader.readAll n w.source with ⟨q, s'⟩
  rw [hx] at h
  cases q <;> simp only [Prod.mk.injEq] at h <;> obtain ⟨rfl, rfl⟩ := h <;> simp [Res.isOk]
  exact Reader.readAll_len n _ _ _ hx

/-- What a limited reader delivers is taken from its allowance. -/
theorem Prog.run_allowance {τ α : Type} [Env] {σ : Type} [Reader σ] (p : Prog τ α) (w : Watched σ) (n : Nat) :
    (p.run (⟨w, n⟩ : Limited (Watched σ))).2.2.source.log.length +
      (p.run (⟨w, n⟩ : Limited (Watched σ))).2.2.available = w.log.length + n := by
  induction p generalizing w n with
  | done r t => rfl
  | read t k ih =>
    simp only [run]
    simp only [show (Reader.read : Act IoErr (Limited (Watched σ)) Byte) = Limited.read from rfl, Limited.read,
      Limited.canRead]
    by_cases h : 1 > n
    · rw [if_pos h]
    · rw [if_neg h]
      rcases hr : (Reader.read w) with ⟨r, w'⟩
      have hl := Watched.read_log hr
      cases r <;> simp only [Res.isOk, if_true, ih, Bool.false_eq_true, if_false] at hl ⊢ <;> omega
  | readAll t c k ih =>
    simp only [run]
    simp only [show (Reader.readAll c : Act IoErr (Limited (Watched σ)) Bytes) = Limited.readAll c from rfl,
      Limited.readAll, Limited.canRead]
    by_cases h : c > n
    · rw [if_pos h]
    · rw [if_neg h]
      rcases hr : (Reader.readAll c w) with ⟨r, w'⟩
      have hl := Watched.readAll_log hr
      cases r <;> simp only [Res.isOk, if_true, ih, Bool.false_eq_true, if_false] at hl ⊢ <;> omega
  | alloc t u c k ih =>
    simp only [run]
    split
    · exact ih w n
    · rfl

section
variable {P : Type} [TagPayload P] [Env]

/-- One level of `deserialize`. -/
theorem deserialize_eq (e : Engine P) (σ : Type) [Reader σ] : Factory.deserialize e σ = (do
    let id ← Ser.deserializeILInt
    let size ← Factory.deserializeTagSize id
    let tag ← Act.lift (e.createTag id)
    match tag with
    | none => Act.fail .unknownTag
    | some tag => fun s =>
      match Factory.deserializeTagValueInto (Factory.deserializeFuel e (maxTagSize + 1)) size (tag, s) with
      | (r, (t, s')) => (r.map fun _ => t, s')) := by
  unfold Factory.deserialize Factory.methods
  rw [show Factory.fuel = (maxTagSize + 1) + 1 from rfl]
  generalize maxTagSize + 1 = k
  rfl

/-- What the values of a tag take from the stream. -/
theorem value_allowance (e : Engine P) (k : Nat) {σ : Type} [Reader σ] (w : Watched σ) (t : Tag P) {n : Nat}
    (hn : n ≤ maxTagSize) :
    ∃ left, (Factory.deserializeTagValueInto (Factory.deserializeFuel e k) n (t, w)).2.2.log.length + left
        = w.log.length + n ∧
      ((Factory.deserializeTagValueInto (Factory.deserializeFuel e k) n (t, w)).1.isOk = true →
        left = 0 ∨ (Factory.deserializeTagValueInto (Factory.deserializeFuel e k) n (t, w)).2.1.id = Id.ilint ∨
          (Factory.deserializeTagValueInto (Factory.deserializeFuel e k) n (t, w)).2.1.id = Id.signedILInt) := by
  obtain ⟨T, -, hT⟩ := RepS.tagValue (A := fun _ _ => True) Adm.true (Rep.deserializeFuel Adm.true e k) hn t
  have h := hT inferInstance (Limited (Watched σ)) inferInstance t ⟨w, n⟩
  have hl := (T t).run_allowance w n
  simp only at h
  rw [← h] at hl
  unfold Factory.deserializeTagValueInto withLimited
  simp only [Act.bind_apply]
  rcases hv : Tag.deserializeValue (Factory.deserializeFuel e k) n t (t, (⟨w, n⟩ : Limited (Watched σ))) with ⟨r, t', l⟩
  rw [hv] at hl
  simp only at hl
  cases r with
  | ok a =>
    simp only [Factory.checkEmpty]
    split
    next hc => exact ⟨l.available, hl, by simp [Res.isOk]⟩
    next hc =>
      refine ⟨l.available, hl, fun _ => ?_⟩
      by_cases h1 : t'.id = Id.ilint
      · exact .inr (.inl h1)
      · by_cases h2 : t'.id = Id.signedILInt
        · exact .inr (.inr h2)
        · refine .inl ?_
          simpa [h1, h2, Limited.empty] using hc
  | err x => exact ⟨l.available, hl, by simp [Res.isOk]⟩
  | panic => exact ⟨l.available, hl, by simp [Res.isOk]⟩
  | diverge => exact ⟨l.available, hl, by simp [Res.isOk]⟩

end
end Verif
