import Verif.Proof.Verdict
import Verif.Proof.Deliver
import Verif.Props.RoundTrip
/-!
# C104: exactly how every input is judged
-/
namespace Verif.Props
open Verif Verif.Spec

section
variable {P : Type} [TagPayload P] [Env]

/-- The pure parser of the standard factory gives the verdict. -/
theorem top_judged (hr : MemoryOk) (strict : Bool) (bs : Bytes) :
    match verdict strict bs with
    | .ok rest => ∃ t, Parser.top (Engine.std strict : Engine P) bs = .ok t rest
    | .error f => Parser.top (Engine.std strict : Engine P) bs = .short ∧ f = .short ∨
        ∃ x, Parser.top (Engine.std strict : Engine P) bs = .fail x ∧ Fault.Names f x := by
  have hj := Judged.tag (P := P) (std_made strict) (bs.length + 1) bs
  rw [tag_eq_top _ (Nat.lt_succ_self _)] at hj
  have hc := Calm.top hr (Engine.std strict : Engine P) (std_calm strict) bs
  unfold verdict
  generalize Parser.top (Engine.std strict : Engine P) bs = x at *
  cases hv : Check.tag strict (bs.length + 1) bs with
  | error f =>
    rw [hv] at hj
    cases x with
    | ok t rest => exact hj.elim
    | short => exact .inl ⟨rfl, hj⟩
    | fail x => exact .inr ⟨x, rfl, hj⟩
    | panic => exact hc.elim
    | diverge => exact hc.elim
  | ok r =>
    rw [hv] at hj
    cases x with
    | ok t rest => obtain ⟨-, rfl⟩ := hj; exact ⟨t, rfl⟩
    | short => exact hj.elim
    | fail x => exact hj.elim
    | panic => exact hc.elim
    | diverge => exact hc.elim

/-- **C104.** The standard factory reading from any reader: a tag, with the reader behind it, exactly when the
specification accepts, and otherwise the error for the first fault the specification finds. -/
theorem C104_verdict (hr : MemoryOk) (strict : Bool) {σ : Type} [Reader σ] (V : View σ) {s : σ} {bs : Bytes}
    (h : V.R s bs) :
    match verdict strict bs with
    | .ok rest => ∃ (t : Tag P) (s' : σ), Factory.deserialize (Engine.std strict) σ s = (.ok t, s') ∧ V.R s' rest
    | .error f => ∃ x s', Factory.deserialize (Engine.std strict : Engine P) σ s = (.err x, s') ∧ Reported V.E f x := by
  have hm := deserialize_matches (Engine.std strict : Engine P) V h
  have ht := top_judged (P := P) hr strict bs
  cases hv : verdict strict bs with
  | ok rest =>
    rw [hv] at ht
    obtain ⟨t, ht⟩ := ht
    rw [ht] at hm
    obtain ⟨s', h1, h2⟩ := hm
    exact ⟨t, s', h1, h2⟩
  | error f =>
    rw [hv] at ht
    rcases ht with ⟨ht, rfl⟩ | ⟨x, ht, hn⟩
    · rw [ht] at hm
      obtain ⟨x, s', h1, h2⟩ := hm
      exact ⟨_, s', h1, x, rfl, h2⟩
    · rw [ht] at hm
      obtain ⟨s', h1⟩ := hm
      refine ⟨x, s', h1, ?_⟩
      cases f
      · exact hn.elim
      all_goals exact hn

/-- **C104.** `from_bytes`: the same, and bytes left over are a corruption. -/
theorem C104_from_bytes (hr : MemoryOk) (strict : Bool) (bs : Bytes) :
    match verdict strict bs with
    | .ok [] => ∃ t : Tag P, Factory.fromBytes (Engine.std strict) bs = .ok t
    | .ok (_ :: _) => Factory.fromBytes (Engine.std strict : Engine P) bs = .err .corruptedData
    | .error f => ∃ x, Factory.fromBytes (Engine.std strict : Engine P) bs = .err x ∧ Reported (· = .endOfData) f x := by
  have hv := C104_verdict (P := P) hr strict ByteArrayReader.view.toView (ByteArrayReader.view_new bs)
  have hc := fromBytes_cases (Engine.std strict : Engine P) bs
  have ht := top_judged (P := P) hr strict bs
  cases h : verdict strict bs with
  | ok rest =>
    rw [h] at ht
    obtain ⟨t, ht⟩ := ht
    rw [ht] at hc
    cases rest with
    | nil => exact ⟨t, by rw [hc]; rfl⟩
    | cons b rest => exact hc
  | error f =>
    rw [h] at hv
    obtain ⟨x, s', h1, h2⟩ := hv
    have : Factory.fromBytes (Engine.std strict : Engine P) bs = .err x := by
      unfold Factory.fromBytes
      rw [h1]
    refine ⟨x, this, ?_⟩
    cases f
    · obtain ⟨i, rfl, hi⟩ := h2
      refine ⟨i, rfl, ?_⟩
      rcases hi with (hi | hi) | hi
      · exact .inl hi
      · exact .inr hi
      · exact .inr hi
    all_goals exact h2

/-- **C104.** The errors of `from_bytes` of the standard factory are these. -/
theorem C104_errors (hr : MemoryOk) (strict : Bool) (bs : Bytes) {x : TagErr}
    (h : Factory.fromBytes (Engine.std strict : Engine P) bs = .err x) :
    x = .ioError .endOfData ∨ x = .ioError .unableToReadData ∨ x = .ioError .corruptedData ∨ x = .corruptedData ∨
      x = .unknownTag ∨ x = .tagTooLarge := by
  have hv := C104_from_bytes (P := P) hr strict bs
  revert hv
  cases verdict strict bs with
  | ok rest =>
    cases rest with
    | nil => rintro ⟨t, ht⟩; rw [ht] at h; simp at h
    | cons b rest => intro hv; simp only at hv; rw [hv] at h; simp at h; simp [← h]
  | error f =>
    rintro ⟨y, hv, hy⟩
    rw [hv] at h
    simp only [Res.err.injEq] at h
    subst h
    cases f
    · obtain ⟨i, rfl, rfl | rfl⟩ := hy <;> simp
    all_goals (have hy : y = _ := hy; simp [hy])

/-- The first check agrees with the second or finds an unknown identifier. -/
def Stricter {α : Type} (v w : Check α) : Prop := ∀ bs, v bs = w bs ∨ v bs = .error .unknown

theorem Stricter.refl {α : Type} (v : Check α) : Stricter v v := fun _ => .inl rfl

theorem Stricter.bind {α β : Type} {v w : Check α} {k l : α → Check β} (h : Stricter v w) (hk : ∀ a, Stricter (k a) (l a)) :
    Stricter (v >>= k) (w >>= l) := by
  intro bs
  rw [Check.bind_apply, Check.bind_apply]
  rcases h bs with h | h
  · rw [h]
    cases w bs with
    | ok a => exact hk a.1 a.2
    | error f => exact .inl rfl
  · rw [h]; exact .inr rfl

theorem Stricter.times {v w : Check Unit} (h : Stricter v w) (n : Nat) : Stricter (Check.times v n) (Check.times w n) := by
  induction n with
  | zero => exact .refl _
  | succ n ih => exact h.bind fun _ => ih

theorem Stricter.untilEnd {v w : Check Unit} (h : Stricter v w) (m n : Nat) :
    Stricter (Check.untilEnd v m n) (Check.untilEnd w m n) := by
  induction n with
  | zero => exact .refl _
  | succ n ih =>
    intro bs
    unfold Check.untilEnd
    by_cases hb : bs.length + m = 0
    · simp [hb]
    · simp only [if_neg hb]; exact (h.bind fun _ => ih) bs

theorem Stricter.ite {α : Type} {c : Prop} [Decidable c] {v w v' w' : Check α} (h : Stricter v w) (h' : Stricter v' w') :
    Stricter (if c then v else v') (if c then w else w') := by
  split
  · exact h
  · exact h'

theorem Stricter.value {v w : Check Unit} (h : Stricter v w) (id n m p : Nat) :
    Stricter (Check.value v id n m p) (Check.value w id n m p) := by
  unfold Check.value
  repeat' (first | exact .refl _ | apply Stricter.ite)
  · exact (Stricter.refl _).bind fun a => Stricter.ite (.refl _) (h.times _)
  · exact h.untilEnd _ _
  · exact (Stricter.refl _).bind fun a => Stricter.times ((Stricter.refl _).bind fun _ => h) _

theorem Stricter.region {n : Nat} {v w : Nat → Check Unit} (h : ∀ m, Stricter (v m) (w m)) :
    Stricter (Check.region n v) (Check.region n w) := by
  intro bs
  unfold Check.region
  rcases h (n - bs.length) (bs.take n) with h | h
  · left; rw [h]
  · right; rw [h]

theorem Stricter.tag (k : Nat) : Stricter (Check.tag true k) (Check.tag false k) := by
  induction k with
  | zero => exact .refl _
  | succ k ih =>
    rw [Check.tag_succ, Check.tag_succ]
    refine (Stricter.refl _).bind fun id => (Stricter.refl _).bind fun n => Stricter.ite (.refl _) ?_
    by_cases hk : Check.known id = false
    · intro bs
      right
      show (if Check.known id = false ∧ (true = true ∨ id ≤ 15) then Check.fault .unknown else _) bs = _
      rw [if_pos ⟨hk, .inl rfl⟩]
      rfl
    · show Stricter (if Check.known id = false ∧ (true = true ∨ id ≤ 15) then Check.fault .unknown else _)
        (if Check.known id = false ∧ (false = true ∨ id ≤ 15) then Check.fault .unknown else _)
      rw [if_neg (fun h => hk h.1), if_neg (fun h => hk h.1)]
      exact Stricter.region fun m bs => ((ih.value id n m bs.length).bind fun _ => Stricter.refl _) bs

/-- **C104.** The strict mode differs only by the identifiers without a type. -/
theorem C104_modes (bs : Bytes) : verdict true bs = verdict false bs ∨ verdict true bs = .error .unknown := by
  unfold verdict
  rcases Stricter.tag (bs.length + 1) bs with h | h
  · left; rw [h]
  · right; rw [h]

end

deriving instance DecidableEq for Except

/-- Every fault occurs, and inputs are accepted: a sequence of a string and a null tag with two more bytes, one cut off, a
number of 2^64 and more, text that is not UTF-8, an unknown identifier, and a length of 512 MiB and one byte. -/
example : verdict true [22, 5, 17, 2, 0xC3, 0xA9, 0, 7, 7] = .ok [7, 7] ∧
    verdict true [22, 5, 17, 2, 0xC3] = .error .short ∧
    verdict true [22, 4, 17, 2, 0xC3, 0xA9, 0] = .ok [0] ∧
    verdict true [22, 3, 17, 2, 0xC3, 0xA9, 0] = .error .short ∧
    verdict true [10, 255, 255, 255, 255, 255, 255, 255, 255, 255] = .error .badNumber ∧
    verdict true [17, 2, 0xC3, 0x28] = .error .corrupted ∧
    verdict true [33, 0] = .error .unknown ∧ verdict false [33, 0] = .ok [] ∧ verdict false [15] = .error .unknown ∧
    verdict true [16, 251, 31, 255, 255, 9] = .error .tooLarge ∧
    verdict true [16, 251, 31, 255, 255, 8] = .error .short ∧
    verdict true [30, 6, 1, 17, 1, 65, 1, 1, 9] = .ok [9] ∧
    verdict true [30, 6, 1, 17, 1, 65, 1, 2, 9] = .error .corrupted ∧
    verdict true [21, 2, 3, 0] = .error .corrupted := by decide +kernel

attribute [local instance] bigEnv in
/-- The hypotheses hold and the conclusion says something: the strict factory does not know the identifier 33. -/
example : Factory.fromBytes (Engine.std true : Engine Empty) [33, 0] = .err .unknownTag := by
  have h := C104_from_bytes (P := Empty) bigEnv_ok true [33, 0]
  rw [show verdict true [33, 0] = .error .unknown by decide +kernel] at h
  obtain ⟨x, h, rfl⟩ := h
  exact h

end Verif.Props
