import Verif.Spec.Factory
import Verif.Proof.Stable
/-!
# The recursion bound never shows

`Parser.tag e k` does not depend on `k` once `k` exceeds the number of bytes, or the largest tag size.  It never
diverges, and never panics when the allocator can serve the largest buffers a tag may ask for.
-/
namespace Verif
open Spec
set_option linter.unusedSectionVars false

/-- The parsers agree on inputs of at most `N` bytes. -/
def Agree {α : Type} (N : Nat) (p q : Parser α) : Prop := ∀ bs : Bytes, bs.length ≤ N → p bs = q bs

section
variable {α β : Type} {N M : Nat}

theorem Agree.rfl' {p : Parser α} : Agree N p p := fun _ _ => rfl
theorem Agree.mono {p q : Parser α} (h : Agree M p q) (hN : N ≤ M) : Agree N p q := fun bs hb => h bs (by omega)

theorem Local.le {p : Parser α} (h : Local p) {bs rest : Bytes} {a : α} (hp : p bs = .ok a rest) :
    rest.length ≤ bs.length := by
  obtain ⟨u, rfl, _⟩ := h.ok hp
  simp

theorem Agree.bind {p q : Parser α} {k l : α → Parser β} (hp : Local p) (h : Agree N p q)
    (hk : ∀ a, Agree N (k a) (l a)) : Agree N (p >>= k) (q >>= l) := by
  intro bs hb
  rw [Parser.bind_apply, Parser.bind_apply, ← h bs hb]
  cases hq : p bs with
  | ok a r => exact hk a r (Nat.le_trans (hp.le hq) hb)
  | _ => rfl

theorem Agree.bind_left {p q : Parser α} {k : α → Parser β} (h : Agree N p q) : Agree N (p >>= k) (q >>= k) := by
  intro bs hb
  rw [Parser.bind_apply, Parser.bind_apply, ← h bs hb]

theorem Agree.limited {q r : Nat → Parser α} {n : Nat} (h : ∀ s, Agree M (q s) (r s)) (hn : N ≤ M ∨ n ≤ M) :
    Agree N (Parser.limited n q) (Parser.limited n r) := by
  intro bs hb
  unfold Parser.limited
  split
  · rw [h 0 (bs.take n) (by simp only [List.length_take]; omega)]
  · exact h _ bs (by omega)

end

section
variable {P : Type} [Env] {N : Nat} {f g : Parser (Tag P)} {F G : Option (Tag P) → Parser (Tag P)}

theorem Agree.rprog (hf : ∀ o, Local (F o)) (h : ∀ o, Agree N (F o) (G o)) (r : RProg P) :
    Agree N (Parser.rprog F r) (Parser.rprog G r) := by
  induction r with
  | done r p => exact Agree.rfl'
  | read k ih => exact Agree.bind Local.byte Agree.rfl' ih
  | readAll n k ih => exact Agree.bind (Local.take n) Agree.rfl' ih
  | deser k ih => exact Agree.bind (hf none) (h none) ih
  | into t k ih => exact Agree.bind (hf (some t)) (h (some t)) ih

theorem Agree.tagsWhile (hf : Local f) (h : Agree N f g) (s fuel : Nat) (acc : List (Tag P)) :
    Agree N (Parser.tagsWhile f s fuel acc) (Parser.tagsWhile g s fuel acc) := by
  induction fuel generalizing acc with
  | zero => exact Agree.rfl'
  | succ n ih =>
    intro bs hb
    simp only [Parser.tagsWhile]
    rw [Agree.bind hf h (fun t => ih (acc ++ [t])) bs hb]

theorem Agree.tags (hf : Local f) (h : Agree N f g) (n : Nat) (acc : List (Tag P)) :
    Agree N (Parser.tags f n acc) (Parser.tags g n acc) := by
  induction n generalizing acc with
  | zero => exact Agree.rfl'
  | succ n ih => exact Agree.bind hf h fun _ => ih _

theorem Agree.entries (hf : Local f) (h : Agree N f g) (n : Nat) (acc : List (String × Tag P)) :
    Agree N (Parser.entries f n acc) (Parser.entries g n acc) := by
  induction n generalizing acc with
  | zero => exact Agree.rfl'
  | succ n ih => exact Agree.bind Local.stringTag Agree.rfl' fun _ => Agree.bind hf h fun _ => ih _

theorem Agree.atomValue [TagPayload P] (hf : ∀ o, Local (F o)) (h : ∀ o, Agree N (F o) (G o)) (vs : Nat) (a : Atom P) :
    Agree N (Parser.atomValue F vs a) (Parser.atomValue G vs a) := by
  cases a with
  | payload id p => exact Agree.bind_left (Agree.rprog hf h _)
  | _ => exact Agree.rfl'

theorem Agree.tagValue [TagPayload P] (hf : ∀ o, Local (F o)) (h : ∀ o, Agree N (F o) (G o)) (vs : Nat) (t : Tag P) :
    Agree N (Parser.tagValue F vs t) (Parser.tagValue G vs t) := by
  cases t with
  | atom a => exact Agree.bind_left (Agree.atomValue hf h vs a)
  | seq id ts => exact Agree.bind_left (Agree.limited (fun s => Agree.tagsWhile (hf none) (h none) s _ _) (.inl (Nat.le_refl _)))
  | array id ts =>
    refine Agree.bind_left (Agree.limited (fun s => Agree.bind Local.ilint Agree.rfl' fun c => ?_)
      (.inl (Nat.le_refl _)))
    split
    · exact Agree.rfl'
    · split
      · exact Agree.bind_left (Agree.tags (hf none) (h none) _ _)
      · exact Agree.rfl'
  | dict id es =>
    exact Agree.bind_left (Agree.limited (fun s => Agree.bind Local.ilint Agree.rfl' fun c =>
      Agree.bind_left (Agree.entries (hf none) (h none) _ _)) (.inl (Nat.le_refl _)))

theorem Agree.tagValueInto [TagPayload P] {M : Nat} (hf : ∀ o, Local (F o)) (h : ∀ o, Agree M (F o) (G o)) (size : Nat)
    (t : Tag P) (hn : N ≤ M ∨ size ≤ M) : Agree N (Parser.tagValueInto F size t) (Parser.tagValueInto G size t) :=
  Agree.limited (fun _ => Agree.bind_left (Agree.tagValue hf h size t)) hn

theorem tagSize_implicit {id : UInt64} (h : isImplicitTag id = true) :
    Parser.tagSize id = Parser.lift (tagSizeToUsize (implicitTagSize id)) := by
  unfold Parser.tagSize; rw [if_pos h]; rfl
theorem tagSize_explicit {id : UInt64} (h : isImplicitTag id = false) :
    Parser.tagSize id = Parser.ilint >>= fun size => Parser.lift (tagSizeToUsize size) := by
  unfold Parser.tagSize; rw [if_neg (by simp [h])]

omit [Env] in
theorem lift_eq_ok {α : Type} {r : Res TagErr α} {a : α} {bs rest : Bytes} :
    Parser.lift r bs = .ok a rest ↔ r = .ok a ∧ bs = rest := by
  cases r <;> simp [Parser.lift]

theorem tagSizeToUsize_ok {s : UInt64} {n : Nat} (h : tagSizeToUsize s = .ok n) : n = s.toNat ∧ n ≤ maxTagSize := by
  unfold tagSizeToUsize at h
  split at h
  · simp at h
  · next hs =>
    simp only [Res.ok.injEq] at h
    subst h
    exact ⟨rfl, by omega⟩

theorem tagSize_ok {id : UInt64} {bs rest : Bytes} {n : Nat} (h : Parser.tagSize id bs = .ok n rest) :
    n ≤ maxTagSize := by
  rcases Bool.eq_false_or_eq_true (isImplicitTag id) with hi | hi
  · rw [tagSize_implicit hi, lift_eq_ok] at h
    exact (tagSizeToUsize_ok h.1).2
  · rw [tagSize_explicit hi] at h
    obtain ⟨s, r, _, h2⟩ := Parser.bind_eq_ok.mp h
    exact (tagSizeToUsize_ok (lift_eq_ok.mp h2).1).2

omit [Env] in
theorem byte_ok {bs rest : Bytes} {b : Byte} (h : Parser.byte bs = .ok b rest) : bs = b :: rest := by
  cases bs with
  | nil => simp [Parser.byte] at h
  | cons c bs => simp only [Parser.byte, PRes.ok.injEq] at h; rw [h.1, h.2]

omit [Env] in
theorem ilint_shrinks {bs rest : Bytes} {v : UInt64} (h : Parser.ilint bs = .ok v rest) : rest.length < bs.length := by
  obtain ⟨b, r, h1, h2⟩ := Parser.bind_eq_ok.mp h
  have := byte_ok h1
  subst this
  have := (Local.ite (c := ILInt.decodedSize b = 1) (Local.pure b.toUInt64)
    ((Local.take _).bind fun body => Local.lift ((ILInt.decodeBody body).mapErr fun _ => .ioError .corruptedData))).le h2
  simp only [List.length_cons]
  omega

theorem ilint_nil : Parser.ilint [] = .short := rfl

/-- A tag takes at least one byte. -/
theorem tag_lt [TagPayload P] (e : Engine P) (k : Nat) (o : Option (Tag P)) {bs rest : Bytes} {t : Tag P}
    (h : Parser.tag e k o bs = .ok t rest) : rest.length < bs.length := by
  cases k with
  | zero => simp [Parser.tag] at h
  | succ k =>
    cases o with
    | none =>
      obtain ⟨id, r, h1, h2⟩ := Parser.bind_eq_ok.mp h
      have hl := ilint_shrinks h1
      obtain ⟨size, r2, h3, h4⟩ := Parser.bind_eq_ok.mp h2
      have := (Local.tagSize id).le h3
      obtain ⟨t', r3, h5, h6⟩ := Parser.bind_eq_ok.mp h4
      have := (Local.lift _).le h5
      cases t' with
      | none => simp at h6
      | some t' =>
        have := (Local.tagValueInto (Local.tag e k) size t').le h6
        omega
    | some t' =>
      obtain ⟨id, r, h1, h2⟩ := Parser.bind_eq_ok.mp h
      have hl := ilint_shrinks h1
      split at h2
      · simp at h2
      · obtain ⟨size, r2, h3, h4⟩ := Parser.bind_eq_ok.mp h2
        have := (Local.tagSize id).le h3
        have := (Local.tagValueInto (Local.tag e k) size t').le h4
        omega

theorem tag_nil [TagPayload P] (e : Engine P) (k : Nat) (o : Option (Tag P)) : Parser.tag e (k + 1) o [] = .short := by
  cases o <;> rfl

/-- The recursion bound does not matter once it exceeds the number of bytes. -/
theorem tag_agree [TagPayload P] (e : Engine P) (N : Nat) :
    ∀ k l, N < k → N < l → ∀ o, Agree N (Parser.tag e k o) (Parser.tag e l o) := by
  induction N with
  | zero =>
    intro k l hk hl o bs hb
    obtain ⟨k, rfl⟩ : ∃ k', k = k' + 1 := ⟨k - 1, by omega⟩
    obtain ⟨l, rfl⟩ : ∃ l', l = l' + 1 := ⟨l - 1, by omega⟩
    have : bs = [] := List.eq_nil_of_length_eq_zero (by omega)
    subst this
    rw [tag_nil, tag_nil]
  | succ N ih =>
    intro k l hk hl o bs hb
    obtain ⟨k, rfl⟩ : ∃ k', k = k' + 1 := ⟨k - 1, by omega⟩
    obtain ⟨l, rfl⟩ : ∃ l', l = l' + 1 := ⟨l - 1, by omega⟩
    cases o <;>
    · simp only [Parser.tag]
      rw [Parser.bind_apply, Parser.bind_apply]
      cases h1 : Parser.ilint bs with
      | ok id r =>
        have := ilint_shrinks h1
        first
        | refine Agree.bind (N := N) (Local.tagSize id) Agree.rfl' (fun size => Agree.bind (Local.lift _) Agree.rfl'
            fun t => ?_) r (by omega)
          cases t with
          | none => exact Agree.rfl'
          | some t =>
            exact Agree.tagValueInto (Local.tag e k) (ih k l (by omega) (by omega)) size t (.inl (Nat.le_refl _))
        | dsimp only
          split
          · rfl
          · exact Agree.bind (N := N) (Local.tagSize id) Agree.rfl' (fun size =>
              Agree.tagValueInto (Local.tag e k) (ih k l (by omega) (by omega)) size _ (.inl (Nat.le_refl _))) r (by omega)
      | _ => rfl

/-- Nor once it exceeds the largest tag size. -/
theorem tag_agree_max [TagPayload P] (e : Engine P) {k l : Nat} (hk : maxTagSize < k) (hl : maxTagSize < l) :
    Parser.tag e (k + 1) = Parser.tag e (l + 1) := by
  have hv : ∀ (id : UInt64) (r : Bytes) (m m' : Nat → Parser (Tag P)),
      (∀ size ≤ maxTagSize, ∀ N, Agree N (m size) (m' size)) →
      (Parser.tagSize id >>= m) r = (Parser.tagSize id >>= m') r := by
    intro id r m m' h
    rw [Parser.bind_apply, Parser.bind_apply]
    cases h2 : Parser.tagSize id r with
    | ok size r' => exact h size (tagSize_ok h2) _ r' (Nat.le_refl _)
    | _ => rfl
  funext o bs
  cases o with
  | none =>
    simp only [Parser.tag]
    rw [Parser.bind_apply, Parser.bind_apply]
    cases h1 : Parser.ilint bs with
    | ok id r =>
      refine hv id r _ _ fun size hs N => Agree.bind (Local.lift _) Agree.rfl' fun t => ?_
      cases t with
      | none => exact Agree.rfl'
      | some t => exact Agree.tagValueInto (Local.tag e k) (tag_agree e _ k l hk hl) size t (.inr hs)
    | _ => rfl
  | some t =>
    simp only [Parser.tag]
    rw [Parser.bind_apply, Parser.bind_apply]
    cases h1 : Parser.ilint bs with
    | ok id r =>
      dsimp only
      split
      · rfl
      · exact hv id r _ _ fun size hs N =>
          Agree.tagValueInto (Local.tag e k) (tag_agree e _ k l hk hl) size t (.inr hs)
    | _ => rfl

/-- The pure counterpart of the methods of a factory. -/
def Parser.call [TagPayload P] (e : Engine P) : Option (Tag P) → Parser (Tag P) := Parser.tag e Factory.fuel

/-- The pure counterpart of `Factory.deserialize`. -/
abbrev Parser.top [TagPayload P] (e : Engine P) : Parser (Tag P) := Parser.call e none

theorem Local.call [TagPayload P] (e : Engine P) (o : Option (Tag P)) : Local (Parser.call e o) := Local.tag e _ o

theorem Local.top [TagPayload P] (e : Engine P) : Local (Parser.top e) := Local.tag e _ none

theorem tag_eq_call [TagPayload P] (e : Engine P) {k : Nat} (o : Option (Tag P)) {bs : Bytes} (h : bs.length < k) :
    Parser.tag e k o bs = Parser.call e o bs := by
  rw [tag_agree e bs.length k (k + Factory.fuel) h (by omega) o bs (Nat.le_refl _)]
  have h1 : Factory.fuel = (maxTagSize + 1) + 1 := rfl
  have h2 : k + Factory.fuel = (k + maxTagSize + 1) + 1 := by rw [h1]; omega
  rw [Parser.call, h2, h1]
  rw [tag_agree_max e (k := k + maxTagSize + 1) (l := maxTagSize + 1) (by omega) (by omega)]

theorem tag_eq_top [TagPayload P] (e : Engine P) {k : Nat} {bs : Bytes} (h : bs.length < k) :
    Parser.tag e k none bs = Parser.top e bs := tag_eq_call e none h

theorem call_eq [TagPayload P] (e : Engine P) : Parser.call e = fun o => match o with
    | none => (do
      let id ← Parser.ilint
      let size ← Parser.tagSize id
      let t ← Parser.lift (e.createTag id)
      match t with
      | none => Parser.fail .unknownTag
      | some t => Parser.tagValueInto (Parser.call e) size t)
    | some t => (do
      let id ← Parser.ilint
      if id ≠ t.id then Parser.fail .unexpectedTagType
      else do
        let size ← Parser.tagSize id
        Parser.tagValueInto (Parser.call e) size t) := by
  have h1 : Parser.call e = Parser.tag e (maxTagSize + 1 + 1) := rfl
  have h2 : Parser.tag e (maxTagSize + 2 + 1) = Parser.tag e (maxTagSize + 1 + 1) :=
    tag_agree_max e (by omega) (by omega)
  rw [h1]
  conv => lhs; rw [← h2]
  generalize maxTagSize + 1 + 1 = k
  funext o
  cases o <;> rfl

/-- Inside a tag, the factory behaves as at the top. -/
theorem top_eq [TagPayload P] (e : Engine P) : Parser.top e = (do
    let id ← Parser.ilint
    let size ← Parser.tagSize id
    let t ← Parser.lift (e.createTag id)
    match t with
    | none => Parser.fail .unknownTag
    | some t => Parser.tagValueInto (Parser.call e) size t) := by
  rw [Parser.top]
  conv => lhs; rw [call_eq]

/-- Filling an existing tag. -/
theorem into_eq [TagPayload P] (e : Engine P) (t : Tag P) : Parser.call e (some t) = (do
    let id ← Parser.ilint
    if id ≠ t.id then Parser.fail .unexpectedTagType
    else do
      let size ← Parser.tagSize id
      Parser.tagValueInto (Parser.call e) size t) := by
  conv => lhs; rw [call_eq]

/-! ### No panic, no divergence -/

/-- Neither a panic nor a divergence. -/
def PRes.calm {α : Type} : PRes α → Prop
  | .panic => False
  | .diverge => False
  | _ => True

def Calm {α : Type} (N : Nat) (p : Parser α) : Prop := ∀ bs : Bytes, bs.length ≤ N → (p bs).calm


section
variable {α β : Type} {N M : Nat}
theorem Calm.mono {p : Parser α} (h : Verif.Calm M p) (hN : N ≤ M) : Verif.Calm N p := fun bs hb => h bs (by omega)
theorem Calm.pure {a : α} : Verif.Calm N (Pure.pure a : Parser α) := fun _ _ => trivial
theorem Calm.fail {e : TagErr} : Verif.Calm N (Parser.fail e : Parser α) := fun _ _ => trivial
theorem Calm.lift {r : Res TagErr α} (h : r ≠ .panic ∧ r ≠ .diverge) : Verif.Calm N (Parser.lift r) := by
  intro bs _
  cases r <;> simp_all [Parser.lift, PRes.calm]
theorem Calm.byte : Verif.Calm N Parser.byte := by
  intro bs _
  cases bs <;> trivial
theorem Calm.take {n : Nat} : Verif.Calm N (Parser.take n) := by
  intro bs _
  unfold Parser.take
  split <;> trivial
theorem Calm.bind' {p : Parser α} {k : α → Parser β} (hp : Verif.Calm N p)
    (hk : ∀ bs a r, bs.length ≤ N → p bs = .ok a r → (k a r).calm) : Verif.Calm N (p >>= k) := by
  intro bs hb
  rw [Parser.bind_apply]
  have := hp bs hb
  cases hq : p bs with
  | ok a r => exact hk bs a r hb hq
  | panic => rw [hq] at this; exact this.elim
  | diverge => rw [hq] at this; exact this.elim
  | _ => trivial
theorem Calm.bind {p : Parser α} {k : α → Parser β} (hl : Local p) (hp : Verif.Calm N p)
    (hk : ∀ a, Verif.Calm N (k a)) : Verif.Calm N (p >>= k) :=
  Calm.bind' hp fun _ a r hb hq => hk a r (Nat.le_trans (hl.le hq) hb)
theorem Calm.map {p : Parser α} {g : α → β} (hp : Verif.Calm N p) :
    Verif.Calm N (p >>= fun a => (Pure.pure (g a) : Parser β)) := Calm.bind' hp fun _ _ _ _ _ => trivial
theorem Calm.ite {c : Prop} [Decidable c] {p q : Parser α} (hp : Verif.Calm N p) (hq : Verif.Calm N q) :
    Verif.Calm N (if c then p else q) := by split <;> assumption
theorem Calm.limited {n : Nat} {q : Nat → Parser α} (h : ∀ s, Verif.Calm M (q s)) (hn : N ≤ M ∨ n ≤ M) :
    Verif.Calm N (Parser.limited n q) := by
  intro bs hb
  unfold Parser.limited
  split
  · have := h 0 (bs.take n) (by simp only [List.length_take]; omega)
    cases hq : q 0 (bs.take n) with
    | panic => rw [hq] at this; exact this.elim
    | diverge => rw [hq] at this; exact this.elim
    | _ => trivial
  · exact h _ bs (by omega)
theorem Calm.ensureEmpty {s : Nat} : Verif.Calm N (Parser.ensureEmpty s) := by
  intro bs _
  unfold Parser.ensureEmpty
  split <;> trivial
theorem Calm.finish {s : Nat} {r : α} : Verif.Calm N (do Parser.ensureEmpty s; Pure.pure r : Parser α) :=
  Calm.bind' Calm.ensureEmpty fun _ _ _ _ _ => trivial

theorem Calm.ilint : Verif.Calm N Parser.ilint := by
  refine Calm.bind Local.byte Calm.byte fun h => Calm.ite Calm.pure (Calm.bind (Local.take _) Calm.take fun body => ?_)
  refine Calm.lift ?_
  by_cases hb : 1 ≤ body.length ∧ body.length ≤ 8
  · rw [ILInt.decodeBody_eq _ hb.1 hb.2]
    split <;> simp [Res.mapErr]
  · unfold ILInt.decodeBody
    rw [if_pos (by
      simp; by_cases hb0 : body = []
      · simp [hb0]
      · right; have := List.length_pos_iff.mpr hb0; omega)]
    simp [Res.mapErr]
end

section
variable {f : Parser (Tag P)} {F : Option (Tag P) → Parser (Tag P)} {vs : Nat}

/-- The allocator serves the largest buffer a tag may ask for. -/
def Roomy [Env] : Prop := 16 * maxTagSize ≤ Env.allocMax

theorem Calm.bytes (hr : Roomy) {n : Nat} (h : n ≤ maxTagSize) : Verif.Calm N (Parser.bytes n) := by
  unfold Parser.bytes Roomy at *
  rw [if_pos (by omega)]
  exact Calm.take

theorem Calm.utf8 (hr : Roomy) {n : Nat} (h : n ≤ maxTagSize) : Verif.Calm N (Parser.utf8 n) := by
  refine Calm.bind (Local.bytes n) (Calm.bytes hr h) fun tmp => ?_
  cases fromUtf8 tmp with
  | none => exact Calm.fail
  | some s => exact Calm.pure

theorem tagSizeToUsize_calm (s : UInt64) : tagSizeToUsize s ≠ .panic ∧ tagSizeToUsize s ≠ .diverge := by
  unfold tagSizeToUsize; split <;> simp

theorem Calm.stringTag (hr : Roomy) : Verif.Calm N Parser.stringTag := by
  refine Calm.bind Local.ilint Calm.ilint fun id => Calm.ite Calm.fail
    (Calm.bind Local.ilint Calm.ilint fun len => Calm.bind' (Calm.lift (tagSizeToUsize_calm _)) ?_)
  intro bs n r hb hn
  exact Calm.utf8 hr (tagSizeToUsize_ok (lift_eq_ok.mp hn).1).2 r (Nat.le_refl _)

omit [Env] in
theorem _root_.Verif.RProg.Calm.mono {C D : Tag P → Prop} (h : ∀ t, C t → D t) {r : RProg P} (hr : r.Calm C) : r.Calm D := by
  induction r with
  | done r p => exact hr
  | read k ih => exact fun b => ih b (hr b)
  | readAll n k ih => exact fun b => ih b (hr b)
  | deser k ih => exact fun t => ih t (hr t)
  | into t k ih => exact ⟨h t hr.1, fun t' => ih t' (hr.2 t')⟩

omit [Env] in
theorem calmTag_payload [TagPayload P] {id : UInt64} {p : P} (h : CalmTag (.atom (.payload id p))) (n : Nat) :
    (TagPayload.deserialize p n).Calm CalmTag := by
  obtain ⟨C, h1, h2⟩ := h
  exact RProg.Calm.mono (fun t ht => ⟨C, ht, h2⟩) (h2 id p h1 n)

omit [Env] in
theorem calmTag_other [TagPayload P] {t : Tag P} (h : ∀ id p, t ≠ .atom (.payload id p)) : CalmTag t :=
  ⟨(· = t), rfl, fun _ _ hp => absurd hp.symm (h _ _)⟩

/-- The factory call neither panics nor diverges, as long as it is not given a tag that does. -/
def CalmCall [TagPayload P] (N : Nat) (F : Option (Tag P) → Parser (Tag P)) : Prop :=
  ∀ o, (∀ t, o = some t → CalmTag t) → Verif.Calm N (F o)

theorem CalmCall.new [TagPayload P] (h : CalmCall N F) : Verif.Calm N (F none) := h none (by simp)

theorem Calm.rprog [TagPayload P] (hl : ∀ o, Local (F o)) (hf : CalmCall N F) (r : RProg P) (hr : r.Calm CalmTag) :
    Verif.Calm N (Parser.rprog F r) := by
  induction r with
  | done r p => exact Calm.bind (Local.lift r) (Calm.lift hr) fun _ => Calm.pure
  | read k ih => exact Calm.bind Local.byte Calm.byte fun b => ih b (hr b)
  | readAll n k ih => exact Calm.bind (Local.take n) Calm.take fun b => ih b (hr b)
  | deser k ih => exact Calm.bind (hl none) hf.new fun t => ih t (hr t)
  | into t k ih =>
    exact Calm.bind (hl (some t)) (hf _ fun u hu => by cases hu; exact hr.1) fun t' => ih t' (hr.2 t')

theorem Calm.ilints (n : Nat) (acc : List UInt64) : Verif.Calm N (Parser.ilints n acc) := by
  induction n generalizing acc with
  | zero => exact Calm.pure
  | succ n ih => exact Calm.bind Local.ilint Calm.ilint fun v => ih _

theorem Calm.ilintArray (hr : Roomy) (h : vs ≤ maxTagSize) : Verif.Calm N (Parser.ilintArray vs) := by
  refine Calm.limited (M := N) (fun s => Calm.bind Local.ilint Calm.ilint fun c => ?_) (.inl (Nat.le_refl _))
  split
  · exact Calm.fail
  · unfold Roomy at hr
    rw [if_pos (by omega)]
    exact Calm.bind (Local.ilints _ _) (Calm.ilints _ _) fun _ => Calm.finish

theorem Calm.strEntries (hr : Roomy) (n : Nat) (acc : List (String × String)) :
    Verif.Calm N (Parser.strEntries n acc) := by
  induction n generalizing acc with
  | zero => exact Calm.pure
  | succ n ih =>
    exact Calm.bind Local.stringTag (Calm.stringTag hr) fun _ => Calm.bind Local.stringTag (Calm.stringTag hr) fun _ =>
      ih _

theorem Calm.strDict (hr : Roomy) : Verif.Calm N (Parser.strDict vs) :=
  Calm.limited (M := N) (fun _ => Calm.bind Local.ilint Calm.ilint fun _ =>
    Calm.bind (Local.strEntries _ _) (Calm.strEntries hr _ _) fun _ => Calm.finish) (.inl (Nat.le_refl _))

theorem Calm.range : Verif.Calm N (Parser.range vs) :=
  Calm.limited (M := N) (fun _ => Calm.bind Local.ilint Calm.ilint fun _ =>
    Calm.bind (Local.take _) Calm.take fun _ => Calm.finish) (.inl (Nat.le_refl _))

theorem Calm.fixed {n : Nat} {g : Bytes → Atom P} : Verif.Calm N (Parser.fixed vs n g) :=
  Calm.ite (Calm.map Calm.take) Calm.fail

theorem Calm.i32 : Verif.Calm N Parser.i32 := Calm.map Calm.take


theorem Calm.atomValue [TagPayload P] (hr : Roomy) (hl : ∀ o, Local (F o)) (hf : CalmCall N F)
    (h : vs ≤ maxTagSize) (a : Atom P) (hP : CalmTag (.atom a)) :
    Verif.Calm N (Parser.atomValue F vs a) := by
  cases a with
  | null id => exact Calm.ite Calm.pure Calm.fail
  | bool id b =>
    exact Calm.ite (Calm.bind Local.byte Calm.byte fun _ => Calm.ite Calm.pure (Calm.ite Calm.pure Calm.fail)) Calm.fail
  | int8 id v => exact Calm.ite (Calm.map Calm.byte) Calm.fail
  | uint8 id v => exact Calm.ite (Calm.map Calm.byte) Calm.fail
  | bin128 id v =>
    refine Calm.ite (Calm.bind' Calm.take ?_) Calm.fail
    intro bs a r hb ha
    unfold Parser.take at ha
    split at ha
    · simp only [PRes.ok.injEq] at ha
      rw [dif_pos (by rw [← ha.1]; simp; omega)]
      trivial
    · simp at ha
  | ilint id v => exact Calm.map Calm.ilint
  | signedILInt id v => exact Calm.map Calm.ilint
  | raw id v => exact Calm.map (Calm.bytes hr h)
  | byteArray v => exact Calm.map (Calm.bytes hr h)
  | string id s => exact Calm.map (Calm.utf8 hr h)
  | bigInt v => exact Calm.map (Calm.bytes hr h)
  | bigDec id sc v =>
    exact Calm.ite (Calm.bind Local.i32 Calm.i32 fun _ => Calm.bind (Local.bytes _) (Calm.bytes hr (by omega)) fun _ =>
      Calm.pure) Calm.fail
  | ilintArray id v => exact Calm.map (Calm.ilintArray hr h)
  | range id a b => exact Calm.map Calm.range
  | version id a b c d =>
    exact Calm.ite (Calm.bind Local.i32 Calm.i32 fun _ => Calm.bind Local.i32 Calm.i32 fun _ =>
      Calm.bind Local.i32 Calm.i32 fun _ => Calm.bind Local.i32 Calm.i32 fun _ => Calm.pure) Calm.fail
  | oid id v => exact Calm.map (Calm.ilintArray hr h)
  | strDict id es => exact Calm.map (Calm.strDict hr)
  | payload id p => exact Calm.map (Calm.rprog hl hf _ (calmTag_payload hP _))
  | _ => exact Calm.fixed

/-- The loop of a sequence: enough iterations, since each tag takes a byte and no tag is read from nothing. -/
theorem Calm.tagsWhile (hlt : ∀ {bs t rest}, f bs = .ok t rest → rest.length < bs.length)
    (s n : Nat) (hf : Verif.Calm N f) (acc : List (Tag P)) (bs : Bytes)
    (hb : bs.length ≤ N) (hn : bs.length < n) : (Parser.tagsWhile f s n acc bs).calm := by
  induction n generalizing acc bs with
  | zero => omega
  | succ n ih =>
    simp only [Parser.tagsWhile]
    split
    · trivial
    · rw [Parser.bind_apply]
      have := hf bs hb
      cases hq : f bs with
      | ok t r => exact ih _ r (by have := hlt hq; omega) (by have := hlt hq; omega)
      | panic => rw [hq] at this; exact this.elim
      | diverge => rw [hq] at this; exact this.elim
      | _ => trivial

theorem Calm.tags (hl : Local f) (hf : Verif.Calm N f) (n : Nat) (acc : List (Tag P)) :
    Verif.Calm N (Parser.tags f n acc) := by
  induction n generalizing acc with
  | zero => exact Calm.pure
  | succ n ih => exact Calm.bind hl hf fun _ => ih _

theorem Calm.entries (hr : Roomy) (hl : Local f) (hf : Verif.Calm N f) (n : Nat) (acc : List (String × Tag P)) :
    Verif.Calm N (Parser.entries f n acc) := by
  induction n generalizing acc with
  | zero => exact Calm.pure
  | succ n ih => exact Calm.bind Local.stringTag (Calm.stringTag hr) fun _ => Calm.bind hl hf fun _ => ih _

theorem Calm.tagValue [TagPayload P] (hr : Roomy) (hl : ∀ o, Local (F o))
    (hlt : ∀ {bs t rest}, F none bs = .ok t rest → rest.length < bs.length) (hf : CalmCall N F)
    (h : vs ≤ maxTagSize) (t : Tag P) (hP : CalmTag t) : Verif.Calm N (Parser.tagValue F vs t) := by
  cases t with
  | atom a => exact Calm.map (Calm.atomValue hr hl hf h a hP)
  | seq id ts =>
    refine Calm.map fun bs hb => ?_
    unfold Parser.seq Parser.limited
    split
    · next hle =>
      have := Calm.tagsWhile hlt 0 (vs + 1) hf.new [] (bs.take vs) (by simp only [List.length_take]; omega)
        (by simp only [List.length_take]; omega)
      cases hq : Parser.tagsWhile (F none) 0 (vs + 1) [] (bs.take vs) with
      | panic => rw [hq] at this; exact this.elim
      | diverge => rw [hq] at this; exact this.elim
      | _ => simp only [hq]; trivial
    · exact Calm.tagsWhile hlt _ (vs + 1) hf.new [] bs hb (by omega)
  | array id ts =>
    refine Calm.map (Calm.limited (M := N) (fun s => Calm.bind Local.ilint Calm.ilint fun c => ?_)
      (.inl (Nat.le_refl _)))
    split
    · exact Calm.fail
    · unfold Roomy at hr
      rw [if_pos (by omega)]
      exact Calm.bind (Local.tags (hl none) _ _) (Calm.tags (hl none) hf.new _ _) fun _ => Calm.finish
  | dict id es =>
    exact Calm.map (Calm.limited (M := N) (fun s => Calm.bind Local.ilint Calm.ilint fun c =>
      Calm.bind (Local.entries (hl none) _ _) (Calm.entries hr (hl none) hf.new _ _) fun _ => Calm.finish) (.inl (Nat.le_refl _)))

theorem Calm.checkEmpty {s : Nat} {t : Tag P} : Verif.Calm N (Parser.checkEmpty s t) := by
  intro bs _
  simp only [Parser.checkEmpty]
  split <;> trivial

theorem Calm.tagValueInto [TagPayload P] (hr : Roomy) (hl : ∀ o, Local (F o))
    (hlt : ∀ {bs t rest}, F none bs = .ok t rest → rest.length < bs.length) {M : Nat} (hf : CalmCall M F)
    (h : vs ≤ maxTagSize) (t : Tag P) (hP : CalmTag t) (hn : N ≤ M ∨ vs ≤ M) : Verif.Calm N (Parser.tagValueInto F vs t) :=
  Calm.limited (M := M) (fun _ => Calm.bind (Local.tagValue hl vs t) (Calm.tagValue hr hl hlt hf h t hP)
    fun _ => Calm.checkEmpty) hn

theorem Calm.tagSize {id : UInt64} : Verif.Calm N (Parser.tagSize id) := by
  rcases Bool.eq_false_or_eq_true (isImplicitTag id) with hi | hi
  · rw [tagSize_implicit hi]; exact Calm.lift (tagSizeToUsize_calm _)
  · rw [tagSize_explicit hi]
    exact Calm.bind Local.ilint Calm.ilint fun _ => Calm.lift (tagSizeToUsize_calm _)


/-- No byte string makes the factory panic or diverge. -/
theorem Calm.call [TagPayload P] (hr : Roomy) (e : Engine P) (he : CalmCreators e) (N : Nat) :
    CalmCall N (Parser.call e) := by
  induction N with
  | zero =>
    intro o ho bs hb
    have : bs = [] := List.eq_nil_of_length_eq_zero (by omega)
    subst this
    rw [Parser.call, show Factory.fuel = maxTagSize + 1 + 1 from rfl, tag_nil]
    trivial
  | succ N ih =>
    have hv : ∀ (id : UInt64) (r : Bytes), r.length ≤ N → ∀ t : Tag P, CalmTag t → ∀ size ≤ maxTagSize,
        (Parser.tagValueInto (Parser.call e) size t r).calm := fun id r hb t ht size hs =>
      Calm.tagValueInto hr (Local.call e) (tag_lt e _ none) ih hs t ht (.inl (Nat.le_refl N)) _ hb
    intro o ho bs hb
    have hc := Calm.ilint (N := N + 1) bs hb
    cases o with
    | none =>
      show (Parser.top e bs).calm
      rw [top_eq, Parser.bind_apply]
      cases h1 : Parser.ilint bs with
      | ok id r =>
        have hlt := ilint_shrinks h1
        refine Calm.bind' (N := N) Calm.tagSize ?_ r (by omega)
        intro r size r' hb' h2
        have hs := tagSize_ok h2
        have hle := (Local.tagSize id).le h2
        refine Calm.bind' (N := N) (Calm.lift ⟨(he id).1, (he id).2.1⟩) (fun r' t r'' hb' ht => ?_) r' (by omega)
        have ht' := (lift_eq_ok.mp ht).1; have hr' := (lift_eq_ok.mp ht).2; subst hr'
        cases t with
        | none => exact Calm.fail (N := N) _ hb'
        | some t => exact hv id _ hb' t ((he id).2.2 t ht') size hs
      | panic => rw [h1] at hc; exact hc.elim
      | diverge => rw [h1] at hc; exact hc.elim
      | _ => trivial
    | some t =>
      rw [into_eq, Parser.bind_apply]
      cases h1 : Parser.ilint bs with
      | ok id r =>
        have hlt := ilint_shrinks h1
        dsimp only
        split
        · trivial
        · refine Calm.bind' (N := N) Calm.tagSize ?_ r (by omega)
          intro r size r' hb' h2
          exact hv id _ (by have := (Local.tagSize id).le h2; omega) t (ho t rfl) size (tagSize_ok h2)
      | panic => rw [h1] at hc; exact hc.elim
      | diverge => rw [h1] at hc; exact hc.elim
      | _ => trivial

theorem Calm.top [TagPayload P] (hr : Roomy) (e : Engine P) (he : CalmCreators e)
    (bs : Bytes) : (Parser.top e bs).calm := (Calm.call hr e he bs.length).new bs (Nat.le_refl _)
end
end
end Verif
