import Verif.Proof.SimTag
/-!
# Parsers depend only on what they consume

`Stable q` for a parser `q` told the slack of its region: a success depends only on the bytes used and on how much of
the region is left; a failure other than running out of bytes does not change when more bytes arrive.
-/
namespace Verif
open Spec
set_option linter.unusedSectionVars false

/-- The outcome is a failure that more input cannot change. -/
def PRes.definite {α : Type} : PRes α → Prop
  | .ok .. => False
  | .short => False
  | _ => True

structure Stable {α : Type} (q : Nat → Parser α) : Prop where
  ok : ∀ {s bs a rest}, q s bs = .ok a rest →
    ∃ used, bs = used ++ rest ∧ ∀ s' x, x.length + s' = rest.length + s → q s' (used ++ x) = .ok a x
  more : ∀ {s bs}, (q s bs).definite → ∀ s' x, x.length + s' = s → q s' (bs ++ x) = q s bs

/-- A parser that is not told its slack. -/
def Local {α : Type} (p : Parser α) : Prop := Stable fun _ => p

section
variable {α β : Type}

theorem Local.ok {p : Parser α} (h : Local p) {bs : Bytes} {a : α} {rest : Bytes} (hp : p bs = .ok a rest) :
    ∃ used, bs = used ++ rest ∧ ∀ x, p (used ++ x) = .ok a x := by
  obtain ⟨used, h1, h2⟩ := Stable.ok h (s := 0) hp
  refine ⟨used, h1, fun x => ?_⟩
  obtain ⟨used', h1', h2'⟩ := Stable.ok h (s := x.length) hp
  have : used = used' := List.append_cancel_right (h1 ▸ h1')
  subst this
  rcases Nat.le_total x.length rest.length with hl | hl
  · exact h2 (rest.length - x.length) x (by omega)
  · exact h2' rest.length x (by omega)

theorem Local.more {p : Parser α} (h : Local p) {bs : Bytes} (hp : (p bs).definite) (x : Bytes) :
    p (bs ++ x) = p bs := Stable.more h (s := x.length) hp 0 x (by omega)

theorem Local.mk' {p : Parser α}
    (h : ∀ bs a rest, p bs = .ok a rest → ∃ used, bs = used ++ rest ∧ ∀ x, p (used ++ x) = .ok a x)
    (h' : ∀ bs, (p bs).definite → ∀ x, p (bs ++ x) = p bs) : Local p where
  ok hp := by
    obtain ⟨used, h1, h2⟩ := h _ _ _ hp
    exact ⟨used, h1, fun _ x _ => h2 x⟩
  more hp _ x _ := h' _ hp x

theorem Local.pure (a : α) : Local (pure a : Parser α) :=
  Local.mk' (fun bs a' rest h => by
    simp only [Parser.pure_apply, PRes.ok.injEq] at h
    obtain ⟨rfl, rfl⟩ := h
    exact ⟨[], rfl, fun x => rfl⟩) (fun bs h => by simp [PRes.definite] at h)

theorem Local.fail (e : TagErr) : Local (Parser.fail e : Parser α) :=
  Local.mk' (fun _ _ _ h => by simp at h) (fun _ _ _ => rfl)
theorem Local.panic : Local (Parser.panic : Parser α) :=
  Local.mk' (fun _ _ _ h => by simp at h) (fun _ _ _ => rfl)
theorem Local.diverge : Local (Parser.diverge : Parser α) :=
  Local.mk' (fun _ _ _ h => by simp at h) (fun _ _ _ => rfl)
theorem Local.lift (r : Res TagErr α) : Local (Parser.lift r) := by
  cases r with
  | ok a => exact Local.pure a
  | err e => exact Local.fail e
  | panic => exact Local.panic
  | diverge => exact Local.diverge

theorem Local.byte : Local Parser.byte :=
  Local.mk' (fun bs a rest h => by
    cases bs with
    | nil => simp [Parser.byte] at h
    | cons b bs =>
      simp only [Parser.byte, PRes.ok.injEq] at h
      obtain ⟨rfl, rfl⟩ := h
      exact ⟨[b], rfl, fun x => rfl⟩) (fun bs h => by cases bs <;> simp [Parser.byte, PRes.definite] at h)

theorem Local.take (n : Nat) : Local (Parser.take n) :=
  Local.mk' (fun bs a rest h => by
    unfold Parser.take at h
    split at h
    · next hn =>
      simp only [PRes.ok.injEq] at h
      obtain ⟨rfl, rfl⟩ := h
      refine ⟨bs.take n, (List.take_append_drop n bs).symm, fun x => ?_⟩
      have : (bs.take n).length = n := by simp; omega
      simp [Parser.take, List.take_append, List.drop_append, this]
    · simp at h) (fun bs h => by unfold Parser.take at h; split at h <;> simp [PRes.definite] at h)

theorem Stable.bind {q : Nat → Parser α} {k : Nat → α → Parser β} (h : Stable q) (hk : ∀ a, Stable fun s => k s a) :
    Stable fun s => q s >>= k s where
  ok := by
    intro s bs b rest hb
    obtain ⟨a, r, h1, h2⟩ := Parser.bind_eq_ok.mp hb
    obtain ⟨u, rfl, hu⟩ := h.ok h1
    obtain ⟨v, rfl, hv⟩ := (hk a).ok h2
    refine ⟨u ++ v, by simp, fun s' x hx => ?_⟩
    rw [List.append_assoc]
    show (q s' >>= k s') (u ++ (v ++ x)) = _
    rw [Parser.bind_ok (hu s' (v ++ x) (by simp only [List.length_append, List.length_take, List.length_drop]; omega))]
    exact hv s' x hx
  more := by
    intro s bs hd s' x hx
    show (q s' >>= k s') (bs ++ x) = (q s >>= k s) bs
    have hd' : ((q s >>= k s) bs).definite := hd
    rw [Parser.bind_apply] at hd' ⊢
    rw [Parser.bind_apply]
    cases hq : q s bs with
    | ok a r =>
      obtain ⟨u, hu, hu'⟩ := h.ok hq
      subst hu
      rw [hq] at hd'
      simp only at hd' ⊢
      rw [List.append_assoc, hu' s' (r ++ x) (by simp only [List.length_append, List.length_take, List.length_drop]; omega)]
      exact (hk a).more hd' s' x hx
    | short => rw [hq] at hd'; simp [PRes.definite] at hd'
    | fail e => rw [h.more (by rw [hq]; trivial) s' x hx, hq]
    | panic => rw [h.more (by rw [hq]; trivial) s' x hx, hq]
    | diverge => rw [h.more (by rw [hq]; trivial) s' x hx, hq]

theorem Local.bind {p : Parser α} {k : α → Parser β} (h : Local p) (hk : ∀ a, Local (k a)) : Local (p >>= k) :=
  Stable.bind (q := fun _ => p) (k := fun _ => k) h hk

theorem Local.map {p : Parser α} (h : Local p) (g : α → β) : Local (p >>= fun a => (Pure.pure (g a) : Parser β)) :=
  h.bind fun _ => Local.pure _

theorem Stable.ensureEmpty : Stable Parser.ensureEmpty where
  ok := by
    intro s bs a rest h
    unfold Parser.ensureEmpty at h
    split at h
    · next hz =>
      simp only [PRes.ok.injEq, true_and] at h
      subst h
      refine ⟨[], rfl, fun s' x hx => ?_⟩
      simp only [Parser.ensureEmpty, List.nil_append]
      rw [if_pos (by omega)]
    · simp at h
  more := by
    intro s bs h s' x hx
    unfold Parser.ensureEmpty at h ⊢
    by_cases hz : bs.length + s = 0
    · rw [if_pos hz] at h; simp [PRes.definite] at h
    · rw [if_neg hz, if_neg (by simp only [List.length_append, List.length_take, List.length_drop]; omega)]

theorem Local.limited {q : Nat → Parser α} (h : Stable q) (n : Nat) : Local (Parser.limited n q) := by
  have hok : ∀ s used (x : Bytes) a, s + x.length = n - used.length → used.length ≤ n → (∀ s' x', x'.length + s' = x.length + s →
      q s' (used ++ x') = .ok a x') → ∀ y, Parser.limited n q (used ++ y) = .ok a y := by
    intro s used x a hx hu hq y
    unfold Parser.limited
    by_cases hn : n ≤ (used ++ y).length
    · rw [if_pos hn, List.take_append, List.take_of_length_le hu]
      simp only [List.length_append] at hn
      rw [hq 0 _ (by simp only [List.length_append, List.length_take, List.length_drop]; omega)]
      simp only [List.drop_append, List.drop_of_length_le hu, List.nil_append, List.take_append_drop]
    · rw [if_neg hn]
      simp only [List.length_append] at hn ⊢
      exact hq _ y (by omega)
  refine Local.mk' ?_ ?_
  · intro bs a rest hp
    unfold Parser.limited at hp
    split at hp
    · next hn =>
      cases hq : q 0 (bs.take n) with
      | ok b r =>
        rw [hq] at hp
        simp only [PRes.ok.injEq] at hp
        obtain ⟨rfl, rfl⟩ := hp
        obtain ⟨used, h1, h2⟩ := h.ok hq
        have hlen : n = used.length + r.length := by
          have := congrArg List.length h1
          simp at this; omega
        refine ⟨used, ?_, hok 0 used r b (by omega) (by omega) h2⟩
        rw [← List.append_assoc, ← h1, List.take_append_drop]
      | _ => rw [hq] at hp; simp at hp
    · next hn =>
      obtain ⟨used, rfl, h2⟩ := h.ok hp
      simp only [List.length_append] at hn h2
      exact ⟨used, rfl, hok _ used rest a (by omega) (by omega) h2⟩
  · intro bs hd x
    unfold Parser.limited at hd ⊢
    by_cases hn : n ≤ bs.length
    · rw [if_pos hn] at hd ⊢
      rw [if_pos (by simp only [List.length_append, List.length_take, List.length_drop]; omega), List.take_append_of_le_length hn]
      cases hq : q 0 (bs.take n) with
      | ok b r => rw [hq] at hd; simp [PRes.definite] at hd
      | _ => rfl
    · rw [if_neg hn] at hd ⊢
      by_cases hx : n ≤ (bs ++ x).length
      · rw [if_pos hx, List.take_append, List.take_of_length_le (by omega)]
        simp only [List.length_append] at hx
        rw [h.more hd 0 _ (by simp only [List.length_append, List.length_take, List.length_drop]; omega)]
        cases hq : q (n - bs.length) bs with
        | ok b r => rw [hq] at hd; simp [PRes.definite] at hd
        | _ => rfl
      · rw [if_neg hx]
        simp only [List.length_append] at hx ⊢
        exact h.more hd _ x (by omega)

theorem Local.ite {c : Prop} [Decidable c] {p q : Parser α} (hp : Local p) (hq : Local q) :
    Local (if c then p else q) := by split <;> assumption

theorem Local.ilint : Local Parser.ilint :=
  Local.byte.bind fun _ => Local.ite (Local.pure _) ((Local.take _).bind fun _ => Local.lift _)

end

section
variable {P : Type} [Env]

theorem Local.bytes (n : Nat) : Local (Parser.bytes n) := Local.ite (Local.take n) Local.panic

theorem Local.utf8 (n : Nat) : Local (Parser.utf8 n) :=
  (Local.bytes n).bind fun tmp => by
    cases fromUtf8 tmp with
    | none => exact Local.fail _
    | some s => exact Local.pure _

theorem Local.stringTag : Local Parser.stringTag :=
  Local.ilint.bind fun _ => Local.ite (Local.fail _)
    (Local.ilint.bind fun _ => (Local.lift _).bind fun n => Local.utf8 n)

theorem Local.rprog {f : Option (Tag P) → Parser (Tag P)} (hf : ∀ o, Local (f o)) (r : RProg P) : Local (Parser.rprog f r) := by
  induction r with
  | done r p => exact (Local.lift r).bind fun _ => Local.pure _
  | read k ih => exact Local.byte.bind ih
  | readAll n k ih => exact (Local.take n).bind ih
  | deser k ih => exact (hf none).bind ih
  | into t k ih => exact (hf (some t)).bind ih

theorem Local.ilints (n : Nat) (acc : List UInt64) : Local (Parser.ilints n acc) := by
  induction n generalizing acc with
  | zero => exact Local.pure _
  | succ n ih => exact Local.ilint.bind fun v => ih _

theorem Stable.const {α : Type} {p : Parser α} (h : Local p) : Stable fun _ => p := h

theorem Stable.finish {α : Type} (r : α) : Stable fun slack => (do Parser.ensureEmpty slack; pure r : Parser α) :=
  Stable.bind (k := fun _ _ => (Pure.pure r : Parser α)) Stable.ensureEmpty fun _ => Local.pure _

theorem Stable.ite {α : Type} {c : Prop} [Decidable c] {p q : Nat → Parser α} (hp : Stable p) (hq : Stable q) :
    Stable fun s => if c then p s else q s := by split <;> assumption

theorem Local.ilintArray (vs : Nat) : Local (Parser.ilintArray vs) := by
  refine Local.limited (Stable.bind (q := fun _ => Parser.ilint) Local.ilint fun count => ?_) vs
  refine Stable.ite (Stable.const (Local.fail _)) (Stable.ite ?_ (Stable.const Local.panic))
  exact Stable.bind (q := fun _ => Parser.ilints count.toNat []) (Local.ilints _ _) fun r => Stable.finish r

theorem Local.strEntries (n : Nat) (acc : List (String × String)) : Local (Parser.strEntries n acc) := by
  induction n generalizing acc with
  | zero => exact Local.pure _
  | succ n ih => exact Local.stringTag.bind fun _ => Local.stringTag.bind fun _ => ih _

theorem Local.strDict (vs : Nat) : Local (Parser.strDict vs) := by
  refine Local.limited (Stable.bind (q := fun _ => Parser.ilint) Local.ilint fun count => ?_) vs
  exact Stable.bind (q := fun _ => Parser.strEntries count.toNat []) (Local.strEntries _ _) fun r => Stable.finish r

theorem Local.range (vs : Nat) : Local (Parser.range vs) := by
  refine Local.limited (Stable.bind (q := fun _ => Parser.ilint) Local.ilint fun _ => ?_) vs
  exact Stable.bind (q := fun _ => Parser.take 2) (Local.take _) fun r => Stable.finish _

theorem Local.fixed (vs n : Nat) (g : Bytes → Atom P) : Local (Parser.fixed vs n g) :=
  Local.ite ((Local.take n).map g) (Local.fail _)

theorem Local.i32 : Local Parser.i32 := (Local.take 4).map _

theorem Local.atomValue [TagPayload P] {f : Option (Tag P) → Parser (Tag P)} (hf : ∀ o, Local (f o)) (vs : Nat) (a : Atom P) :
    Local (Parser.atomValue f vs a) := by
  cases a with
  | null id => exact Local.ite (Local.pure _) (Local.fail _)
  | bool id b =>
    exact Local.ite (Local.byte.bind fun _ => Local.ite (Local.pure _) (Local.ite (Local.pure _) (Local.fail _)))
      (Local.fail _)
  | int8 id v => exact Local.ite (Local.byte.map _) (Local.fail _)
  | uint8 id v => exact Local.ite (Local.byte.map _) (Local.fail _)
  | bin128 id v =>
    refine Local.ite ((Local.take 16).bind fun v => ?_) (Local.fail _)
    split
    · exact Local.pure _
    · exact Local.panic
  | ilint id v => exact Local.ilint.map _
  | signedILInt id v => exact Local.ilint.map _
  | raw id v => exact (Local.bytes _).map _
  | byteArray v => exact (Local.bytes _).map _
  | string id s => exact (Local.utf8 _).map _
  | bigInt v => exact (Local.bytes _).map _
  | bigDec id sc v =>
    exact Local.ite (Local.i32.bind fun _ => (Local.bytes _).bind fun _ => Local.pure _) (Local.fail _)
  | ilintArray id v => exact (Local.ilintArray _).map _
  | range id a b => exact (Local.range _).map _
  | version id a b c d =>
    exact Local.ite (Local.i32.bind fun _ => Local.i32.bind fun _ => Local.i32.bind fun _ => Local.i32.bind fun _ =>
      Local.pure _) (Local.fail _)
  | oid id v => exact (Local.ilintArray _).map _
  | strDict id es => exact (Local.strDict _).map _
  | payload id p => exact (Local.rprog hf _).map _
  | _ => exact Local.fixed _ _ _

theorem Stable.tagsWhile {f : Parser (Tag P)} (hf : Local f) (fuel : Nat) (acc : List (Tag P)) :
    Stable fun slack => Parser.tagsWhile f slack fuel acc := by
  induction fuel generalizing acc with
  | zero => exact Stable.const Local.diverge
  | succ n ih =>
    have hb : Stable fun slack => f >>= fun t => Parser.tagsWhile f slack n (acc ++ [t]) :=
      Stable.bind (q := fun _ => f) hf fun t => ih _
    constructor
    · intro s bs a rest h
      simp only [Parser.tagsWhile] at h
      split at h
      · next hz =>
        simp only [PRes.ok.injEq] at h
        obtain ⟨rfl, rfl⟩ := h
        refine ⟨[], rfl, fun s' x hx => ?_⟩
        simp only [Parser.tagsWhile, List.nil_append]
        rw [if_pos (by omega)]
      · next hz =>
        obtain ⟨used, rfl, h2⟩ := hb.ok h
        refine ⟨used, rfl, fun s' x hx => ?_⟩
        simp only [Parser.tagsWhile]
        rw [if_neg (by simp only [List.length_append] at hz ⊢; omega)]
        exact h2 s' x hx
    · intro s bs hd s' x hx
      simp only [Parser.tagsWhile] at hd ⊢
      by_cases hz : bs.length + s = 0
      · rw [if_pos hz] at hd; simp [PRes.definite] at hd
      · rw [if_neg hz] at hd ⊢
        rw [if_neg (by simp only [List.length_append, List.length_take, List.length_drop]; omega)]
        exact hb.more hd s' x hx

theorem Local.tags {f : Parser (Tag P)} (hf : Local f) (n : Nat) (acc : List (Tag P)) :
    Local (Parser.tags f n acc) := by
  induction n generalizing acc with
  | zero => exact Local.pure _
  | succ n ih => exact hf.bind fun _ => ih _

theorem Local.entries {f : Parser (Tag P)} (hf : Local f) (n : Nat) (acc : List (String × Tag P)) :
    Local (Parser.entries f n acc) := by
  induction n generalizing acc with
  | zero => exact Local.pure _
  | succ n ih => exact Local.stringTag.bind fun _ => hf.bind fun _ => ih _

theorem Local.seq {f : Parser (Tag P)} (hf : Local f) (vs : Nat) : Local (Parser.seq f vs) :=
  Local.limited (Stable.tagsWhile hf _ _) vs

theorem Local.array {f : Parser (Tag P)} (hf : Local f) (vs : Nat) : Local (Parser.array f vs) := by
  refine Local.limited (Stable.bind (q := fun _ => Parser.ilint) Local.ilint fun count => ?_) vs
  refine Stable.ite (Stable.const (Local.fail _)) (Stable.ite ?_ (Stable.const Local.panic))
  exact Stable.bind (q := fun _ => Parser.tags f count.toNat []) (Local.tags hf _ _) fun r => Stable.finish r

theorem Local.dict {f : Parser (Tag P)} (hf : Local f) (vs : Nat) : Local (Parser.dict f vs) := by
  refine Local.limited (Stable.bind (q := fun _ => Parser.ilint) Local.ilint fun count => ?_) vs
  exact Stable.bind (q := fun _ => Parser.entries f count.toNat []) (Local.entries hf _ _) fun r => Stable.finish r

theorem Local.tagValue [TagPayload P] {f : Option (Tag P) → Parser (Tag P)} (hf : ∀ o, Local (f o)) (vs : Nat) (t : Tag P) :
    Local (Parser.tagValue f vs t) := by
  cases t with
  | atom a => exact (Local.atomValue hf vs a).map _
  | seq id ts => exact (Local.seq (hf none) vs).map _
  | array id ts => exact (Local.array (hf none) vs).map _
  | dict id es => exact (Local.dict (hf none) vs).map _

theorem Local.tagSize (id : UInt64) : Local (Parser.tagSize id) := by
  unfold Parser.tagSize
  split
  · exact (Local.pure _).bind fun _ => Local.lift _
  · exact Local.ilint.bind fun _ => Local.lift _

theorem Stable.checkEmpty (t : Tag P) : Stable fun slack => Parser.checkEmpty slack t where
  ok := by
    intro s bs a rest h
    simp only [Parser.checkEmpty] at h
    split at h
    · simp at h
    · next hc =>
      simp only [PRes.ok.injEq] at h
      obtain ⟨rfl, rfl⟩ := h
      refine ⟨[], rfl, fun s' x hx => ?_⟩
      simp only [Parser.checkEmpty, List.nil_append]
      rw [if_neg (by rw [hx]; exact hc)]
  more := by
    intro s bs h s' x hx
    simp only [Parser.checkEmpty] at h ⊢
    by_cases hc : t.id ≠ Id.ilint ∧ t.id ≠ Id.signedILInt ∧ bs.length + s ≠ 0
    · rw [if_pos hc, if_pos ⟨hc.1, hc.2.1, (by simp only [List.length_append]; omega)⟩]
    · rw [if_neg hc] at h; simp [PRes.definite] at h

theorem Local.tagValueInto [TagPayload P] {f : Option (Tag P) → Parser (Tag P)} (hf : ∀ o, Local (f o)) (size : Nat) (t : Tag P) :
    Local (Parser.tagValueInto f size t) :=
  Local.limited (Stable.bind (q := fun _ => Parser.tagValue f size t) (Local.tagValue hf size t)
    fun t' => Stable.checkEmpty t') size

theorem Local.tag [TagPayload P] (e : Engine P) (k : Nat) (o : Option (Tag P)) : Local (Parser.tag e k o) := by
  induction k generalizing o with
  | zero => exact Local.diverge
  | succ k ih =>
    cases o with
    | none =>
      refine Local.ilint.bind fun id => (Local.tagSize id).bind fun size => (Local.lift _).bind fun t => ?_
      cases t with
      | none => exact Local.fail _
      | some t => exact Local.tagValueInto ih size t
    | some t =>
      refine Local.ilint.bind fun id => Local.ite (Local.fail _) ?_
      exact (Local.tagSize id).bind fun size => Local.tagValueInto ih size t

end
end Verif
