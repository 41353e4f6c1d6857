import Verif.Spec.Verdict
import Verif.Proof.Utf8
import Verif.Proof.Std
import Verif.Props.ScanExact
/-!
# The parsers of the standard engine and the checks of the specification
-/
namespace Verif
open Spec

/-- The error for a fault other than missing bytes. -/
def Fault.Names : Fault → TagErr → Prop
  | .short, _ => False
  | .badNumber, x => x = .ioError .corruptedData
  | .corrupted, x => x = .corruptedData
  | .unknown, x => x = .unknownTag
  | .tooLarge, x => x = .tagTooLarge

/-- A result of a parser and one of a check belong together. -/
def Judged {α β : Type} (R : α → β → Prop) : PRes α → Except Fault (β × Bytes) → Prop
  | .ok a rest, .ok (b, rest') => R a b ∧ rest = rest'
  | .short, .error f => f = .short
  | .fail x, .error f => Fault.Names f x
  | .panic, _ => True
  | .diverge, _ => True
  | _, _ => False

theorem Check.bind_apply {α β : Type} (v : Check α) (l : α → Check β) (bs : Bytes) :
    (v >>= l) bs = match v bs with
      | .ok (a, r) => l a r
      | .error f => .error f := by
  show (StateT.bind v l) bs = _
  unfold StateT.bind
  cases v bs <;> rfl

theorem Check.pure_apply {α : Type} (a : α) (bs : Bytes) : (pure a : Check α) bs = .ok (a, bs) := rfl

section
variable {α β γ δ : Type} {R : α → β → Prop} {S : γ → δ → Prop}

theorem Judged.bind {p : Parser α} {v : Check β} {k : α → Parser γ} {l : β → Check δ} {bs : Bytes}
    (h : Judged R (p bs) (v bs)) (hk : ∀ a b rest, R a b → p bs = .ok a rest → Judged S (k a rest) (l b rest)) :
    Judged S ((p >>= k) bs) ((v >>= l) bs) := by
  rw [Parser.bind_apply, Check.bind_apply]
  cases hp : p bs <;> cases hv : v bs <;> rw [hp, hv] at h <;> try trivial
  · obtain ⟨h1, rfl⟩ := h
    exact hk _ _ _ h1 hp

theorem Judged.bind_left {p : Parser α} {v : Check β} {k : α → Parser γ} {bs : Bytes} {S : γ → β → Prop}
    (h : Judged R (p bs) (v bs)) (hk : ∀ a b rest, R a b → ∃ c, k a rest = .ok c rest ∧ S c b) :
    Judged S ((p >>= k) bs) (v bs) := by
  rw [Parser.bind_apply]
  cases hp : p bs <;> cases hv : v bs <;> rw [hp, hv] at h <;> try trivial
  · next a rest b =>
    obtain ⟨h1, rfl⟩ := h
    obtain ⟨c, hc, hs⟩ := hk _ _ b.2 h1
    show Judged _ (k a b.2) _
    rw [hc]
    exact ⟨hs, rfl⟩

theorem Judged.mono {S : α → β → Prop} {x : PRes α} {y : Except Fault (β × Bytes)} (h : Judged R x y)
    (hs : ∀ a b, R a b → S a b) : Judged S x y := by
  cases x <;> cases y <;> try trivial
  · exact ⟨hs _ _ h.1, h.2⟩

theorem Judged.pure' {a : α} {b : β} (h : R a b) (bs : Bytes) :
    Judged R ((Pure.pure a : Parser α) bs) ((Pure.pure b : Check β) bs) := ⟨h, rfl⟩
end

/-- Nothing is said about the values. -/
abbrev Any {α β : Type} : α → β → Prop := fun _ _ => True

theorem Judged.ilint (bs : Bytes) : Judged (fun (a : UInt64) b => a.toNat = b) (Parser.ilint bs) (Check.number bs) := by
  rw [Props.parser_headILInt]
  unfold Check.number
  cases h : headILInt bs with
  | ok v r => exact ⟨by have := (Props.headILInt_lt h).1; simpa using this, rfl⟩
  | tooBig => exact rfl
  | short => exact rfl

theorem Judged.take (n : Nat) (bs : Bytes) : Judged Eq (Parser.take n bs) (Check.bytes n bs) := by
  unfold Parser.take Check.bytes
  split
  · exact ⟨rfl, rfl⟩
  · exact rfl

section
variable [Env]

theorem Judged.bytes (n : Nat) (bs : Bytes) : Judged Eq (Parser.bytes n bs) (Check.bytes n bs) := by
  unfold Parser.bytes
  split
  · exact Judged.take n bs
  · trivial

end

/-! ### Text -/

def Fits : List (Nat × Nat) → Bytes → Prop
  | [], [] => True
  | r :: rs, b :: bs => (r.1 ≤ b.toNat ∧ b.toNat ≤ r.2) ∧ Fits rs bs
  | _, _ => False

theorem fits_append {rs : List (Nat × Nat)} {c r : Bytes} (h : Fits rs c) :
    Check.textFrom rs (c ++ r) = Check.textFrom [] r := by
  induction rs generalizing c with
  | nil =>
    cases c with
    | nil => rfl
    | cons b c => exact h.elim
  | cons x rs ih =>
    cases c with
    | nil => exact h.elim
    | cons b c =>
      rw [List.cons_append, Check.textFrom, ih h.2, decide_eq_true h.1, Bool.true_and]

theorem fits_of_textFrom {rs : List (Nat × Nat)} {bs : Bytes} (h : Check.textFrom rs bs = true) :
    ∃ c r, bs = c ++ r ∧ Fits rs c ∧ Check.textFrom [] r = true := by
  induction rs generalizing bs with
  | nil => exact ⟨[], bs, rfl, trivial, h⟩
  | cons x rs ih =>
    cases bs with
    | nil => simp [Check.textFrom] at h
    | cons b bs =>
      rw [Check.textFrom, Bool.and_eq_true, decide_eq_true_eq] at h
      obtain ⟨c, r, rfl, hf, hr⟩ := ih h.2
      exact ⟨b :: c, r, rfl, ⟨h.1, hf⟩, hr⟩

theorem seq_iff (a : Byte) (c : Bytes) : Utf8Seq (a :: c) ↔ ∃ rs, Check.followers a.toNat = some rs ∧ Fits rs c := by
  constructor
  · intro h
    cases h <;> simp only [InRange] at * <;>
      (refine ⟨_, by (unfold Check.followers; repeat (first | rw [if_pos (by omega)] | rw [if_neg (by omega)])), ?_⟩) <;>
      simp [Fits] <;> omega
  · rintro ⟨rs, hr, hf⟩
    unfold Check.followers at hr
    repeat' split at hr
    all_goals try (simp at hr; done)
    all_goals
      simp only [Option.some.injEq] at hr
      subst hr
    all_goals
      rcases c with _ | ⟨b, _ | ⟨c, _ | ⟨d, _ | ⟨e, c⟩⟩⟩⟩ <;> simp only [Fits, and_true, and_false, false_and] at hf
    · exact .ascii ⟨by omega, by omega⟩
    · exact .two ‹_› hf
    · exact .e0 ⟨by omega, by omega⟩ hf.1 hf.2
    · exact .e1 ‹_› hf.1 hf.2
    · exact .ed ⟨by omega, by omega⟩ hf.1 hf.2
    · exact .ee ‹_› hf.1 hf.2
    · exact .f0 ⟨by omega, by omega⟩ hf.1 hf.2.1 hf.2.2
    · exact .f1 ‹_› hf.1 hf.2.1 hf.2.2
    · exact .f4 ⟨by omega, by omega⟩ hf.1 hf.2.1 hf.2.2

theorem textFrom_iff (bs : Bytes) : Check.textFrom [] bs = true ↔ Utf8Text bs := by
  constructor
  · suffices ∀ n, ∀ bs : Bytes, bs.length ≤ n → Check.textFrom [] bs = true → Utf8Text bs from this _ _ (Nat.le_refl _)
    intro n
    induction n with
    | zero =>
      intro bs hn _
      rw [List.length_eq_zero_iff.mp (by omega : bs.length = 0)]
      exact .nil
    | succ n ih =>
      intro bs hn h
      cases bs with
      | nil => exact .nil
      | cons a bs =>
        rw [Check.textFrom] at h
        cases hf : Check.followers a.toNat with
        | none => rw [hf] at h; simp at h
        | some rs =>
          rw [hf] at h
          obtain ⟨c, r, rfl, h1, h2⟩ := fits_of_textFrom h
          rw [← List.cons_append]
          refine .cons ((seq_iff a c).mpr ⟨rs, hf, h1⟩) (ih r ?_ h2)
          simp only [List.length_cons, List.length_append] at hn
          omega
  · intro h
    induction h with
    | nil => rfl
    | @cons c bs hc _ ih =>
      cases c with
      | nil => cases hc
      | cons a c =>
        obtain ⟨rs, hf, h1⟩ := (seq_iff a c).mp hc
        rw [List.cons_append, Check.textFrom, hf]
        exact (fits_append h1).trans ih

theorem textFrom_fromUtf8 (bs : Bytes) : Check.textFrom [] bs = true ↔ ∃ s, fromUtf8 bs = some s := by
  rw [textFrom_iff, utf8Text_iff]
  constructor
  · rintro ⟨s, h⟩; exact ⟨s, fromUtf8_eq_some.mpr ((utf8_eq s).trans h)⟩
  · rintro ⟨s, h⟩; exact ⟨s, (utf8_eq s).symm.trans (fromUtf8_eq_some.mp h)⟩

/-! ### The deserializers -/
section
variable {P : Type} [Env]

theorem Judged.utf8 (n : Nat) (bs : Bytes) : Judged Any (Parser.utf8 n bs) (Check.text n bs) := by
  refine Judged.bind (Judged.bytes n bs) ?_
  rintro v _ rest rfl _
  cases h : fromUtf8 v with
  | none =>
    rw [if_neg (fun hc => by obtain ⟨s, hs⟩ := (textFrom_fromUtf8 v).mp hc; rw [h] at hs; simp at hs)]
    exact rfl
  | some s =>
    rw [if_pos ((textFrom_fromUtf8 v).mpr ⟨s, h⟩)]
    exact ⟨trivial, rfl⟩

theorem Judged.stringTag (bs : Bytes) : Judged Any (Parser.stringTag bs) (Check.textTag bs) := by
  refine Judged.bind (Judged.ilint bs) ?_
  rintro id _ rest rfl _
  by_cases h : id = Id.string
  · subst h
    rw [if_neg (by simp), if_neg (by decide)]
    refine Judged.bind (Judged.ilint rest) ?_
    rintro len _ rest rfl _
    unfold tagSizeToUsize
    by_cases hl : maxValue < len.toNat
    · rw [if_pos hl, if_pos (by exact hl)]; exact rfl
    · rw [if_neg hl, if_neg (by exact hl)]; exact Judged.utf8 _ rest
  · rw [if_pos h, if_pos (by
      intro hc; apply h; apply UInt64.toNat_inj.mp; exact hc)]
    exact rfl

theorem Judged.ilints (n : Nat) (acc : List UInt64) (bs : Bytes) :
    Judged Any (Parser.ilints n acc bs) (Check.times (do let _ ← Check.number; pure ()) n bs) := by
  induction n generalizing acc bs with
  | zero => exact ⟨trivial, rfl⟩
  | succ n ih =>
    refine Judged.bind (R := Any) ?_ fun a _ rest _ _ => ih _ rest
    rw [← Parser.bind_pure Parser.ilint]
    exact Judged.bind (Judged.ilint bs) fun _ _ _ _ _ => ⟨trivial, rfl⟩

theorem Judged.strEntries (n : Nat) (acc : List (String × String)) (bs : Bytes) :
    Judged Any (Parser.strEntries n acc bs) (Check.times (do Check.textTag; Check.textTag) n bs) := by
  induction n generalizing acc bs with
  | zero => exact ⟨trivial, rfl⟩
  | succ n ih =>
    show Judged _ ((Parser.stringTag >>= fun k => Parser.stringTag >>= fun v => Parser.strEntries n (HMap.insert k v acc)) bs)
      (((Check.textTag >>= fun _ => Check.textTag) >>= fun _ => Check.times _ n) bs)
    rw [bind_assoc]
    exact Judged.bind (Judged.stringTag bs) fun k _ r _ _ => Judged.bind (Judged.stringTag r) fun v _ r _ _ => ih _ r

section
variable {f : Parser (Tag P)} {c : Check Unit} (hf : ∀ bs, Judged Any (f bs) (c bs))
include hf

theorem Judged.tags (n : Nat) (acc : List (Tag P)) (bs : Bytes) :
    Judged Any (Parser.tags f n acc bs) (Check.times c n bs) := by
  induction n generalizing acc bs with
  | zero => exact ⟨trivial, rfl⟩
  | succ n ih => exact Judged.bind (hf bs) fun a _ rest _ _ => ih _ rest

theorem Judged.entries (n : Nat) (acc : List (String × Tag P)) (bs : Bytes) :
    Judged Any (Parser.entries f n acc bs) (Check.times (do Check.textTag; c) n bs) := by
  induction n generalizing acc bs with
  | zero => exact ⟨trivial, rfl⟩
  | succ n ih =>
    show Judged _ ((Parser.stringTag >>= fun k => f >>= fun v => Parser.entries f n (HMap.insert k v acc)) bs)
      (((Check.textTag >>= fun _ => c) >>= fun _ => Check.times _ n) bs)
    rw [bind_assoc]
    exact Judged.bind (Judged.stringTag bs) fun k _ r _ _ => Judged.bind (hf r) fun v _ r _ _ => ih _ r

theorem Judged.tagsWhile (hs : ∀ bs t rest, f bs = .ok t rest → rest.length < bs.length)
    (hn : f [] = .short ∨ f [] = .diverge) (slack n m : Nat) (acc : List (Tag P)) (bs : Bytes) (hm : bs.length ≤ m) :
    Judged Any (Parser.tagsWhile f slack n acc bs) (Check.untilEnd c slack m bs) := by
  induction n generalizing m acc bs with
  | zero => trivial
  | succ n ih =>
    unfold Parser.tagsWhile
    by_cases h : bs.length + slack = 0
    · cases m <;> (unfold Check.untilEnd; simp only [if_pos h]; exact ⟨trivial, rfl⟩)
    · cases m with
      | zero =>
        have hb : bs = [] := List.length_eq_zero_iff.mp (by omega)
        subst hb
        unfold Check.untilEnd
        simp only [if_neg h]
        rw [Parser.bind_apply]
        rcases hn with hn | hn <;> rw [hn] <;> trivial
      | succ m =>
        unfold Check.untilEnd
        simp only [if_neg h]
        refine Judged.bind (hf bs) fun a _ rest _ ha => ih _ _ _ ?_
        have := hs _ _ _ ha
        omega
end

/-! ### Regions -/

theorem limited_self {α : Type} {vs slack : Nat} {bs : Bytes} (h : bs.length + slack = vs) (p : Nat → Parser α) :
    Parser.limited vs p bs = p slack bs := by
  unfold Parser.limited
  by_cases hl : vs ≤ bs.length
  · have : slack = 0 := by omega
    subst this
    rw [if_pos hl, List.take_of_length_le (by omega), List.drop_of_length_le (by omega)]
    cases p 0 bs <;> simp
  · rw [if_neg hl]
    congr 1
    omega

theorem Judged.region {α : Type} {n : Nat} {p : Nat → Parser α} {c : Nat → Check Unit}
    (h : ∀ slack bs, bs.length + slack = n → Judged Any (p slack bs) (c slack bs)) (bs : Bytes) :
    Judged Any (Parser.limited n p bs) (Check.region n c bs) := by
  unfold Parser.limited Check.region
  by_cases hl : n ≤ bs.length
  · have h' := h 0 (bs.take n) (by simp; omega)
    rw [if_pos hl, Nat.sub_eq_zero_of_le hl]
    cases hp : p 0 (bs.take n) <;> cases hc : c 0 (bs.take n) <;> rw [hp, hc] at h' <;> try trivial
    · obtain ⟨-, rfl⟩ := h'
      exact ⟨trivial, rfl⟩
  · have h' := h (n - bs.length) bs (by omega)
    rw [if_neg hl, List.take_of_length_le (by omega), List.drop_of_length_le (by omega)]
    cases hp : p (n - bs.length) bs <;> cases hc : c (n - bs.length) bs <;> rw [hp, hc] at h' <;> try trivial
    · obtain ⟨-, rfl⟩ := h'
      exact ⟨trivial, by simp⟩

/-- What follows the value of a tag. -/
def closing (id missing : Nat) : Check Unit := if id = 10 ∨ id = 14 then pure () else Check.finished missing

theorem Judged.checkEmpty (slack : Nat) (t : Tag P) (bs : Bytes) :
    Judged Any (Parser.checkEmpty slack t bs) (closing t.id.toNat slack bs) := by
  unfold Parser.checkEmpty closing
  have h1 : t.id = Id.ilint ↔ t.id.toNat = 10 := UInt64.toNat_inj.symm
  have h2 : t.id = Id.signedILInt ↔ t.id.toNat = 14 := UInt64.toNat_inj.symm
  simp only [ne_eq, h1, h2]
  by_cases h : t.id.toNat = 10 ∨ t.id.toNat = 14
  · rw [if_pos h, if_neg (by omega)]
    exact ⟨trivial, rfl⟩
  · rw [if_neg h]
    unfold Check.finished
    by_cases hb : bs.length + slack = 0
    · rw [if_pos hb, if_neg (by omega)]
      exact ⟨trivial, rfl⟩
    · rw [if_neg hb, if_pos (by omega)]
      exact rfl

theorem Judged.close {q : Parser (Tag P)} {v : Check Unit} {slack id : Nat} {bs : Bytes}
    (h : Judged (fun t _ => t.id.toNat = id) (q bs) (v bs)) :
    Judged Any ((q >>= Parser.checkEmpty slack) bs) ((v >>= fun _ => closing id slack) bs) :=
  Judged.bind h fun t _ rest ht _ => ht ▸ Judged.checkEmpty slack t rest

theorem Judged.close_empty {α : Type} {q : Parser α} {v : Check Unit} {slack id : Nat} {bs : Bytes} {g : α → Tag P}
    (h : Judged Any (q bs) (v bs)) (hg : ∀ r, (g r).id.toNat = id) (hid : ¬ (id = 10 ∨ id = 14)) :
    Judged Any ((q >>= fun r => Parser.ensureEmpty slack >>= fun _ => Parser.checkEmpty slack (g r)) bs)
      ((v >>= fun _ => closing id slack) bs) := by
  refine Judged.bind h fun t _ rest _ _ => ?_
  have h' := hg t ▸ Judged.checkEmpty slack (g t) rest
  rw [Parser.bind_apply]
  unfold Parser.ensureEmpty
  by_cases hb : rest.length + slack = 0
  · rw [if_pos hb]; exact h'
  · rw [if_neg hb]
    unfold closing Check.finished
    rw [if_neg hid, if_neg hb]
    exact rfl


/-! ### Values -/

theorem Judged.unit {α β : Type} {R : α → β → Prop} {γ : Type} {S : γ → Unit → Prop} {p : Parser α} {v : Check β}
    {k : α → Parser γ} {bs : Bytes} (h : Judged R (p bs) (v bs))
    (hk : ∀ a b rest, R a b → ∃ c, k a rest = .ok c rest ∧ S c ()) :
    Judged S ((p >>= k) bs) ((v >>= fun _ => (pure () : Check Unit)) bs) :=
  Judged.bind h fun a b rest hR _ => by
    obtain ⟨c, hc, hs⟩ := hk a b rest hR
    rw [hc]; exact ⟨hs, rfl⟩

theorem byte_take (bs : Bytes) : Judged (fun a b => b = [a]) (Parser.byte bs) (Check.bytes 1 bs) := by
  cases bs with
  | nil => exact rfl
  | cons b bs => exact ⟨rfl, rfl⟩

/-- Two pieces one after the other are one piece. -/
theorem bytes_add (m n : Nat) (bs : Bytes) {γ : Type} (k : Check γ) :
    ((Check.bytes m >>= fun _ => Check.bytes n >>= fun _ => k) bs) = ((Check.bytes (m + n) >>= fun _ => k) bs) := by
  rw [Check.bind_apply, Check.bind_apply]
  unfold Check.bytes
  by_cases h : m ≤ bs.length
  · rw [if_pos h]
    show (Check.bytes n >>= fun _ => k) _ = _
    rw [Check.bind_apply]
    unfold Check.bytes
    by_cases h' : n ≤ (bs.drop m).length
    · rw [if_pos h', if_pos (by simp at h'; omega)]
      simp [List.drop_drop]
    · rw [if_neg h', if_neg (by simp at h'; omega)]
  · rw [if_neg h, if_neg (by omega)]

/-- The value of a tag and the check behind it. -/
def valueClosed (nested : Check Unit) (id n missing present : Nat) : Check Unit :=
  Check.value nested id n missing present >>= fun _ => closing id missing

theorem Judged.fixedC {vs n : Nat} {g : Bytes → Atom P} {id : Nat} (hg : ∀ b, (g b).id.toNat = id) (bs : Bytes) :
    Judged (fun (t : Tag P) _ => t.id.toNat = id) ((Parser.fixed vs n g >>= fun a => pure (.atom a)) bs)
      (Check.fixed vs n bs) := by
  unfold Parser.fixed Check.fixed
  by_cases h : vs = n
  · rw [if_pos h, if_pos h, Parser.bind_assoc]
    exact Judged.unit (Judged.take n bs) fun a _ rest _ => ⟨_, rfl, hg a⟩
  · rw [if_neg h, if_neg h]
    exact rfl

/-- The region of a value inside the region of its tag, both of the same length. -/
theorem Judged.inner {α : Type} {vs slack id : Nat} {bs : Bytes} {b q : Nat → Parser α} {v : Check Unit} {g : α → Tag P}
    (hb : bs.length + slack = vs) (hq : b slack = q slack >>= fun r => Parser.ensureEmpty slack >>= fun _ => pure r)
    (h : Judged Any (q slack bs) (v bs)) (hg : ∀ r, (g r).id.toNat = id) (hid : ¬ (id = 10 ∨ id = 14)) :
    Judged Any (((Parser.limited vs b >>= fun r => pure (g r)) >>= Parser.checkEmpty slack) bs)
      ((v >>= fun _ => closing id slack) bs) := by
  have := Judged.close_empty (slack := slack) h hg hid
  rw [Parser.bind_assoc, Parser.bind_apply, limited_self hb, hq, ← Parser.bind_apply]
  simp only [Parser.bind_assoc, Parser.pure_bind]
  exact this

theorem Judged.ilintArray {vs slack id : Nat} {bs : Bytes} {g : List UInt64 → Tag P} (hb : bs.length + slack = vs)
    (hg : ∀ r, (g r).id.toNat = id) (hid : ¬ (id = 10 ∨ id = 14)) :
    Judged Any (((Parser.ilintArray vs >>= fun r => pure (g r)) >>= Parser.checkEmpty slack) bs)
      ((Check.counted vs (do let _ ← Check.number; pure ()) >>= fun _ => closing id slack) bs) := by
  refine Judged.inner (q := fun _ => Parser.ilint >>= fun count => if count.toNat > vs then Parser.fail .corruptedData
    else if 8 * count.toNat ≤ Env.allocMax then Parser.ilints count.toNat [] else Parser.panic) hb ?_ ?_ hg hid
  · rw [Parser.bind_assoc]
    congr 1
    funext count
    repeat' split
    all_goals rfl
  · refine Judged.bind (Judged.ilint bs) ?_
    rintro a _ rest rfl _
    by_cases h : vs < a.toNat
    · rw [if_pos h, if_pos h]; exact rfl
    · rw [if_neg h, if_neg h]
      split
      · exact Judged.ilints _ _ _
      · trivial

variable [TagPayload P] {F : Option (Tag P) → Parser (Tag P)} {c : Check Unit}

/-- The atoms without a region of their own. -/
theorem Judged.plainAtom {a : Atom P} {id : Nat} (hid : a.id.toNat = id)
    (hk : standardId a.kind = some id) (hn : ¬ (id = 20 ∨ id = 23 ∨ id = 25 ∨ id = 31)) {vs slack : Nat} {bs : Bytes} :
    Judged (fun (t : Tag P) _ => t.id.toNat = id) ((Parser.atomValue F vs a >>= fun a => pure (Tag.atom a)) bs)
      (Check.value c id vs slack bs.length bs) := by
  cases a
  case raw => exact nomatch hk
  case payload => exact nomatch hk
  all_goals (have h := Option.some.inj hk; subst h)
  case ilintArray => exact absurd hn (by omega)
  case oid => exact absurd hn (by omega)
  case strDict => exact absurd hn (by omega)
  case range => exact absurd hn (by omega)
  case null i =>
    show Judged _ (((if vs = 0 then pure (.null i) else Parser.fail .corruptedData) >>= fun a => pure (Tag.atom a)) bs)
      (Check.fixed vs 0 bs)
    unfold Check.fixed
    by_cases h : vs = 0
    · rw [if_pos h, if_pos h]; exact ⟨hid, rfl⟩
    · rw [if_neg h, if_neg h]; exact rfl
  case bool i v =>
    show Judged _ (((if vs = 1 then _ else Parser.fail .corruptedData) >>= fun a => pure (Tag.atom a)) bs)
      ((if vs = 1 then _ else Check.fault .corrupted) bs)
    by_cases h : vs = 1
    · rw [if_pos h, if_pos h, Parser.bind_assoc]
      refine Judged.bind (byte_take bs) ?_
      rintro b _ rest rfl _
      by_cases h0 : b = 0
      · subst h0; exact ⟨hid, rfl⟩
      · by_cases h1 : b = 1
        · subst h1; exact ⟨hid, rfl⟩
        · rw [if_neg h0, if_neg h1, if_neg (by simp [h0, h1])]; exact rfl
    · rw [if_neg h, if_neg h]; exact rfl
  case int8 i v =>
    show Judged _ (((if vs = 1 then _ else Parser.fail .corruptedData) >>= fun a => pure (Tag.atom a)) bs)
      (Check.fixed vs 1 bs)
    unfold Check.fixed
    by_cases h : vs = 1
    · rw [if_pos h, if_pos h, Parser.bind_assoc]
      exact Judged.unit (byte_take bs) fun a _ rest _ => ⟨_, rfl, hid⟩
    · rw [if_neg h, if_neg h]; exact rfl
  case uint8 i v =>
    show Judged _ (((if vs = 1 then _ else Parser.fail .corruptedData) >>= fun a => pure (Tag.atom a)) bs)
      (Check.fixed vs 1 bs)
    unfold Check.fixed
    by_cases h : vs = 1
    · rw [if_pos h, if_pos h, Parser.bind_assoc]
      exact Judged.unit (byte_take bs) fun a _ rest _ => ⟨_, rfl, hid⟩
    · rw [if_neg h, if_neg h]; exact rfl
  case int16 i v =>
    show Judged _ ((Parser.fixed vs 2 _ >>= fun a => pure (Tag.atom a)) bs) (Check.fixed vs 2 bs)
    refine Judged.fixedC ?_ bs
    intro b; exact hid
  case uint16 i v =>
    show Judged _ ((Parser.fixed vs 2 _ >>= fun a => pure (Tag.atom a)) bs) (Check.fixed vs 2 bs)
    refine Judged.fixedC ?_ bs
    intro b; exact hid
  case int32 i v =>
    show Judged _ ((Parser.fixed vs 4 _ >>= fun a => pure (Tag.atom a)) bs) (Check.fixed vs 4 bs)
    refine Judged.fixedC ?_ bs
    intro b; exact hid
  case uint32 i v =>
    show Judged _ ((Parser.fixed vs 4 _ >>= fun a => pure (Tag.atom a)) bs) (Check.fixed vs 4 bs)
    refine Judged.fixedC ?_ bs
    intro b; exact hid
  case int64 i v =>
    show Judged _ ((Parser.fixed vs 8 _ >>= fun a => pure (Tag.atom a)) bs) (Check.fixed vs 8 bs)
    refine Judged.fixedC ?_ bs
    intro b; exact hid
  case uint64 i v =>
    show Judged _ ((Parser.fixed vs 8 _ >>= fun a => pure (Tag.atom a)) bs) (Check.fixed vs 8 bs)
    refine Judged.fixedC ?_ bs
    intro b; exact hid
  case bin32 i v =>
    show Judged _ ((Parser.fixed vs 4 _ >>= fun a => pure (Tag.atom a)) bs) (Check.fixed vs 4 bs)
    refine Judged.fixedC ?_ bs
    intro b; exact hid
  case bin64 i v =>
    show Judged _ ((Parser.fixed vs 8 _ >>= fun a => pure (Tag.atom a)) bs) (Check.fixed vs 8 bs)
    refine Judged.fixedC ?_ bs
    intro b; exact hid
  case bin128 i v =>
    show Judged _ (((if vs = 16 then _ else Parser.fail .corruptedData) >>= fun a => pure (Tag.atom a)) bs)
      (Check.fixed vs 16 bs)
    unfold Check.fixed
    by_cases h : vs = 16
    · rw [if_pos h, if_pos h, Parser.bind_assoc]
      refine Judged.bind (Judged.take 16 bs) ?_
      rintro b _ rest rfl hb
      split
      · exact ⟨hid, rfl⟩
      · trivial
    · rw [if_neg h, if_neg h]; exact rfl
  case ilint i v =>
    show Judged _ (((Parser.ilint >>= _) >>= fun a => pure (Tag.atom a)) bs) ((Check.number >>= fun _ => pure ()) bs)
    rw [Parser.bind_assoc]
    exact Judged.unit (Judged.ilint bs) fun a _ rest _ => ⟨_, rfl, hid⟩
  case signedILInt i v =>
    show Judged _ (((Parser.ilint >>= _) >>= fun a => pure (Tag.atom a)) bs) ((Check.number >>= fun _ => pure ()) bs)
    rw [Parser.bind_assoc]
    exact Judged.unit (Judged.ilint bs) fun a _ rest _ => ⟨_, rfl, hid⟩
  case byteArray v =>
    show Judged _ (((Parser.bytes vs >>= _) >>= fun a => pure (Tag.atom a)) bs) ((Check.bytes vs >>= fun _ => pure ()) bs)
    rw [Parser.bind_assoc]
    exact Judged.unit (Judged.bytes vs bs) fun a _ rest _ => ⟨_, rfl, hid⟩
  case bigInt v =>
    show Judged _ (((Parser.bytes vs >>= _) >>= fun a => pure (Tag.atom a)) bs) ((Check.bytes vs >>= fun _ => pure ()) bs)
    rw [Parser.bind_assoc]
    exact Judged.unit (Judged.bytes vs bs) fun a _ rest _ => ⟨_, rfl, hid⟩
  case string i v =>
    show Judged _ (((Parser.utf8 vs >>= _) >>= fun a => pure (Tag.atom a)) bs) (Check.text vs bs)
    rw [Parser.bind_assoc]
    exact Judged.bind_left (Judged.utf8 vs bs) fun a _ rest _ => ⟨_, rfl, hid⟩
  case bigDec i sc v =>
    have hv : Check.value c 19 vs slack bs.length =
        if vs < 4 then Check.fault .corrupted else Check.bytes vs >>= fun _ => pure () := by
      unfold Check.value
      simp
    rw [hv]
    show Judged _ (((if 4 ≤ vs then _ else Parser.fail .corruptedData) >>= fun a => pure (Tag.atom a)) bs) _
    by_cases h : 4 ≤ vs
    · rw [if_pos h, if_neg (by omega)]
      unfold Parser.i32
      simp only [Parser.bind_assoc, Parser.pure_bind]
      obtain ⟨k, rfl⟩ : ∃ k, vs = 4 + k := ⟨vs - 4, by omega⟩
      rw [← bytes_add]
      refine Judged.bind (Judged.take 4 bs) fun _ _ r _ _ => ?_
      rw [show 4 + k - 4 = k from by omega]
      exact Judged.unit (Judged.bytes k r) fun a _ rest _ => ⟨_, rfl, hid⟩
    · rw [if_neg h, if_pos (by omega)]; exact rfl
  case version i w x y z =>
    show Judged _ (((if vs = 16 then _ else Parser.fail .corruptedData) >>= fun a => pure (Tag.atom a)) bs)
      (Check.fixed vs 16 bs)
    unfold Check.fixed
    by_cases h : vs = 16
    · rw [if_pos h, if_pos h]
      unfold Parser.i32
      simp only [Parser.bind_assoc, Parser.pure_bind]
      rw [show (16 : Nat) = 4 + 12 from rfl, ← bytes_add]
      refine Judged.bind (Judged.take 4 bs) fun _ _ r _ _ => ?_
      rw [show (12 : Nat) = 4 + 8 from rfl, ← bytes_add]
      refine Judged.bind (Judged.take 4 r) fun _ _ r _ _ => ?_
      rw [show (8 : Nat) = 4 + 4 from rfl, ← bytes_add]
      refine Judged.bind (Judged.take 4 r) fun _ _ r _ _ => ?_
      exact Judged.unit (Judged.take 4 r) fun a _ rest _ => ⟨_, rfl, hid⟩
    · rw [if_neg h, if_neg h]; exact rfl

theorem Judged.atomValue {a : Atom P} {id : Nat} (hid : a.id.toNat = id)
    (hk : standardId a.kind = some id) {vs slack : Nat} {bs : Bytes} (hb : bs.length + slack = vs) :
    Judged Any (((Parser.atomValue F vs a >>= fun a => pure (.atom a)) >>= Parser.checkEmpty slack) bs)
      (valueClosed c id vs slack bs.length bs) := by
  by_cases hn : id = 20 ∨ id = 23 ∨ id = 25 ∨ id = 31
  · cases a
    case raw => exact nomatch hk
    case payload => exact nomatch hk
    all_goals (have h := Option.some.inj hk; subst h)
    case ilintArray i v =>
      have := Judged.ilintArray (g := fun r => Tag.atom (.ilintArray i r)) (P := P) hb (fun _ => hid) (by omega)
      show Judged _ (((( Parser.ilintArray vs >>= fun v => pure (.ilintArray i v)) >>= fun a => pure (Tag.atom a)) >>= _) bs)
        ((Check.counted vs _ >>= _) bs)
      rw [Parser.bind_assoc (Parser.ilintArray vs)]
      exact this
    case oid i v =>
      have := Judged.ilintArray (g := fun r => Tag.atom (.oid i r)) (P := P) hb (fun _ => hid) (by omega)
      show Judged _ (((( Parser.ilintArray vs >>= fun v => pure (.oid i v)) >>= fun a => pure (Tag.atom a)) >>= _) bs)
        ((Check.counted vs _ >>= _) bs)
      rw [Parser.bind_assoc (Parser.ilintArray vs)]
      exact this
    case strDict i v =>
      show Judged _ ((((Parser.strDict vs >>= fun v => pure (.strDict i v)) >>= fun a => pure (Tag.atom a)) >>= _) bs)
        ((Check.countedFreely (do Check.textTag; Check.textTag) >>= fun _ => closing 31 slack) bs)
      rw [Parser.bind_assoc (Parser.strDict vs)]
      refine Judged.inner (q := fun _ => Parser.ilint >>= fun count => Parser.strEntries count.toNat [])
        (g := fun r => Tag.atom (.strDict i r)) hb ?_ ?_ (fun _ => hid) (by omega)
      · rw [Parser.bind_assoc]
      · refine Judged.bind (Judged.ilint bs) ?_
        rintro a _ rest rfl _
        exact Judged.strEntries _ _ _
    case range i v w =>
      show Judged _ ((((Parser.range vs >>= fun r => pure (.range i r.1 r.2)) >>= fun a => pure (Tag.atom a)) >>= _) bs)
        (((Check.number >>= fun _ => Check.bytes 2 >>= fun _ => pure ()) >>= fun _ => closing 23 slack) bs)
      rw [Parser.bind_assoc (Parser.range vs)]
      refine Judged.inner (q := fun _ => Parser.ilint >>= fun s => Parser.take 2 >>= fun n =>
        pure (s, UInt16.ofNat (fromBE n)))
        (g := fun r => Tag.atom (.range i r.1 r.2)) hb ?_ ?_ (fun _ => hid) (by omega)
      · simp only [Parser.bind_assoc, Parser.pure_bind]
      · refine Judged.bind (Judged.ilint bs) ?_
        rintro a _ rest rfl _
        exact Judged.unit (Judged.take 2 rest) fun a _ rest _ => ⟨_, rfl, trivial⟩
    all_goals exact absurd hn (by omega)
  · exact Judged.close (Judged.plainAtom hid hk hn)

theorem Judged.raw {i : UInt64} {v : Bytes} (hk : Check.known i.toNat = false) (hid : 16 ≤ i.toNat)
    {vs slack : Nat} {bs : Bytes} :
    Judged Any (((Parser.atomValue F vs (.raw i v) >>= fun a => pure (.atom a)) >>= Parser.checkEmpty slack) bs)
      (valueClosed c i.toNat vs slack bs.length bs) := by
  refine Judged.close ?_
  have hv : Check.value c i.toNat vs slack bs.length = Check.bytes vs >>= fun _ => pure () := by
    unfold Check.value
    simp only [Check.known, Bool.or_eq_false_iff, Bool.and_eq_false_iff, decide_eq_false_iff_not] at hk
    repeat rw [if_neg (by omega)]
  rw [hv]
  show Judged _ (((Parser.bytes vs >>= _) >>= fun a => pure (Tag.atom a)) bs) _
  rw [Parser.bind_assoc]
  exact Judged.unit (Judged.bytes vs bs) fun a _ rest _ => ⟨_, rfl, rfl⟩

theorem Judged.tagValue (hf : ∀ bs, Judged Any (F none bs) (c bs))
    (hs : ∀ bs t rest, F none bs = .ok t rest → rest.length < bs.length)
    (hn : F none [] = .short ∨ F none [] = .diverge) {t : Tag P} {id : Nat} (hid : t.id.toNat = id)
    (hk : standardId t.kind = some id ∨ Check.known id = false ∧ 16 ≤ id ∧ t.kind = .raw)
    {vs slack : Nat} {bs : Bytes} (hb : bs.length + slack = vs) :
    Judged Any ((Parser.tagValue F vs t >>= Parser.checkEmpty slack) bs) (valueClosed c id vs slack bs.length bs) := by
  cases t with
  | seq i ts =>
    have : id = 22 := by
      rcases hk with hk | hk
      · exact (Option.some.inj hk).symm
      · exact nomatch hk.2.2
    subst this
    refine Judged.close ?_
    show Judged _ ((Parser.seq (F none) vs >>= fun ts => pure (Tag.seq i ts)) bs) (Check.untilEnd c slack bs.length bs)
    refine Judged.bind_left (R := Any) ?_ fun a _ rest _ => ⟨_, rfl, hid⟩
    unfold Parser.seq
    rw [limited_self hb]
    exact Judged.tagsWhile hf hs hn _ _ _ _ _ (Nat.le_refl _)
  | array i ts =>
    have : id = 21 := by
      rcases hk with hk | hk
      · exact (Option.some.inj hk).symm
      · exact nomatch hk.2.2
    subst this
    show Judged _ (((Parser.array (F none) vs >>= fun ts => pure (Tag.array i ts)) >>= Parser.checkEmpty slack) bs)
      ((Check.counted vs c >>= fun _ => closing 21 slack) bs)
    refine Judged.inner (q := fun _ => Parser.ilint >>= fun count => if count.toNat > vs then Parser.fail .corruptedData
      else if 16 * count.toNat ≤ Env.allocMax then Parser.tags (F none) count.toNat [] else Parser.panic) hb ?_ ?_
      (fun _ => hid) (by omega)
    · rw [Parser.bind_assoc]
      congr 1
      funext count
      repeat' split
      all_goals rfl
    · refine Judged.bind (Judged.ilint bs) ?_
      rintro a _ rest rfl _
      by_cases h : vs < a.toNat
      · rw [if_pos h, if_pos h]; exact rfl
      · rw [if_neg h, if_neg h]
        split
        · exact Judged.tags hf _ _ _
        · trivial
  | dict i es =>
    have : id = 30 := by
      rcases hk with hk | hk
      · exact (Option.some.inj hk).symm
      · exact nomatch hk.2.2
    subst this
    show Judged _ (((Parser.dict (F none) vs >>= fun ts => pure (Tag.dict i ts)) >>= Parser.checkEmpty slack) bs)
      ((Check.countedFreely (do Check.textTag; c) >>= fun _ => closing 30 slack) bs)
    refine Judged.inner (q := fun _ => Parser.ilint >>= fun count => Parser.entries (F none) count.toNat []) hb ?_ ?_
      (fun _ => hid) (by omega)
    · rw [Parser.bind_assoc]
    · refine Judged.bind (Judged.ilint bs) ?_
      rintro a _ rest rfl _
      exact Judged.entries hf _ _ _
  | atom a =>
    rcases hk with hk | ⟨h1, h2, h3⟩
    · exact Judged.atomValue hid hk hb
    · cases a
      case raw =>
        subst hid
        exact Judged.raw h1 h2
      all_goals exact nomatch h3

theorem known_iff {id : Nat} : Check.known id = true ↔ ∃ k, standardId k = some id := by
  constructor
  · intro h
    have hlt : id < 32 := by
      simp only [Check.known, Bool.or_eq_true, Bool.and_eq_true, decide_eq_true_eq] at h
      omega
    have hall : ∀ n < 32, Check.known n = true → ∃ k ∈ standardKinds, standardId k = some n := by decide
    obtain ⟨k, -, hk⟩ := hall id hlt h
    exact ⟨k, hk⟩
  · rintro ⟨k, h⟩
    cases k <;> first | (have h := Option.some.inj h; subst h; rfl) | (exact nomatch h)

theorem Judged.tagSize (id : UInt64) (bs : Bytes) {k : Nat → Parser (Tag P)} {l : Nat → Check Unit}
    (h : ∀ n rest, n ≤ maxValue → Judged Any (k n rest) (l n rest)) :
    Judged Any ((Parser.tagSize id >>= k) bs)
      ((Check.length id.toNat >>= fun n =>
        if maxValue < n then Check.fault .tooLarge else l n) bs) := by
  unfold Check.length
  have hlift : ∀ (n : UInt64) rest, Judged Any ((Parser.lift (tagSizeToUsize n) >>= k) rest)
      ((if maxValue < n.toNat then Check.fault .tooLarge else l n.toNat) rest) := by
    intro n rest
    unfold tagSizeToUsize
    by_cases hl : maxValue < n.toNat
    · rw [if_pos hl, if_pos (by exact hl)]; exact rfl
    · rw [if_neg hl, if_neg (by exact hl)]; exact h _ _ (by omega)
  rcases Bool.eq_false_or_eq_true (isImplicitTag id) with hi | hi
  · have hi' := isImplicitTag_iff.mp hi
    rw [tagSize_implicit hi, if_pos hi']
    have hs : (implicitTagSize id).toNat = implicitLen id.toNat := implicit_size id hi'
    have := hlift (implicitTagSize id) bs
    rw [hs] at this
    exact this
  · have hi' : ¬ id.toNat ≤ 15 := fun hc => by rw [isImplicitTag_iff.mpr hc] at hi; simp at hi
    rw [tagSize_explicit hi, if_neg hi', Parser.bind_assoc]
    refine Judged.bind (Judged.ilint bs) ?_
    rintro n _ rest rfl _
    exact hlift n rest

theorem tag_none_nil (e : Engine P) (k : Nat) :
    Parser.tag e k none [] = .short ∨ Parser.tag e k none [] = .diverge := by
  cases k with
  | zero => exact .inr rfl
  | succ k => exact .inl rfl

theorem Check.tag_succ (strict : Bool) (k : Nat) :
    Check.tag strict (k + 1) = Check.number >>= fun id =>
      Check.length id >>= fun n =>
      if maxValue < n then Check.fault .tooLarge
      else (fun n => if Check.known id = false ∧ (strict = true ∨ id ≤ 15) then Check.fault .unknown
        else Check.region n fun missing => fun bs => (do
          Check.value (Check.tag strict k) id n missing bs.length
          if id = 10 ∨ id = 14 then pure () else Check.finished missing) bs) n := rfl

theorem tag_none (e : Engine P) (k : Nat) :
    Parser.tag e (k + 1) none = Parser.ilint >>= fun id => Parser.tagSize id >>= fun size =>
      Parser.lift (e.createTag id) >>= fun t =>
      match t with
      | none => Parser.fail .unknownTag
      | some t => Parser.tagValueInto (Parser.tag e k) size t := rfl

/-- The types an engine knows are those of the standard. -/
def MadeAsStandard (strict : Bool) (e : Engine P) : Prop := ∀ id : UInt64,
  (∃ t₀, e.createTag id = .ok (some t₀) ∧ standardId t₀.kind = some id.toNat ∧ t₀.id = id) ∨
  (∀ k, standardId k ≠ some id.toNat) ∧ e.createTag id =
    if strict = false ∧ 16 ≤ id.toNat then .ok (some (.atom (.raw id []))) else .ok none

omit [Env] in
theorem std_made (strict : Bool) : MadeAsStandard strict (Engine.std strict : Engine P) := by
  intro id
  cases hk : stdKind id with
  | some k =>
    have hs := stdKind_some.mp hk
    obtain ⟨t₀, h1, h2, h3⟩ := std_create (P := P) (strict := strict) hs
    exact .inl ⟨t₀, h1, by rw [h2]; exact hs, h3⟩
  | none => exact .inr ⟨stdKind_none.mp hk, std_unknown (stdKind_none.mp hk)⟩

theorem Judged.tag {strict : Bool} {e : Engine P} (he : MadeAsStandard strict e) (k : Nat) (bs : Bytes) :
    Judged Any (Parser.tag e k none bs) (Check.tag strict k bs) := by
  induction k generalizing bs with
  | zero => trivial
  | succ k ih =>
    rw [tag_none, Check.tag_succ]
    refine Judged.bind (Judged.ilint bs) ?_
    rintro id _ rest rfl _
    refine Judged.tagSize (P := P) id rest ?_
    intro n rest hn
    have key : ∀ t : Tag P, t.id = id →
        (standardId t.kind = some id.toNat ∨ Check.known id.toNat = false ∧ 16 ≤ id.toNat ∧ t.kind = .raw) →
        Judged Any (Parser.tagValueInto (Parser.tag e k) n t rest)
          (Check.region n (fun missing => fun bs => (do
            Check.value (Check.tag strict k) id.toNat n missing bs.length
            if id.toNat = 10 ∨ id.toNat = 14 then pure () else Check.finished missing) bs) rest) := by
      intro t ht hk
      refine Judged.region (fun slack bs hb => ?_) rest
      exact Judged.tagValue ih (fun bs t rest h => tag_lt _ _ _ h) (tag_none_nil _ k) (by rw [ht]) hk hb
    rcases he id with ⟨t₀, h1, h2, h3⟩ | ⟨hno, h1⟩
    · rw [h1, Parser.lift_ok, Parser.pure_bind, known_iff.mpr ⟨_, h2⟩, if_neg (by simp)]
      exact key t₀ h3 (.inl h2)
    · have hs : Check.known id.toNat = false := by
        rw [Bool.eq_false_iff]
        intro h
        obtain ⟨kd, hkd⟩ := known_iff.mp h
        exact hno kd hkd
      rw [h1, hs]
      by_cases hc : strict = false ∧ 16 ≤ id.toNat
      · rw [if_pos hc, Parser.lift_ok, Parser.pure_bind, if_neg (by
          rintro ⟨-, h | h⟩
          · rw [hc.1] at h; simp at h
          · omega)]
        exact key _ rfl (.inr ⟨hs, hc.2, rfl⟩)
      · rw [if_neg hc, Parser.lift_ok, Parser.pure_bind, if_pos ⟨rfl, by
          cases strict
          · right; simp at hc; omega
          · exact .inl rfl⟩]
        exact rfl

end
end Verif
