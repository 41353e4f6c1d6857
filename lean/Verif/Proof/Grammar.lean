import Verif.Spec.Grammar
import Verif.Proof.Shrink
import Verif.Proof.Scan
/-!
# The parsers accept exactly the language

`Acc p L`: the parser succeeds with `a` exactly on the inputs that begin with a form of `a`.
-/
namespace Verif
open Spec
set_option linter.unusedSectionVars false
variable {α β : Type}

def Acc (p : Parser α) (L : α → Bytes → Prop) : Prop :=
  ∀ bs a rest, p bs = .ok a rest ↔ ∃ x, bs = x ++ rest ∧ L a x

namespace Acc

theorem congr {p : Parser α} {L L' : α → Bytes → Prop} (h : Acc p L) (hl : ∀ a x, L a x ↔ L' a x) : Acc p L' := by
  intro bs a rest
  simp only [h bs a rest, hl]

theorem bind {p : Parser α} {k : α → Parser β} {L : α → Bytes → Prop} {K : α → β → Bytes → Prop} (h : Acc p L)
    (hk : ∀ a, Acc (k a) (K a)) : Acc (p >>= k) fun b z => ∃ a x y, z = x ++ y ∧ L a x ∧ K a b y := by
  intro bs b rest
  rw [Parser.bind_eq_ok]
  constructor
  · rintro ⟨a, r, h1, h2⟩
    obtain ⟨x, rfl, hx⟩ := (h _ _ _).mp h1
    obtain ⟨y, rfl, hy⟩ := (hk a _ _ _).mp h2
    exact ⟨x ++ y, by simp, a, x, y, rfl, hx, hy⟩
  · rintro ⟨z, rfl, a, x, y, rfl, hx, hy⟩
    exact ⟨a, y ++ rest, (h _ _ _).mpr ⟨x, by simp, hx⟩, (hk a _ _ _).mpr ⟨y, rfl, hy⟩⟩

theorem pure (a : α) : Acc (Pure.pure a) fun b x => b = a ∧ x = [] := by
  intro bs b rest
  simp only [Parser.pure_apply, PRes.ok.injEq]
  constructor
  · rintro ⟨rfl, rfl⟩; exact ⟨[], rfl, rfl, rfl⟩
  · rintro ⟨x, rfl, rfl, rfl⟩; exact ⟨rfl, rfl⟩

theorem map {p : Parser α} {L : α → Bytes → Prop} (h : Acc p L) (g : α → β) :
    Acc (p >>= fun a => (Pure.pure (g a) : Parser β)) fun b x => ∃ a, L a x ∧ b = g a := by
  refine (bind h fun a => pure (g a)).congr fun b x => ?_
  constructor
  · rintro ⟨a, x, y, rfl, h, rfl, rfl⟩; exact ⟨a, by simpa using h, rfl⟩
  · rintro ⟨a, h, rfl⟩; exact ⟨a, x, [], by simp, h, rfl, rfl⟩

theorem fail (e : TagErr) : Acc (Parser.fail e : Parser α) fun _ _ => False := by
  intro bs a rest; simp
theorem panic : Acc (Parser.panic : Parser α) fun _ _ => False := by intro bs a rest; simp
theorem diverge : Acc (Parser.diverge : Parser α) fun _ _ => False := by intro bs a rest; simp

theorem ite {c : Prop} [Decidable c] {p q : Parser α} {L K : α → Bytes → Prop} (hp : c → Acc p L) (hq : ¬ c → Acc q K) :
    Acc (if c then p else q) fun a x => c ∧ L a x ∨ ¬ c ∧ K a x := by
  by_cases h : c
  · simp only [h, if_true]; exact (hp h).congr (by simp [h])
  · simp only [h, if_false]; exact (hq h).congr (by simp [h])

theorem guard {c : Prop} [Decidable c] {p : Parser α} {L : α → Bytes → Prop} {e : TagErr} (hp : c → Acc p L) :
    Acc (if c then p else Parser.fail e) fun a x => c ∧ L a x :=
  (ite hp fun _ => fail e).congr (by simp)

theorem byte : Acc Parser.byte fun b x => x = [b] := by
  intro bs b rest
  cases bs with
  | nil => simp [Parser.byte]
  | cons c cs =>
    simp only [Parser.byte, PRes.ok.injEq]
    constructor
    · rintro ⟨rfl, rfl⟩; exact ⟨_, rfl, rfl⟩
    · rintro ⟨x, h, rfl⟩; simpa using h

theorem take (n : Nat) : Acc (Parser.take n) fun b x => b = x ∧ x.length = n := by
  intro bs b rest
  unfold Parser.take
  split
  · next h =>
    simp only [PRes.ok.injEq]
    constructor
    · rintro ⟨rfl, rfl⟩; exact ⟨bs.take n, by simp, rfl, by simp; omega⟩
    · rintro ⟨x, rfl, rfl, rfl⟩; simp
  · next h =>
    simp only [reduceCtorEq, false_iff]
    rintro ⟨x, rfl, rfl, rfl⟩
    simp at h

theorem lift (r : Res TagErr α) : Acc (Parser.lift r) fun a x => r = .ok a ∧ x = [] := by
  intro bs a rest
  rw [lift_eq_ok]
  constructor
  · rintro ⟨h, rfl⟩; exact ⟨[], rfl, h, rfl⟩
  · rintro ⟨x, rfl, h, rfl⟩; exact ⟨h, rfl⟩

theorem liftBind {r : Res TagErr α} {k : α → Parser β} {K : α → β → Bytes → Prop} (hk : ∀ a, r = .ok a → Acc (k a) (K a)) :
    Acc (Parser.lift r >>= k) fun b x => ∃ a, r = .ok a ∧ K a b x := by
  intro bs b rest
  rw [Parser.bind_eq_ok]
  simp only [lift_eq_ok]
  constructor
  · rintro ⟨a, _, ⟨h1, rfl⟩, h2⟩
    obtain ⟨x, hx, h3⟩ := (hk a h1 _ _ _).mp h2
    exact ⟨x, hx, a, h1, h3⟩
  · rintro ⟨x, hx, a, h1, h3⟩
    exact ⟨a, bs, ⟨h1, rfl⟩, (hk a h1 _ _ _).mpr ⟨x, hx, h3⟩⟩

theorem ilint : Acc Parser.ilint fun v x => IsILInt x v.toNat := by
  intro bs v rest
  constructor
  · exact ilint_parsed
  · rintro ⟨x, rfl, h⟩
    unfold Parser.ilint
    obtain ⟨hv, ⟨b, rfl, hb, hvb⟩ | ⟨hd, body, rfl, h1, h8, hh, hvb⟩⟩ := h
    · have h1 : ILInt.decodedSize b = 1 := by rw [ILInt.decodedSize_eq, if_pos hb]
      have h2 : v = b.toUInt64 := UInt64.toNat_inj.mp (by simpa using hvb)
      have h3 : Parser.byte ([b] ++ rest) = .ok b rest := rfl
      rw [Parser.bind_ok h3, if_pos h1, h2]
      rfl
    · have h2 : ILInt.decodedSize hd - 1 = body.length := by rw [ILInt.decodedSize_eq, if_neg (by omega)]; omega
      have h0 : Parser.byte (hd :: body ++ rest) = .ok hd (body ++ rest) := rfl
      rw [Parser.bind_ok h0, if_neg (by rw [ILInt.decodedSize_eq]; split <;> omega), h2]
      have h3 : Parser.take body.length (body ++ rest) = .ok body rest := by simp [Parser.take]
      rw [Parser.bind_ok h3, ILInt.decodeBody_eq _ h1 h8, if_pos (by omega)]
      have h4 : UInt64.ofNat (248 + beVal body) = v := UInt64.toNat_inj.mp (by simp; omega)
      simp [Res.mapErr, h4]

theorem ensureEmpty_ok {slack : Nat} {bs rest : Bytes} : Parser.ensureEmpty slack bs = .ok () rest ↔
    slack = 0 ∧ bs = [] ∧ rest = [] := by
  unfold Parser.ensureEmpty
  split
  · next h =>
    have h1 : bs = [] := List.length_eq_zero_iff.mp (by omega)
    have h2 : slack = 0 := by omega
    simp [h1, h2, eq_comm]
  · next h =>
    simp only [reduceCtorEq, false_iff]
    rintro ⟨rfl, rfl, -⟩
    simp at h

/-- A region whose body insists on using it up. -/
theorem region {n : Nat} {q : Nat → Parser α} {p : Parser α} {L : α → Bytes → Prop} (hp : Acc p L)
    (hq : ∀ s bs a rest, q s bs = .ok a rest ↔ s = 0 ∧ rest = [] ∧ p bs = .ok a []) :
    Acc (Parser.limited n q) fun a x => x.length = n ∧ L a x := by
  intro bs a rest
  unfold Parser.limited
  by_cases hn : n ≤ bs.length
  · rw [if_pos hn]
    refine Iff.trans (b := p (bs.take n) = .ok a [] ∧ rest = bs.drop n) ?_ ?_
    · cases hr : q 0 (bs.take n) with
      | ok a' r =>
        obtain ⟨-, rfl, h3⟩ := (hq _ _ _ _).mp hr
        simp only [PRes.ok.injEq, List.nil_append, h3, and_true]
        exact and_congr Iff.rfl ⟨Eq.symm, Eq.symm⟩
      | _ =>
        simp only [reduceCtorEq, false_iff]
        rintro ⟨h, -⟩
        have := (hq 0 _ _ _).mpr ⟨rfl, rfl, h⟩
        rw [hr] at this
        cases this
    rw [hp]
    constructor
    · rintro ⟨⟨x, h2, h3⟩, rfl⟩
      refine ⟨x, ?_, ?_, h3⟩
      · rw [List.append_nil] at h2; rw [← h2, List.take_append_drop]
      · rw [List.append_nil] at h2; rw [← h2, List.length_take]; omega
    · rintro ⟨x, rfl, rfl, h3⟩
      exact ⟨⟨x, by simp, h3⟩, by simp⟩
  · rw [if_neg hn]
    constructor
    · intro h
      have := ((hq _ _ _ _).mp h).1
      omega
    · rintro ⟨x, rfl, rfl, -⟩
      simp at hn

/-- The usual shape of such a body. -/
theorem regionEnd {n : Nat} {p : Parser α} {L : α → Bytes → Prop} (hp : Acc p L) (g : α → β) :
    Acc (Parser.limited n fun s => p >>= fun a => Parser.ensureEmpty s >>= fun _ => (Pure.pure (g a) : Parser β))
      fun b x => x.length = n ∧ ∃ a, L a x ∧ b = g a := by
  refine region (map hp g) fun s bs a rest => ?_
  rw [Parser.bind_eq_ok]
  simp only [Parser.bind_eq_ok, Parser.pure_apply, PRes.ok.injEq]
  constructor
  · rintro ⟨a', r, h1, u, r', h2, rfl, rfl⟩
    obtain ⟨rfl, rfl, rfl⟩ := ensureEmpty_ok.mp h2
    exact ⟨rfl, rfl, a', [], h1, rfl, rfl⟩
  · rintro ⟨rfl, rfl, a', r, h1, rfl, rfl⟩
    exact ⟨a', [], h1, (), [], ensureEmpty_ok.mpr ⟨rfl, rfl, rfl⟩, rfl, rfl⟩

section
variable {P : Type} [Env]

theorem bytes (hr : Roomy) {n : Nat} (hn : n ≤ maxTagSize) : Acc (Parser.bytes n) fun b x => b = x ∧ x.length = n := by
  unfold Parser.bytes
  rw [if_pos (by unfold Roomy at hr; omega)]
  exact take n

theorem utf8 (hr : Roomy) {n : Nat} (hn : n ≤ maxTagSize) :
    Acc (Parser.utf8 n) fun s x => x = Spec.utf8 s ∧ (Spec.utf8 s).length = n := by
  unfold Parser.utf8
  refine (bind (bytes hr hn) (K := fun tmp s y => Spec.utf8 s = tmp ∧ y = []) fun tmp => ?_).congr fun s x => ?_
  · cases h : fromUtf8 tmp with
    | none =>
      refine (fail _).congr fun s x => ?_
      simp only [false_iff, not_and]
      intro hc
      rw [← utf8_eq] at hc
      exact absurd hc (fromUtf8_eq_none.mp h s)
    | some s =>
      refine (pure s).congr fun s' x => ?_
      have hs := fromUtf8_eq_some.mp h
      constructor
      · rintro ⟨rfl, rfl⟩; exact ⟨by rw [← utf8_eq]; exact hs, rfl⟩
      · rintro ⟨h1, rfl⟩
        rw [← utf8_eq, ← hs] at h1
        exact ⟨utf8_inj h1, rfl⟩
  · constructor
    · rintro ⟨a, x, y, rfl, ⟨rfl, rfl⟩, h, rfl⟩; simp [h]
    · rintro ⟨rfl, h⟩; exact ⟨_, _, [], by simp, ⟨rfl, h⟩, rfl, rfl⟩

theorem maxValue_eq : maxValue = maxTagSize := rfl

theorem tagSizeToUsize_iff {v : UInt64} {n : Nat} : tagSizeToUsize v = .ok n ↔ v.toNat = n ∧ n ≤ maxTagSize := by
  unfold tagSizeToUsize
  split
  · simp only [reduceCtorEq, false_iff, not_and]; omega
  · simp only [Res.ok.injEq]; omega

theorem stringTag (hr : Roomy) : Acc Parser.stringTag StringForm := by
  unfold Parser.stringTag
  refine (bind ilint fun id => ite (fun _ => fail _) fun _ => bind ilint fun len => liftBind fun n hn =>
    utf8 hr (tagSizeToUsize_iff.mp hn).2).congr fun s x => ?_
  simp only [and_false, false_or, tagSizeToUsize_iff, ne_eq, Decidable.not_not, StringForm, Id.string, maxValue_eq]
  constructor
  · rintro ⟨id, x, y, rfl, h1, rfl, len, l, z, rfl, h2, n, ⟨h3, h4⟩, rfl, h5⟩
    exact ⟨x, l, by simp, h1, by rw [h5, ← h3]; exact h2, by omega⟩
  · rintro ⟨h, l, rfl, h1, h2, h3⟩
    have h64 : (Spec.utf8 s).length < 2 ^ 64 := by unfold maxTagSize at h3; omega
    refine ⟨17, h, l ++ Spec.utf8 s, by simp, h1, rfl, UInt64.ofNat (Spec.utf8 s).length, l, Spec.utf8 s, rfl, ?_, _, ⟨?_, h3⟩, rfl, rfl⟩
    · rw [ofNat_toNat64 h64]; exact h2
    · rw [ofNat_toNat64 h64]

/-- `n` items appended to `acc`. -/
theorem many {p : Parser α} {L : α → Bytes → Prop} (hp : Acc p L) (loop : Nat → List α → Parser (List α))
    (h0 : ∀ acc, loop 0 acc = Pure.pure acc) (h1 : ∀ n acc, loop (n + 1) acc = p >>= fun a => loop n (acc ++ [a])) (n : Nat)
    (acc : List α) : Acc (loop n acc) fun r x => ∃ as, r = acc ++ as ∧ as.length = n ∧ Listed L as x := by
  induction n generalizing acc with
  | zero =>
    rw [h0]
    refine (pure acc).congr fun r x => ?_
    constructor
    · rintro ⟨rfl, rfl⟩; exact ⟨[], by simp, rfl, rfl⟩
    · rintro ⟨as, rfl, h, h2⟩
      have := List.length_eq_zero_iff.mp h
      subst this
      exact ⟨by simp, h2⟩
  | succ n ih =>
    rw [h1]
    refine (bind hp fun a => ih (acc ++ [a])).congr fun r x => ?_
    constructor
    · rintro ⟨a, x, y, rfl, ha, as, rfl, rfl, h⟩
      exact ⟨a :: as, by simp, rfl, x, y, rfl, ha, h⟩
    · rintro ⟨as, rfl, h, h2⟩
      cases as with
      | nil => simp at h
      | cons a as =>
        obtain ⟨x, y, rfl, ha, h3⟩ := h2
        exact ⟨a, x, y, rfl, ha, as, by simp, by simpa using h, h3⟩

/-- `n` entries inserted into `acc`. -/
theorem manyEntries {p : Parser α} {L : α → Bytes → Prop} (hk : Acc Parser.stringTag StringForm) (hp : Acc p L)
    (loop : Nat → List (String × α) → Parser (List (String × α)))
    (h0 : ∀ acc, loop 0 acc = Pure.pure acc)
    (h1 : ∀ n acc, loop (n + 1) acc = Parser.stringTag >>= fun k => p >>= fun a => loop n (HMap.insert k a acc)) (n : Nat)
    (acc : List (String × α)) : Acc (loop n acc) fun r x => ∃ ws, r = ws.foldl (fun m e => HMap.insert e.1 e.2 m) acc ∧
      ws.length = n ∧ Listed (EntryForm L) ws x := by
  induction n generalizing acc with
  | zero =>
    rw [h0]
    refine (pure acc).congr fun r x => ?_
    constructor
    · rintro ⟨rfl, rfl⟩; exact ⟨[], rfl, rfl, rfl⟩
    · rintro ⟨as, rfl, h, h2⟩
      have := List.length_eq_zero_iff.mp h
      subst this
      exact ⟨rfl, h2⟩
  | succ n ih =>
    rw [h1]
    refine (bind hk fun k => bind hp fun a => ih (HMap.insert k a acc)).congr fun r x => ?_
    constructor
    · rintro ⟨k, x, _, rfl, hk, a, y, z, rfl, ha, ws, rfl, rfl, h⟩
      exact ⟨(k, a) :: ws, rfl, rfl, x ++ y, z, by simp, ⟨x, y, rfl, hk, ha⟩, h⟩
    · rintro ⟨ws, rfl, h, h2⟩
      cases ws with
      | nil => simp at h
      | cons w ws =>
        obtain ⟨_, z, rfl, ⟨x, y, rfl, hk, ha⟩, h3⟩ := h2
        exact ⟨w.1, x, y ++ z, by simp, hk, w.2, y, z, rfl, ha, ws, rfl, by simpa using h, h3⟩

theorem listed_length {L : α → Bytes → Prop} (hL : ∀ a x, L a x → 1 ≤ x.length) (as : List α) (x : Bytes)
    (h : Listed L as x) : as.length ≤ x.length := by
  induction as generalizing x with
  | nil => simp
  | cons a as ih =>
    obtain ⟨x, y, rfl, ha, h⟩ := h
    have := hL a x ha
    have := ih y h
    simp only [List.length_cons, List.length_append]
    omega

theorem isILInt_length {x : Bytes} {v : Nat} (h : IsILInt x v) : 1 ≤ x.length := by
  obtain ⟨-, ⟨b, rfl, -⟩ | ⟨hd, body, rfl, -⟩⟩ := h <;> simp

/-- A counted list in a region, its count checked against the size of the region before `unit` bytes are reserved for
every item. -/
theorem countedRegion (hr : Roomy) {n unit : Nat} (hn : n ≤ maxTagSize) (hu : unit ≤ 16) {L : α → Bytes → Prop}
    (hL : ∀ a x, L a x → 1 ≤ x.length) {loop : Nat → Parser (List α)}
    (hp : ∀ n, Acc (loop n) fun r x => r.length = n ∧ Listed L r x) :
    Acc (Parser.limited n fun slack => Parser.ilint >>= fun count =>
      if count.toNat > n then Parser.fail .corruptedData
      else if unit * count.toNat ≤ Env.allocMax then loop count.toNat >>= fun r =>
        Parser.ensureEmpty slack >>= fun _ => (Pure.pure r : Parser (List α))
      else Parser.panic) fun r x => x.length = n ∧ Counted' L r x := by
  refine (region (p := Parser.ilint >>= fun count => if count.toNat > n then Parser.fail .corruptedData else loop count.toNat)
    (bind ilint fun count => ite (fun _ => fail _) fun _ => hp count.toNat) fun s bs a rest => ?_).congr fun r x => ?_
  · simp only [Parser.bind_eq_ok]
    constructor
    · rintro ⟨c, r, h1, h2⟩
      split at h2
      · simp at h2
      · next hc =>
        rw [if_pos (by
          have := Nat.mul_le_mul hu (Nat.le_of_not_lt hc)
          unfold Roomy at hr
          omega)] at h2
        obtain ⟨r', y, h3, h4⟩ := Parser.bind_eq_ok.mp h2
        obtain ⟨u, z, h5, h6⟩ := Parser.bind_eq_ok.mp h4
        obtain ⟨rfl, rfl, rfl⟩ := ensureEmpty_ok.mp h5
        simp only [Parser.pure_apply, PRes.ok.injEq] at h6
        obtain ⟨rfl, rfl⟩ := h6
        exact ⟨rfl, rfl, c, r, h1, by rw [if_neg hc]; exact h3⟩
    · rintro ⟨rfl, rfl, c, r, h1, h2⟩
      refine ⟨c, r, h1, ?_⟩
      split at h2
      · simp at h2
      · next hc =>
        rw [if_neg hc, if_pos (by
          have := Nat.mul_le_mul hu (Nat.le_of_not_lt hc)
          unfold Roomy at hr
          omega), Parser.bind_ok h2]
        rfl
  · refine and_congr_right fun hx => ?_
    simp only [and_false, false_or, Counted']
    constructor
    · rintro ⟨c, x, y, rfl, h1, h2, h3, h4⟩
      exact ⟨x, y, rfl, by rw [h3]; exact h1, h4⟩
    · rintro ⟨c, x, rfl, h1, h2⟩
      have h3 := listed_length hL r x h2
      rw [List.length_append] at hx
      have h64 : r.length < 2 ^ 64 := by unfold maxTagSize at hn; omega
      have h4 : (UInt64.ofNat r.length).toNat = r.length := ofNat_toNat64 h64
      exact ⟨UInt64.ofNat r.length, c, x, rfl, by rw [h4]; exact h1, by rw [h4]; omega, by rw [h4], h2⟩

/-- Counted entries in a region. -/
theorem entriesRegion {n : Nat} {L : α → Bytes → Prop} (hn : n ≤ maxTagSize) {loop : Nat → Parser (List (String × α))}
    (hp : ∀ n, Acc (loop n) fun r x => ∃ ws, r = ws.foldl (fun m e => HMap.insert e.1 e.2 m) [] ∧
      ws.length = n ∧ Listed (EntryForm L) ws x) :
    Acc (Parser.limited n fun slack => Parser.ilint >>= fun count => loop count.toNat >>= fun r =>
        Parser.ensureEmpty slack >>= fun _ => (Pure.pure r : Parser (List (String × α))))
      fun r x => x.length = n ∧ ∃ ws, Counted' (EntryForm L) ws x ∧ r = ws.foldl (fun m e => HMap.insert e.1 e.2 m) [] := by
  have := regionEnd (n := n) (bind ilint fun count => hp count.toNat) id
  simp only [Parser.bind_assoc, id] at this
  refine this.congr fun r x => and_congr_right fun hx => ?_
  constructor
  · rintro ⟨_, ⟨c, x, y, rfl, h1, ws, h2, h3, h4⟩, rfl⟩
    exact ⟨ws, ⟨x, y, rfl, by rw [h3]; exact h1, h4⟩, h2⟩
  · rintro ⟨ws, ⟨c, x, rfl, h1, h2⟩, h3⟩
    have h4 := listed_length (L := EntryForm L) (fun a x h => by
      obtain ⟨x, y, rfl, ⟨h, l, rfl, h5, -⟩, -⟩ := h
      have := isILInt_length h5
      simp only [List.length_append]
      omega) ws x h2
    rw [List.length_append] at hx
    have h64 : ws.length < 2 ^ 64 := by unfold maxTagSize at hn; omega
    have h5 : (UInt64.ofNat ws.length).toNat = ws.length := ofNat_toNat64 h64
    exact ⟨r, ⟨UInt64.ofNat ws.length, c, x, rfl, by rw [h5]; exact h1, ws, h3, h5.symm, h2⟩, rfl⟩


theorem word16 {v : UInt16} {x : Bytes} : x.length = 2 ∧ v = UInt16.ofNat (fromBE x) ↔ x = be 2 v.toNat := by
  rw [fromBE_eq_beVal]
  constructor
  · rintro ⟨h, rfl⟩
    have h1 := beVal_lt x
    have h2 := be_beVal x
    rw [h] at h1 h2
    rw [UInt16.toNat_ofNat_of_lt' h1, h2]
  · rintro rfl
    refine ⟨be_length .., UInt16.toNat_inj.mp ?_⟩
    have h1 := v.toNat_lt
    rw [beVal_be, Nat.mod_eq_of_lt h1, UInt16.toNat_ofNat_of_lt' h1]

theorem int16 {v : Int16} {x : Bytes} :
    x.length = 2 ∧ v = (UInt16.ofNat (fromBE x)).toInt16 ↔ x = be 2 (twos 2 v.toInt) := by
  rw [← twos_int16, ← word16]
  exact and_congr_right fun _ => ⟨fun h => by rw [h]; rfl, fun h => by rw [← h]; rfl⟩

theorem word32 {v : UInt32} {x : Bytes} : x.length = 4 ∧ v = UInt32.ofNat (fromBE x) ↔ x = be 4 v.toNat := by
  rw [fromBE_eq_beVal]
  constructor
  · rintro ⟨h, rfl⟩
    have h1 := beVal_lt x
    have h2 := be_beVal x
    rw [h] at h1 h2
    rw [UInt32.toNat_ofNat_of_lt' h1, h2]
  · rintro rfl
    refine ⟨be_length .., UInt32.toNat_inj.mp ?_⟩
    have h1 := v.toNat_lt
    rw [beVal_be, Nat.mod_eq_of_lt h1, UInt32.toNat_ofNat_of_lt' h1]

theorem int32 {v : Int32} {x : Bytes} :
    x.length = 4 ∧ v = (UInt32.ofNat (fromBE x)).toInt32 ↔ x = be 4 (twos 4 v.toInt) := by
  rw [← twos_int32, ← word32]
  exact and_congr_right fun _ => ⟨fun h => by rw [h]; rfl, fun h => by rw [← h]; rfl⟩

theorem word64 {v : UInt64} {x : Bytes} : x.length = 8 ∧ v = UInt64.ofNat (fromBE x) ↔ x = be 8 v.toNat := by
  rw [fromBE_eq_beVal]
  constructor
  · rintro ⟨h, rfl⟩
    have h1 := beVal_lt x
    have h2 := be_beVal x
    rw [h] at h1 h2
    rw [UInt64.toNat_ofNat_of_lt' h1, h2]
  · rintro rfl
    refine ⟨be_length .., UInt64.toNat_inj.mp ?_⟩
    have h1 := v.toNat_lt
    rw [beVal_be, Nat.mod_eq_of_lt h1, UInt64.toNat_ofNat_of_lt' h1]

theorem int64 {v : Int64} {x : Bytes} :
    x.length = 8 ∧ v = (UInt64.ofNat (fromBE x)).toInt64 ↔ x = be 8 (twos 8 v.toInt) := by
  rw [← twos_int64, ← word64]
  exact and_congr_right fun _ => ⟨fun h => by rw [h]; rfl, fun h => by rw [← h]; rfl⟩

/-- The maps as the code makes them. -/
def made : MapMaking := fun _ ws es => es = ws.foldl (fun m e => HMap.insert e.1 e.2 m) []

variable [TagPayload P]

/-- The values of one kind. -/
theorem atomCase {γ : Type} {p : Parser (Atom P)} {a₀ : Atom P} {vs : Nat} (mk : γ → Atom P) {L : γ → Bytes → Prop}
    (hp : Acc p fun a x => ∃ v, L v x ∧ a = mk v)
    (hmk : ∀ a : Atom P, a.kind = a₀.kind → a.id = a₀.id → ∃ v, a = mk v)
    (hk : ∀ v, (mk v).kind = a₀.kind ∧ (mk v).id = a₀.id)
    (hL : ∀ v x, L v x ↔ AtomForm made (mk v) x ∧ (oneILInt a₀.kind ∨ x.length = vs)) :
    Acc p fun a x => a.kind = a₀.kind ∧ a.id = a₀.id ∧ AtomForm made a x ∧ (oneILInt a₀.kind ∨ x.length = vs) := by
  refine hp.congr fun a x => ⟨?_, ?_⟩
  · rintro ⟨v, h, rfl⟩
    exact ⟨(hk v).1, (hk v).2, (hL v x).mp h⟩
  · rintro ⟨h1, h2, h3⟩
    obtain ⟨v, rfl⟩ := hmk a h1 h2
    exact ⟨v, (hL v x).mpr h3, rfl⟩

theorem fixed {γ : Type} {vs n : Nat} (mk : γ → Atom P) (g : Bytes → γ) : Acc (Parser.fixed vs n fun t => mk (g t)) fun a x =>
    ∃ v, (vs = n ∧ x.length = n ∧ v = g x) ∧ a = mk v := by
  unfold Parser.fixed
  refine (ite (fun _ => map (take n) fun t => mk (g t)) fun _ => fail _).congr fun a x => ?_
  constructor
  · rintro (⟨rfl, t, ⟨rfl, rfl⟩, rfl⟩ | ⟨-, h⟩)
    · exact ⟨_, ⟨rfl, rfl, rfl⟩, rfl⟩
    · exact h.elim
  · rintro ⟨v, ⟨rfl, rfl, rfl⟩, rfl⟩
    exact .inl ⟨rfl, x, ⟨rfl, rfl⟩, rfl⟩

theorem i32 : Acc Parser.i32 fun v x => x = be 4 (twos 4 v.toInt) := by
  unfold Parser.i32
  refine (map (take 4) fun t => (UInt32.ofNat (fromBE t)).toInt32).congr fun a x => ?_
  rw [← int32]
  constructor
  · rintro ⟨t, ⟨rfl, h⟩, rfl⟩; exact ⟨h, rfl⟩
  · rintro ⟨h, rfl⟩; exact ⟨_, ⟨rfl, h⟩, rfl⟩

theorem ilintArray (hr : Roomy) {vs : Nat} (hv : vs ≤ maxTagSize) : Acc (Parser.ilintArray vs) fun r x =>
    x.length = vs ∧ Counted' (fun (v : UInt64) x => IsILInt x v.toNat) r x := by
  unfold Parser.ilintArray
  refine countedRegion hr hv (by omega) (fun _ _ h => isILInt_length h) (loop := fun n => Parser.ilints n []) fun n => ?_
  refine (many ilint Parser.ilints (fun _ => rfl) (fun _ _ => rfl) n []).congr fun r x => ?_
  constructor
  · rintro ⟨as, rfl, h⟩; simpa using h
  · rintro h; exact ⟨r, rfl, h⟩

theorem strDict (hr : Roomy) {vs : Nat} (hv : vs ≤ maxTagSize) : Acc (Parser.strDict vs) fun r x =>
    x.length = vs ∧ ∃ ws, Counted' (EntryForm StringForm) ws x ∧ made String ws r := by
  unfold Parser.strDict
  exact entriesRegion hv fun n =>
    manyEntries (stringTag hr) (stringTag hr) Parser.strEntries (fun _ => rfl) (fun _ _ => rfl) n []

theorem range (vs : Nat) : Acc (Parser.range vs) fun r x =>
    x.length = vs ∧ ∃ y, x = y ++ be 2 r.2.toNat ∧ IsILInt y r.1.toNat := by
  unfold Parser.range
  have := regionEnd (n := vs) (bind ilint fun start => map (take 2) fun count => (start, UInt16.ofNat (fromBE count))) id
  simp only [Parser.bind_assoc, id, Parser.pure_bind] at this
  refine this.congr fun r x => and_congr_right fun hx => ?_
  constructor
  · rintro ⟨_, ⟨c, x, y, rfl, h1, w, ⟨rfl, h2⟩, rfl⟩, rfl⟩
    exact ⟨x, by rw [← word16.mp ⟨h2, rfl⟩], h1⟩
  · rintro ⟨y, rfl, h⟩
    have := word16 (v := r.2).mpr rfl
    exact ⟨r, ⟨r.1, y, _, rfl, h, _, ⟨rfl, this.1⟩, by rw [← this.2]⟩, rfl⟩

theorem atomValue (hr : Roomy) {f : Option (Tag P) → Parser (Tag P)} {vs : Nat} (hv : vs ≤ maxTagSize) (a₀ : Atom P) (ha : a₀.kind ≠ .payload) :
    Acc (Parser.atomValue f vs a₀) fun a x =>
      a.kind = a₀.kind ∧ a.id = a₀.id ∧ AtomForm made a x ∧ (oneILInt a₀.kind ∨ x.length = vs) := by
  cases a₀ with
  | int16 id _ =>
    refine atomCase (.int16 id) (fixed (.int16 id) _) (fun a h1 h2 => ?_) (fun v => ⟨rfl, rfl⟩) fun v x => ?_
    · cases a <;> simp only [Atom.kind, reduceCtorEq] at h1
      exact ⟨_, congrArg (Atom.int16 · _) h2⟩
    · simp only [AtomForm, encAtom, oneILInt, Atom.kind, false_or, ← int16]
      constructor
      · rintro ⟨rfl, h⟩; exact ⟨h, h.1⟩
      · rintro ⟨h, rfl⟩; exact ⟨h.1, h⟩
  | uint16 id _ =>
    refine atomCase (.uint16 id) (fixed (.uint16 id) _) (fun a h1 h2 => ?_) (fun v => ⟨rfl, rfl⟩) fun v x => ?_
    · cases a <;> simp only [Atom.kind, reduceCtorEq] at h1
      exact ⟨_, congrArg (Atom.uint16 · _) h2⟩
    · simp only [AtomForm, encAtom, oneILInt, Atom.kind, false_or, ← word16]
      constructor
      · rintro ⟨rfl, h⟩; exact ⟨h, h.1⟩
      · rintro ⟨h, rfl⟩; exact ⟨h.1, h⟩
  | int32 id _ =>
    refine atomCase (.int32 id) (fixed (.int32 id) _) (fun a h1 h2 => ?_) (fun v => ⟨rfl, rfl⟩) fun v x => ?_
    · cases a <;> simp only [Atom.kind, reduceCtorEq] at h1
      exact ⟨_, congrArg (Atom.int32 · _) h2⟩
    · simp only [AtomForm, encAtom, oneILInt, Atom.kind, false_or, ← int32]
      constructor
      · rintro ⟨rfl, h⟩; exact ⟨h, h.1⟩
      · rintro ⟨h, rfl⟩; exact ⟨h.1, h⟩
  | uint32 id _ =>
    refine atomCase (.uint32 id) (fixed (.uint32 id) _) (fun a h1 h2 => ?_) (fun v => ⟨rfl, rfl⟩) fun v x => ?_
    · cases a <;> simp only [Atom.kind, reduceCtorEq] at h1
      exact ⟨_, congrArg (Atom.uint32 · _) h2⟩
    · simp only [AtomForm, encAtom, oneILInt, Atom.kind, false_or, ← word32]
      constructor
      · rintro ⟨rfl, h⟩; exact ⟨h, h.1⟩
      · rintro ⟨h, rfl⟩; exact ⟨h.1, h⟩
  | int64 id _ =>
    refine atomCase (.int64 id) (fixed (.int64 id) _) (fun a h1 h2 => ?_) (fun v => ⟨rfl, rfl⟩) fun v x => ?_
    · cases a <;> simp only [Atom.kind, reduceCtorEq] at h1
      exact ⟨_, congrArg (Atom.int64 · _) h2⟩
    · simp only [AtomForm, encAtom, oneILInt, Atom.kind, false_or, ← int64]
      constructor
      · rintro ⟨rfl, h⟩; exact ⟨h, h.1⟩
      · rintro ⟨h, rfl⟩; exact ⟨h.1, h⟩
  | uint64 id _ =>
    refine atomCase (.uint64 id) (fixed (.uint64 id) _) (fun a h1 h2 => ?_) (fun v => ⟨rfl, rfl⟩) fun v x => ?_
    · cases a <;> simp only [Atom.kind, reduceCtorEq] at h1
      exact ⟨_, congrArg (Atom.uint64 · _) h2⟩
    · simp only [AtomForm, encAtom, oneILInt, Atom.kind, false_or, ← word64]
      constructor
      · rintro ⟨rfl, h⟩; exact ⟨h, h.1⟩
      · rintro ⟨h, rfl⟩; exact ⟨h.1, h⟩
  | bin32 id _ =>
    refine atomCase (.bin32 id) (fixed (.bin32 id) _) (fun a h1 h2 => ?_) (fun v => ⟨rfl, rfl⟩) fun v x => ?_
    · cases a <;> simp only [Atom.kind, reduceCtorEq] at h1
      exact ⟨_, congrArg (Atom.bin32 · _) h2⟩
    · simp only [AtomForm, encAtom, oneILInt, Atom.kind, false_or, ← word32]
      constructor
      · rintro ⟨rfl, h⟩; exact ⟨h, h.1⟩
      · rintro ⟨h, rfl⟩; exact ⟨h.1, h⟩
  | bin64 id _ =>
    refine atomCase (.bin64 id) (fixed (.bin64 id) _) (fun a h1 h2 => ?_) (fun v => ⟨rfl, rfl⟩) fun v x => ?_
    · cases a <;> simp only [Atom.kind, reduceCtorEq] at h1
      exact ⟨_, congrArg (Atom.bin64 · _) h2⟩
    · simp only [AtomForm, encAtom, oneILInt, Atom.kind, false_or, ← word64]
      constructor
      · rintro ⟨rfl, h⟩; exact ⟨h, h.1⟩
      · rintro ⟨h, rfl⟩; exact ⟨h.1, h⟩
  | null id =>
    refine atomCase (fun _ : Unit => .null id) (L := fun _ x => vs = 0 ∧ x = []) ((guard fun _ => pure _).congr fun a x => ?_) (fun a h1 h2 => ?_) (fun v => ⟨rfl, rfl⟩) fun v x => ?_
    · exact ⟨fun ⟨h1, h2, h3⟩ => ⟨(), ⟨h1, h3⟩, h2⟩, fun ⟨_, ⟨h1, h3⟩, h2⟩ => ⟨h1, h2, h3⟩⟩
    · cases a <;> simp only [Atom.kind, reduceCtorEq] at h1
      exact ⟨(), congrArg Atom.null h2⟩
    · simp only [AtomForm, encAtom, oneILInt, Atom.kind, false_or]
      constructor
      · rintro ⟨rfl, rfl⟩; exact ⟨rfl, rfl⟩
      · rintro ⟨rfl, rfl⟩; exact ⟨rfl, rfl⟩
  | bool id _ =>
    refine atomCase (.bool id) (L := fun v x => vs = 1 ∧ x = [if v then 1 else 0]) ((guard fun _ => bind byte fun v => ite (fun _ => pure _) fun _ => ite (fun _ => pure _) fun _ => fail _).congr fun a x => ?_) (fun a h1 h2 => ?_) (fun v => ⟨rfl, rfl⟩) fun v x => ?_
    · constructor
      · rintro ⟨rfl, b, x, y, rfl, rfl, ⟨rfl, rfl, rfl⟩ | ⟨-, ⟨rfl, rfl, rfl⟩ | ⟨-, h⟩⟩⟩
        · exact ⟨false, ⟨rfl, rfl⟩, rfl⟩
        · exact ⟨true, ⟨rfl, rfl⟩, rfl⟩
        · exact h.elim
      · rintro ⟨v, ⟨rfl, rfl⟩, rfl⟩
        cases v
        · exact ⟨rfl, 0, [0], [], rfl, rfl, .inl ⟨rfl, rfl, rfl⟩⟩
        · exact ⟨rfl, 1, [1], [], rfl, rfl, .inr ⟨by decide, .inl ⟨rfl, rfl, rfl⟩⟩⟩
    · cases a <;> simp only [Atom.kind, reduceCtorEq] at h1
      exact ⟨_, congrArg (Atom.bool · _) h2⟩
    · simp only [AtomForm, encAtom, oneILInt, Atom.kind, false_or]
      constructor
      · rintro ⟨rfl, rfl⟩; exact ⟨rfl, rfl⟩
      · rintro ⟨rfl, rfl⟩; exact ⟨rfl, rfl⟩
  | uint8 id _ =>
    refine atomCase (.uint8 id) (L := fun v x => vs = 1 ∧ x = [v]) ((guard fun _ => map byte _).congr fun a x => ?_) (fun a h1 h2 => ?_) (fun v => ⟨rfl, rfl⟩) fun v x => ?_
    · exact ⟨fun ⟨h1, v, h2, h3⟩ => ⟨v, ⟨h1, h2⟩, h3⟩, fun ⟨v, ⟨h1, h2⟩, h3⟩ => ⟨h1, v, h2, h3⟩⟩
    · cases a <;> simp only [Atom.kind, reduceCtorEq] at h1
      exact ⟨_, congrArg (Atom.uint8 · _) h2⟩
    · simp only [AtomForm, encAtom, oneILInt, Atom.kind, false_or, be_one]
      constructor
      · rintro ⟨rfl, rfl⟩; exact ⟨rfl, rfl⟩
      · rintro ⟨rfl, rfl⟩; exact ⟨rfl, rfl⟩
  | int8 id _ =>
    refine atomCase (.int8 id) (L := fun v x => vs = 1 ∧ x = [v.toUInt8]) ((guard fun _ => map byte _).congr fun a x => ?_) (fun a h1 h2 => ?_) (fun v => ⟨rfl, rfl⟩) fun v x => ?_
    · exact ⟨fun ⟨h1, v, h2, h3⟩ => ⟨v.toInt8, ⟨h1, h2⟩, h3⟩, fun ⟨v, ⟨h1, h2⟩, h3⟩ => ⟨h1, v.toUInt8, h2, h3⟩⟩
    · cases a <;> simp only [Atom.kind, reduceCtorEq] at h1
      exact ⟨_, congrArg (Atom.int8 · _) h2⟩
    · simp only [AtomForm, encAtom, oneILInt, Atom.kind, false_or, ← twos_int8, be_one]
      constructor
      · rintro ⟨rfl, rfl⟩; exact ⟨rfl, rfl⟩
      · rintro ⟨rfl, rfl⟩; exact ⟨rfl, rfl⟩
  | bin128 id _ =>
    refine atomCase (.bin128 id) (L := fun v x => vs = 16 ∧ x = v.1) ((guard fun _ => bind (take 16) (K := fun v a y => y = [] ∧ ∃ h, a = Atom.bin128 id ⟨v, h⟩) fun v => ?_).congr fun a x => ?_) (fun a h1 h2 => ?_) (fun v => ⟨rfl, rfl⟩) fun v x => ?_
    · split
      · next h => exact (pure _).congr fun a y => ⟨fun ⟨h1, h2⟩ => ⟨h2, h, h1⟩, fun ⟨h1, h2, h3⟩ => ⟨h3, h1⟩⟩
      · next h => exact panic.congr fun a y => ⟨False.elim, fun ⟨_, h2, _⟩ => h h2⟩
    · constructor
      · rintro ⟨rfl, v, x, y, rfl, ⟨rfl, h⟩, rfl, h', rfl⟩
        exact ⟨⟨v, h'⟩, ⟨rfl, by simp⟩, rfl⟩
      · rintro ⟨v, ⟨rfl, rfl⟩, rfl⟩
        exact ⟨rfl, v.1, v.1, [], by simp, ⟨rfl, v.2⟩, rfl, v.2, rfl⟩
    · cases a <;> simp only [Atom.kind, reduceCtorEq] at h1
      exact ⟨_, congrArg (Atom.bin128 · _) h2⟩
    · simp only [AtomForm, encAtom, oneILInt, Atom.kind, false_or]
      constructor
      · rintro ⟨rfl, rfl⟩; exact ⟨rfl, v.2⟩
      · rintro ⟨rfl, rfl⟩; exact ⟨v.2, rfl⟩
  | ilint id _ =>
    refine atomCase (.ilint id) (map ilint _) (fun a h1 h2 => ?_) (fun v => ⟨rfl, rfl⟩) fun v x => ?_
    · cases a <;> simp only [Atom.kind, reduceCtorEq] at h1
      exact ⟨_, congrArg (Atom.ilint · _) h2⟩
    · simp [AtomForm, oneILInt, Atom.kind]
  | signedILInt id _ =>
    refine atomCase (.signedILInt id) (L := fun v x => IsILInt x (zigzag v.toInt)) ((map ilint fun v => Atom.signedILInt id (ILInt.decodeSign v)).congr fun a x => ?_) (fun a h1 h2 => ?_) (fun v => ⟨rfl, rfl⟩) fun v x => ?_
    · constructor
      · rintro ⟨v, h, rfl⟩
        exact ⟨_, by rw [← ILInt.encodeSign_eq, ILInt.encodeSign_decodeSign]; exact h, rfl⟩
      · rintro ⟨v, h, rfl⟩
        exact ⟨ILInt.encodeSign v, by rw [ILInt.encodeSign_eq]; exact h, by rw [ILInt.decodeSign_encodeSign]⟩
    · cases a <;> simp only [Atom.kind, reduceCtorEq] at h1
      exact ⟨_, congrArg (Atom.signedILInt · _) h2⟩
    · simp [AtomForm, oneILInt, Atom.kind]
  | raw id _ =>
    refine atomCase (.raw id) (map (bytes hr hv) _) (fun a h1 h2 => ?_) (fun v => ⟨rfl, rfl⟩) fun v x => ?_
    · cases a <;> simp only [Atom.kind, reduceCtorEq] at h1
      exact ⟨_, congrArg (Atom.raw · _) h2⟩
    · simp only [AtomForm, encAtom, oneILInt, Atom.kind, false_or]
      exact and_congr_left fun _ => eq_comm
  | byteArray _ =>
    refine atomCase .byteArray (map (bytes hr hv) _) (fun a h1 h2 => ?_) (fun v => ⟨rfl, rfl⟩) fun v x => ?_
    · cases a <;> simp only [Atom.kind, reduceCtorEq] at h1
      exact ⟨_, rfl⟩
    · simp only [AtomForm, encAtom, oneILInt, Atom.kind, false_or]
      exact and_congr_left fun _ => eq_comm
  | bigInt _ =>
    refine atomCase .bigInt (map (bytes hr hv) _) (fun a h1 h2 => ?_) (fun v => ⟨rfl, rfl⟩) fun v x => ?_
    · cases a <;> simp only [Atom.kind, reduceCtorEq] at h1
      exact ⟨_, rfl⟩
    · simp only [AtomForm, encAtom, oneILInt, Atom.kind, false_or]
      exact and_congr_left fun _ => eq_comm
  | string id _ =>
    refine atomCase (.string id) (map (utf8 hr hv) _) (fun a h1 h2 => ?_) (fun v => ⟨rfl, rfl⟩) fun v x => ?_
    · cases a <;> simp only [Atom.kind, reduceCtorEq] at h1
      exact ⟨_, congrArg (Atom.string · _) h2⟩
    · simp only [AtomForm, encAtom, oneILInt, Atom.kind, false_or]
      exact and_congr_right fun h => by rw [h]
  | bigDec id _ _ =>
    refine atomCase (fun v : Int32 × Bytes => .bigDec id v.1 v.2) (L := fun v x => x = be 4 (twos 4 v.1.toInt) ++ v.2 ∧ x.length = vs) ((guard fun h => bind i32 fun s => map (bytes hr (Nat.le_trans (Nat.sub_le ..) hv)) _).congr fun a x => ?_) (fun a h1 h2 => ?_) (fun v => ⟨rfl, rfl⟩) fun v x => ?_
    · constructor
      · rintro ⟨h, s, x, y, rfl, rfl, v, ⟨rfl, h2⟩, rfl⟩
        exact ⟨(s, v), ⟨rfl, by simp [h2]; omega⟩, rfl⟩
      · rintro ⟨⟨s, v⟩, ⟨rfl, h⟩, rfl⟩
        simp only [List.length_append, be_length] at h
        exact ⟨by omega, s, _, v, rfl, rfl, v, ⟨rfl, by omega⟩, rfl⟩
    · cases a <;> simp only [Atom.kind, reduceCtorEq] at h1
      exact ⟨(_, _), congrArg (Atom.bigDec · _ _) h2⟩
    · simp only [AtomForm, encAtom, oneILInt, Atom.kind, false_or]
  | ilintArray id _ =>
    refine atomCase (.ilintArray id) (map (ilintArray hr hv) _) (fun a h1 h2 => ?_) (fun v => ⟨rfl, rfl⟩) fun v x => ?_
    · cases a <;> simp only [Atom.kind, reduceCtorEq] at h1
      exact ⟨_, congrArg (Atom.ilintArray · _) h2⟩
    · simp only [AtomForm, oneILInt, Atom.kind, false_or]
      exact and_comm
  | oid id _ =>
    refine atomCase (.oid id) (map (ilintArray hr hv) _) (fun a h1 h2 => ?_) (fun v => ⟨rfl, rfl⟩) fun v x => ?_
    · cases a <;> simp only [Atom.kind, reduceCtorEq] at h1
      exact ⟨_, congrArg (Atom.oid · _) h2⟩
    · simp only [AtomForm, oneILInt, Atom.kind, false_or]
      exact and_comm
  | strDict id _ =>
    refine atomCase (.strDict id) (map (strDict hr hv) _) (fun a h1 h2 => ?_) (fun v => ⟨rfl, rfl⟩) fun v x => ?_
    · cases a <;> simp only [Atom.kind, reduceCtorEq] at h1
      exact ⟨_, congrArg (Atom.strDict · _) h2⟩
    · simp only [AtomForm, oneILInt, Atom.kind, false_or]
      exact and_comm
  | range id _ _ =>
    refine atomCase (fun v : UInt64 × UInt16 => .range id v.1 v.2) (map (range vs) fun v => Atom.range id v.1 v.2) (fun a h1 h2 => ?_) (fun v => ⟨rfl, rfl⟩) fun v x => ?_
    · cases a <;> simp only [Atom.kind, reduceCtorEq] at h1
      exact ⟨(_, _), congrArg (Atom.range · _ _) h2⟩
    · simp only [AtomForm, oneILInt, Atom.kind, false_or]
      exact and_comm
  | version id _ _ _ _ =>
    refine atomCase (fun v : Int32 × Int32 × Int32 × Int32 => .version id v.1 v.2.1 v.2.2.1 v.2.2.2) (L := fun v x => vs = 16 ∧ x = be 4 (twos 4 v.1.toInt) ++ be 4 (twos 4 v.2.1.toInt) ++ be 4 (twos 4 v.2.2.1.toInt) ++ be 4 (twos 4 v.2.2.2.toInt)) ((guard fun h => bind i32 fun a => bind i32 fun b => bind i32 fun c => map i32 _).congr fun a x => ?_) (fun a h1 h2 => ?_) (fun v => ⟨rfl, rfl⟩) fun v x => ?_
    · constructor
      · rintro ⟨rfl, a, _, _, rfl, rfl, b, _, _, rfl, rfl, c, _, _, rfl, rfl, d, rfl, rfl⟩
        exact ⟨(a, b, c, d), ⟨rfl, by simp⟩, rfl⟩
      · rintro ⟨⟨a, b, c, d⟩, ⟨rfl, rfl⟩, rfl⟩
        exact ⟨rfl, a, _, _, by simp only [List.append_assoc], rfl, b, _, _, rfl, rfl, c, _, _, rfl, rfl, d, rfl, rfl⟩
    · cases a <;> simp only [Atom.kind, reduceCtorEq] at h1
      exact ⟨(_, _, _, _), congrArg (Atom.version · _ _ _ _) h2⟩
    · simp only [AtomForm, encAtom, oneILInt, Atom.kind, false_or]
      constructor
      · rintro ⟨rfl, rfl⟩; exact ⟨rfl, by simp⟩
      · rintro ⟨rfl, rfl⟩; exact ⟨by simp, rfl⟩
  | payload id p => exact absurd rfl ha

omit [Env] [TagPayload P] in
theorem regionRel {n : Nat} {q : Nat → Parser α} {L : α → Bytes → Prop}
    (hq : ∀ s bs a rest, bs.length ≤ n → (q s bs = .ok a rest ↔ s = 0 ∧ rest = [] ∧ L a bs)) :
    Acc (Parser.limited n q) fun a x => x.length = n ∧ L a x := by
  intro bs a rest
  unfold Parser.limited
  by_cases hn : n ≤ bs.length
  · have hl : (bs.take n).length ≤ n := by rw [List.length_take]; omega
    rw [if_pos hn]
    refine Iff.trans (b := L a (bs.take n) ∧ rest = bs.drop n) ?_ ?_
    · cases hr : q 0 (bs.take n) with
      | ok a' r =>
        obtain ⟨-, rfl, h3⟩ := (hq _ _ _ _ hl).mp hr
        simp only [PRes.ok.injEq, List.nil_append]
        constructor
        · rintro ⟨rfl, rfl⟩; exact ⟨h3, rfl⟩
        · rintro ⟨h, rfl⟩
          have := (hq 0 _ _ _ hl).mpr ⟨rfl, rfl, h⟩
          rw [hr] at this
          cases this
          exact ⟨rfl, rfl⟩
      | _ =>
        simp only [reduceCtorEq, false_iff]
        rintro ⟨h, -⟩
        have := (hq 0 _ _ _ hl).mpr ⟨rfl, rfl, h⟩
        rw [hr] at this
        cases this
    constructor
    · rintro ⟨h, rfl⟩
      exact ⟨bs.take n, by simp, by rw [List.length_take]; omega, h⟩
    · rintro ⟨x, rfl, rfl, h3⟩
      exact ⟨by simpa using h3, by simp⟩
  · rw [if_neg hn]
    constructor
    · intro h
      have := ((hq _ _ _ _ (by omega)).mp h).1
      omega
    · rintro ⟨x, rfl, rfl, -⟩
      simp at hn

omit [Env] [TagPayload P] in
/-- A region large enough for whatever its body may use. -/
theorem regionLoose {n : Nat} {p : Parser α} {L : α → Bytes → Prop} (hp : Acc p L) (hn : ∀ a x, L a x → x.length ≤ n) :
    Acc (Parser.limited n fun _ => p) L := by
  intro bs a rest
  unfold Parser.limited
  split
  · next h =>
    refine Iff.trans (b := ∃ r, p (bs.take n) = .ok a r ∧ rest = r ++ bs.drop n) ?_ ?_
    · cases hq : p (bs.take n) with
      | ok a' r =>
        simp only [hq, PRes.ok.injEq]
        constructor
        · rintro ⟨rfl, rfl⟩; exact ⟨r, ⟨rfl, rfl⟩, rfl⟩
        · rintro ⟨_, ⟨rfl, rfl⟩, rfl⟩; exact ⟨rfl, rfl⟩
      | _ => simp [hq]
    · constructor
      · rintro ⟨r, h1, rfl⟩
        obtain ⟨x, h2, h3⟩ := (hp _ _ _).mp h1
        exact ⟨x, by rw [← List.append_assoc, ← h2, List.take_append_drop], h3⟩
      · rintro ⟨x, rfl, h3⟩
        have := hn a x h3
        refine ⟨rest.take (n - x.length), (hp _ _ _).mpr ⟨x, ?_, h3⟩, ?_⟩
        · rw [List.take_append, List.take_of_length_le this]
        · rw [List.drop_append, List.drop_eq_nil_of_le this, List.nil_append, List.take_append_drop]
  · exact hp bs a rest

omit [TagPayload P] in
theorem tagsWhile {f : Parser (Tag P)} {L : Tag P → Bytes → Prop} (hf : Acc f L) (hL : ∀ t x, L t x → 1 ≤ x.length)
    (s fuel : Nat) (acc : List (Tag P)) (bs : Bytes) (r : List (Tag P)) (rest : Bytes) (hb : bs.length < fuel) :
    Parser.tagsWhile f s fuel acc bs = .ok r rest ↔ s = 0 ∧ rest = [] ∧ ∃ as, r = acc ++ as ∧ Listed L as bs := by
  induction fuel generalizing acc bs with
  | zero => omega
  | succ fuel ih =>
    unfold Parser.tagsWhile
    split
    · next h =>
      have h1 : bs = [] := List.length_eq_zero_iff.mp (by omega)
      have h2 : s = 0 := by omega
      subst h1 h2
      simp only [PRes.ok.injEq, true_and]
      constructor
      · rintro ⟨rfl, rfl⟩; exact ⟨rfl, [], by simp, rfl⟩
      · rintro ⟨rfl, as, rfl, h⟩
        have := listed_length hL as [] h
        have : as = [] := List.length_eq_zero_iff.mp (by simpa using this)
        subst this
        exact ⟨by simp, rfl⟩
    · next h =>
      rw [Parser.bind_eq_ok]
      constructor
      · rintro ⟨t, r', h1, h2⟩
        obtain ⟨x, rfl, h3⟩ := (hf _ _ _).mp h1
        have := hL t x h3
        rw [List.length_append] at hb
        obtain ⟨rfl, rfl, as, rfl, h4⟩ := (ih _ _ (by omega)).mp h2
        exact ⟨rfl, rfl, t :: as, by simp, x, r', rfl, h3, h4⟩
      · rintro ⟨rfl, rfl, as, rfl, h4⟩
        cases as with
        | nil =>
          cases h4
          simp at h
        | cons t as =>
          obtain ⟨x, y, rfl, h3, h4⟩ := h4
          have := hL t x h3
          rw [List.length_append] at hb
          exact ⟨t, y, (hf _ _ _).mpr ⟨x, rfl, h3⟩, (ih _ _ (by omega)).mpr ⟨rfl, rfl, as, by simp, h4⟩⟩

omit [TagPayload P] in
theorem seq {f : Parser (Tag P)} {L : Tag P → Bytes → Prop} (hf : Acc f L) (hL : ∀ t x, L t x → 1 ≤ x.length) (vs : Nat) :
    Acc (Parser.seq f vs) fun r x => x.length = vs ∧ Listed L r x := by
  unfold Parser.seq
  refine regionRel fun s bs a rest hb => (tagsWhile hf hL s (vs + 1) [] bs a rest (by omega)).trans ?_
  refine and_congr_right fun _ => and_congr_right fun _ => ?_
  constructor
  · rintro ⟨as, rfl, h⟩; exact h
  · intro h; exact ⟨a, rfl, h⟩

omit [TagPayload P] in
theorem array (hr : Roomy) {f : Parser (Tag P)} {L : Tag P → Bytes → Prop} (hf : Acc f L) (hL : ∀ t x, L t x → 1 ≤ x.length)
    {vs : Nat} (hv : vs ≤ maxTagSize) : Acc (Parser.array f vs) fun r x => x.length = vs ∧ Counted' L r x := by
  unfold Parser.array
  refine countedRegion hr hv (by omega) hL (loop := fun n => Parser.tags f n []) fun n => ?_
  refine (many hf (Parser.tags f) (fun _ => rfl) (fun _ _ => rfl) n []).congr fun r x => ?_
  constructor
  · rintro ⟨as, rfl, h⟩; simpa using h
  · rintro h; exact ⟨r, rfl, h⟩

omit [TagPayload P] in
theorem dict (hr : Roomy) {f : Parser (Tag P)} {L : Tag P → Bytes → Prop} (hf : Acc f L) {vs : Nat} (hv : vs ≤ maxTagSize) :
    Acc (Parser.dict f vs) fun r x => x.length = vs ∧ ∃ ws, Counted' (EntryForm L) ws x ∧ made (Tag P) ws r := by
  unfold Parser.dict
  exact entriesRegion hv fun n =>
    manyEntries (stringTag hr) hf (Parser.entries f) (fun _ => rfl) (fun _ _ => rfl) n []

theorem tagValue (hr : Roomy) {f : Option (Tag P) → Parser (Tag P)} {L : Tag P → Bytes → Prop} (hf : Acc (f none) L)
    (hL : ∀ t x, L t x → 1 ≤ x.length) {vs : Nat} (hv : vs ≤ maxTagSize) (t₀ : Tag P) (ht : t₀.kind ≠ .payload) :
    Acc (Parser.tagValue f vs t₀) fun t x =>
      t.kind = t₀.kind ∧ t.id = t₀.id ∧ ValueForm made L t x ∧ (oneILInt t₀.kind ∨ x.length = vs) := by
  cases t₀ with
  | atom a₀ =>
    refine (map (atomValue hr hv a₀ ht) Tag.atom).congr fun t x => ?_
    constructor
    · rintro ⟨a, h, rfl⟩; exact h
    · intro h
      cases t with
      | atom a => exact ⟨a, h, rfl⟩
      | _ => cases a₀ <;> exact nomatch h.1
  | seq id ts =>
    refine (map (seq hf hL vs) (Tag.seq id)).congr fun t x => ?_
    constructor
    · rintro ⟨a, h, rfl⟩; exact ⟨rfl, rfl, h.2, .inr h.1⟩
    · rintro ⟨h1, h2, h3, h4⟩
      cases t with
      | seq id' ts => cases h2; exact ⟨ts, ⟨h4.resolve_left fun h => h, h3⟩, rfl⟩
      | atom a => cases a <;> exact nomatch h1
      | _ => exact nomatch h1
  | array id ts =>
    refine (map (array hr hf hL hv) (Tag.array id)).congr fun t x => ?_
    constructor
    · rintro ⟨a, h, rfl⟩; exact ⟨rfl, rfl, h.2, .inr h.1⟩
    · rintro ⟨h1, h2, h3, h4⟩
      cases t with
      | array id' ts => cases h2; exact ⟨ts, ⟨h4.resolve_left fun h => h, h3⟩, rfl⟩
      | atom a => cases a <;> exact nomatch h1
      | _ => exact nomatch h1
  | dict id ts =>
    refine (map (dict hr hf hv) (Tag.dict id)).congr fun t x => ?_
    constructor
    · rintro ⟨a, h, rfl⟩; exact ⟨rfl, rfl, h.2, .inr h.1⟩
    · rintro ⟨h1, h2, h3, h4⟩
      cases t with
      | dict id' ts => cases h2; exact ⟨ts, ⟨h4.resolve_left fun h => h, h3⟩, rfl⟩
      | atom a => cases a <;> exact nomatch h1
      | _ => exact nomatch h1

theorem valueForm_ilint {L : Tag P → Bytes → Prop} {t : Tag P} {x : Bytes} (h : ValueForm made L t x) (hk : oneILInt t.kind) :
    1 ≤ x.length ∧ x.length ≤ 9 := by
  have key : ∀ v, IsILInt x v → 1 ≤ x.length ∧ x.length ≤ 9 := by
    rintro v ⟨-, ⟨b, rfl, -⟩ | ⟨hd, body, rfl, h1, h2, -⟩⟩
    · simp
    · simp; omega
  cases t with
  | atom a =>
    cases a <;> simp only [Tag.kind, Atom.kind, oneILInt] at hk
    · exact key _ h
    · exact key _ h
  | _ => exact hk.elim

theorem tagValueInto (hr : Roomy) {f : Option (Tag P) → Parser (Tag P)} {L : Tag P → Bytes → Prop} (hf : Acc (f none) L)
    (hL : ∀ t x, L t x → 1 ≤ x.length) {vs : Nat} (hv : vs ≤ maxTagSize) (t₀ : Tag P) (ht : t₀.kind ≠ .payload)
    (hi : oneILInt t₀.kind ↔ t₀.id = Id.ilint ∨ t₀.id = Id.signedILInt) (h9 : oneILInt t₀.kind → 9 ≤ vs) :
    Acc (Parser.tagValueInto f vs t₀) fun t x =>
      t.kind = t₀.kind ∧ t.id = t₀.id ∧ ValueForm made L t x ∧ (oneILInt t₀.kind ∨ x.length = vs) := by
  have hval := tagValue hr hf hL hv t₀ ht
  unfold Parser.tagValueInto
  by_cases hk : oneILInt t₀.kind
  · have := regionLoose (n := vs) hval (by
      rintro t x ⟨h1, -, h3, -⟩
      have := (valueForm_ilint h3 (by rw [h1]; exact hk)).2
      have := h9 hk
      omega)
    intro bs t rest
    rw [← this bs t rest]
    have hpt : ∀ s bs, (Parser.tagValue f vs t₀ >>= Parser.checkEmpty s) bs = Parser.tagValue f vs t₀ bs := by
      intro s bs
      rw [Parser.bind_apply]
      cases hp : Parser.tagValue f vs t₀ bs with
      | ok t r =>
        obtain ⟨x, -, -, h2, -⟩ := (hval _ _ _).mp hp
        show Parser.checkEmpty s t r = _
        unfold Parser.checkEmpty
        rw [if_neg]
        rw [h2]
        rintro ⟨h3, h4, -⟩
        rcases hi.mp hk with h | h
        · exact h3 h
        · exact h4 h
      | _ => rfl
    unfold Parser.limited
    simp only [hpt]
  · refine regionRel (L := fun t x => t.kind = t₀.kind ∧ t.id = t₀.id ∧ ValueForm made L t x ∧ x.length = vs)
      (fun s bs t rest hb => ?_) |>.congr fun t x => ?_
    · rw [Parser.bind_eq_ok]
      constructor
      · rintro ⟨t', r, h1, h2⟩
        obtain ⟨x, rfl, h3, h4, h5, h6⟩ := (hval _ _ _).mp h1
        have h7 := h6.resolve_left hk
        unfold Parser.checkEmpty at h2
        rw [List.length_append] at hb
        have hr0 : r = [] := List.length_eq_zero_iff.mp (by omega)
        subst hr0
        split at h2
        · simp at h2
        · next hc =>
          simp only [PRes.ok.injEq] at h2
          obtain ⟨rfl, rfl⟩ := h2
          refine ⟨?_, rfl, h3, h4, by simpa using h5, by simpa using h7⟩
          rw [h4] at hc
          by_cases h0 : s = 0
          · exact h0
          · exact absurd ⟨fun h => hk (hi.mpr (.inl h)), fun h => hk (hi.mpr (.inr h)), by simpa using h0⟩ hc
      · rintro ⟨rfl, rfl, h3, h4, h5, h6⟩
        refine ⟨t, [], (hval _ _ _).mpr ⟨bs, by simp, h3, h4, h5, .inr h6⟩, ?_⟩
        unfold Parser.checkEmpty
        rw [if_neg (by simp)]
    · constructor
      · rintro ⟨h, h1, h2, h3, -⟩; exact ⟨h1, h2, h3, .inr h⟩
      · rintro ⟨h1, h2, h3, h4⟩; exact ⟨h4.resolve_left hk, h1, h2, h3, h4.resolve_left hk⟩

omit [Env] [TagPayload P] in
theorem stdTag_congr {strict : Bool} {t u : Tag P} (hk : t.kind = u.kind) (hi : t.id = u.id) (h : StdTag strict t) :
    StdTag strict u := by
  unfold StdTag at h ⊢
  rw [hk, hi] at h
  exact h

omit [Env] [TagPayload P] in
theorem stdTag_ilint {strict : Bool} {t : Tag P} (h : StdTag strict t) :
    oneILInt t.kind ↔ t.id = Id.ilint ∨ t.id = Id.signedILInt := by
  rcases h with h | ⟨-, h1, h2, h3⟩
  · rw [← UInt64.toNat_inj, ← UInt64.toNat_inj]
    show _ ↔ t.id.toNat = 10 ∨ t.id.toNat = 14
    cases hk : t.kind <;> rw [hk] at h <;> simp only [standardId, Option.some.injEq, reduceCtorEq] at h <;>
      simp [oneILInt, ← h]
  · rw [h1]
    simp only [oneILInt, false_iff, not_or]
    constructor
    · intro h; rw [h] at h2; exact absurd h2 (by decide)
    · intro h; rw [h] at h2; exact absurd h2 (by decide)

omit [Env] in
/-- The sizes of the implicit tags. -/
theorem implicit_length {strict : Bool} {L : Tag P → Bytes → Prop} {t : Tag P} {v : Bytes} (ht : StdTag strict t)
    (hi : t.id.toNat ≤ 15) (hv : ValueForm made L t v) (hk : ¬ oneILInt t.kind) : v.length = implicitLen t.id.toNat := by
  rcases ht with h | ⟨-, -, h, -⟩
  · have hs := (std_sized h hi).resolve_right fun h => hk h.2
    have : v = encValue t := by
      cases t with
      | atom a =>
        cases a with
        | ilintArray | oid | range | strDict =>
          simp only [Tag.kind, Atom.kind, standardId, Option.some.injEq] at h; omega
        | payload => exact hv.elim
        | ilint | signedILInt => exact absurd trivial hk
        | _ => exact hv
      | _ => simp only [Tag.kind, standardId, Option.some.injEq] at h; omega
    rw [this]; exact hs
  · omega

theorem formAt_length {M : MapMaking} {strict : Bool} {k : Nat} {t : Tag P} {x : Bytes} (h : FormAt M strict k t x) :
    1 ≤ x.length := by
  cases k with
  | zero => exact h.elim
  | succ k =>
    obtain ⟨-, hd, v, h1, -, -, ⟨-, rfl⟩ | ⟨-, l, -, rfl⟩⟩ := h <;>
      (have := isILInt_length h1; simp only [List.length_append]; omega)

/-- **The language of the standard factory.** -/
theorem tag (hr : Roomy) (strict : Bool) (k : Nat) :
    Acc (Parser.tag (Engine.std strict : Engine P) k none) (FormAt made strict k) := by
  induction k with
  | zero => exact diverge
  | succ k ih =>
    have hstep : ∀ id size (hs : size ≤ maxTagSize) (h9 : id = Id.ilint ∨ id = Id.signedILInt → 9 ≤ size),
        Acc (Parser.lift ((Engine.std strict : Engine P).createTag id) >>= fun t => match t with
          | none => Parser.fail .unknownTag
          | some t => Parser.tagValueInto (Parser.tag (Engine.std strict) k) size t)
        fun t x => StdTag strict t ∧ t.id = id ∧ ValueForm made (FormAt made strict k) t x ∧
          (oneILInt t.kind ∨ x.length = size) := by
      intro id size hs h9
      refine (liftBind (K := fun t₀ t x => ∃ t₁, t₀ = some t₁ ∧ t.kind = t₁.kind ∧ t.id = t₁.id ∧
        ValueForm made (FormAt made strict k) t x ∧ (oneILInt t₁.kind ∨ x.length = size)) fun t₀ h => ?_).congr fun t x => ?_
      · cases t₀ with
        | none => exact (fail _).congr fun t x => ⟨False.elim, fun ⟨_, h, _⟩ => nomatch h⟩
        | some t₁ =>
          obtain ⟨h1, h2, h3⟩ := std_created h
          have hi := stdTag_ilint h1
          refine (tagValueInto hr ih (fun _ _ h => formAt_length h) hs t₁ h3 hi fun h => h9 (by rw [← h2]; exact hi.mp h)).congr
            fun t x => ⟨fun h => ⟨t₁, rfl, h⟩, fun ⟨_, h, h'⟩ => by cases h; exact h'⟩
      · constructor
        · rintro ⟨_, h, t₁, rfl, h4, h5, h6, h7⟩
          obtain ⟨h1, h2, h3⟩ := std_created h
          exact ⟨stdTag_congr h4.symm h5.symm h1, h5.trans h2, h6, by rw [h4]; exact h7⟩
        · rintro ⟨h1, rfl, h6, h7⟩
          have hc : ∃ t₁ : Tag P, (Engine.std strict).createTag t.id = .ok (some t₁) ∧ t₁.kind = t.kind ∧ t₁.id = t.id := by
            rcases h1 with h1 | ⟨rfl, h2, h3, h4⟩
            · exact std_create h1
            · exact ⟨.atom (.raw t.id []), by rw [std_unknown h4, if_pos ⟨rfl, h3⟩], h2.symm, rfl⟩
          obtain ⟨t₁, h8, h9, h10⟩ := hc
          exact ⟨some t₁, h8, t₁, rfl, h9.symm, h10.symm, h6, by rw [h9]; exact h7⟩
    have himp : ∀ id : UInt64, isImplicitTag id = true ↔ id.toNat ≤ 15 := fun id => by
      simp only [isImplicitTag, decide_eq_true_eq]; rfl
    unfold Parser.tag
    refine (bind ilint (K := fun id t x => StdTag strict t ∧ t.id = id ∧ ∃ v, ValueForm made (FormAt made strict k) t v ∧
      v.length ≤ maxValue ∧ (id.toNat ≤ 15 ∧ x = v ∨ 16 ≤ id.toNat ∧ ∃ l, IsILInt l v.length ∧ x = l ++ v)) fun id => ?_).congr
      fun t x => ?_
    · by_cases hi : id.toNat ≤ 15
      · rw [tagSize_implicit ((himp id).mpr hi)]
        have h16 := implicitLen_le id.toNat
        have hsz := implicit_size id hi
        have hmax : 16 ≤ maxTagSize := by decide
        refine (liftBind fun size hs => hstep id size (tagSizeToUsize_iff.mp hs).2 fun h => ?_).congr fun t x => ?_
        · have := (tagSizeToUsize_iff.mp hs).1
          rw [hsz] at this
          rcases h with rfl | rfl
          · exact Nat.le_of_eq this
          · exact Nat.le_of_eq this
        · constructor
          · rintro ⟨size, h1, h2, h3, h4, h5⟩
            obtain ⟨h1, h1'⟩ := tagSizeToUsize_iff.mp h1
            refine ⟨h2, h3, x, h4, ?_, .inl ⟨hi, rfl⟩⟩
            rw [maxValue_eq]
            rcases h5 with h5 | h5
            · have := valueForm_ilint h4 h5; omega
            · omega
          · rintro ⟨h2, rfl, v, h4, h5, ⟨-, rfl⟩ | ⟨h, -⟩⟩
            · refine ⟨implicitLen t.id.toNat, tagSizeToUsize_iff.mpr ⟨hsz, by omega⟩, h2, rfl, h4, ?_⟩
              by_cases hk : oneILInt t.kind
              · exact .inl hk
              · exact .inr (implicit_length h2 hi h4 hk)
            · omega
      · rw [tagSize_explicit (by have := himp id; simp only [hi, iff_false, Bool.not_eq_true] at this; exact this),
          Parser.bind_assoc]
        have hno : ¬ (id = Id.ilint ∨ id = Id.signedILInt) := by
          rintro (rfl | rfl) <;> exact hi (by decide)
        refine (bind ilint fun l => liftBind fun size hs => hstep id size (tagSizeToUsize_iff.mp hs).2 fun h =>
          absurd h hno).congr fun t x => ?_
        have hnk : ∀ t : Tag P, StdTag strict t → t.id = id → ¬ oneILInt t.kind := fun t h1 h2 h3 =>
          hno (by rw [← h2]; exact (stdTag_ilint h1).mp h3)
        constructor
        · rintro ⟨n, l, v, rfl, h1, size, h2, h3, h4, h5, h6⟩
          obtain ⟨h2, h2'⟩ := tagSizeToUsize_iff.mp h2
          have h6 := h6.resolve_left (hnk t h3 h4)
          exact ⟨h3, h4, v, h5, by rw [maxValue_eq]; omega, .inr ⟨by omega, l, by rw [h6, ← h2]; exact h1, rfl⟩⟩
        · rintro ⟨h3, h4, v, h5, h6, ⟨h, -⟩ | ⟨-, l, h1, rfl⟩⟩
          · omega
          · rw [maxValue_eq] at h6
            have h64 : v.length < 2 ^ 64 := by unfold maxTagSize at h6; omega
            have h7 := ofNat_toNat64 h64
            exact ⟨UInt64.ofNat v.length, l, v, rfl, by rw [h7]; exact h1, v.length,
              tagSizeToUsize_iff.mpr ⟨h7, h6⟩, h3, h4, h5, .inr rfl⟩
    · constructor
      · rintro ⟨id, h, y, rfl, h1, h2, rfl, v, h3, h4, ⟨h5, rfl⟩ | ⟨h5, l, h6, rfl⟩⟩
        · exact ⟨h2, h, _, h1, h3, h4, .inl ⟨h5, rfl⟩⟩
        · exact ⟨h2, h, v, h1, h3, h4, .inr ⟨h5, l, h6, by simp⟩⟩
      · rintro ⟨h2, h, v, h1, h3, h4, ⟨h5, rfl⟩ | ⟨h5, l, h6, rfl⟩⟩
        · exact ⟨t.id, h, v, rfl, h1, h2, rfl, v, h3, h4, .inl ⟨h5, rfl⟩⟩
        · exact ⟨t.id, h, l ++ v, by simp, h1, h2, rfl, v, h3, h4, .inr ⟨h5, l, h6, rfl⟩⟩
end
end Acc
end Verif
