import Verif.Spec.Canonical
import Verif.Props.Grammar
import Verif.Props.ScanExact
/-!
# The canonical form: the check and the encoding
-/
namespace Verif
open Spec

namespace Look
open Spec.Look

theorem bind_apply {α β : Type} (v : Look α) (l : α → Look β) (bs : Bytes) :
    (v >>= l) bs = match v bs with
      | some (a, r) => l a r
      | none => none := by
  show (StateT.bind v l) bs = _
  unfold StateT.bind
  cases v bs <;> rfl

theorem bind_eq_some {α β : Type} {v : Look α} {l : α → Look β} {bs : Bytes} {x : β × Bytes} :
    (v >>= l) bs = some x ↔ ∃ a r, v bs = some (a, r) ∧ l a r = some x := by
  rw [bind_apply]
  cases v bs with
  | none => simp
  | some p =>
    constructor
    · intro h; exact ⟨p.1, p.2, rfl, h⟩
    · rintro ⟨a, r, h, h'⟩; cases h; exact h'

theorem bind_some {α β : Type} {v : Look α} {l : α → Look β} {bs r : Bytes} {a : α} (h : v bs = some (a, r)) :
    (v >>= l) bs = l a r := by rw [bind_apply, h]

end Look

theorem headILInt_isILInt {bs : Bytes} {v : Nat} (h : IsILInt bs v) (x : Bytes) : headILInt (bs ++ x) = .ok v x := by
  have h1 := ilint_isILInt h x
  rw [Props.parser_headILInt] at h1
  cases hh : headILInt (bs ++ x) with
  | ok w r =>
    rw [hh] at h1
    simp only [PRes.ok.injEq] at h1
    have hw := (Props.headILInt_lt hh).1
    have hv := h.1
    have := congrArg UInt64.toNat h1.1
    rw [UInt64.toNat_ofNat_of_lt' hw, UInt64.toNat_ofNat_of_lt' hv] at this
    rw [this, h1.2]
  | tooBig => rw [hh] at h1; simp at h1
  | short => rw [hh] at h1; simp at h1

namespace Look
open Spec.Look

theorem number_form {x : Bytes} {v : Nat} (h : IsILInt x v) (y : Bytes) :
    number (x ++ y) = if x = Spec.ilint v then some (v, y) else none := by
  unfold number
  rw [headILInt_isILInt h y]
  simp only [List.append_cancel_right_eq]

theorem number_some {x y z : Bytes} {v w : Nat} (h : IsILInt x v) (hn : number (x ++ y) = some (w, z)) :
    x = Spec.ilint v ∧ w = v ∧ z = y := by
  rw [number_form h] at hn
  split at hn
  · next hx => simp only [Option.some.injEq, Prod.mk.injEq] at hn; exact ⟨hx, hn.1.symm, hn.2.symm⟩
  · simp at hn

theorem number_enc {v : Nat} (hv : v < 2 ^ 64) (y : Bytes) : number (Spec.ilint v ++ y) = some (v, y) := by
  rw [number_form (ILInt.isILInt_ilint hv), if_pos rfl]

theorem someNumber_some {x y z : Bytes} {v : Nat} {u : Unit} (h : IsILInt x v) (hn : someNumber (x ++ y) = some (u, z)) :
    x = Spec.ilint v ∧ z = y := by
  obtain ⟨a, r, h1, h2⟩ := bind_eq_some.mp hn
  obtain ⟨h3, -, h4⟩ := number_some h h1
  cases h2
  exact ⟨h3, h4⟩

theorem someNumber_enc {v : Nat} (hv : v < 2 ^ 64) (y : Bytes) : someNumber (Spec.ilint v ++ y) = some ((), y) := by
  unfold someNumber
  rw [bind_some (number_enc hv y)]
  rfl

theorem stringTag_eq (s : String) : Spec.stringTag s = Spec.ilint 17 ++ (Spec.ilint (Spec.utf8 s).length ++ Spec.utf8 s) := by
  unfold Spec.stringTag wrap
  rw [List.append_assoc]
  rfl

theorem string_some {s : String} {x y z k : Bytes} (h : StringForm s x) (hn : string (x ++ y) = some (k, z)) :
    x = Spec.stringTag s ∧ k = Spec.utf8 s ∧ z = y := by
  obtain ⟨hd, l, rfl, h1, h2, -⟩ := h
  obtain ⟨a, r, e1, hn⟩ := bind_eq_some.mp hn
  obtain ⟨n, r', e2, hn⟩ := bind_eq_some.mp hn
  rw [List.append_assoc, List.append_assoc] at e1
  obtain ⟨rfl, -, rfl⟩ := number_some h1 e1
  obtain ⟨rfl, rfl, rfl⟩ := number_some h2 e2
  unfold bytes at hn
  rw [if_pos (by simp)] at hn
  simp only [List.take_left, List.drop_left, Option.some.injEq, Prod.mk.injEq] at hn
  refine ⟨?_, hn.1.symm, hn.2.symm⟩
  rw [stringTag_eq, List.append_assoc]

theorem string_enc {s : String} (hs : (Spec.utf8 s).length < 2 ^ 64) (y : Bytes) :
    string (Spec.stringTag s ++ y) = some (Spec.utf8 s, y) := by
  unfold string
  rw [stringTag_eq, List.append_assoc, bind_some (number_enc (by decide) _), List.append_assoc,
    bind_some (number_enc hs _)]
  unfold bytes
  rw [if_pos (by simp)]
  simp

/-! ### Lists -/
section
variable {α : Type} {L : α → Bytes → Prop} {f : α → Bytes} {c : Look Unit}

theorem times_some (hc : ∀ a x y z u, L a x → c (x ++ y) = some (u, z) → x = f a ∧ z = y) :
    ∀ (as : List α) (x y z : Bytes) (u : Unit), Listed L as x → times c as.length (x ++ y) = some (u, z) →
      x = as.flatMap f ∧ z = y
  | [], x, y, z, u, hL, h => by
    have hL : x = [] := hL
    subst hL
    cases h
    exact ⟨rfl, rfl⟩
  | a :: as, x, y, z, u, hL, h => by
    obtain ⟨x1, x2, rfl, h1, h2⟩ := hL
    obtain ⟨v, r, e1, e2⟩ := bind_eq_some.mp h
    rw [List.append_assoc] at e1
    obtain ⟨rfl, rfl⟩ := hc _ _ _ _ _ h1 e1
    obtain ⟨rfl, rfl⟩ := times_some hc as _ _ _ _ h2 e2
    exact ⟨rfl, rfl⟩

theorem times_enc {as : List α} (hc : ∀ a ∈ as, ∀ y, c (f a ++ y) = some ((), y)) (y : Bytes) :
    times c as.length (as.flatMap f ++ y) = some ((), y) := by
  induction as with
  | nil => rfl
  | cons a as ih =>
    show (c >>= fun _ => times c as.length) _ = _
    rw [List.flatMap_cons, List.append_assoc, bind_some (hc a (by simp) _)]
    exact ih fun b hb => hc b (by simp [hb])

theorem untilEnd_some (hc : ∀ a x y z u, L a x → c (x ++ y) = some (u, z) → x = f a ∧ z = y)
    (hL : ∀ a x, L a x → x ≠ []) : ∀ (n : Nat) (as : List α) (x z : Bytes) (u : Unit), x.length ≤ n → Listed L as x →
      untilEnd c n x = some (u, z) → x = as.flatMap f
  | _, [], x, z, u, _, h, _ => h
  | 0, a :: as, x, z, u, hn, h, _ => by
    obtain ⟨x1, x2, rfl, h1, h2⟩ := h
    have := hL _ _ h1
    rw [List.length_append] at hn
    exact absurd (List.length_eq_zero_iff.mp (by omega)) this
  | n + 1, a :: as, x, z, u, hn, h, he => by
    obtain ⟨x1, x2, rfl, h1, h2⟩ := h
    have hne := hL _ _ h1
    unfold untilEnd at he
    rw [if_neg (by simp [hne])] at he
    obtain ⟨v, r, e1, e2⟩ := bind_eq_some.mp he
    obtain ⟨rfl, rfl⟩ := hc _ _ _ _ _ h1 e1
    have hpos : 0 < (f a).length := List.length_pos_iff.mpr hne
    rw [List.length_append] at hn
    rw [List.flatMap_cons, ← untilEnd_some hc hL n as _ _ _ (by omega) h2 e2]

theorem untilEnd_enc {as : List α} (hc : ∀ a ∈ as, ∀ y, c (f a ++ y) = some ((), y)) (hf : ∀ a, f a ≠ []) (n : Nat)
    (hn : (as.flatMap f).length ≤ n) : untilEnd c n (as.flatMap f) = some ((), []) := by
  induction as generalizing n with
  | nil => cases n <;> rfl
  | cons a as ih =>
    have hpos : 0 < (f a).length := List.length_pos_iff.mpr (hf a)
    rw [List.flatMap_cons] at hn ⊢
    rw [List.length_append] at hn
    cases n with
    | zero => omega
    | succ n =>
      unfold untilEnd
      rw [if_neg (by simp [hf a]), bind_some (hc a (by simp) _)]
      exact ih (fun b hb => hc b (by simp [hb])) n (by omega)

/-- The keys ascend, all behind `last`. -/
def Ascending {α : Type} : Option Bytes → List (String × α) → Prop
  | _, [] => True
  | last, e :: es => last.all (fun l => decide (l < Spec.utf8 e.1)) = true ∧ Ascending (some (Spec.utf8 e.1)) es

theorem entries_some (hc : ∀ a x y z u, L a x → c (x ++ y) = some (u, z) → x = f a ∧ z = y) :
    ∀ (ws : List (String × α)) (last : Option Bytes) (x y z : Bytes) (u : Unit), Listed (EntryForm L) ws x →
      entries c last ws.length (x ++ y) = some (u, z) →
      x = ws.flatMap (fun e => Spec.stringTag e.1 ++ f e.2) ∧ z = y ∧ Ascending last ws
  | [], last, x, y, z, u, hL, h => by
    have hL : x = [] := hL
    subst hL
    cases h
    exact ⟨rfl, rfl, trivial⟩
  | e :: ws, last, x, y, z, u, hL, h => by
    obtain ⟨x1, x2, rfl, ⟨k, v, rfl, hk, hv⟩, h2⟩ := hL
    obtain ⟨key, r, e1, e2⟩ := bind_eq_some.mp h
    rw [List.append_assoc, List.append_assoc] at e1
    obtain ⟨rfl, rfl, rfl⟩ := string_some hk e1
    split at e2
    · next hl =>
      obtain ⟨_, r', e3, e4⟩ := bind_eq_some.mp e2
      obtain ⟨rfl, rfl⟩ := hc _ _ _ _ _ hv e3
      obtain ⟨rfl, rfl, ha⟩ := entries_some hc ws _ _ _ _ _ h2 e4
      exact ⟨rfl, rfl, hl, ha⟩
    · simp at e2

theorem entries_enc {ws : List (String × α)} (hc : ∀ e ∈ ws, ∀ y, c (f e.2 ++ y) = some ((), y))
    (hk : ∀ e ∈ ws, (Spec.utf8 e.1).length < 2 ^ 64) {last : Option Bytes} (ha : Ascending last ws) (y : Bytes) :
    entries c last ws.length (ws.flatMap (fun e => Spec.stringTag e.1 ++ f e.2) ++ y) = some ((), y) := by
  induction ws generalizing last with
  | nil => rfl
  | cons e ws ih =>
    show (string >>= _) _ = _
    rw [List.flatMap_cons, List.append_assoc, List.append_assoc, bind_some (string_enc (hk e (by simp)) _), if_pos ha.1,
      bind_some (hc e (by simp) _)]
    exact ih (fun b hb => hc b (by simp [hb])) (fun b hb => hk b (by simp [hb])) ha.2

theorem ascending_pairwise {ws : List (String × α)} : ∀ {last : Option Bytes}, Ascending last ws ↔
    (∀ l, last = some l → ∀ e ∈ ws, l < Spec.utf8 e.1) ∧ ws.Pairwise fun a b => Spec.utf8 a.1 < Spec.utf8 b.1 := by
  induction ws with
  | nil => simp [Ascending]
  | cons e ws ih =>
    intro last
    rw [Ascending, ih, List.pairwise_cons]
    constructor
    · rintro ⟨h1, h2, h3⟩
      refine ⟨?_, h2 _ rfl, h3⟩
      rintro l rfl e' he'
      have h1 : l < Spec.utf8 e.1 := by simpa using h1
      rcases List.mem_cons.mp he' with rfl | he'
      · exact h1
      · exact List.lt_trans h1 (h2 _ rfl _ he')
    · rintro ⟨h1, h2, h3⟩
      refine ⟨?_, ?_, h3⟩
      · cases last with
        | none => rfl
        | some l => simpa using h1 l rfl e (by simp)
      · rintro l hl e' he'
        cases hl
        exact h2 e' he'

theorem ascending_sorted {es : List (String × α)} (h : (es.map (·.1)).Nodup) : Ascending none (sortByKey es) :=
  ascending_pairwise.mpr ⟨by simp, sortByKey_pairwise_lt h⟩

/-- Entries in ascending order are what a map made of them lists in key order. -/
theorem latest_ascending {ws es : List (String × α)} (hl : Latest ws es) (ha : Ascending none ws) :
    sortByKey es = ws ∧ es.length = ws.length := by
  have hp := (ascending_pairwise.mp ha).2
  have hn : (ws.map (·.1)).Nodup := by
    rw [List.Nodup, List.pairwise_map]
    refine hp.imp ?_
    intro a b hab he
    rw [he] at hab
    exact List.lt_irrefl _ hab
  have hmem : ∀ e, e ∈ es ↔ e ∈ ws := by
    rintro ⟨k, v⟩
    rw [hl.2]
    constructor
    · rintro ⟨l, r, rfl, -⟩; simp
    · intro h
      obtain ⟨l, r, rfl⟩ := List.append_of_mem h
      refine ⟨l, r, rfl, ?_⟩
      rw [List.map_append, List.map_cons, List.nodup_append] at hn
      exact (List.nodup_cons.mp hn.2.1).1
  have hperm : es.Perm ws :=
    (List.perm_ext_iff_of_nodup (nodup_of_nodup_keys hl.1) (nodup_of_nodup_keys hn)).mpr hmem
  refine ⟨?_, hperm.length_eq⟩
  refine List.Perm.eq_of_pairwise (le := fun a b : String × α => Spec.utf8 a.1 < Spec.utf8 b.1) ?_
    (sortByKey_pairwise_lt hl.1) hp ((sortByKey_perm es).trans hperm)
  intro a b _ _ hab hba
  exact absurd (List.lt_trans hab hba) (List.lt_irrefl _)
end

/-! ### Values -/
section
variable {P : Type} [TagPayload P]

theorem counted_some {α : Type} {L : α → Bytes → Prop} {f : α → Bytes} {c : Look Unit}
    (hc : ∀ a x y z u, L a x → c (x ++ y) = some (u, z) → x = f a ∧ z = y) {as : List α} {v : Bytes}
    (hL : Counted' L as v) (h : ((number >>= fun count => times c count) v).isSome) :
    v = Spec.ilint as.length ++ as.flatMap f := by
  obtain ⟨cb, x, rfl, h1, h2⟩ := hL
  obtain ⟨p, hp⟩ := Option.isSome_iff_exists.mp h
  obtain ⟨n, r, e1, e2⟩ := bind_eq_some.mp hp
  obtain ⟨rfl, rfl, rfl⟩ := number_some h1 e1
  obtain ⟨u, z⟩ := p
  rw [← List.append_nil r] at e2
  rw [(times_some hc as r [] z u h2 e2).1]

theorem mapped_some {α : Type} {L : α → Bytes → Prop} {f : α → Bytes} {c : Look Unit}
    (hc : ∀ a x y z u, L a x → c (x ++ y) = some (u, z) → x = f a ∧ z = y) {ws es : List (String × α)} {v : Bytes}
    (hL : Counted' (EntryForm L) ws v) (hl : Latest ws es)
    (h : ((number >>= fun count => entries c none count) v).isSome) :
    v = Spec.ilint es.length ++ (sortByKey es).flatMap fun e => Spec.stringTag e.1 ++ f e.2 := by
  obtain ⟨cb, x, rfl, h1, h2⟩ := hL
  obtain ⟨p, hp⟩ := Option.isSome_iff_exists.mp h
  obtain ⟨n, r, e1, e2⟩ := bind_eq_some.mp hp
  obtain ⟨rfl, rfl, rfl⟩ := number_some h1 e1
  obtain ⟨u, z⟩ := p
  rw [← List.append_nil r] at e2
  obtain ⟨e3, -, ha⟩ := entries_some hc ws none r [] z u h2 e2
  obtain ⟨e4, e5⟩ := latest_ascending hl ha
  rw [e4, e5, ← e3]

theorem kind_seq {strict : Bool} {i : UInt64} {ts : List (Tag P)} (h : StdTag strict (.seq i ts)) : i.toNat = 22 := by
  rcases h with h | h
  · exact (Option.some.inj h).symm
  · exact nomatch h.2.1
theorem kind_array {strict : Bool} {i : UInt64} {ts : List (Tag P)} (h : StdTag strict (.array i ts)) : i.toNat = 21 := by
  rcases h with h | h
  · exact (Option.some.inj h).symm
  · exact nomatch h.2.1
theorem kind_dict {strict : Bool} {i : UInt64} {ts : List (String × Tag P)} (h : StdTag strict (.dict i ts)) :
    i.toNat = 30 := by
  rcases h with h | h
  · exact (Option.some.inj h).symm
  · exact nomatch h.2.1
theorem kind_ilintArray {strict : Bool} {i : UInt64} {vs} (h : StdTag strict (.atom (.ilintArray i vs) : Tag P)) :
    i.toNat = 20 := by
  rcases h with h | h
  · exact (Option.some.inj h).symm
  · exact nomatch h.2.1
theorem kind_oid {strict : Bool} {i : UInt64} {vs} (h : StdTag strict (.atom (.oid i vs) : Tag P)) :
    i.toNat = 25 := by
  rcases h with h | h
  · exact (Option.some.inj h).symm
  · exact nomatch h.2.1
theorem kind_strDict {strict : Bool} {i : UInt64} {vs} (h : StdTag strict (.atom (.strDict i vs) : Tag P)) :
    i.toNat = 31 := by
  rcases h with h | h
  · exact (Option.some.inj h).symm
  · exact nomatch h.2.1
theorem kind_range {strict : Bool} {i : UInt64} {v w} (h : StdTag strict (.atom (.range i v w) : Tag P)) :
    i.toNat = 23 := by
  rcases h with h | h
  · exact (Option.some.inj h).symm
  · exact nomatch h.2.1
theorem kind_ilint {strict : Bool} {i : UInt64} {v} (h : StdTag strict (.atom (.ilint i v) : Tag P)) :
    i.toNat = 10 := by
  rcases h with h | h
  · exact (Option.some.inj h).symm
  · exact nomatch h.2.1
theorem kind_signed {strict : Bool} {i : UInt64} {v} (h : StdTag strict (.atom (.signedILInt i v) : Tag P)) :
    i.toNat = 14 := by
  rcases h with h | h
  · exact (Option.some.inj h).symm
  · exact nomatch h.2.1

theorem value_some {strict : Bool} {L : Tag P → Bytes → Prop} {nested : Look Unit}
    (hc : ∀ t x y z u, L t x → nested (x ++ y) = some (u, z) → x = enc t ∧ z = y) (hne : ∀ t x, L t x → x ≠ [])
    {t : Tag P} {v : Bytes} (ht : StdTag strict t) (hf : ValueForm (fun _ => Latest) L t v)
    (hid : ¬ (t.id.toNat = 10 ∨ t.id.toNat = 14)) (h : (value nested t.id.toNat v.length v).isSome) : v = encValue t := by
  cases t with
  | seq i ts =>
    have hi := kind_seq ht
    have h : (value nested i.toNat v.length v).isSome := h
    rw [hi] at h
    obtain ⟨p, hp⟩ := Option.isSome_iff_exists.mp h
    rw [encValue, encTags_eq]
    exact untilEnd_some hc hne _ ts v p.2 p.1 (Nat.le_refl _) hf hp
  | array i ts =>
    have hi := kind_array ht
    have h : (value nested i.toNat v.length v).isSome := h
    rw [hi] at h
    rw [encValue, encTags_eq]
    exact counted_some hc hf h
  | dict i es =>
    have hi := kind_dict ht
    have h : (value nested i.toNat v.length v).isSome := h
    rw [hi] at h
    obtain ⟨ws, h1, h2⟩ := hf
    letI : Env := Props.bigEnv
    rw [encValue, encSorted_tags]
    exact mapped_some hc h1 h2 h
  | atom a =>
    show v = encAtom a
    cases a
    case ilint i w => exact absurd (Or.inl (kind_ilint ht)) hid
    case signedILInt i w => exact absurd (Or.inr (kind_signed ht)) hid
    case payload => exact hf.elim
    case ilintArray i vs =>
      have hi := kind_ilintArray ht
      have h : (value nested i.toNat v.length v).isSome := h
      rw [hi] at h
      exact counted_some (fun a x y z u hx hn => someNumber_some hx hn) hf h
    case oid i vs =>
      have hi := kind_oid ht
      have h : (value nested i.toNat v.length v).isSome := h
      rw [hi] at h
      exact counted_some (fun a x y z u hx hn => someNumber_some hx hn) hf h
    case range i w n =>
      have hi := kind_range ht
      have h : (value nested i.toNat v.length v).isSome := h
      rw [hi] at h
      obtain ⟨x, rfl, hx⟩ := hf
      obtain ⟨p, hp⟩ := Option.isSome_iff_exists.mp h
      obtain ⟨rfl, -⟩ := someNumber_some hx hp
      rfl
    case strDict i es =>
      have hi := kind_strDict ht
      have h : (value nested i.toNat v.length v).isSome := h
      rw [hi] at h
      obtain ⟨ws, h1, h2⟩ := hf
      letI : Env := Props.bigEnv
      rw [encAtom, encSorted_eq]
      refine mapped_some (c := do let _ ← string; pure ()) ?_ h1 h2 h
      intro a x y z u hx hn
      obtain ⟨k, r, e1, e2⟩ := bind_eq_some.mp hn
      obtain ⟨rfl, -, rfl⟩ := string_some hx e1
      cases e2
      exact ⟨rfl, rfl⟩
    all_goals exact hf

theorem atom_length {a : Atom P} (h1 : standardId a.kind = some a.id.toNat) (h2 : a.id.toNat ≤ 15)
    (h3 : ¬ (a.id.toNat = 10 ∨ a.id.toNat = 14)) : (encAtom a).length = implicitLen a.id.toNat := by
  cases a
  case raw => exact nomatch h1
  case payload => exact nomatch h1
  case bin128 i v => exact v.2.trans (congrArg implicitLen (Option.some.inj h1))
  all_goals (have h4 := Option.some.inj h1; first
    | (exfalso; omega)
    | (refine Eq.trans ?_ (congrArg implicitLen h4); simp [encAtom, implicitLen]; done)
    | (refine Eq.trans ?_ (congrArg implicitLen h4); simp [encAtom, implicitLen, ILInt.length_be]; done))

/-- The values without a size: a number for the two ILInt tags, bytes of a fixed number for the others. -/
theorem std_length {strict : Bool} {t : Tag P} (ht : StdTag strict t) :
    (∃ n < 2 ^ 64, (t.id.toNat = 10 ∨ t.id.toNat = 14) ∧ encValue t = Spec.ilint n) ∨
      ¬ (t.id.toNat = 10 ∨ t.id.toNat = 14) ∧ (t.id.toNat ≤ 15 → (encValue t).length = implicitLen t.id.toNat) := by
  cases t with
  | seq i ts =>
    have h : i.toNat = 22 := kind_seq ht
    exact .inr ⟨fun h' => absurd (id h' : i.toNat = 10 ∨ i.toNat = 14) (by omega),
      fun h' => absurd (id h' : i.toNat ≤ 15) (by omega)⟩
  | array i ts =>
    have h : i.toNat = 21 := kind_array ht
    exact .inr ⟨fun h' => absurd (id h' : i.toNat = 10 ∨ i.toNat = 14) (by omega),
      fun h' => absurd (id h' : i.toNat ≤ 15) (by omega)⟩
  | dict i es =>
    have h : i.toNat = 30 := kind_dict ht
    exact .inr ⟨fun h' => absurd (id h' : i.toNat = 10 ∨ i.toNat = 14) (by omega),
      fun h' => absurd (id h' : i.toNat ≤ 15) (by omega)⟩
  | atom a =>
    rcases ht with ht | ⟨-, -, h, h'⟩
    · by_cases hid : a.id.toNat = 10 ∨ a.id.toNat = 14
      · left
        have ht : standardId a.kind = some a.id.toNat := ht
        cases a
        case raw => exact nomatch ht
        case payload => exact nomatch ht
        case ilint i w _ => exact ⟨_, w.toNat_lt, hid, rfl⟩
        case signedILInt i w _ => exact ⟨_, ILInt.encodeSign_eq w ▸ (ILInt.encodeSign w).toNat_lt, hid, rfl⟩
        all_goals
          have h4 := Option.some.inj ht
          rw [← h4] at hid
          exact absurd hid (by decide)
      · exact .inr ⟨hid, fun h => atom_length ht h hid⟩
    · refine .inr ⟨?_, fun h' => absurd h' (by omega)⟩
      omega

theorem std_implicit {strict : Bool} {L : Tag P → Bytes → Prop} {t : Tag P} {v : Bytes} (ht : StdTag strict t)
    (hf : ValueForm (fun _ => Latest) L t v) (hi : t.id.toNat ≤ 15) :
    (∃ n, (t.id.toNat = 10 ∨ t.id.toNat = 14) ∧ IsILInt v n ∧ encValue t = Spec.ilint n) ∨
      ¬ (t.id.toNat = 10 ∨ t.id.toNat = 14) ∧ v = encValue t ∧ v.length = implicitLen t.id.toNat := by
  rcases ht with ht | ⟨-, -, h, -⟩
  · cases t with
    | seq i ts => have := Option.some.inj ht; omega
    | array i ts => have := Option.some.inj ht; omega
    | dict i es => have := Option.some.inj ht; omega
    | atom a =>
      cases a
      case raw => exact nomatch ht
      case payload => exact nomatch ht
      case ilint i w => exact .inl ⟨_, .inl (Option.some.inj ht).symm, hf, rfl⟩
      case signedILInt i w => exact .inl ⟨_, .inr (Option.some.inj ht).symm, hf, rfl⟩
      case ilintArray => have := Option.some.inj ht; exfalso; omega
      case oid => have := Option.some.inj ht; exfalso; omega
      case strDict => have := Option.some.inj ht; exfalso; omega
      case range => have := Option.some.inj ht; exfalso; omega
      all_goals
        have h4 := Option.some.inj ht
        refine .inr ⟨?_, hf, ?_⟩
        · rw [← h4]; decide
        · have hf' : v = encAtom _ := hf
          rw [hf']
          exact atom_length ht hi (by rintro (h | h) <;> exact nomatch h4.trans h)
  · omega

theorem tag_some {strict : Bool} (k : Nat) : ∀ (d : Nat) (t : Tag P) (x y z : Bytes) (u : Unit),
    FormAt (fun _ => Latest) strict k t x → tag d (x ++ y) = some (u, z) → x = enc t ∧ z = y := by
  induction k with
  | zero => intro d t x y z u h; exact h.elim
  | succ k ih =>
    intro d t x y z u hf h
    obtain ⟨hs, hb, v, hi, hv, hm, hx⟩ := hf
    have hne : ∀ t x, FormAt (P := P) (fun _ => Latest) strict k t x → x ≠ [] := by
      rintro t x ht rfl
      cases k with
      | zero => exact ht
      | succ k =>
        obtain ⟨-, h, v, hi, -, -, hx⟩ := ht
        have hh : h ≠ [] := by
          obtain ⟨hd, body, rfl, -⟩ := isILInt_tail hi
          simp
        rcases hx with ⟨-, hx⟩ | ⟨-, l, -, hx⟩
        · exact hh (List.append_eq_nil_iff.mp hx.symm).1
        · exact hh (List.append_eq_nil_iff.mp (List.append_eq_nil_iff.mp hx.symm).1).1
    cases d with
    | zero => simp [tag] at h
    | succ d =>
      obtain ⟨id, r, e1, e2⟩ := bind_eq_some.mp h
      have hval : ¬ (t.id.toNat = 10 ∨ t.id.toNat = 14) →
          Look.region v.length (value (tag d) t.id.toNat v.length) (v ++ y) = some (u, z) → v = encValue t ∧ z = y := by
        intro hid h
        unfold region at h
        rw [List.take_left, List.drop_left] at h
        split at h
        · next hc =>
          simp only [Option.some.injEq, Prod.mk.injEq] at h
          exact ⟨value_some (fun t x y z u => ih d t x y z u) hne hs hv hid hc.2, h.2.symm⟩
        · simp at h
      rcases hx with ⟨h15, rfl⟩ | ⟨h16, l, hl, rfl⟩
      · rw [List.append_assoc] at e1
        obtain ⟨rfl, rfl, rfl⟩ := number_some hi e1
        have henc : enc t = Spec.ilint t.id.toNat ++ encValue t := by unfold enc wrap; rw [if_pos h15]; simp
        rw [henc]
        rcases std_implicit hs hv h15 with ⟨n, h10, hn, hve⟩ | ⟨h10, hve, hlen⟩
        · rw [if_pos h10] at e2
          obtain ⟨rfl, rfl⟩ := someNumber_some hn e2
          rw [hve]
          exact ⟨rfl, rfl⟩
        · rw [if_neg h10] at e2
          obtain ⟨n, r, e3, e4⟩ := bind_eq_some.mp e2
          unfold Look.length at e3
          rw [if_pos h15] at e3
          cases e3
          rw [← hlen] at e4
          rw [(hval h10 e4).1]
          exact ⟨rfl, (hval h10 e4).2⟩
      · rw [List.append_assoc, List.append_assoc] at e1
        obtain ⟨rfl, rfl, rfl⟩ := number_some hi e1
        have henc : enc t = Spec.ilint t.id.toNat ++ Spec.ilint (encValue t).length ++ encValue t := by
          unfold enc wrap; rw [if_neg (by omega)]
        have h10 : ¬ (t.id.toNat = 10 ∨ t.id.toNat = 14) := by omega
        rw [if_neg h10] at e2
        obtain ⟨n, r, e3, e4⟩ := bind_eq_some.mp e2
        unfold Look.length at e3
        rw [if_neg (by omega)] at e3
        obtain ⟨rfl, rfl, rfl⟩ := number_some hl e3
        obtain ⟨h6, h7⟩ := hval h10 e4
        rw [henc, ← h6]
        exact ⟨rfl, h7⟩

/-! ### Encodings are canonical -/

theorem length_mem {α : Type} (f : α → Bytes) {as : List α} {a : α} (h : a ∈ as) :
    (f a).length ≤ (as.flatMap f).length := by
  induction as with
  | nil => simp at h
  | cons b as ih =>
    rw [List.flatMap_cons, List.length_append]
    rcases List.mem_cons.mp h with rfl | h
    · omega
    · have := ih h; omega

theorem length_string (s : String) : (Spec.utf8 s).length ≤ (Spec.stringTag s).length := by
  rw [stringTag_eq]; simp only [List.length_append]; omega

theorem maxValue_lt : maxValue < 2 ^ 64 := by decide

theorem ilints_enc {nested : Look Unit} {vs : List UInt64} (hl : (encILInts vs).length ≤ maxValue) :
    (value nested 20 (encILInts vs).length (encILInts vs)).isSome := by
  letI : Env := Props.bigEnv
  have h64 := maxValue_lt
  have hlen : vs.length ≤ (vs.flatMap fun v => Spec.ilint v.toNat).length :=
    length_le_flatMap_ge (fun v : UInt64 => Spec.ilint v.toNat) (fun v => by
      obtain ⟨hd, body, h, -⟩ := isILInt_tail (ILInt.isILInt_ilint v.toNat_lt)
      rw [h]; simp) vs
  unfold encILInts at hl ⊢
  rw [List.length_append] at hl
  show ((number >>= fun count => times someNumber count) _).isSome
  rw [bind_some (number_enc (by omega) _)]
  have := times_enc (c := someNumber) (f := fun v : UInt64 => Spec.ilint v.toNat) (as := vs)
    (fun a _ y => someNumber_enc a.toNat_lt y) []
  rw [List.append_nil] at this
  rw [this]
  rfl

theorem mapped_enc {α : Type} {f : α → Bytes} {c : Look Unit} {es : List (String × α)} (hn : (es.map (·.1)).Nodup)
    (hl : (Spec.ilint es.length ++ (sortByKey es).flatMap fun e => Spec.stringTag e.1 ++ f e.2).length ≤ maxValue)
    (hc : ∀ e ∈ es, (f e.2).length ≤
      (Spec.ilint es.length ++ (sortByKey es).flatMap fun e => Spec.stringTag e.1 ++ f e.2).length →
      ∀ y, c (f e.2 ++ y) = some ((), y)) :
    ((number >>= fun count => entries c none count)
      (Spec.ilint es.length ++ (sortByKey es).flatMap fun e => Spec.stringTag e.1 ++ f e.2)).isSome := by
  letI : Env := Props.bigEnv
  have h64 := maxValue_lt
  have hst : ∀ s : String, 1 ≤ (Spec.stringTag s).length := fun s => by
    unfold Spec.stringTag
    have := wrap_length_ge 17 (Spec.utf8 s); omega
  have hlen : (sortByKey es).length ≤ ((sortByKey es).flatMap fun e => Spec.stringTag e.1 ++ f e.2).length :=
    length_le_flatMap_ge (fun e : String × α => Spec.stringTag e.1 ++ f e.2) (fun e => by
      have := hst e.1
      rw [List.length_append]; omega) (sortByKey es)
  rw [sortByKey_length] at hlen
  have hl' := hl
  rw [List.length_append] at hl'
  rw [bind_some (number_enc (by omega) _)]
  have := entries_enc (c := c) (f := f) (ws := sortByKey es) (last := none) (fun e he y => by
      refine hc e (mem_sortByKey.mp he) ?_ y
      have := length_mem (fun e : String × α => Spec.stringTag e.1 ++ f e.2) he
      rw [List.length_append] at this ⊢
      omega)
    (fun e he => by
      have h1 := length_mem (fun e : String × α => Spec.stringTag e.1 ++ f e.2) he
      have h2 := length_string e.1
      rw [List.length_append] at h1
      omega)
    (ascending_sorted hn) []
  rw [List.append_nil, sortByKey_length] at this
  rw [this]
  rfl

theorem value_enc {strict : Bool} {nested : Look Unit} {t : Tag P}
    (hc : ∀ u, Within u t → (enc u).length ≤ (encValue t).length → ∀ y, nested (enc u ++ y) = some ((), y))
    (ht : StdTag strict t) (hm : MapOk t) (hl : (encValue t).length ≤ maxValue)
    (hid : ¬ (t.id.toNat = 10 ∨ t.id.toNat = 14)) : (value nested t.id.toNat (encValue t).length (encValue t)).isSome := by
  have h64 := maxValue_lt
  letI : Env := Props.bigEnv
  cases t with
  | seq i ts =>
    have hi := kind_seq ht
    show (value nested i.toNat _ _).isSome
    rw [hi]
    rw [encValue, encTags_eq] at hc hl ⊢
    show (untilEnd nested _ _).isSome
    rw [untilEnd_enc (f := enc) (fun u hu y => hc u (within_seq hu) (length_mem enc hu) y)
      (fun u => List.length_pos_iff.mp (by have := enc_pos u; omega)) _ (Nat.le_refl _)]
    rfl
  | array i ts =>
    have hi := kind_array ht
    show (value nested i.toNat _ _).isSome
    rw [hi]
    rw [encValue, encTags_eq] at hc hl ⊢
    have hlen := length_le_flatMap_ge enc enc_pos ts
    rw [List.length_append] at hl
    show ((number >>= fun count => times nested count) _).isSome
    rw [bind_some (number_enc (by omega) _)]
    have := times_enc (c := nested) (f := enc) (as := ts) (fun u hu y => hc u (within_array hu) (by
      have := length_mem enc hu
      rw [List.length_append]; omega) y) []
    rw [List.append_nil] at this
    rw [this]
    rfl
  | dict i es =>
    have hi := kind_dict ht
    show (value nested i.toNat _ _).isSome
    rw [hi]
    rw [encValue, encSorted_tags] at hc hl ⊢
    exact mapped_enc hm hl fun e he hle y => hc e.2 (within_dict he) hle y
  | atom a =>
    have hl : (encAtom a).length ≤ maxValue := hl
    show (value nested a.id.toNat (encAtom a).length (encAtom a)).isSome
    have hk : standardId a.kind = some a.id.toNat ∨ ∀ k, standardId k ≠ some a.id.toNat := by
      rcases ht with ht | ht
      · exact .inl ht
      · exact .inr ht.2.2.2
    have hplain : ∀ (n : Nat) (v : Bytes), ¬ (a.id.toNat = 20 ∨ a.id.toNat = 25 ∨ a.id.toNat = 21 ∨ a.id.toNat = 22 ∨
        a.id.toNat = 23 ∨ a.id.toNat = 30 ∨ a.id.toNat = 31) → (value nested a.id.toNat n v).isSome := by
      intro n v h
      unfold value
      repeat rw [if_neg (by omega)]
      rfl
    cases a with
    | ilintArray i vs =>
      show (value nested i.toNat _ _).isSome
      rw [kind_ilintArray ht]
      exact ilints_enc hl
    | oid i vs =>
      show (value nested i.toNat _ _).isSome
      rw [kind_oid ht]
      exact ilints_enc (nested := nested) hl
    | range i w n =>
      show (value nested i.toNat _ _).isSome
      rw [kind_range ht]
      show (someNumber (Spec.ilint w.toNat ++ _)).isSome
      rw [someNumber_enc w.toNat_lt]
      rfl
    | strDict i es =>
      show (value nested i.toNat _ _).isSome
      rw [kind_strDict ht]
      rw [encAtom, encSorted_eq] at hl ⊢
      refine mapped_enc (c := do let _ ← string; pure ()) hm hl fun e he hle y => ?_
      have := length_string e.2
      rw [bind_some (string_enc (by omega) y)]
      rfl
    | raw i v =>
      refine hplain _ _ ?_
      rcases hk with ht | ht
      · exact nomatch ht
      · intro h
        rcases h with h | h | h | h | h | h | h
        · exact ht .ilintArray (congrArg some h.symm)
        · exact ht .oid (congrArg some h.symm)
        · exact ht .array (congrArg some h.symm)
        · exact ht .seq (congrArg some h.symm)
        · exact ht .range (congrArg some h.symm)
        · exact ht .dict (congrArg some h.symm)
        · exact ht .strDict (congrArg some h.symm)
    | payload i p =>
      refine hplain _ _ ?_
      rcases hk with ht | ht
      · exact nomatch ht
      · intro h
        rcases h with h | h | h | h | h | h | h
        · exact ht .ilintArray (congrArg some h.symm)
        · exact ht .oid (congrArg some h.symm)
        · exact ht .array (congrArg some h.symm)
        · exact ht .seq (congrArg some h.symm)
        · exact ht .range (congrArg some h.symm)
        · exact ht .dict (congrArg some h.symm)
        · exact ht .strDict (congrArg some h.symm)
    | _ =>
      refine hplain _ _ ?_
      rcases hk with ht | ht
      · have h4 := Option.some.inj ht
        rw [← h4]
        decide
      · intro h
        rcases h with h | h | h | h | h | h | h
        · exact ht .ilintArray (congrArg some h.symm)
        · exact ht .oid (congrArg some h.symm)
        · exact ht .array (congrArg some h.symm)
        · exact ht .seq (congrArg some h.symm)
        · exact ht .range (congrArg some h.symm)
        · exact ht .dict (congrArg some h.symm)
        · exact ht .strDict (congrArg some h.symm)

theorem tag_enc {strict : Bool} (d : Nat) : ∀ (t : Tag P), (enc t).length < d → MapsOk t →
    (∀ u, Within u t → StdTag strict u ∧ (encValue u).length ≤ maxValue) →
    ∀ y, tag d (enc t ++ y) = some ((), y) := by
  induction d with
  | zero => intro t h; omega
  | succ d ih =>
    intro t hd hm hs y
    have h64 := maxValue_lt
    letI : Env := Props.bigEnv
    have hge := enc_ge t
    obtain ⟨ht, hl⟩ := hs t (.refl t)
    have hreg : ¬ (t.id.toNat = 10 ∨ t.id.toNat = 14) →
        region (encValue t).length (value (tag d) t.id.toNat (encValue t).length) (encValue t ++ y) = some ((), y) := by
      intro hid
      unfold region
      rw [List.take_left, List.drop_left, if_pos]
      refine ⟨by simp, value_enc (strict := strict) (fun u hu hle y => ih u (by omega) ?_ ?_ y) ht (hm t (.refl t)) hl hid⟩
      · exact fun w hw => hm w (hw.trans hu)
      · exact fun w hw => hs w (hw.trans hu)
    show (number >>= _) _ = _
    unfold enc wrap
    rw [List.append_assoc, List.append_assoc, bind_some (number_enc t.id.toNat_lt _)]
    rcases std_length ht with ⟨n, hn, hid, hv⟩ | ⟨hid, hlen⟩
    · show (if t.id.toNat = 10 ∨ t.id.toNat = 14 then someNumber else _) _ = _
      rw [if_pos hid, if_pos (by omega), hv]
      exact someNumber_enc hn y
    · show (if t.id.toNat = 10 ∨ t.id.toNat = 14 then someNumber else (length t.id.toNat >>= fun n =>
        region n (value (tag d) t.id.toNat n))) _ = _
      rw [if_neg hid]
      by_cases hi : t.id.toNat ≤ 15
      · have : length t.id.toNat (([] : Bytes) ++ (encValue t ++ y)) = some ((encValue t).length, encValue t ++ y) := by
          unfold length
          rw [if_pos hi, hlen hi]
          rfl
        rw [if_pos hi, bind_some this]
        exact hreg hid
      · have : length t.id.toNat (Spec.ilint (encValue t).length ++ (encValue t ++ y)) =
            some ((encValue t).length, encValue t ++ y) := by
          unfold length
          rw [if_neg hi]
          exact number_enc (by omega) _
        rw [if_neg hi, bind_some this]
        exact hreg hid

end
end Look
end Verif
