import Verif.Props.RoundTrip
import Verif.Proof.Grammar
import Verif.Proof.Deliver
/-!
# Property theorems: what more data can change
-/
namespace Verif
open Spec
set_option linter.unusedSectionVars false
variable {P : Type}

/-- The same outcome, with `x` left over in addition. -/
def PRes.over {α : Type} (x : Bytes) : PRes α → PRes α
  | .ok a rest => .ok a (rest ++ x)
  | r => r

theorem limited_over {α : Type} (n : Nat) (p : Nat → Parser α) (bs x : Bytes) (h : n ≤ bs.length) :
    Parser.limited n p (bs ++ x) = (Parser.limited n p bs).over x := by
  unfold Parser.limited
  have h1 : n ≤ (bs ++ x).length := by simp only [List.length_append]; omega
  rw [if_pos h, if_pos h1, List.take_append_of_le_length h, List.drop_append_of_le_length h]
  cases p 0 (bs.take n) <;> simp [PRes.over]

/-- What `deserialize` does after an id and a size. -/
def Parser.afterSize [TagPayload P] [Env] (e : Engine P) (id : UInt64) (size : Nat) : Parser (Tag P) :=
  Parser.lift (e.createTag id) >>= fun t => match t with
    | none => Parser.fail .unknownTag
    | some t => Parser.tagValueInto (Parser.tag e (maxTagSize + 1)) size t

theorem top_header [TagPayload P] [Env] (e : Engine P) {id : UInt64} {size : Nat} {idb szb : Bytes} (w : Bytes)
    (hid : IsILInt idb id.toNat)
    (hsz : id.toNat ≤ 15 ∧ szb = [] ∧ size = implicitLen id.toNat ∨ 16 ≤ id.toNat ∧ IsILInt szb size) :
    Parser.top e (idb ++ szb ++ w) =
      if size ≤ maxTagSize then Parser.afterSize e id size w else .fail .tagTooLarge := by
  have hsize : ∀ w : Bytes, Parser.tagSize id (szb ++ w) =
      if size ≤ maxTagSize then .ok size w else .fail .tagTooLarge := by
    intro w
    rcases hsz with ⟨hi, rfl, rfl⟩ | ⟨hi, hs⟩
    · rw [tagSize_implicit (isImplicitTag_iff.mpr hi), implicitTagSize_eq hi]
      rw [if_pos]
      · rfl
      · have : ∀ n : Fin 16, implicitLen n.1 ≤ maxTagSize := by decide
        exact this ⟨id.toNat, by omega⟩
    · have hi' : isImplicitTag id = false := by
        rcases Bool.eq_false_or_eq_true (isImplicitTag id) with h | h
        · have := isImplicitTag_iff.mp h; omega
        · exact h
      rw [tagSize_explicit hi', Parser.bind_ok (ilint_isILInt hs w)]
      unfold tagSizeToUsize
      rw [UInt64.toNat_ofNat_of_lt' hs.1]
      by_cases h : size ≤ maxTagSize
      · rw [if_neg (by omega), if_pos h]; rfl
      · rw [if_pos (by omega), if_neg h]; rfl
  have h1 : Factory.fuel = (maxTagSize + 1) + 1 := rfl
  rw [Parser.top, Parser.call, h1, Parser.tag, List.append_assoc, Parser.bind_ok (ilint_isILInt hid (szb ++ w))]
  rw [UInt64.ofNat_toNat]
  by_cases h : size ≤ maxTagSize
  · rw [if_pos h]
    have := hsize w
    rw [if_pos h] at this
    rw [Parser.bind_ok this]
    unfold Parser.afterSize
    cases e.createTag id with
    | ok o => cases o <;> rfl
    | _ => rfl
  · rw [if_neg h]
    have := hsize w
    rw [if_neg h] at this
    rw [Parser.bind_apply, this]

theorem afterSize_some [TagPayload P] [Env] {e : Engine P} {id : UInt64} {t : Tag P} (h : e.createTag id = .ok (some t))
    (size : Nat) (w : Bytes) :
    Parser.afterSize e id size w = Parser.tagValueInto (Parser.tag e (maxTagSize + 1)) size t w := by
  unfold Parser.afterSize
  rw [h, Parser.bind_ok (show Parser.lift (.ok (some t)) w = .ok (some t) w from rfl)]

theorem top_over [TagPayload P] [Env] (e : Engine P) {id : UInt64} {size : Nat} {idb szb v : Bytes} (x : Bytes)
    (hid : IsILInt idb id.toNat)
    (hsz : id.toNat ≤ 15 ∧ szb = [] ∧ size = implicitLen id.toNat ∨ 16 ≤ id.toNat ∧ IsILInt szb size)
    (hv : size ≤ v.length) :
    Parser.top e (idb ++ szb ++ v ++ x) = (Parser.top e (idb ++ szb ++ v)).over x := by
  rw [List.append_assoc, top_header e _ hid hsz, top_header e _ hid hsz]
  split
  · cases hc : e.createTag id with
    | ok o =>
      cases o with
      | none => unfold Parser.afterSize; rw [hc]; rfl
      | some t => rw [afterSize_some hc, afterSize_some hc]; exact limited_over size _ v x hv
    | _ => unfold Parser.afterSize; rw [hc]; rfl
  · rfl

end Verif

namespace Verif.Props
open Verif Verif.Spec
set_option linter.unusedSectionVars false
variable {P : Type}

section
variable [TagPayload P] [Env] (e : Engine P) {σ σ' : Type} [Reader σ] [Reader σ'] (V : View σ) (V' : View σ')

/-- **C90** A tag that was read from a reader holding `bs` is read, too, from every reader that holds `bs` and more; what
is left there is what was left before, and then the additional bytes. -/
theorem C90_tag_stays (s s₁ : σ) (s' : σ') (bs x rest : Bytes) (t : Tag P) (hR : V.R s bs) (hR' : V'.R s' (bs ++ x))
    (h : Factory.deserialize e σ s = (.ok t, s₁)) (hR₁ : V.R s₁ rest) :
    ∃ s₁', Factory.deserialize e σ' s' = (.ok t, s₁') ∧ V'.R s₁' (rest ++ x) := by
  have hm := deserialize_matches e V hR
  cases hq : Parser.top e bs with
  | ok t' r =>
    rw [hq] at hm
    obtain ⟨s₂, h2, hR₂⟩ := hm
    rw [h] at h2
    simp only [Prod.mk.injEq, Res.ok.injEq] at h2
    obtain ⟨rfl, rfl⟩ := h2
    have := V.unique hR₁ hR₂
    subst this
    obtain ⟨used, h3, h4⟩ := (Local.top e).ok hq
    subst h3
    rw [List.append_assoc] at hR'
    exact deserialize_ok_of_top V' hR' (h4 _)
  | short => rw [hq] at hm; obtain ⟨_, _, h2, -⟩ := hm; rw [h] at h2; simp at h2
  | fail y => rw [hq] at hm; obtain ⟨_, h2⟩ := hm; rw [h] at h2; simp at h2
  | panic => rw [hq] at hm; obtain ⟨_, h2⟩ := hm; rw [h] at h2; simp at h2
  | diverge => rw [hq] at hm; obtain ⟨_, h2⟩ := hm; rw [h] at h2; simp at h2

/-- **C90** An error other than an i/o error is final: every reader that holds the same bytes and more gives the same
error. -/
theorem C90_error_stays (s : σ) (s' : σ') (bs x : Bytes) (k : TagErr) (hR : V.R s bs) (hR' : V'.R s' (bs ++ x))
    (h : (Factory.deserialize e σ s).1 = .err k) (hk : ∀ i, k ≠ .ioError i) :
    (Factory.deserialize e σ' s').1 = .err k := by
  have hm := deserialize_matches e V hR
  cases hq : Parser.top e bs with
  | ok t' r => rw [hq] at hm; obtain ⟨_, h2, -⟩ := hm; rw [h2] at h; simp at h
  | short =>
    rw [hq] at hm
    obtain ⟨i, _, h2, -⟩ := hm
    rw [h2] at h
    simp only [Res.err.injEq] at h
    exact absurd h.symm (hk i)
  | fail y =>
    rw [hq] at hm
    obtain ⟨_, h2⟩ := hm
    rw [h2] at h
    simp only [Res.err.injEq] at h
    subst h
    refine deserialize_fail_of_top V' hR' ?_
    rw [(Local.top e).more (by rw [hq]; trivial), hq]
  | panic => rw [hq] at hm; obtain ⟨_, h2⟩ := hm; rw [h2] at h; simp at h
  | diverge => rw [hq] at hm; obtain ⟨_, h2⟩ := hm; rw [h2] at h; simp at h

/-- **C90** Once the id, the size and as many bytes as the size says (for the ids 0 to 15: as the table of implicit sizes
says) are there, the verdict is final, i/o errors included: every reader that holds these bytes and more gives the same
tag or the same failure, and a tag leaves the same bytes, followed by the additional ones. -/
theorem C90_final (s : σ) (s' : σ') (id : UInt64) (size : Nat) (idb szb v x : Bytes) (hid : IsILInt idb id.toNat)
    (hsz : id.toNat ≤ 15 ∧ szb = [] ∧ size = implicitLen id.toNat ∨ 16 ≤ id.toNat ∧ IsILInt szb size)
    (hv : size ≤ v.length) (hR : V.R s (idb ++ szb ++ v)) (hR' : V'.R s' (idb ++ szb ++ v ++ x)) :
    SameClass (Factory.deserialize e σ s).1 (Factory.deserialize e σ' s').1 ∧
    ((Factory.deserialize e σ s).1.isOk = true → ∃ rest, V.R (Factory.deserialize e σ s).2 rest ∧
      V'.R (Factory.deserialize e σ' s').2 (rest ++ x)) := by
  have h := deserialize_matches e V hR
  have h' := deserialize_matches e V' hR'
  rw [top_over e x hid hsz hv] at h'
  cases hq : Parser.top e (idb ++ szb ++ v) with
  | ok t rest =>
    rw [hq] at h h'
    obtain ⟨_, h1, h2⟩ := h
    obtain ⟨_, h1', h2'⟩ := h'
    rw [h1, h1']
    exact ⟨rfl, fun _ => ⟨rest, h2, h2'⟩⟩
  | short =>
    rw [hq] at h h'
    obtain ⟨_, _, h1, _⟩ := h
    obtain ⟨_, _, h1', _⟩ := h'
    rw [h1, h1']
    exact ⟨trivial, by simp [Res.isOk]⟩
  | fail y =>
    rw [hq] at h h'
    obtain ⟨_, h1⟩ := h
    obtain ⟨_, h1'⟩ := h'
    rw [h1, h1']
    exact ⟨by cases y <;> first | rfl | trivial, by simp [Res.isOk]⟩
  | panic =>
    rw [hq] at h h'
    obtain ⟨_, h1⟩ := h
    obtain ⟨_, h1'⟩ := h'
    rw [h1, h1']
    exact ⟨rfl, by simp [Res.isOk]⟩
  | diverge =>
    rw [hq] at h h'
    obtain ⟨_, h1⟩ := h
    obtain ⟨_, h1'⟩ := h'
    rw [h1, h1']
    exact ⟨rfl, by simp [Res.isOk]⟩

/-- **C90** Before they are there, no tag is returned, but for the two ILInt tags, whose table size is only an upper
bound. -/
theorem C90_not_before (s s₁ : σ) (id : UInt64) (size : Nat) (idb szb v : Bytes) (hid : IsILInt idb id.toNat)
    (hsz : id.toNat ≤ 15 ∧ szb = [] ∧ size = implicitLen id.toNat ∨ 16 ≤ id.toNat ∧ IsILInt szb size)
    (hR : V.R s (idb ++ szb ++ v)) (t : Tag P) (h : Factory.deserialize e σ s = (.ok t, s₁))
    (ht : t.id ≠ 10 ∧ t.id ≠ 14) : size ≤ v.length := by
  have hm := deserialize_matches e V hR
  cases hq : Parser.top e (idb ++ szb ++ v) with
  | ok t' r =>
    rw [hq] at hm
    obtain ⟨s₂, h2, hR₂⟩ := hm
    rw [h] at h2
    simp only [Prod.mk.injEq, Res.ok.injEq] at h2
    obtain ⟨rfl, rfl⟩ := h2
    rw [top_header e _ hid hsz] at hq
    split at hq
    · cases hc : e.createTag id with
      | ok o =>
        cases o with
        | none => unfold Parser.afterSize at hq; rw [hc] at hq; cases hq
        | some t₀ =>
          rw [afterSize_some hc] at hq
          unfold Parser.tagValueInto Parser.limited at hq
          by_cases hv : size ≤ v.length
          · exact hv
          · rw [if_neg hv] at hq
            obtain ⟨t₁, r₁, -, h4⟩ := Parser.bind_eq_ok.mp hq
            unfold Parser.checkEmpty at h4
            split at h4
            · cases h4
            · rename_i hn
              cases h4
              exact absurd ⟨ht.1, ht.2, by omega⟩ hn
      | _ => unfold Parser.afterSize at hq; rw [hc] at hq; cases hq
    · cases hq
  | short => rw [hq] at hm; obtain ⟨_, _, h2, -⟩ := hm; rw [h] at h2; simp at h2
  | fail y => rw [hq] at hm; obtain ⟨_, h2⟩ := hm; rw [h] at h2; simp at h2
  | panic => rw [hq] at hm; obtain ⟨_, h2⟩ := hm; rw [h] at h2; simp at h2
  | diverge => rw [hq] at hm; obtain ⟨_, h2⟩ := hm; rw [h] at h2; simp at h2

end

theorem seq_of_id_short [TagPayload P] [Env] (e : Engine P) (k : Nat) (id : UInt64) (ts : List (Tag P)) :
    Parser.tagValueInto (Parser.tag e (k + 1)) 1 (.seq id ts) [17] = .short := rfl

/-- **C90** An i/o error alone does not say that data is missing: a sequence of one byte, that byte being the id of a
string, fails with an i/o error whatever follows, for every reader. -/
theorem C90_io_error_may_be_final [TagPayload P] [Env] (strict : Bool) {σ : Type} [Reader σ] (V : View σ) (s : σ)
    (x : Bytes) (hR : V.R s (22 :: 1 :: 17 :: x)) :
    ∃ i, (Factory.deserialize (Engine.std strict : Engine P) σ s).1 = .err (.ioError i) := by
  generalize he : (Engine.std strict : Engine P) = e
  obtain ⟨t₀, hc, hk, hi⟩ := std_create (P := P) (strict := strict) (id := 22) (k := .seq) rfl
  rw [he] at hc
  have h1 : IsILInt [22] (22 : UInt64).toNat := ⟨by decide, .inl ⟨22, rfl, by decide, rfl⟩⟩
  have h2 : IsILInt [1] 1 := ⟨by decide, .inl ⟨1, rfl, by decide, rfl⟩⟩
  have hp : Parser.top e (22 :: 1 :: 17 :: x) = .short := by
    rw [show (22 :: 1 :: 17 :: x : Bytes) = ([22] ++ [1] ++ [17]) ++ x from rfl,
      top_over e (id := 22) (size := 1) x h1 (.inr ⟨by decide, h2⟩) (Nat.le_refl _),
      top_header e (id := 22) (size := 1) _ h1 (.inr ⟨by decide, h2⟩), if_pos (by decide), afterSize_some hc]
    cases t₀ with
    | seq id ts => rw [seq_of_id_short]; rfl
    | atom a => cases a <;> cases hk
    | array id ts => cases hk
    | dict id ts => cases hk
  have hm := deserialize_matches e V hR
  rw [hp] at hm
  obtain ⟨i, s', h, -⟩ := hm
  exact ⟨i, by rw [h]⟩

section
attribute [local instance] bigEnv

/-- `deserialize` of the standard factory on a byte array. -/
def verdict (bs : Bytes) : Res TagErr (Tag Empty) × ByteArrayReader :=
  Factory.deserialize (Engine.std true) ByteArrayReader (.new bs)

-- an i/o error that more data cures
example : (verdict [17, 2, 97]).1 matches .err (.ioError _) := by unfold verdict; rw [deserialize_eq]; decide +kernel
example : (verdict [17, 2, 97, 98]).1 matches .ok (.atom (.string 17 "ab")) := by
  unfold verdict; rw [deserialize_eq]; decide +kernel
-- and one that more data does not cure
example (x : Bytes) : ∃ i, (verdict (22 :: 1 :: 17 :: x)).1 = .err (.ioError i) :=
  C90_io_error_may_be_final true ByteArrayReader.view.toView _ x (ByteArrayReader.view_new _)
-- a tag, an error, whatever follows
example (x : Bytes) : ∃ t, (verdict ([17, 2, 97, 98, 5] ++ x)).1 = .ok t ∧ t matches .atom (.string 17 "ab") := by
  obtain ⟨t, h, h'⟩ : ∃ t, (verdict [17, 2, 97, 98, 5]).1 = .ok t ∧ t matches .atom (.string 17 "ab") := by
    have hm : (match (verdict [17, 2, 97, 98, 5]).1 with
        | .ok t => (t matches .atom (.string 17 "ab"))
        | _ => false) = true := by unfold verdict; rw [deserialize_eq]; decide +kernel
    split at hm
    · exact ⟨_, by assumption, hm⟩
    · cases hm
  have h5 : (verdict [17, 2, 97, 98, 5]).2.array.drop (verdict [17, 2, 97, 98, 5]).2.offset = [5] := by
    unfold verdict; rw [deserialize_eq]; decide +kernel
  have h6 : (verdict [17, 2, 97, 98, 5]).2.offset ≤ (verdict [17, 2, 97, 98, 5]).2.array.length := by
    unfold verdict; rw [deserialize_eq]; decide +kernel
  obtain ⟨s₁, h7, -⟩ := C90_tag_stays (Engine.std true) ByteArrayReader.view.toView ByteArrayReader.view.toView
    (.new [17, 2, 97, 98, 5]) (verdict [17, 2, 97, 98, 5]).2 (.new ([17, 2, 97, 98, 5] ++ x)) [17, 2, 97, 98, 5] x [5] t
    (ByteArrayReader.view_new _) (ByteArrayReader.view_new _) (Prod.ext h rfl) ⟨h6, h5.symm⟩
  exact ⟨t, by unfold verdict; rw [h7], h'⟩
example (x : Bytes) : (verdict ([1, 2] ++ x)).1 = .err .corruptedData :=
  C90_error_stays (Engine.std true) ByteArrayReader.view.toView ByteArrayReader.view.toView (.new [1, 2])
    (.new ([1, 2] ++ x)) [1, 2] x .corruptedData (ByteArrayReader.view_new _) (ByteArrayReader.view_new _)
    (by
      have hm : (match (verdict [1, 2]).1 with
        | .err .corruptedData => true
        | _ => false) = true := by unfold verdict; rw [deserialize_eq]; decide +kernel
      split at hm
      · assumption
      · cases hm) nofun
-- a sequence of three bytes with a truncated tag in it: final, though an i/o error
example (x : Bytes) : SameClass (verdict ([22] ++ [3] ++ [17, 2, 97])).1 (verdict ([22] ++ [3] ++ [17, 2, 97] ++ x)).1 := by
  have h1 : IsILInt [22] (22 : UInt64).toNat := ⟨by decide, .inl ⟨22, rfl, by decide, rfl⟩⟩
  have h2 : IsILInt [3] 3 := ⟨by decide, .inl ⟨3, rfl, by decide, rfl⟩⟩
  unfold verdict
  generalize (Engine.std true : Engine Empty) = e
  exact (C90_final e ByteArrayReader.view.toView ByteArrayReader.view.toView _ _ 22 3 [22] [3] [17, 2, 97] x
    h1 (.inr ⟨by decide, h2⟩) (Nat.le_refl _) (ByteArrayReader.view_new _) (ByteArrayReader.view_new _)).1
-- the ILInt tag is complete before its nine bytes are
example : (verdict [10, 5]).1 matches .ok (.atom (.ilint 10 5)) := by unfold verdict; rw [deserialize_eq]; decide +kernel
end

end Verif.Props
