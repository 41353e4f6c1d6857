import Verif.Spec.Custom
import Verif.Proof.Language
/-!
# The parser of an arbitrary factory accepts exactly its language
-/
namespace Verif
open Spec
set_option linter.unusedSectionVars false
variable {P : Type} [TagPayload P] [Env]

namespace Acc

/-- The payload reads as parsers. -/
def PayAt (f : Option (Tag P) → Parser (Tag P)) (t₀ t : Tag P) (v : Bytes) : Prop :=
  ∃ id p₀ p, t₀ = .atom (.payload id p₀) ∧ t = .atom (.payload id p) ∧
    Parser.rprog f (TagPayload.deserialize p₀ v.length) v = .ok p []

theorem valueForm_not_payload {L : Tag P → Bytes → Prop} {M : MapMaking} {t : Tag P} {x : Bytes} (h : ValueForm M L t x) :
    t.kind ≠ .payload := by
  cases t with
  | atom a => cases a <;> first | exact h.elim | (intro h; cases h)
  | _ => intro h; cases h

theorem payAt_kind {f : Option (Tag P) → Parser (Tag P)} {t₀ t : Tag P} {v : Bytes} (h : PayAt f t₀ t v) :
    t₀.kind = .payload ∧ t.kind = .payload ∧ t.id = t₀.id := by
  obtain ⟨id, p₀, p, rfl, rfl, -⟩ := h
  exact ⟨rfl, rfl, rfl⟩

theorem anyValueInto (hr : Roomy) {f : Option (Tag P) → Parser (Tag P)} {L : Tag P → Bytes → Prop} (hf : Acc (f none) L)
    (hL : ∀ t x, L t x → 1 ≤ x.length) {vs : Nat} (hv : vs ≤ maxTagSize) (t₀ : Tag P)
    (hi : t₀.id = Id.ilint ∨ t₀.id = Id.signedILInt → oneILInt t₀.kind ∧ 9 ≤ vs) :
    Acc (Parser.tagValueInto f vs t₀) fun t x =>
      t.kind = t₀.kind ∧ t.id = t₀.id ∧ (ValueForm made L t x ∨ PayAt f t₀ t x) ∧
        ((t₀.id = Id.ilint ∨ t₀.id = Id.signedILInt) ∨ x.length = vs) := by
  by_cases hp : t₀.kind = .payload
  · -- the user's code
    have hno : ¬ (t₀.id = Id.ilint ∨ t₀.id = Id.signedILInt) := by
      intro h
      have := (hi h).1
      rw [hp] at this
      exact this
    obtain ⟨id, p₀, rfl⟩ : ∃ id p₀, t₀ = .atom (.payload id p₀) := by
      cases t₀ with
      | atom a => cases a <;> first | exact ⟨_, _, rfl⟩ | cases hp
      | _ => cases hp
    unfold Parser.tagValueInto
    refine regionRel (L := fun t x => ∃ p, t = .atom (.payload id p) ∧
        Parser.rprog f (TagPayload.deserialize p₀ vs) x = .ok p [])
      (fun s bs t rest hb => ?_) |>.congr fun t x => ?_
    · rw [Parser.bind_eq_ok]
      have hv : Parser.tagValue f vs (.atom (.payload id p₀)) =
        (do let p ← Parser.rprog f (TagPayload.deserialize p₀ vs); Pure.pure (Tag.atom (.payload id p)) : Parser (Tag P)) := by
        show ((Parser.rprog f (TagPayload.deserialize p₀ vs) >>= fun p' => Pure.pure (Atom.payload id p')) >>= _ : Parser (Tag P)) = _
        rw [Parser.bind_assoc]
        rfl
      rw [hv]
      simp only [Parser.bind_eq_ok]
      constructor
      · rintro ⟨t', r, ⟨p, r', h1, h2⟩, h3⟩
        cases h2
        unfold Parser.checkEmpty at h3
        split at h3
        · cases h3
        · next hc =>
          simp only [PRes.ok.injEq] at h3
          obtain ⟨rfl, rfl⟩ := h3
          have h0 : r.length + s = 0 := by
            by_cases h0 : r.length + s = 0
            · exact h0
            · exact absurd ⟨fun h => hno (.inl h), fun h => hno (.inr h), h0⟩ hc
          have hr0 : r = [] := List.length_eq_zero_iff.mp (by omega)
          subst hr0
          exact ⟨by simpa using h0, rfl, p, rfl, h1⟩
      · rintro ⟨rfl, rfl, p, rfl, h⟩
        exact ⟨.atom (.payload id p), [], ⟨p, [], h, rfl⟩, by unfold Parser.checkEmpty; rw [if_neg (by simp)]⟩
    · constructor
      · rintro ⟨rfl, p, rfl, h⟩
        exact ⟨rfl, rfl, .inr ⟨id, p₀, p, rfl, rfl, h⟩, .inr rfl⟩
      · rintro ⟨h1, -, h3, h4⟩
        have h4 := h4.resolve_left hno
        subst h4
        rcases h3 with h3 | ⟨_, _, p, h5, rfl, h6⟩
        · exact absurd h1 (valueForm_not_payload h3)
        · cases h5
          exact ⟨rfl, p, rfl, h6⟩
  · have hval := tagValue hr hf hL hv t₀ hp
    have hnp : ∀ t x, ¬ PayAt f t₀ t x := fun t x h => hp (payAt_kind h).1
    by_cases hk : t₀.id = Id.ilint ∨ t₀.id = Id.signedILInt
    · -- the ids whose region is not closed
      have hi' : oneILInt t₀.kind ↔ t₀.id = Id.ilint ∨ t₀.id = Id.signedILInt := ⟨fun _ => hk, fun _ => (hi hk).1⟩
      refine (tagValueInto hr hf hL hv t₀ hp hi' fun _ => (hi hk).2).congr fun t x => ?_
      constructor
      · rintro ⟨h1, h2, h3, -⟩; exact ⟨h1, h2, .inl h3, .inl hk⟩
      · rintro ⟨h1, h2, h3, -⟩; exact ⟨h1, h2, h3.resolve_right (hnp _ _), .inl (hi hk).1⟩
    · unfold Parser.tagValueInto
      refine regionRel (L := fun t x => t.kind = t₀.kind ∧ t.id = t₀.id ∧ ValueForm made L t x ∧
          (oneILInt t₀.kind ∨ x.length = vs)) (fun s bs t rest hb => ?_) |>.congr fun t x => ?_
      · rw [Parser.bind_eq_ok]
        constructor
        · rintro ⟨t', r, h1, h2⟩
          obtain ⟨x, rfl, h3, h4, h5, h6⟩ := (hval _ _ _).mp h1
          unfold Parser.checkEmpty at h2
          split at h2
          · cases h2
          · next hc =>
            simp only [PRes.ok.injEq] at h2
            obtain ⟨rfl, rfl⟩ := h2
            have h0 : r.length + s = 0 := by
              by_cases h0 : r.length + s = 0
              · exact h0
              · rw [h4] at hc
                exact absurd ⟨fun h => hk (.inl h), fun h => hk (.inr h), h0⟩ hc
            have hr0 : r = [] := List.length_eq_zero_iff.mp (by omega)
            subst hr0
            exact ⟨by simpa using h0, rfl, h3, h4, by simpa using h5, by simpa using h6⟩
        · rintro ⟨rfl, rfl, h3, h4, h5, h6⟩
          exact ⟨t, [], (hval _ _ _).mpr ⟨bs, by simp, h3, h4, h5, h6⟩, by unfold Parser.checkEmpty; rw [if_neg (by simp)]⟩
      · constructor
        · rintro ⟨h, h1, h2, h3, -⟩; exact ⟨h1, h2, .inl h3, .inr h⟩
        · rintro ⟨h1, h2, h3, h4⟩
          have h4 := h4.resolve_left hk
          exact ⟨h4, h1, h2, h3.resolve_right (hnp _ _), .inr h4⟩

/-- The language of the parser with `depth` calls. -/
def FAt (e : Engine P) : Nat → Tag P → Bytes → Prop
  | 0, _, _ => False
  | depth + 1, t, bs => ∃ t₀ h v, e.createTag t.id = .ok (some t₀) ∧ t₀.kind = t.kind ∧ IsILInt h t.id.toNat ∧
      (ValueForm made (FAt e depth) t v ∨ PayAt (Parser.tag e depth) t₀ t v) ∧ v.length ≤ maxValue ∧
      (t.id.toNat ≤ 15 ∧ bs = h ++ v ∨ 16 ≤ t.id.toNat ∧ ∃ l, IsILInt l v.length ∧ bs = h ++ l ++ v)

theorem fAt_length {e : Engine P} {k : Nat} {t : Tag P} {x : Bytes} (h : FAt e k t x) : 1 ≤ x.length := by
  cases k with
  | zero => exact h.elim
  | succ k =>
    obtain ⟨-, hd, v, -, -, h1, -, -, ⟨-, rfl⟩ | ⟨-, l, -, rfl⟩⟩ := h <;>
      (have := isILInt_length h1; simp only [List.length_append]; omega)

theorem anyTag (hr : Roomy) {e : Engine P} (he : Regular e) (k : Nat) : Acc (Parser.tag e k none) (FAt e k) := by
  induction k with
  | zero => exact diverge
  | succ k ih =>
    have hil : ∀ id t₀, e.createTag id = .ok (some t₀) → id = Id.ilint ∨ id = Id.signedILInt → oneILInt t₀.kind := by
      intro id t₀ hc h
      have hle : id.toNat ≤ 15 := by rcases h with rfl | rfl <;> decide
      have := he.implicit id t₀ hc hle
      rcases h with rfl | rfl
      · have h10 : (Id.ilint : UInt64).toNat = 10 := rfl
        rw [h10] at this
        cases hk : t₀.kind <;> rw [hk] at this <;> simp [standardId] at this ⊢ <;> trivial
      · have h14 : (Id.signedILInt : UInt64).toNat = 14 := rfl
        rw [h14] at this
        cases hk : t₀.kind <;> rw [hk] at this <;> simp [standardId] at this ⊢ <;> trivial
    have hstep : ∀ id size (hs : size ≤ maxTagSize) (h9 : id = Id.ilint ∨ id = Id.signedILInt → 9 ≤ size),
        Acc (Parser.lift (e.createTag id) >>= fun t => match t with
          | none => Parser.fail .unknownTag
          | some t => Parser.tagValueInto (Parser.tag e k) size t)
        fun t x => ∃ t₀, e.createTag id = .ok (some t₀) ∧ t.kind = t₀.kind ∧ t.id = id ∧
          (ValueForm made (FAt e k) t x ∨ PayAt (Parser.tag e k) t₀ t x) ∧
          ((id = Id.ilint ∨ id = Id.signedILInt) ∨ x.length = size) := by
      intro id size hs h9
      refine (liftBind (K := fun t₀ t x => ∃ t₁, t₀ = some t₁ ∧ t.kind = t₁.kind ∧ t.id = id ∧
        (ValueForm made (FAt e k) t x ∨ PayAt (Parser.tag e k) t₁ t x) ∧
        ((id = Id.ilint ∨ id = Id.signedILInt) ∨ x.length = size)) fun t₀ h => ?_).congr fun t x => ?_
      · cases t₀ with
        | none => exact (fail _).congr fun t x => ⟨False.elim, fun ⟨_, h, _⟩ => nomatch h⟩
        | some t₁ =>
          have hown := he.own id t₁ h
          refine (anyValueInto hr ih (fun _ _ h => fAt_length h) hs t₁ (by
            rw [hown]; exact fun h' => ⟨hil id t₁ h h', h9 h'⟩)).congr fun t x => ?_
          rw [hown]
          exact ⟨fun h => ⟨t₁, rfl, h⟩, fun ⟨_, h, h'⟩ => by cases h; exact h'⟩
      · constructor
        · rintro ⟨_, h, t₁, rfl, h4⟩; exact ⟨t₁, h, h4⟩
        · rintro ⟨t₁, h, h4⟩; exact ⟨_, h, t₁, rfl, h4⟩
    have himp : ∀ id : UInt64, isImplicitTag id = true ↔ id.toNat ≤ 15 := fun id => by
      simp only [isImplicitTag, decide_eq_true_eq]; rfl
    unfold Parser.tag
    refine (bind ilint (K := fun id t x => ∃ t₀ v, e.createTag id = .ok (some t₀) ∧ t.kind = t₀.kind ∧ t.id = id ∧
      (ValueForm made (FAt e k) t v ∨ PayAt (Parser.tag e k) t₀ t v) ∧
      v.length ≤ maxValue ∧ (id.toNat ≤ 15 ∧ x = v ∨ 16 ≤ id.toNat ∧ ∃ l, IsILInt l v.length ∧ x = l ++ v)) fun id => ?_).congr
      fun t x => ?_
    · by_cases hi : id.toNat ≤ 15
      · rw [tagSize_implicit ((himp id).mpr hi)]
        have h16 := implicitLen_le id.toNat
        have hsz := implicit_size id hi
        have hmax : 16 ≤ maxTagSize := by decide
        have hval : ∀ t₀ (t : Tag P) v, e.createTag id = .ok (some t₀) → t.kind = t₀.kind → t.id = id →
            (ValueForm made (FAt e k) t v ∨ PayAt (Parser.tag e k) t₀ t v) → StdTag true t ∧ ValueForm made (FAt e k) t v := by
          intro t₀ t v h1 h2 h3 h4
          have hs := he.implicit id t₀ h1 hi
          refine ⟨.inl (by rw [h2, h3]; exact hs), h4.resolve_right fun h => ?_⟩
          rw [(payAt_kind h).1] at hs
          cases hs
        refine (liftBind fun size hs => hstep id size (tagSizeToUsize_iff.mp hs).2 fun h => ?_).congr fun t x => ?_
        · have := (tagSizeToUsize_iff.mp hs).1
          rw [hsz] at this
          rcases h with rfl | rfl
          · exact Nat.le_of_eq this
          · exact Nat.le_of_eq this
        · constructor
          · rintro ⟨size, h1, t₀, h2, h3, h4, h5, h6⟩
            obtain ⟨h1, h1'⟩ := tagSizeToUsize_iff.mp h1
            refine ⟨t₀, x, h2, h3, h4, h5, ?_, .inl ⟨hi, rfl⟩⟩
            obtain ⟨h7, h8⟩ := hval t₀ t x h2 h3 h4 h5
            rw [maxValue_eq]
            rcases h6 with h6 | h6
            · have := valueForm_ilint h8 (by rw [h3]; exact hil id t₀ h2 h6); omega
            · omega
          · rintro ⟨t₀, v, h2, h3, rfl, h5, h6, ⟨-, rfl⟩ | ⟨h, -⟩⟩
            · refine ⟨implicitLen t.id.toNat, tagSizeToUsize_iff.mpr ⟨hsz, by omega⟩, t₀, h2, h3, rfl, h5, ?_⟩
              obtain ⟨h7, h8⟩ := hval t₀ t x h2 h3 rfl h5
              by_cases hk : oneILInt t.kind
              · exact .inl ((stdTag_ilint h7).mp hk)
              · exact .inr (implicit_length h7 hi h8 hk)
            · omega
      · rw [tagSize_explicit (by have := himp id; simp only [hi, iff_false, Bool.not_eq_true] at this; exact this),
          Parser.bind_assoc]
        have hno : ¬ (id = Id.ilint ∨ id = Id.signedILInt) := by
          rintro (rfl | rfl) <;> exact hi (by decide)
        refine (bind ilint fun l => liftBind fun size hs => hstep id size (tagSizeToUsize_iff.mp hs).2 fun h =>
          absurd h hno).congr fun t x => ?_
        constructor
        · rintro ⟨n, l, v, rfl, h1, size, h2, t₀, h3, h4, h5, h6, h7⟩
          obtain ⟨h2, h2'⟩ := tagSizeToUsize_iff.mp h2
          have h7 := h7.resolve_left hno
          exact ⟨t₀, v, h3, h4, h5, h6, by rw [maxValue_eq]; omega, .inr ⟨by omega, l, by rw [h7, ← h2]; exact h1, rfl⟩⟩
        · rintro ⟨t₀, v, h3, h4, h5, h6, h7, ⟨h, -⟩ | ⟨-, l, h1, rfl⟩⟩
          · omega
          · rw [maxValue_eq] at h7
            have h64 : v.length < 2 ^ 64 := by unfold maxTagSize at h7; omega
            have h8 := ofNat_toNat64 h64
            exact ⟨UInt64.ofNat v.length, l, v, rfl, by rw [h8]; exact h1, v.length,
              tagSizeToUsize_iff.mpr ⟨h8, h7⟩, t₀, h3, h4, h5, h6, .inr rfl⟩
    · constructor
      · rintro ⟨id, h, y, rfl, h1, t₀, v, h2, h3, rfl, h4, h5, ⟨h6, rfl⟩ | ⟨h6, l, h7, rfl⟩⟩
        · exact ⟨t₀, h, _, h2, h3.symm, h1, h4, h5, .inl ⟨h6, rfl⟩⟩
        · exact ⟨t₀, h, v, h2, h3.symm, h1, h4, h5, .inr ⟨h6, l, h7, by simp⟩⟩
      · rintro ⟨t₀, h, v, h2, h3, h1, h4, h5, ⟨h6, rfl⟩ | ⟨h6, l, h7, rfl⟩⟩
        · exact ⟨t.id, h, v, rfl, h1, t₀, v, h2, h3.symm, rfl, h4, h5, .inl ⟨h6, rfl⟩⟩
        · exact ⟨t.id, h, l ++ v, by simp, h1, t₀, v, h2, h3.symm, rfl, h4, h5, .inr ⟨h6, l, h7, rfl⟩⟩

/-- The user's code as a parser. -/
theorem payloadReads_iff (e : Engine P) (p₀ p : P) (v : Bytes) :
    PayloadReads e p₀ p v ↔ Parser.rprog (Parser.call e) (TagPayload.deserialize p₀ v.length) v = .ok p [] := by
  have hs := sim_rprog (V := ByteArrayReader.view.toView)
    (sim_deserializeFuel e Factory.fuel ByteArrayReader ByteArrayReader.view.toView)
    (TagPayload.deserialize p₀ v.length) p₀ (ByteArrayReader.new v) v (ByteArrayReader.view_new _)
  change MatchesS _ (RProg.run (Factory.methods e) _ _) (Parser.rprog (Parser.call e) _ _) at hs
  have hav : ∀ (s : ByteArrayReader) (rest : Bytes), ByteArrayReader.view.toView.R s rest → (s.available = 0 ↔ rest = []) := by
    intro s rest h
    have h3 := h.2
    unfold ByteArrayReader.available ByteArrayReader.len
    rw [h3, List.drop_eq_nil_iff]
    omega
  unfold PayloadReads
  cases hq : Parser.rprog (Parser.call e) (TagPayload.deserialize p₀ v.length) v with
  | ok a rest =>
    rw [hq] at hs
    obtain ⟨s', hs1, hs2⟩ := hs
    rw [hs1]
    simp only [Prod.mk.injEq, true_and, PRes.ok.injEq]
    constructor
    · rintro ⟨r, ⟨rfl, rfl⟩, h⟩; exact ⟨rfl, (hav _ _ hs2).mp h⟩
    · rintro ⟨rfl, rfl⟩; exact ⟨s', ⟨rfl, rfl⟩, (hav _ _ hs2).mpr rfl⟩
  | short => rw [hq] at hs; obtain ⟨_, _, _, hs, _⟩ := hs; simp [hs]
  | fail e => rw [hq] at hs; obtain ⟨_, _, hs⟩ := hs; simp [hs]
  | panic => rw [hq] at hs; obtain ⟨_, _, hs⟩ := hs; simp [hs]
  | diverge => rw [hq] at hs; obtain ⟨_, _, hs⟩ := hs; simp [hs]

theorem payAt_iff (e : Engine P) {k : Nat} {t₀ t : Tag P} {v : Bytes} (hv : v.length < k) :
    PayAt (Parser.tag e k) t₀ t v ↔ PayloadForm e t₀ t v := by
  have : ∀ r, Parser.rprog (Parser.tag e k) r v = Parser.rprog (Parser.call e) r v := fun r =>
    Agree.rprog (N := v.length) (fun o => Local.tag e k o) (fun o bs hb => tag_eq_call e o (by omega)) r v (Nat.le_refl _)
  unfold PayAt PayloadForm
  simp only [payloadReads_iff, this]

/-- Only the parts of the input matter. -/
theorem listed_short {α : Type} {L L' : α → Bytes → Prop} {n : Nat} (h : ∀ a x, x.length ≤ n → L a x → L' a x) (as : List α)
    (x : Bytes) (hn : x.length ≤ n) (hl : Listed L as x) : Listed L' as x := by
  induction as generalizing x with
  | nil => exact hl
  | cons a as ih =>
    obtain ⟨x, y, rfl, h1, h2⟩ := hl
    rw [List.length_append] at hn
    exact ⟨x, y, rfl, h a x (by omega) h1, ih y (by omega) h2⟩

theorem valueForm_short {M : MapMaking} {L L' : Tag P → Bytes → Prop} {n : Nat} (h : ∀ t x, x.length ≤ n → L t x → L' t x)
    (t : Tag P) (v : Bytes) (hn : v.length ≤ n) (hv : ValueForm M L t v) : ValueForm M L' t v := by
  cases t with
  | atom a => exact hv
  | seq id ts => exact listed_short h _ _ hn hv
  | array id ts =>
    obtain ⟨c, x, rfl, h1, h2⟩ := hv
    rw [List.length_append] at hn
    exact ⟨c, x, rfl, h1, listed_short h _ _ (by omega) h2⟩
  | dict id es =>
    obtain ⟨ws, ⟨c, x, rfl, h1, h2⟩, h3⟩ := hv
    rw [List.length_append] at hn
    refine ⟨ws, ⟨c, x, rfl, h1, listed_short (n := n) ?_ _ _ (by omega) h2⟩, h3⟩
    rintro e _ hl ⟨x, y, rfl, h4, h5⟩
    rw [List.length_append] at hl
    exact ⟨x, y, rfl, h4, h _ _ (by omega) h5⟩

theorem fAt_iff (e : Engine P) {k : Nat} (t : Tag P) (x : Bytes) (hx : x.length < k) :
    FAt e k t x ↔ CustomFormAt made e k t x := by
  induction k generalizing t x with
  | zero => omega
  | succ k ih =>
    have hlen : ∀ (h v : Bytes), IsILInt h t.id.toNat →
        (t.id.toNat ≤ 15 ∧ x = h ++ v ∨ 16 ≤ t.id.toNat ∧ ∃ l, IsILInt l v.length ∧ x = h ++ l ++ v) → v.length < k := by
      rintro h v h1 (⟨-, rfl⟩ | ⟨-, l, -, rfl⟩) <;>
        (have := isILInt_length h1; simp only [List.length_append] at hx; omega)
    constructor
    · rintro ⟨t₀, h, v, h1, h2, h3, h4, h5, h6⟩
      have hv := hlen h v h3 h6
      exact ⟨t₀, h, v, h1, h2, h3, h4.imp
        (valueForm_short (n := v.length) (fun t x hx => (ih t x (by omega)).mp) t v (Nat.le_refl _)) (payAt_iff e hv).mp, h5, h6⟩
    · rintro ⟨t₀, h, v, h1, h2, h3, h4, h5, h6⟩
      have hv := hlen h v h3 h6
      exact ⟨t₀, h, v, h1, h2, h3, h4.imp
        (valueForm_short (n := v.length) (fun t x hx => (ih t x (by omega)).mpr) t v (Nat.le_refl _)) (payAt_iff e hv).mpr, h5, h6⟩

end Acc

theorem customFormAt_mono {M M' : MapMaking} (hM : ∀ α ws es, M α ws es → M' α ws es) (e : Engine P) {k k' : Nat}
    (hk : k ≤ k') (t : Tag P) (x : Bytes) (h : CustomFormAt M e k t x) : CustomFormAt M' e k' t x := by
  induction k generalizing k' t x with
  | zero => exact h.elim
  | succ k ih =>
    obtain ⟨k', rfl⟩ : ∃ j, k' = j + 1 := ⟨k' - 1, by omega⟩
    obtain ⟨t₀, hd, v, h1, h2, h3, h4, h5⟩ := h
    exact ⟨t₀, hd, v, h1, h2, h3, h4.imp (valueForm_mono hM (fun t x h => ih (by omega) t x h) t v) id, h5⟩

/-- A factory reads the tag and leaves `rest` exactly if the input is a form of the tag followed by `rest`. -/
theorem top_custom (hr : Roomy) {e : Engine P} (he : Regular e) (bs : Bytes) (t : Tag P) (rest : Bytes) :
    Parser.top e bs = .ok t rest ↔ ∃ x k, bs = x ++ rest ∧ CustomFormAt Acc.made e k t x := by
  constructor
  · intro h
    rw [← tag_eq_top _ (Nat.lt_succ_self _)] at h
    obtain ⟨x, rfl, h2⟩ := (Acc.anyTag hr he _ _ _ _).mp h
    exact ⟨x, _, rfl, (Acc.fAt_iff e _ _ (by rw [List.length_append]; omega)).mp h2⟩
  · rintro ⟨x, k, rfl, h2⟩
    rw [← tag_eq_top (k := (x ++ rest).length + 1 + k) _ (by omega)]
    refine (Acc.anyTag hr he _ _ _ _).mpr ⟨x, rfl, (Acc.fAt_iff e _ _ (by rw [List.length_append]; omega)).mpr ?_⟩
    exact customFormAt_mono (fun _ _ _ h => h) e (by omega) t x h2

theorem customFormAt_made {e : Engine P} {k : Nat} (t : Tag P) (x : Bytes) (h : CustomFormAt (fun _ => Latest) e k t x) :
    ∃ t', CustomFormAt Acc.made e k t' x ∧ Same t' t := by
  induction k generalizing t x with
  | zero => exact h.elim
  | succ k ih =>
    obtain ⟨t₀, hd, v, h1, h2, h3, h4, h5⟩ := h
    rcases h4 with h4 | h4
    · obtain ⟨t', h6, h7⟩ := valueForm_made ih t v h4
      obtain ⟨hk, hi⟩ := same_kind_id h7
      exact ⟨t', ⟨t₀, hd, v, by rw [hi]; exact h1, by rw [hk]; exact h2, by rw [hi]; exact h3, .inl h6, by rw [hi]; exact h5⟩, h7⟩
    · exact ⟨t, ⟨t₀, hd, v, h1, h2, h3, .inr h4, h5⟩, by obtain ⟨_, _, _, -, rfl, -⟩ := h4; exact .atom _⟩

theorem customFormAt_same {e : Engine P} {k : Nat} (t u : Tag P) (x : Bytes) (h : CustomFormAt (fun _ => Latest) e k t x)
    (hs : Same t u) (hu : MapsOk u) : CustomFormAt (fun _ => Latest) e k u x := by
  induction k generalizing t u x with
  | zero => exact h.elim
  | succ k ih =>
    obtain ⟨t₀, hd, v, h1, h2, h3, h4, h5⟩ := h
    obtain ⟨hk, hi⟩ := same_kind_id hs
    refine ⟨t₀, hd, v, by rw [← hi]; exact h1, by rw [← hk]; exact h2, by rw [← hi]; exact h3, ?_, by rw [← hi]; exact h5⟩
    rcases h4 with h4 | h4
    · exact .inl (valueForm_same ih t u v h4 hs hu)
    · obtain ⟨_, _, _, rfl, rfl, h6⟩ := h4
      cases hs
      exact .inr ⟨_, _, _, rfl, rfl, h6⟩

theorem customFormAt_mapsOk {e : Engine P} {k : Nat} (t : Tag P) (x : Bytes) (h : CustomFormAt (fun _ => Latest) e k t x) :
    MapsOk t := by
  induction k generalizing t x with
  | zero => exact h.elim
  | succ k ih =>
    obtain ⟨t₀, hd, v, -, -, -, h4 | h4, -⟩ := h
    · exact valueForm_within ih t v h4 (valueForm_mapOk t v h4)
    · obtain ⟨_, _, _, -, rfl, -⟩ := h4
      intro w hw
      cases hw
      trivial

end Verif
