import Verif.Spec.Kin
import Verif.Proof.Upgrade
import Verif.Proof.Evolve
/-!
# Versions of a program that develop independently
-/
namespace Verif
open Spec
set_option linter.unusedSectionVars false

section
variable {P Q : Type} {c : P → Q} {σ : Type} [Reader σ] [Env] {f f' : FactoryDeser P}

/-- What both read has the same content, and they leave the reader alike. -/
def MeetF (c : P → Q) (f f' : FactoryDeser P) : Prop := ∀ (σ : Type) [Reader σ] (x y y' : σ) (t t' : Tag P),
  f σ none x = (.ok t, y) → f' σ none x = (.ok t', y') → mapTag c t = mapTag c t' ∧ y = y'

namespace Meet

theorem pushWhile (hf : MeetF c f f') (n : Nat) {ts us ts' us' : List (Tag P)} {l l' l'' : Limited σ}
    (h : Tag.pushWhileNotEmpty f n (ts, l) = (.ok (), (us, l'))) (h' : Tag.pushWhileNotEmpty f' n (ts', l) = (.ok (), (us', l'')))
    (hc : mapTags c ts = mapTags c ts') : mapTags c us = mapTags c us' ∧ l' = l'' := by
  induction n generalizing ts ts' l with
  | zero => cases h
  | succ n ih =>
    unfold Tag.pushWhileNotEmpty at h h'
    simp only at h h'
    by_cases he : l.empty = true
    · rw [if_pos he] at h h'
      cases h
      cases h'
      exact ⟨hc, rfl⟩
    · rw [if_neg he] at h h'
      obtain ⟨t, ⟨u, l₁⟩, h1, h2⟩ := RawTagScanner.bind_ok_inv h
      obtain ⟨t', ⟨u', l₁'⟩, h1', h2'⟩ := RawTagScanner.bind_ok_inv h'
      obtain ⟨h1, rfl⟩ := Up.onReader_inv h1
      obtain ⟨h1', rfl⟩ := Up.onReader_inv h1'
      obtain ⟨h4, rfl⟩ := hf _ _ _ _ _ _ h1 h1'
      obtain ⟨_, _, h5, h6⟩ := RawTagScanner.bind_ok_inv h2
      obtain ⟨_, _, h5', h6'⟩ := RawTagScanner.bind_ok_inv h2'
      cases h5
      cases h5'
      exact ih h6 h6' (by rw [mapTags_eq, mapTags_eq] at hc; simp [mapTags_eq, hc, h4])

theorem pushTags (hf : MeetF c f f') (n : Nat) {ts us ts' us' : List (Tag P)} {l l' l'' : σ}
    (h : Tag.pushTags f n (ts, l) = (.ok (), (us, l'))) (h' : Tag.pushTags f' n (ts', l) = (.ok (), (us', l'')))
    (hc : mapTags c ts = mapTags c ts') : mapTags c us = mapTags c us' ∧ l' = l'' := by
  induction n generalizing ts ts' l with
  | zero => cases h; cases h'; exact ⟨hc, rfl⟩
  | succ n ih =>
    unfold Tag.pushTags at h h'
    obtain ⟨t, ⟨u, l₁⟩, h1, h2⟩ := RawTagScanner.bind_ok_inv h
    obtain ⟨t', ⟨u', l₁'⟩, h1', h2'⟩ := RawTagScanner.bind_ok_inv h'
    obtain ⟨h1, rfl⟩ := Up.onReader_inv h1
    obtain ⟨h1', rfl⟩ := Up.onReader_inv h1'
    obtain ⟨h4, rfl⟩ := hf _ _ _ _ _ _ h1 h1'
    obtain ⟨_, _, h5, h6⟩ := RawTagScanner.bind_ok_inv h2
    obtain ⟨_, _, h5', h6'⟩ := RawTagScanner.bind_ok_inv h2'
    cases h5
    cases h5'
    exact ih h6 h6' (by rw [mapTags_eq, mapTags_eq] at hc; simp [mapTags_eq, hc, h4])

theorem insertEntries (hf : MeetF c f f') (n : Nat) {ts us ts' us' : List (String × Tag P)} {l l' l'' : σ}
    (h : Tag.insertEntries f n (ts, l) = (.ok (), (us, l'))) (h' : Tag.insertEntries f' n (ts', l) = (.ok (), (us', l'')))
    (hc : mapEntries c ts = mapEntries c ts') : mapEntries c us = mapEntries c us' ∧ l' = l'' := by
  induction n generalizing ts ts' l with
  | zero => cases h; cases h'; exact ⟨hc, rfl⟩
  | succ n ih =>
    unfold Tag.insertEntries at h h'
    obtain ⟨k, ⟨u, l₁⟩, h1, h2⟩ := RawTagScanner.bind_ok_inv h
    obtain ⟨k', ⟨u', l₁'⟩, h1', h2'⟩ := RawTagScanner.bind_ok_inv h'
    obtain ⟨h1, rfl⟩ := Up.onReader_inv h1
    obtain ⟨h1', rfl⟩ := Up.onReader_inv h1'
    cases h1'.symm.trans h1
    obtain ⟨t, ⟨u, l₂⟩, h3, h4⟩ := RawTagScanner.bind_ok_inv h2
    obtain ⟨t', ⟨u', l₂'⟩, h3', h4'⟩ := RawTagScanner.bind_ok_inv h2'
    obtain ⟨h3, rfl⟩ := Up.onReader_inv h3
    obtain ⟨h3', rfl⟩ := Up.onReader_inv h3'
    obtain ⟨h6, rfl⟩ := hf _ _ _ _ _ _ h3 h3'
    obtain ⟨_, _, h7, h8⟩ := RawTagScanner.bind_ok_inv h4
    obtain ⟨_, _, h7', h8'⟩ := RawTagScanner.bind_ok_inv h4'
    cases h7
    cases h7'
    exact ih h8 h8' (mapEntries_insert k hc h6)

theorem zoom {τ τ' α : Type} {m m' : Act TagErr (τ × σ) α} {wrap : τ → τ'} {t₀ : τ} {x y y' : τ' × σ} {a a' : α}
    {C : τ' → τ' → Prop} (h : Verif.zoom wrap t₀ m x = (.ok a, y)) (h' : Verif.zoom wrap t₀ m' x = (.ok a', y'))
    (hm : ∀ u s u' s', m (t₀, x.2) = (.ok a, (u, s)) → m' (t₀, x.2) = (.ok a', (u', s')) → C (wrap u) (wrap u') ∧ s = s') :
    C y.1 y'.1 ∧ y.2 = y'.2 := by
  unfold Verif.zoom at h h'
  rcases hd : m (t₀, x.2) with ⟨r, u, s⟩
  rcases hd' : m' (t₀, x.2) with ⟨r', u', s'⟩
  rw [hd] at h
  rw [hd'] at h'
  cases h
  cases h'
  exact hm u s u' s' hd hd'

theorem limited {τ α : Type} {m m' : Act TagErr (τ × Limited σ) α} {n : Nat} {t₀ u u' : τ} {x s s' : σ} {a a' : α}
    {C : Prop} (h : Verif.withLimited n m (t₀, x) = (.ok a, (u, s))) (h' : Verif.withLimited n m' (t₀, x) = (.ok a', (u', s')))
    (hm : ∀ l l', m (t₀, ⟨x, n⟩) = (.ok a, (u, l)) → m' (t₀, ⟨x, n⟩) = (.ok a', (u', l')) → C ∧ l = l') :
    C ∧ s = s' := by
  unfold Verif.withLimited at h h'
  simp only at h h'
  rcases hd : m (t₀, ⟨x, n⟩) with ⟨r, v, l⟩
  rcases hd' : m' (t₀, ⟨x, n⟩) with ⟨r', v', l'⟩
  rw [hd] at h
  rw [hd'] at h'
  cases h
  cases h'
  obtain ⟨h1, rfl⟩ := hm l l' hd hd'
  exact ⟨h1, rfl⟩

theorem tagValue [TagPayload P] (hf : MeetF c f f') (vs : Nat) (t : Tag P) (hk : t.kind ≠ .payload) {x y y' : Tag P × σ}
    (h : Tag.deserializeValue f vs t x = (.ok (), y)) (h' : Tag.deserializeValue f' vs t x = (.ok (), y')) :
    mapTag c y.1 = mapTag c y'.1 ∧ y.2 = y'.2 := by
  cases t with
  | atom a =>
    unfold Tag.deserializeValue at h h'
    refine zoom (C := fun a b => mapTag c a = mapTag c b) h h' fun u s u' s' hu hu' => ?_
    rw [Atom.factory_free hk f' f] at hu'
    rw [show (Atom.deserializeValue f vs a : Act TagErr (Atom P × σ) Unit) (a, x.2) = _ from hu'] at hu
    cases hu
    exact ⟨rfl, rfl⟩
  | seq id ts =>
    unfold Tag.deserializeValue at h h'
    refine zoom (C := fun a b => mapTag c a = mapTag c b) h h' fun us s us' s' hu hu' => ?_
    refine limited hu hu' fun l l' hl hl' => ?_
    obtain ⟨_, _, h1, h2⟩ := RawTagScanner.bind_ok_inv hl
    obtain ⟨_, _, h1', h2'⟩ := RawTagScanner.bind_ok_inv hl'
    cases h1
    cases h1'
    obtain ⟨h3, h4⟩ := pushWhile hf _ h2 h2' rfl
    exact ⟨by simp only [mapTag, h3], h4⟩
  | array id ts =>
    unfold Tag.deserializeValue at h h'
    refine zoom (C := fun a b => mapTag c a = mapTag c b) h h' fun us s us' s' hu hu' => ?_
    refine limited hu hu' fun l l' hl hl' => ?_
    obtain ⟨n, ⟨_, l₁⟩, h1, h2⟩ := RawTagScanner.bind_ok_inv hl
    obtain ⟨n', ⟨_, l₁'⟩, h1', h2'⟩ := RawTagScanner.bind_ok_inv hl'
    rw [h1'] at h1
    cases h1
    by_cases hn : n.toNat > vs
    · rw [if_pos hn] at h2; cases h2
    · rw [if_neg hn] at h2 h2'
      obtain ⟨_, _, h3, h4⟩ := RawTagScanner.bind_ok_inv h2
      obtain ⟨_, _, h3', h4'⟩ := RawTagScanner.bind_ok_inv h2'
      cases h3
      cases h3'
      obtain ⟨_, _, h5, h6⟩ := RawTagScanner.bind_ok_inv h4
      obtain ⟨_, _, h5', h6'⟩ := RawTagScanner.bind_ok_inv h4'
      obtain ⟨rfl, -⟩ := Up.alloc_inv h5
      obtain ⟨rfl, -⟩ := Up.alloc_inv h5'
      obtain ⟨_, ⟨ts₁, l₂⟩, h7, h8⟩ := RawTagScanner.bind_ok_inv h6
      obtain ⟨_, ⟨ts₁', l₂'⟩, h7', h8'⟩ := RawTagScanner.bind_ok_inv h6'
      obtain ⟨h9, rfl⟩ := pushTags hf _ h7 h7' rfl
      obtain ⟨rfl, rfl, -⟩ := Up.ensureEmpty_inv h8
      obtain ⟨rfl, rfl, -⟩ := Up.ensureEmpty_inv h8'
      exact ⟨by simp only [mapTag, h9], rfl⟩
  | dict id es =>
    unfold Tag.deserializeValue at h h'
    refine zoom (C := fun a b => mapTag c a = mapTag c b) h h' fun us s us' s' hu hu' => ?_
    refine limited hu hu' fun l l' hl hl' => ?_
    obtain ⟨n, ⟨_, l₁⟩, h1, h2⟩ := RawTagScanner.bind_ok_inv hl
    obtain ⟨n', ⟨_, l₁'⟩, h1', h2'⟩ := RawTagScanner.bind_ok_inv hl'
    rw [h1'] at h1
    cases h1
    obtain ⟨_, _, h3, h4⟩ := RawTagScanner.bind_ok_inv h2
    obtain ⟨_, _, h3', h4'⟩ := RawTagScanner.bind_ok_inv h2'
    cases h3
    cases h3'
    obtain ⟨_, ⟨ts₁, l₂⟩, h7, h8⟩ := RawTagScanner.bind_ok_inv h4
    obtain ⟨_, ⟨ts₁', l₂'⟩, h7', h8'⟩ := RawTagScanner.bind_ok_inv h4'
    obtain ⟨h9, rfl⟩ := insertEntries hf _ h7 h7' rfl
    obtain ⟨rfl, rfl, -⟩ := Up.ensureEmpty_inv h8
    obtain ⟨rfl, rfl, -⟩ := Up.ensureEmpty_inv h8'
    exact ⟨by simp only [mapTag, h9], rfl⟩

theorem checkEmpty_inv {w v : Tag P} {l l' : Limited σ} {a : Unit} (h : Factory.checkEmpty (w, l) = (.ok a, (v, l'))) :
    w = v ∧ l = l' := by
  unfold Factory.checkEmpty at h
  by_cases he : w.id ≠ Id.ilint ∧ w.id ≠ Id.signedILInt ∧ l.empty = false
  · rw [if_pos he] at h; cases h
  · rw [if_neg he] at h; cases h; exact ⟨rfl, rfl⟩

theorem fill [TagPayload P] (hf : MeetF c f f') (vs : Nat) (t : Tag P) (hk : t.kind ≠ .payload) {x y y' : σ} {u u' : Tag P}
    (h : Verif.fill f vs t x = (.ok u, y)) (h' : Verif.fill f' vs t x = (.ok u', y')) :
    mapTag c u = mapTag c u' ∧ y = y' := by
  unfold Verif.fill at h h'
  rcases hd : Factory.deserializeTagValueInto f vs (t, x) with ⟨r, w, z⟩
  rcases hd' : Factory.deserializeTagValueInto f' vs (t, x) with ⟨r', w', z'⟩
  rw [hd] at h
  rw [hd'] at h'
  cases r with
  | ok a =>
    cases r' with
    | ok a' =>
      cases h
      cases h'
      refine limited (C := mapTag c w = mapTag c w') hd hd' fun l l' hl hl' => ?_
      obtain ⟨_, ⟨w₁, l₁⟩, h1, h2⟩ := RawTagScanner.bind_ok_inv hl
      obtain ⟨_, ⟨w₁', l₁'⟩, h1', h2'⟩ := RawTagScanner.bind_ok_inv hl'
      obtain ⟨rfl, rfl⟩ := checkEmpty_inv h2
      obtain ⟨rfl, rfl⟩ := checkEmpty_inv h2'
      exact tagValue hf vs t hk h1 h1'
    | _ => cases h'
  | _ => cases h

/-- Whatever both factories make: the same, or payloads that agree. -/
def Meets [TagPayload P] (c : P → Q) (e e' : Engine P) : Prop := ∀ id t t', e.createTag id = .ok (some t) →
  e'.createTag id = .ok (some t') → (t.kind ≠ .payload ∧ t = t') ∨
    ∀ (σ : Type) [Reader σ] (f f' : FactoryDeser P) (n : Nat) (x y y' : σ) (u u' : Tag P),
      Verif.fill f n t x = (.ok u, y) → Verif.fill f' n t' x = (.ok u', y') → mapTag c u = mapTag c u' ∧ y = y'

theorem header_inv [TagPayload P] {e : Engine P} {id : UInt64} {n : Nat} {x y : σ} {t : Tag P}
    (h : Verif.afterHeader e f id n x = (.ok t, y)) :
    ∃ u, e.createTag id = .ok (some u) ∧ Verif.fill f n u x = (.ok t, y) := by
  obtain ⟨o, x₃, h5, h6⟩ := RawTagScanner.bind_ok_inv h
  cases hl : e.createTag id with
  | ok p =>
    rw [show (Act.lift (e.createTag id) : Act TagErr σ _) x = (.ok p, x) by rw [hl]; rfl] at h5
    cases h5
    cases o with
    | none => cases h6
    | some u => exact ⟨u, rfl, h6⟩
  | _ => rw [hl] at h5; cases h5

theorem fuel [TagPayload P] {e e' : Engine P} (he : Meets c e e') (k : Nat) :
    MeetF c (Factory.deserializeFuel e k) (Factory.deserializeFuel e' k) := by
  induction k with
  | zero => intro σ _ x y y' t t' h; cases h
  | succ k ih =>
    intro σ _ x y y' t t' h h'
    rw [deserializeFuel_succ] at h h'
    obtain ⟨id, x₁, h1, h2⟩ := RawTagScanner.bind_ok_inv h
    obtain ⟨id', x₁', h1', h2'⟩ := RawTagScanner.bind_ok_inv h'
    rw [h1'] at h1
    cases h1
    obtain ⟨n, x₂, h3, h4⟩ := RawTagScanner.bind_ok_inv h2
    obtain ⟨n', x₂', h3', h4'⟩ := RawTagScanner.bind_ok_inv h2'
    rw [h3'] at h3
    cases h3
    obtain ⟨u, h5, h6⟩ := header_inv h4
    obtain ⟨u', h5', h6'⟩ := header_inv h4'
    rcases he _ _ _ h5 h5' with ⟨hk, rfl⟩ | hm
    · exact fill ih n u hk h6 h6'
    · exact hm _ _ _ _ _ _ _ _ _ h6 h6'

end Meet

/-! ### Structs -/

theorem repeated_akin {α β : Type} {K : Type} {x : Act TagErr σ α} {x' : Act TagErr σ β} {p : α → K} {q : β → K}
    (h : ∀ s a s' b s'', x s = (.ok a, s') → x' s = (.ok b, s'') → p a = q b ∧ s' = s'') (n : Nat) :
    ∀ s as s' bs s'', Schema.repeated x n s = (.ok as, s') → Schema.repeated x' n s = (.ok bs, s'') →
      as.map p = bs.map q ∧ s' = s'' := by
  induction n with
  | zero => intro s as s' bs s'' h h'; cases h; cases h'; exact ⟨rfl, rfl⟩
  | succ n ih =>
    intro s as s' bs s'' hd hd'
    unfold Schema.repeated at hd hd'
    obtain ⟨a, s₁, h1, h2⟩ := RawTagScanner.bind_ok_inv hd
    obtain ⟨as₁, s₂, h3, h4⟩ := RawTagScanner.bind_ok_inv h2
    cases h4
    obtain ⟨b, s₁', h1', h2'⟩ := RawTagScanner.bind_ok_inv hd'
    obtain ⟨bs₁, s₂', h3', h4'⟩ := RawTagScanner.bind_ok_inv h2'
    cases h4'
    obtain ⟨h5, rfl⟩ := h _ _ _ _ _ h1 h1'
    obtain ⟨h6, rfl⟩ := ih _ _ _ _ _ h3 h3'
    exact ⟨by simp [h5, h6], rfl⟩

theorem read_akin {s s' : Schema} (hl : Akin s s') : ∀ (x : σ) (v : s.Val) (y : σ) (v' : s'.Val) (y' : σ),
    s.read x = (.ok v, y) → s'.read x = (.ok v', y') → plain s v = plain s' v' ∧ y = y' := by
  induction hl with
  | refl s => intro x v y v' y' h h'; rw [h'] at h; cases h; exact ⟨rfl, rfl⟩
  | @enum ok ok' c c' _ ih =>
    intro x v y v' y' h h'
    unfold Schema.read at h h'
    obtain ⟨b, x₁, h1, h2⟩ := RawTagScanner.bind_ok_inv h
    obtain ⟨b', x₁', h1', h2'⟩ := RawTagScanner.bind_ok_inv h'
    rw [h1'] at h1
    cases h1
    by_cases hb : ok b = true
    · by_cases hb' : ok' b = true
      · rw [if_pos hb] at h2
        rw [if_pos hb'] at h2'
        obtain ⟨w, x₂, h3, h4⟩ := RawTagScanner.bind_ok_inv h2
        cases h4
        obtain ⟨w', x₂', h3', h4'⟩ := RawTagScanner.bind_ok_inv h2'
        cases h4'
        obtain ⟨h5, h6⟩ := ih b hb hb' _ _ _ _ _ h3 h3'
        exact ⟨by simp only [plain, h5], h6⟩
      · rw [if_neg hb'] at h2'; cases h2'
    · rw [if_neg hb] at h2; cases h2
  | both _ _ iha ihb =>
    intro x v y v' y' h h'
    unfold Schema.read at h h'
    obtain ⟨u, x₁, h1, h2⟩ := RawTagScanner.bind_ok_inv h
    obtain ⟨w, x₂, h3, h4⟩ := RawTagScanner.bind_ok_inv h2
    cases h4
    obtain ⟨u', x₁', h1', h2'⟩ := RawTagScanner.bind_ok_inv h'
    obtain ⟨w', x₂', h3', h4'⟩ := RawTagScanner.bind_ok_inv h2'
    cases h4'
    obtain ⟨h5, rfl⟩ := iha _ _ _ _ _ h1 h1'
    obtain ⟨h6, h7⟩ := ihb _ _ _ _ _ h3 h3'
    exact ⟨by simp only [plain, h5, h6], h7⟩
  | many _ ih =>
    intro x v y v' y' h h'
    unfold Schema.read at h h'
    obtain ⟨n, x₁, h1, h2⟩ := RawTagScanner.bind_ok_inv h
    obtain ⟨n', x₁', h1', h2'⟩ := RawTagScanner.bind_ok_inv h'
    rw [h1'] at h1
    cases h1
    obtain ⟨h3, h4⟩ := repeated_akin ih n.toNat _ _ _ _ _ h2 h2'
    exact ⟨by simp only [plain, h3], h4⟩
  | opt _ ih =>
    intro x v y v' y' h h'
    unfold Schema.read at h h'
    obtain ⟨b, x₁, h1, h2⟩ := RawTagScanner.bind_ok_inv h
    obtain ⟨b', x₁', h1', h2'⟩ := RawTagScanner.bind_ok_inv h'
    rw [h1'] at h1
    cases h1
    by_cases hb : b = 0
    · rw [if_pos hb] at h2 h2'
      cases h2
      cases h2'
      exact ⟨rfl, rfl⟩
    · rw [if_neg hb] at h2 h2'
      by_cases hb : b = 1
      · rw [if_pos hb] at h2 h2'
        obtain ⟨w, x₂, h3, h4⟩ := RawTagScanner.bind_ok_inv h2
        cases h4
        obtain ⟨w', x₂', h3', h4'⟩ := RawTagScanner.bind_ok_inv h2'
        cases h4'
        obtain ⟨h5, h6⟩ := ih _ _ _ _ _ h3 h3'
        exact ⟨by simp only [plain, h5], h6⟩
      · rw [if_neg hb] at h2; cases h2

/-- Two versions of a type that both read to the end of a limited reader. -/
theorem read_kin (hr : MemoryOk) {s s' : Schema} (hl : Kin s s') : BoundedSchema s → BoundedSchema s' →
    ∀ (l : Limited σ) (v : s.Val) (y : Limited σ) (v' : s'.Val) (y' : Limited σ),
    s.read l = (.ok v, y) → s'.read l = (.ok v', y') → y.available = 0 → y'.available = 0 →
      plain s v = plain s' v' ∧ y = y' := by
  induction hl with
  | akin h => intro _ _ l v y v' y' h1 h2 _ _; exact read_akin h _ _ _ _ _ h1 h2
  | more ha hn =>
    intro _ hs l v y v' y' h h' hy hy'
    unfold Schema.read at h'
    obtain ⟨u', x₁', h1', h2'⟩ := RawTagScanner.bind_ok_inv h'
    obtain ⟨w', x₂', h3', h4'⟩ := RawTagScanner.bind_ok_inv h2'
    obtain ⟨-, rfl⟩ := read_akin ha _ _ _ _ _ h h1'
    exact absurd (by rw [h3']) (read_dry hr hs.2 hn y hy w')
  | less ha hn =>
    intro hs _ l v y v' y' h h' hy hy'
    unfold Schema.read at h
    obtain ⟨u, x₁, h1, h2⟩ := RawTagScanner.bind_ok_inv h
    obtain ⟨w, x₂, h3, h4⟩ := RawTagScanner.bind_ok_inv h2
    obtain ⟨-, rfl⟩ := read_akin ha _ _ _ _ _ h1 h'
    exact absurd (by rw [h3]) (read_dry hr hs.2 hn x₁ hy' w)
  | last ha _ ih =>
    intro hs hs' l v y v' y' h h' hy hy'
    unfold Schema.read at h h'
    obtain ⟨u, x₁, h1, h2⟩ := RawTagScanner.bind_ok_inv h
    obtain ⟨w, x₂, h3, h4⟩ := RawTagScanner.bind_ok_inv h2
    cases h4
    obtain ⟨u', x₁', h1', h2'⟩ := RawTagScanner.bind_ok_inv h'
    obtain ⟨w', x₂', h3', h4'⟩ := RawTagScanner.bind_ok_inv h2'
    cases h4'
    obtain ⟨h5, rfl⟩ := read_akin ha _ _ _ _ _ h1 h1'
    obtain ⟨h6, h7⟩ := ih hs.2 hs'.2 _ _ _ _ _ h3 h3' hy hy'
    exact ⟨by simp only [plain, h5, h6], h7⟩
  | @variants ok ok' c c' _ ih =>
    intro hs hs' l v y v' y' h h' hy hy'
    unfold Schema.read at h h'
    obtain ⟨b, x₁, h1, h2⟩ := RawTagScanner.bind_ok_inv h
    obtain ⟨b', x₁', h1', h2'⟩ := RawTagScanner.bind_ok_inv h'
    rw [h1'] at h1
    cases h1
    by_cases hb : ok b = true
    · by_cases hb' : ok' b = true
      · rw [if_pos hb] at h2
        rw [if_pos hb'] at h2'
        obtain ⟨w, x₂, h3, h4⟩ := RawTagScanner.bind_ok_inv h2
        cases h4
        obtain ⟨w', x₂', h3', h4'⟩ := RawTagScanner.bind_ok_inv h2'
        cases h4'
        obtain ⟨h5, h6⟩ := ih b hb hb' (hs b hb) (hs' b hb') _ _ _ _ _ h3 h3' hy hy'
        exact ⟨by simp only [plain, h5], h6⟩
      · rw [if_neg hb'] at h2'; cases h2'
    · rw [if_neg hb] at h2; cases h2
  | opt _ ih =>
    intro hs hs' l v y v' y' h h' hy hy'
    unfold Schema.read at h h'
    obtain ⟨b, x₁, h1, h2⟩ := RawTagScanner.bind_ok_inv h
    obtain ⟨b', x₁', h1', h2'⟩ := RawTagScanner.bind_ok_inv h'
    rw [h1'] at h1
    cases h1
    by_cases hb : b = 0
    · rw [if_pos hb] at h2 h2'
      cases h2
      cases h2'
      exact ⟨rfl, rfl⟩
    · rw [if_neg hb] at h2 h2'
      by_cases hb : b = 1
      · rw [if_pos hb] at h2 h2'
        obtain ⟨w, x₂, h3, h4⟩ := RawTagScanner.bind_ok_inv h2
        cases h4
        obtain ⟨w', x₂', h3', h4'⟩ := RawTagScanner.bind_ok_inv h2'
        cases h4'
        obtain ⟨h5, h6⟩ := ih hs hs' _ _ _ _ _ h3 h3' hy hy'
        exact ⟨by simp only [plain, h5], h6⟩
      · rw [if_neg hb] at h2; cases h2

end
end Verif
