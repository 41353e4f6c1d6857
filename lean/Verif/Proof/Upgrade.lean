import Verif.Spec.Upgrade
import Verif.Proof.Schema
import Verif.Proof.Recursion
/-!
# Payload types with more variants
-/
namespace Verif
open Spec
set_option linter.unusedSectionVars false

/-! ### Tags with their payloads replaced -/
section
variable {P Q : Type} {c : P → Q}

theorem mapTags_eq (ts : List (Tag P)) : mapTags c ts = ts.map (mapTag c) := by
  induction ts with
  | nil => rfl
  | cons t ts ih => rw [mapTags, ih, List.map_cons]

theorem mapEntries_eq (es : List (String × Tag P)) : mapEntries c es = es.map fun e => (e.1, mapTag c e.2) := by
  induction es with
  | nil => rfl
  | cons e es ih => obtain ⟨k, t⟩ := e; rw [mapEntries, ih, List.map_cons]

theorem mapEntries_insert {es es' : List (String × Tag P)} (k : String) {t t' : Tag P} (h : mapEntries c es = mapEntries c es')
    (ht : mapTag c t = mapTag c t') : mapEntries c (HMap.insert k t es) = mapEntries c (HMap.insert k t' es') := by
  induction es generalizing es' with
  | nil =>
    cases es' with
    | nil => simp [HMap.insert, mapEntries, ht]
    | cons e es' => obtain ⟨k', t'⟩ := e; simp [mapEntries] at h
  | cons e es ih =>
    obtain ⟨k₁, t₁⟩ := e
    cases es' with
    | nil => simp [mapEntries] at h
    | cons e' es' =>
      obtain ⟨k₂, t₂⟩ := e'
      simp only [mapEntries, List.cons.injEq, Prod.mk.injEq] at h
      obtain ⟨⟨rfl, h1⟩, h2⟩ := h
      unfold HMap.insert
      split
      · simp only [mapEntries, ht, h2]
      · simp only [mapEntries, h1, ih h2]

namespace Up

theorem mapAtom_id (a : Atom P) : (mapAtom c a).id = a.id := by cases a <;> rfl

theorem mapTag_id (t : Tag P) : (mapTag c t).id = t.id := by
  cases t with
  | atom a => simp only [mapTag, Tag.id, mapAtom_id]
  | _ => simp only [mapTag, Tag.id]

end Up

/-- Tags of the same content have parts of the same content. -/
theorem mapTag_within {u t : Tag P} (hu : Within u t) : ∀ {t' : Tag P}, mapTag c t = mapTag c t' →
    ∃ u', Within u' t' ∧ mapTag c u = mapTag c u' := by
  induction hu with
  | refl => exact fun h => ⟨_, .refl _, h⟩
  | @seq v id ts hm _ ih =>
    intro t' h
    cases t' with
    | seq id' us =>
      simp only [mapTag, Tag.seq.injEq, mapTags_eq] at h
      have : mapTag c v ∈ us.map (mapTag c) := h.2 ▸ List.mem_map_of_mem hm
      obtain ⟨w, h1, h2⟩ := List.mem_map.mp this
      obtain ⟨u', h3, h4⟩ := ih h2.symm
      exact ⟨u', .seq h1 h3, h4⟩
    | _ => simp [mapTag] at h
  | @array v id ts hm _ ih =>
    intro t' h
    cases t' with
    | array id' us =>
      simp only [mapTag, Tag.array.injEq, mapTags_eq] at h
      have : mapTag c v ∈ us.map (mapTag c) := h.2 ▸ List.mem_map_of_mem hm
      obtain ⟨w, h1, h2⟩ := List.mem_map.mp this
      obtain ⟨u', h3, h4⟩ := ih h2.symm
      exact ⟨u', .array h1 h3, h4⟩
    | _ => simp [mapTag] at h
  | @dict k v id es hm _ ih =>
    intro t' h
    cases t' with
    | dict id' us =>
      simp only [mapTag, Tag.dict.injEq, mapEntries_eq] at h
      have : (k, mapTag c v) ∈ us.map fun e => (e.1, mapTag c e.2) :=
        h.2 ▸ List.mem_map_of_mem (f := fun e : String × Tag P => (e.1, mapTag c e.2)) hm
      obtain ⟨⟨k', w⟩, h1, h2⟩ := List.mem_map.mp this
      simp only [Prod.mk.injEq] at h2
      obtain ⟨u', h3, h4⟩ := ih h2.2.symm
      exact ⟨u', .dict h1 h3, h4⟩
    | _ => simp [mapTag] at h

/-! ### Reading with either factory -/
variable {σ : Type} [Reader σ] [Env] {f f' : FactoryDeser P}

/-- What the first reads the second reads as a tag of the same content. -/
def UpF (c : P → Q) (f f' : FactoryDeser P) : Prop := ∀ (σ : Type) [Reader σ] (x y : σ) (t : Tag P),
  f σ none x = (.ok t, y) → ∃ t', f' σ none x = (.ok t', y) ∧ mapTag c t = mapTag c t'

namespace Up

theorem onReader_inv {τ α : Type} {m : Act TagErr σ α} {x : τ × σ} {a : α} {y : τ × σ} (h : onReader m x = (.ok a, y)) :
    m x.2 = (.ok a, y.2) ∧ y.1 = x.1 := by
  unfold onReader at h
  rcases hm : m x.2 with ⟨r, s⟩
  rw [hm] at h
  cases h
  exact ⟨rfl, rfl⟩

theorem onReader_ok {τ α : Type} {m : Act TagErr σ α} {u : τ} {s s' : σ} {a : α} (h : m s = (.ok a, s')) :
    onReader m (u, s) = (.ok a, (u, s')) := by
  unfold onReader
  rw [show (u, s).2 = s from rfl, h]

theorem pushWhile (hf : UpF c f f') (n : Nat) {ts us ts' : List (Tag P)} {l l' : Limited σ}
    (h : Tag.pushWhileNotEmpty f n (ts, l) = (.ok (), (us, l'))) (hc : mapTags c ts = mapTags c ts') :
    ∃ us', Tag.pushWhileNotEmpty f' n (ts', l) = (.ok (), (us', l')) ∧ mapTags c us = mapTags c us' := by
  induction n generalizing ts ts' l with
  | zero => cases h
  | succ n ih =>
    unfold Tag.pushWhileNotEmpty at h ⊢
    simp only at h ⊢
    by_cases he : l.empty = true
    · rw [if_pos he] at h ⊢
      cases h
      exact ⟨ts', rfl, hc⟩
    · rw [if_neg he] at h ⊢
      obtain ⟨t, ⟨u, l₁⟩, h1, h2⟩ := RawTagScanner.bind_ok_inv h
      obtain ⟨h1, rfl⟩ := onReader_inv h1
      obtain ⟨t', h3, h4⟩ := hf _ _ _ _ h1
      rw [Act.bind_ok (onReader_ok h3)]
      obtain ⟨_, _, h5, h6⟩ := RawTagScanner.bind_ok_inv h2
      cases h5
      exact ih h6 (by rw [mapTags_eq, mapTags_eq] at hc; simp [mapTags_eq, hc, h4])

theorem pushTags (hf : UpF c f f') (n : Nat) {ts us ts' : List (Tag P)} {l l' : σ}
    (h : Tag.pushTags f n (ts, l) = (.ok (), (us, l'))) (hc : mapTags c ts = mapTags c ts') :
    ∃ us', Tag.pushTags f' n (ts', l) = (.ok (), (us', l')) ∧ mapTags c us = mapTags c us' := by
  induction n generalizing ts ts' l with
  | zero => cases h; exact ⟨ts', rfl, hc⟩
  | succ n ih =>
    unfold Tag.pushTags at h ⊢
    obtain ⟨t, ⟨u, l₁⟩, h1, h2⟩ := RawTagScanner.bind_ok_inv h
    obtain ⟨h1, rfl⟩ := onReader_inv h1
    obtain ⟨t', h3, h4⟩ := hf _ _ _ _ h1
    rw [Act.bind_ok (onReader_ok h3)]
    obtain ⟨_, _, h5, h6⟩ := RawTagScanner.bind_ok_inv h2
    cases h5
    exact ih h6 (by rw [mapTags_eq, mapTags_eq] at hc; simp [mapTags_eq, hc, h4])

theorem insertEntries (hf : UpF c f f') (n : Nat) {ts us ts' : List (String × Tag P)} {l l' : σ}
    (h : Tag.insertEntries f n (ts, l) = (.ok (), (us, l'))) (hc : mapEntries c ts = mapEntries c ts') :
    ∃ us', Tag.insertEntries f' n (ts', l) = (.ok (), (us', l')) ∧ mapEntries c us = mapEntries c us' := by
  induction n generalizing ts ts' l with
  | zero => cases h; exact ⟨ts', rfl, hc⟩
  | succ n ih =>
    unfold Tag.insertEntries at h ⊢
    obtain ⟨k, ⟨u, l₁⟩, h1, h2⟩ := RawTagScanner.bind_ok_inv h
    obtain ⟨h1, rfl⟩ := onReader_inv h1
    rw [Act.bind_ok (onReader_ok h1)]
    obtain ⟨t, ⟨u, l₂⟩, h3, h4⟩ := RawTagScanner.bind_ok_inv h2
    obtain ⟨h3, rfl⟩ := onReader_inv h3
    obtain ⟨t', h5, h6⟩ := hf _ _ _ _ h3
    rw [Act.bind_ok (onReader_ok h5)]
    obtain ⟨_, _, h7, h8⟩ := RawTagScanner.bind_ok_inv h4
    cases h7
    exact ih h8 (mapEntries_insert k hc h6)

/-- A part of the tag that is read. -/
theorem zoom {τ τ' α : Type} {m m' : Act TagErr (τ × σ) α} {wrap : τ → τ'} {t₀ : τ} {x y : τ' × σ} {a : α}
    {C : τ' → τ' → Prop} (h : Verif.zoom wrap t₀ m x = (.ok a, y))
    (hm : ∀ u s, m (t₀, x.2) = (.ok a, (u, s)) → ∃ u', m' (t₀, x.2) = (.ok a, (u', s)) ∧ C (wrap u) (wrap u')) :
    ∃ w, Verif.zoom wrap t₀ m' x = (.ok a, (w, y.2)) ∧ C y.1 w := by
  unfold Verif.zoom at h ⊢
  rcases hd : m (t₀, x.2) with ⟨r, u, s⟩
  rw [hd] at h
  cases h
  obtain ⟨u', h1, h2⟩ := hm u s hd
  rw [h1]
  exact ⟨wrap u', rfl, h2⟩

theorem limited {τ α : Type} {m m' : Act TagErr (τ × Limited σ) α} {n : Nat} {t₀ u : τ} {x s : σ} {a : α} {C : τ → Prop}
    (h : Verif.withLimited n m (t₀, x) = (.ok a, (u, s)))
    (hm : ∀ l, m (t₀, ⟨x, n⟩) = (.ok a, (u, l)) → ∃ u', m' (t₀, ⟨x, n⟩) = (.ok a, (u', l)) ∧ C u') :
    ∃ u', Verif.withLimited n m' (t₀, x) = (.ok a, (u', s)) ∧ C u' := by
  unfold Verif.withLimited at h ⊢
  rcases hd : m (t₀, ⟨x, n⟩) with ⟨r, v, l⟩
  rw [show ((t₀, x) : τ × σ).1 = t₀ from rfl, show ((t₀, x) : τ × σ).2 = x from rfl, hd] at h
  cases h
  obtain ⟨u', h1, h2⟩ := hm l hd
  exact ⟨u', by rw [show ((t₀, x) : τ × σ).1 = t₀ from rfl, show ((t₀, x) : τ × σ).2 = x from rfl, h1], h2⟩

theorem ensureEmpty_inv {τ : Type} {u v : τ} {l l' : Limited σ}
    (h : ensureEmpty (u, l) = (.ok (), (v, l'))) : u = v ∧ l = l' ∧ ∀ w : τ, ensureEmpty (w, l) = (.ok (), (w, l)) := by
  unfold ensureEmpty at h
  by_cases he : l.empty = true
  · rw [if_pos he] at h
    cases h
    exact ⟨rfl, rfl, fun w => by unfold ensureEmpty; rw [if_pos he]⟩
  · rw [if_neg he] at h; cases h

theorem alloc_inv {τ : Type} {k n : Nat} {x y : τ} {a : Unit} (h : (Data.alloc k n : Act TagErr τ Unit) x = (.ok a, y)) :
    x = y ∧ ∀ z : τ, (Data.alloc k n : Act TagErr τ Unit) z = (.ok (), z) := by
  unfold Data.alloc at h
  by_cases hn : k * n ≤ Env.allocMax
  · rw [if_pos hn] at h
    cases h
    exact ⟨rfl, fun z => by unfold Data.alloc; rw [if_pos hn]; rfl⟩
  · rw [if_neg hn] at h; cases h

/-- The value of a tag that is no payload. -/
theorem tagValue [TagPayload P] (hf : UpF c f f') (vs : Nat) (t : Tag P) (hk : t.kind ≠ .payload) {x y : Tag P × σ}
    (h : Tag.deserializeValue f vs t x = (.ok (), y)) :
    ∃ w, Tag.deserializeValue f' vs t x = (.ok (), (w, y.2)) ∧ mapTag c y.1 = mapTag c w := by
  cases t with
  | atom a =>
    unfold Tag.deserializeValue at h ⊢
    refine zoom (C := fun a b => mapTag c a = mapTag c b) h fun u s hu => ⟨u, ?_, rfl⟩
    rw [Atom.factory_free hk f' f]
    exact hu
  | seq id ts =>
    unfold Tag.deserializeValue at h ⊢
    refine zoom (m' := Tag.deserializeSeq f' vs) (C := fun a b => mapTag c a = mapTag c b) h fun us s hu => ?_
    refine limited hu fun l hl => ?_
    obtain ⟨_, _, h1, h2⟩ := RawTagScanner.bind_ok_inv hl
    cases h1
    obtain ⟨us', h3, h4⟩ := pushWhile hf _ h2 rfl
    exact ⟨us', by rw [Act.bind_ok (show setSelf [] _ = (.ok (), _) from rfl), h3], by simp only [mapTag, h4]⟩
  | array id ts =>
    unfold Tag.deserializeValue at h ⊢
    refine zoom (m' := Tag.deserializeArray f' vs) (C := fun a b => mapTag c a = mapTag c b) h fun us s hu => ?_
    refine limited hu fun l hl => ?_
    obtain ⟨n, ⟨_, l₁⟩, h1, h2⟩ := RawTagScanner.bind_ok_inv hl
    obtain ⟨h1, rfl⟩ := onReader_inv h1
    rw [Act.bind_ok (onReader_ok h1)]
    by_cases hn : n.toNat > vs
    · rw [if_pos hn] at h2; cases h2
    · rw [if_neg hn] at h2 ⊢
      obtain ⟨_, _, h3, h4⟩ := RawTagScanner.bind_ok_inv h2
      cases h3
      rw [Act.bind_ok (show setSelf [] _ = (.ok (), _) from rfl)]
      obtain ⟨_, _, h5, h6⟩ := RawTagScanner.bind_ok_inv h4
      obtain ⟨rfl, h5a⟩ := alloc_inv h5
      rw [Act.bind_ok (h5a _)]
      obtain ⟨_, ⟨ts₁, l₂⟩, h7, h8⟩ := RawTagScanner.bind_ok_inv h6
      obtain ⟨us', h9, h10⟩ := pushTags hf _ h7 rfl
      obtain ⟨rfl, rfl, h11⟩ := ensureEmpty_inv h8
      exact ⟨us', by rw [Act.bind_ok h9, h11], by simp only [mapTag, h10]⟩
  | dict id es =>
    unfold Tag.deserializeValue at h ⊢
    refine zoom (m' := Tag.deserializeDict f' vs) (C := fun a b => mapTag c a = mapTag c b) h fun us s hu => ?_
    refine limited hu fun l hl => ?_
    obtain ⟨n, ⟨_, l₁⟩, h1, h2⟩ := RawTagScanner.bind_ok_inv hl
    obtain ⟨h1, rfl⟩ := onReader_inv h1
    rw [Act.bind_ok (onReader_ok h1)]
    obtain ⟨_, _, h3, h4⟩ := RawTagScanner.bind_ok_inv h2
    cases h3
    rw [Act.bind_ok (show setSelf [] _ = (.ok (), _) from rfl)]
    obtain ⟨_, ⟨ts₁, l₂⟩, h7, h8⟩ := RawTagScanner.bind_ok_inv h4
    obtain ⟨us', h9, h10⟩ := insertEntries hf _ h7 rfl
    obtain ⟨rfl, rfl, h11⟩ := ensureEmpty_inv h8
    exact ⟨us', by rw [Act.bind_ok h9, h11], by simp only [mapTag, h10]⟩

theorem fill [TagPayload P] (hf : UpF c f f') (vs : Nat) (t : Tag P) (hk : t.kind ≠ .payload) {x y : σ} {u : Tag P}
    (h : Verif.fill f vs t x = (.ok u, y)) : ∃ u', Verif.fill f' vs t x = (.ok u', y) ∧ mapTag c u = mapTag c u' := by
  unfold Verif.fill at h
  rcases hd : Factory.deserializeTagValueInto f vs (t, x) with ⟨r, w, z⟩
  rw [hd] at h
  cases r with
  | ok a =>
    cases h
    obtain ⟨u', h1, h2⟩ := limited (C := fun u' => mapTag c w = mapTag c u') (m' := fun p => (do
        p.1.deserializeValue f' vs
        Factory.checkEmpty : Act TagErr (Tag P × Limited σ) Unit) p) hd fun l hl => by
      obtain ⟨_, ⟨w₁, l₁⟩, h1, h2⟩ := RawTagScanner.bind_ok_inv hl
      obtain ⟨w', h3, h4⟩ := tagValue hf vs t hk h1
      unfold Factory.checkEmpty at h2
      by_cases he : w₁.id ≠ Id.ilint ∧ w₁.id ≠ Id.signedILInt ∧ l₁.empty = false
      · rw [if_pos he] at h2; cases h2
      · rw [if_neg he] at h2
        cases h2
        refine ⟨w', ?_, h4⟩
        show ((Tag.deserializeValue f' vs t >>= fun _ => Factory.checkEmpty) (t, ⟨x, vs⟩)) = _
        rw [Act.bind_ok h3]
        unfold Factory.checkEmpty
        have hid : w'.id = w.id := by rw [← mapTag_id (c := c), ← h4, mapTag_id]
        simp only [hid]
        rw [if_neg he]
    refine ⟨u', ?_, h2⟩
    unfold Verif.fill
    rw [show Factory.deserializeTagValueInto f' vs (t, x) = _ from h1]
    rfl
  | _ => cases h

/-- Whatever the first factory makes the second makes, too: the same, or a payload that reads at least as much. -/
def Ups [TagPayload P] (c : P → Q) (e e' : Engine P) : Prop := ∀ id t, e.createTag id = .ok (some t) →
  (t.kind ≠ .payload ∧ e'.createTag id = .ok (some t)) ∨
  ∃ t', e'.createTag id = .ok (some t') ∧ ∀ (σ : Type) [Reader σ] (f f' : FactoryDeser P) (n : Nat) (x y : σ) (u : Tag P),
    Verif.fill f n t x = (.ok u, y) → ∃ u', Verif.fill f' n t' x = (.ok u', y) ∧ mapTag c u = mapTag c u'

theorem fuel [TagPayload P] {e e' : Engine P} (he : Ups c e e') (k : Nat) :
    UpF c (Factory.deserializeFuel e k) (Factory.deserializeFuel e' k) := by
  induction k with
  | zero => intro σ _ x y t h; cases h
  | succ k ih =>
    intro σ _ x y t h
    rw [deserializeFuel_succ] at h ⊢
    obtain ⟨id, x₁, h1, h2⟩ := RawTagScanner.bind_ok_inv h
    rw [Act.bind_ok h1]
    obtain ⟨n, x₂, h3, h4⟩ := RawTagScanner.bind_ok_inv h2
    show ∃ t', (Factory.deserializeTagSize id >>= fun size => Verif.afterHeader e' _ id size) x₁ = _ ∧ _
    rw [Act.bind_ok h3]
    obtain ⟨o, x₃, h5, h6⟩ := RawTagScanner.bind_ok_inv h4
    cases hl : e.createTag id with
    | ok p =>
      rw [show (Act.lift (e.createTag id) : Act TagErr σ _) x₂ = (.ok p, x₂) by rw [hl]; rfl] at h5
      cases h5
      cases o with
      | none => cases h6
      | some u =>
        rcases he id u hl with ⟨hk, he⟩ | ⟨u', he, hfill⟩
        · obtain ⟨t', h7, h8⟩ := fill ih n u hk h6
          refine ⟨t', ?_, h8⟩
          unfold Verif.afterHeader
          rw [Act.bind_ok (show (Act.lift (e'.createTag id) : Act TagErr σ _) x₂ = (.ok (some u), x₂) by rw [he]; rfl)]
          exact h7
        · obtain ⟨t', h7, h8⟩ := hfill σ _ (Factory.deserializeFuel e' k) _ _ _ _ h6
          refine ⟨t', ?_, h8⟩
          unfold Verif.afterHeader
          rw [Act.bind_ok (show (Act.lift (e'.createTag id) : Act TagErr σ _) x₂ = (.ok (some u'), x₂) by rw [he]; rfl)]
          exact h7
    | _ =>
      rw [hl] at h5
      cases h5

end Up
end

/-! ### Structs -/
section
variable {σ : Type} [Reader σ] [Env]

theorem repeated_later {α β : Type} {K : Type} {x : Act TagErr σ α} {x' : Act TagErr σ β} {p : α → K} {q : β → K}
    (h : ∀ s a s', x s = (.ok a, s') → ∃ b, x' s = (.ok b, s') ∧ q b = p a) (n : Nat) :
    ∀ s as s', Schema.repeated x n s = (.ok as, s') → ∃ bs, Schema.repeated x' n s = (.ok bs, s') ∧ bs.map q = as.map p := by
  induction n with
  | zero => intro s as s' h; cases h; exact ⟨[], rfl, rfl⟩
  | succ n ih =>
    intro s as s' hd
    unfold Schema.repeated at hd ⊢
    obtain ⟨a, s₁, h1, h2⟩ := RawTagScanner.bind_ok_inv hd
    obtain ⟨as₁, s₂, h3, h4⟩ := RawTagScanner.bind_ok_inv h2
    cases h4
    obtain ⟨b, h5, h6⟩ := h _ _ _ h1
    obtain ⟨bs, h7, h8⟩ := ih _ _ _ h3
    rw [Act.bind_ok h5, Act.bind_ok h7]
    exact ⟨b :: bs, rfl, by simp [h6, h8]⟩

/-- What a struct type reads, a later one reads with the same content. -/
theorem read_later {s s' : Schema} (hl : Later s s') : ∀ (x : σ) (v : s.Val) (y : σ), s.read x = (.ok v, y) →
    ∃ v', s'.read x = (.ok v', y) ∧ plain s' v' = plain s v := by
  induction hl with
  | refl s => exact fun x v y h => ⟨v, h, rfl⟩
  | @enum ok ok' c c' ho _ ih =>
    intro x v y h
    unfold Schema.read at h ⊢
    obtain ⟨b, x₁, h1, h2⟩ := RawTagScanner.bind_ok_inv h
    rw [Act.bind_ok h1]
    by_cases hb : ok b = true
    · rw [if_pos hb] at h2
      rw [if_pos (ho b hb)]
      obtain ⟨w, x₂, h3, h4⟩ := RawTagScanner.bind_ok_inv h2
      cases h4
      obtain ⟨w', h5, h6⟩ := ih b hb _ _ _ h3
      rw [Act.bind_ok h5]
      exact ⟨⟨b, w'⟩, rfl, by simp only [plain, h6]⟩
    · rw [if_neg hb] at h2; cases h2
  | both _ _ iha ihb =>
    intro x v y h
    unfold Schema.read at h ⊢
    obtain ⟨u, x₁, h1, h2⟩ := RawTagScanner.bind_ok_inv h
    obtain ⟨w, x₂, h3, h4⟩ := RawTagScanner.bind_ok_inv h2
    cases h4
    obtain ⟨u', h5, h6⟩ := iha _ _ _ h1
    obtain ⟨w', h7, h8⟩ := ihb _ _ _ h3
    rw [Act.bind_ok h5, Act.bind_ok h7]
    exact ⟨(u', w'), rfl, by simp only [plain, h6, h8]⟩
  | many _ ih =>
    intro x v y h
    unfold Schema.read at h ⊢
    obtain ⟨n, x₁, h1, h2⟩ := RawTagScanner.bind_ok_inv h
    rw [Act.bind_ok h1]
    obtain ⟨vs, h3, h4⟩ := repeated_later ih n.toNat _ _ _ h2
    exact ⟨vs, h3, by simp only [plain, h4]⟩
  | opt _ ih =>
    intro x v y h
    unfold Schema.read at h ⊢
    obtain ⟨b, x₁, h1, h2⟩ := RawTagScanner.bind_ok_inv h
    rw [Act.bind_ok h1]
    by_cases hb : b = 0
    · rw [if_pos hb] at h2 ⊢
      cases h2
      exact ⟨none, rfl, rfl⟩
    · rw [if_neg hb] at h2 ⊢
      by_cases hb : b = 1
      · rw [if_pos hb] at h2 ⊢
        obtain ⟨w, x₂, h3, h4⟩ := RawTagScanner.bind_ok_inv h2
        cases h4
        obtain ⟨w', h5, h6⟩ := ih _ _ _ h3
        rw [Act.bind_ok h5]
        exact ⟨some w', rfl, by simp only [plain, h6]⟩
      · rw [if_neg hb] at h2; cases h2

end

/-! ### Writing -/

mutual
/-- The calls that write a content. -/
def Spec.Plain.ops : Plain → List WOp
  | .field f => Schema.fieldOps f
  | .text v => Schema.ilintOps Id.string ++ Schema.ilintOps (lenU64 (Verif.utf8 v).length) ++ [.all (Verif.utf8 v)]
  | .blob v => Schema.ilintOps (lenU64 v.length) ++ [.all v]
  | .list vs => Schema.ilintOps (lenU64 vs.length) ++ Plain.opsAll vs
  | .pair a b => a.ops ++ b.ops
  | .none => [.byte 0]
  | .some v => .byte 1 :: v.ops
  | .variant b v => .byte b :: v.ops
def Spec.Plain.opsAll : List Plain → List WOp
  | [] => []
  | v :: vs => v.ops ++ Plain.opsAll vs
end

mutual
/-- The number of bytes of a content. -/
def Spec.Plain.size : Plain → Nat
  | .field f => Schema.fieldSize f
  | .text v => 1 + ILInt.encodedSize (lenU64 (Verif.utf8 v).length) + (Verif.utf8 v).length
  | .blob v => ILInt.encodedSize (lenU64 v.length) + v.length
  | .list vs => ILInt.encodedSize (lenU64 vs.length) + Plain.sizeAll vs
  | .pair a b => a.size + b.size
  | .none => 1
  | .some v => 1 + v.size
  | .variant _ v => 1 + v.size
def Spec.Plain.sizeAll : List Plain → Nat
  | [] => 0
  | v :: vs => v.size + Plain.sizeAll vs
end

theorem plain_ops : ∀ (s : Schema) (v : s.Val), (plain s v).ops = s.ops v ∧ (plain s v).size = s.size v
  | .field _, f => ⟨rfl, rfl⟩
  | .text, v => by simp [plain, Plain.ops, Plain.size, Schema.ops, Schema.size]
  | .blob, v => ⟨rfl, rfl⟩
  | .many s, vs => by
    have h : ∀ vs : List s.Val, Plain.opsAll (vs.map (plain s)) = vs.flatMap s.ops ∧
        Plain.sizeAll (vs.map (plain s)) = (vs.map s.size).sum := by
      intro vs
      induction vs with
      | nil => exact ⟨rfl, rfl⟩
      | cons v vs ih => simp [Plain.opsAll, Plain.sizeAll, ih, plain_ops s v]
    simp [plain, Plain.ops, Plain.size, Schema.ops, Schema.size, h]
  | .both a b, (x, y) => by simp [plain, Plain.ops, Plain.size, Schema.ops, Schema.size, plain_ops a x, plain_ops b y]
  | .opt _, none => ⟨rfl, rfl⟩
  | .opt s, some v => by simp [plain, Plain.ops, Plain.size, Schema.ops, Schema.size, plain_ops s v]
  | .enum _ c, ⟨b, v⟩ => by simp [plain, Plain.ops, Plain.size, Schema.ops, Schema.size, plain_ops (c b) v]

@[instance_reducible] def plainPayload : TagPayload Plain where
  serializedSize p := p.size
  serialize p := (p.ops, .ok ())
  deserialize p _ := .done (.ok ()) p

section
variable {P Q : Type} [TagPayload P] [TagPayload Q] {c : P → Q} {ω : Type} [Writer ω]

/-- Replacing payloads by others that write the same. -/
theorem mapTag_valueSize (hs : ∀ p, TagPayload.serializedSize (c p) = TagPayload.serializedSize p) (t : Tag P) :
    (mapTag c t).valueSize = t.valueSize := by
  have hid := fun t : Tag P => Up.mapTag_id (c := c) t
  refine Tag.ind (motive := fun t => (mapTag c t).valueSize = t.valueSize) (fun a => ?_) (fun id ts ih => ?_)
    (fun id ts ih => ?_) (fun id es ih => ?_) t
  · cases a <;> simp [mapTag, mapAtom, Tag.valueSize, Atom.valueSize, hs]
  all_goals simp only [mapTag, Tag.valueSize]
  · have : ∀ acc, Tag.sizeSum acc (mapTags c ts) = Tag.sizeSum acc ts := by
      induction ts with
      | nil => exact fun _ => rfl
      | cons t ts iht => intro acc; simp only [mapTags, Tag.sizeSum, hid, ih t (by simp)]; exact iht (fun u hu => ih u (by simp [hu])) _
    exact this _
  · have : ∀ acc, Tag.sizeSum acc (mapTags c ts) = Tag.sizeSum acc ts := by
      induction ts with
      | nil => exact fun _ => rfl
      | cons t ts iht => intro acc; simp only [mapTags, Tag.sizeSum, hid, ih t (by simp)]; exact iht (fun u hu => ih u (by simp [hu])) _
    rw [this, mapTags_eq, List.length_map]
  · have : ∀ acc, Tag.entriesSum acc (mapEntries c es) = Tag.entriesSum acc es := by
      induction es with
      | nil => exact fun _ => rfl
      | cons e es iht =>
        obtain ⟨k, t⟩ := e
        intro acc
        simp only [mapEntries, Tag.entriesSum, hid, ih k t (by simp)]
        exact iht (fun k u hu => ih k u (by simp [hu])) _
    rw [this, mapEntries_eq, List.length_map]

theorem mapTag_serializeValue (hs : ∀ p, TagPayload.serializedSize (c p) = TagPayload.serializedSize p)
    (hw : ∀ p, TagPayload.serialize (c p) = TagPayload.serialize p) (t : Tag P) :
    ((mapTag c t).serializeValue : Act TagErr ω Unit) = t.serializeValue := by
  have hid := fun t : Tag P => Up.mapTag_id (c := c) t
  have hv := fun t : Tag P => mapTag_valueSize (c := c) hs t
  refine Tag.ind (motive := fun t => ((mapTag c t).serializeValue : Act TagErr ω Unit) = t.serializeValue) (fun a => ?_)
    (fun id ts ih => ?_) (fun id ts ih => ?_) (fun id es ih => ?_) t
  · cases a <;> simp [mapTag, mapAtom, Tag.serializeValue, Atom.serializeValue, hw]
  all_goals simp only [mapTag, Tag.serializeValue]
  · induction ts with
    | nil => rfl
    | cons t ts iht => simp only [mapTags, Tag.serializeSeq, hid, hv, ih t (by simp), iht (fun u hu => ih u (by simp [hu]))]
  · have : (Tag.serializeSeq (mapTags c ts) : Act TagErr ω Unit) = Tag.serializeSeq ts := by
      induction ts with
      | nil => rfl
      | cons t ts iht => simp only [mapTags, Tag.serializeSeq, hid, hv, ih t (by simp), iht (fun u hu => ih u (by simp [hu]))]
    rw [this, mapTags_eq, List.length_map]
  · have : (Tag.entrySerializers (mapEntries c es) : List (String × Act TagErr ω Unit)) = Tag.entrySerializers es := by
      induction es with
      | nil => rfl
      | cons e es iht =>
        obtain ⟨k, t⟩ := e
        simp only [mapEntries, Tag.entrySerializers, hid, hv, ih k t (by simp), iht (fun k u hu => ih k u (by simp [hu]))]
    rw [this, mapEntries_eq, List.length_map, List.map_map]
    rfl

end

/-- Tags of the same content have the same size and are written by the same calls. -/
theorem content_writes {ω : Type} [Writer ω] {t t' : Tag Struct} (h : contentOf t = contentOf t') :
    t.size = t'.size ∧ (t.serialize : Act TagErr ω Unit) = t'.serialize := by
  letI := plainPayload
  have hs : ∀ p : Struct, TagPayload.serializedSize (plain p.schema p.value) = TagPayload.serializedSize p :=
    fun p => (plain_ops p.schema p.value).2
  have hw : ∀ p : Struct, TagPayload.serialize (plain p.schema p.value) = TagPayload.serialize p :=
    fun p => congrArg (·, Res.ok ()) (plain_ops p.schema p.value).1
  have e1 : ∀ t : Tag Struct, (contentOf t).id = t.id ∧ (contentOf t).valueSize = t.valueSize ∧
      ((contentOf t).serializeValue : Act TagErr ω Unit) = t.serializeValue := fun t =>
    ⟨Up.mapTag_id t, mapTag_valueSize hs t, mapTag_serializeValue hs hw t⟩
  obtain ⟨a1, a2, a3⟩ := e1 t
  obtain ⟨b1, b2, b3⟩ := e1 t'
  unfold Tag.size Tag.serialize
  rw [← a1, ← a2, ← a3, ← b1, ← b2, ← b3, h]
  exact ⟨rfl, rfl⟩

end Verif
