import Verif.Proof.Grammar
/-!
# The language as a relation: monotone, closed under equality of maps, one meaning per form
-/
namespace Verif
open Spec
set_option linter.unusedSectionVars false
variable {α β P : Type}

/-! ### Maps -/

theorem fold_get (ws acc : List (String × α)) (k : String) (v : α) :
    HMap.get k (ws.foldl (fun m e => HMap.insert e.1 e.2 m) acc) = some v ↔
      (∃ l r, ws = l ++ (k, v) :: r ∧ k ∉ r.map (·.1)) ∨ k ∉ ws.map (·.1) ∧ HMap.get k acc = some v := by
  induction ws generalizing acc with
  | nil => simp
  | cons w ws ih =>
    rw [List.foldl_cons, ih, HMap.get_insert]
    constructor
    · rintro (⟨l, r, rfl, h⟩ | ⟨h1, h2⟩)
      · exact .inl ⟨w :: l, r, rfl, h⟩
      · split at h2
        · next hk =>
          cases h2
          subst hk
          exact .inl ⟨[], ws, rfl, h1⟩
        · next hk =>
          refine .inr ⟨?_, h2⟩
          simp only [List.map_cons, List.mem_cons, not_or]
          exact ⟨hk, h1⟩
    · rintro (⟨l, r, h, hr⟩ | ⟨h1, h2⟩)
      · cases l with
        | nil =>
          simp only [List.nil_append, List.cons.injEq] at h
          obtain ⟨rfl, rfl⟩ := h
          exact .inr ⟨hr, by simp⟩
        | cons x l =>
          simp only [List.cons_append, List.cons.injEq] at h
          obtain ⟨rfl, rfl⟩ := h
          exact .inl ⟨l, r, rfl, hr⟩
      · simp only [List.map_cons, List.mem_cons, not_or] at h1
        exact .inr ⟨h1.2, by rw [if_neg h1.1]; exact h2⟩

theorem fold_nodup (ws acc : List (String × α)) (h : (acc.map (·.1)).Nodup) :
    ((ws.foldl (fun m e => HMap.insert e.1 e.2 m) acc).map (·.1)).Nodup := by
  induction ws generalizing acc with
  | nil => exact h
  | cons w ws ih => exact ih _ (HMap.nodup_insert h _ _)

/-- The map as the code makes it has each key with its last value. -/
theorem latest_made {ws es : List (String × α)} (h : Acc.made α ws es) : Latest ws es := by
  have hn := fold_nodup ws [] (by simp)
  rw [← (show es = _ from h)] at hn
  refine ⟨hn, fun k v => ?_⟩
  have := fold_get ws [] k v
  rw [← (show es = _ from h)] at this
  simp only [HMap.get, reduceCtorEq, and_false, or_false] at this
  rw [← this]
  exact ⟨HMap.get_eq_some_of_mem hn, HMap.mem_of_get⟩

theorem last_of_mem {ws : List (String × α)} {k : String} (h : k ∈ ws.map (·.1)) :
    ∃ v l r, ws = l ++ (k, v) :: r ∧ k ∉ r.map (·.1) := by
  induction ws with
  | nil => simp at h
  | cons w ws ih =>
    by_cases hk : k ∈ ws.map (·.1)
    · obtain ⟨v, l, r, rfl, h2⟩ := ih hk
      exact ⟨v, w :: l, r, rfl, h2⟩
    · simp only [List.map_cons, List.mem_cons] at h
      have := h.resolve_right hk
      subst this
      exact ⟨w.2, [], ws, rfl, hk⟩

theorem latest_keys {ws es : List (String × α)} (h : Latest ws es) (k : String) : k ∈ es.map (·.1) ↔ k ∈ ws.map (·.1) := by
  constructor
  · intro hk
    obtain ⟨⟨k', v⟩, he, rfl⟩ := List.mem_map.mp hk
    obtain ⟨l, r, rfl, -⟩ := (h.2 k' v).mp he
    simp
  · intro hk
    obtain ⟨v, hl⟩ := last_of_mem hk
    exact List.mem_map.mpr ⟨(k, v), (h.2 k v).mpr hl, rfl⟩

theorem nodup_val {es : List (String × α)} (h : (es.map (·.1)).Nodup) {k : String} {u v : α} (hu : (k, u) ∈ es)
    (hv : (k, v) ∈ es) : u = v := by
  have h1 := HMap.get_eq_some_of_mem h hu
  rw [HMap.get_eq_some_of_mem h hv] at h1
  exact (Option.some.inj h1).symm

/-! ### Lists in step -/

inductive Pw (R : α → β → Prop) : List α → List β → Prop where
  | nil : Pw R [] []
  | cons {a b as bs} : R a b → Pw R as bs → Pw R (a :: as) (b :: bs)

theorem Pw.length {R : α → β → Prop} {as : List α} {bs : List β} (h : Pw R as bs) : as.length = bs.length := by
  induction h with
  | nil => rfl
  | cons _ _ ih => simp [ih]

theorem Pw.get {R : α → β → Prop} {as : List α} {bs : List β} (h : Pw R as bs) (i : Nat) (h1 : i < as.length)
    (h2 : i < bs.length) : R as[i] bs[i] := by
  induction h generalizing i with
  | nil => simp at h1
  | cons h _ ih =>
    cases i with
    | zero => exact h
    | succ i => exact ih i (by simpa using h1) (by simpa using h2)

theorem listed_pw {L : α → Bytes → Prop} {L' : β → Bytes → Prop} {R : α → β → Prop}
    (h : ∀ a x, L a x → ∃ b, L' b x ∧ R a b) (as : List α) (x : Bytes) (hl : Listed L as x) :
    ∃ bs, Listed L' bs x ∧ Pw R as bs := by
  induction as generalizing x with
  | nil => exact ⟨[], hl, .nil⟩
  | cons a as ih =>
    obtain ⟨x, y, rfl, h1, h2⟩ := hl
    obtain ⟨b, h3, h4⟩ := h a x h1
    obtain ⟨bs, h5, h6⟩ := ih y h2
    exact ⟨b :: bs, ⟨x, y, rfl, h3, h5⟩, .cons h4 h6⟩

theorem listed_mono {L L' : α → Bytes → Prop} (h : ∀ a x, L a x → L' a x) (as : List α) (x : Bytes)
    (hl : Listed L as x) : Listed L' as x := by
  induction as generalizing x with
  | nil => exact hl
  | cons a as ih =>
    obtain ⟨x, y, rfl, h1, h2⟩ := hl
    exact ⟨x, y, rfl, h a x h1, ih y h2⟩

theorem entryForm_mono {L L' : α → Bytes → Prop} (h : ∀ a x, L a x → L' a x) (e : String × α) (x : Bytes)
    (he : EntryForm L e x) : EntryForm L' e x := by
  obtain ⟨x, y, rfl, h1, h2⟩ := he
  exact ⟨x, y, rfl, h1, h _ _ h2⟩

theorem counted_mono {L L' : α → Bytes → Prop} (h : ∀ a x, L a x → L' a x) (as : List α) (x : Bytes)
    (hl : Counted' L as x) : Counted' L' as x := by
  obtain ⟨c, x, rfl, h1, h2⟩ := hl
  exact ⟨c, x, rfl, h1, listed_mono h _ _ h2⟩

theorem pw_last {R : α → β → Prop} {ws : List (String × α)} {vs : List (String × β)}
    (h : Pw (fun a b => a.1 = b.1 ∧ R a.2 b.2) ws vs) :
    ws.map (·.1) = vs.map (·.1) ∧ ∀ l k t r, ws = l ++ (k, t) :: r → k ∉ r.map (·.1) →
      ∃ l' u r', vs = l' ++ (k, u) :: r' ∧ k ∉ r'.map (·.1) ∧ R t u := by
  induction h with
  | nil => exact ⟨rfl, fun l k t r h => by simp at h⟩
  | @cons a b as bs h1 h2 ih =>
    refine ⟨by simp [ih.1, h1.1], fun l k t r h hr => ?_⟩
    cases l with
    | nil =>
      simp only [List.nil_append, List.cons.injEq] at h
      obtain ⟨rfl, rfl⟩ := h
      exact ⟨[], b.2, bs, by simp only [List.nil_append, List.cons.injEq, and_true]; exact Prod.ext h1.1.symm rfl,
        by rw [← ih.1]; exact hr, h1.2⟩
    | cons x l =>
      simp only [List.cons_append, List.cons.injEq] at h
      obtain ⟨rfl, rfl⟩ := h
      obtain ⟨l', u, r', rfl, h3, h4⟩ := ih.2 l k t r rfl hr
      exact ⟨b :: l', u, r', rfl, h3, h4⟩

theorem same_kind_id {t u : Tag P} (h : Same t u) : t.kind = u.kind ∧ t.id = u.id := by
  cases h <;> exact ⟨rfl, rfl⟩

/-! ### The language -/
section
variable [TagPayload P] [Env]

theorem atomForm_mono {M M' : MapMaking} (hM : ∀ α ws es, M α ws es → M' α ws es) (a : Atom P) (x : Bytes)
    (h : AtomForm M a x) : AtomForm M' a x := by
  cases a with
  | strDict id es => obtain ⟨ws, h1, h2⟩ := h; exact ⟨ws, h1, hM _ _ _ h2⟩
  | _ => exact h

theorem valueForm_mono {M M' : MapMaking} (hM : ∀ α ws es, M α ws es → M' α ws es) {L L' : Tag P → Bytes → Prop}
    (hL : ∀ t x, L t x → L' t x) (t : Tag P) (x : Bytes) (h : ValueForm M L t x) : ValueForm M' L' t x := by
  cases t with
  | atom a => exact atomForm_mono hM a x h
  | seq id ts => exact listed_mono hL _ _ h
  | array id ts => exact counted_mono hL _ _ h
  | dict id es => obtain ⟨ws, h1, h2⟩ := h; exact ⟨ws, counted_mono (entryForm_mono hL) _ _ h1, hM _ _ _ h2⟩

theorem formAt_mono {M M' : MapMaking} (hM : ∀ α ws es, M α ws es → M' α ws es) {strict strict' : Bool}
    (hs : ∀ t : Tag P, StdTag strict t → StdTag strict' t) {k k' : Nat} (hk : k ≤ k') (t : Tag P) (x : Bytes)
    (h : FormAt M strict k t x) : FormAt M' strict' k' t x := by
  induction k generalizing k' t x with
  | zero => exact h.elim
  | succ k ih =>
    obtain ⟨k', rfl⟩ : ∃ j, k' = j + 1 := ⟨k' - 1, by omega⟩
    obtain ⟨h1, hd, v, h2, h3, h4⟩ := h
    exact ⟨hs t h1, hd, v, h2, valueForm_mono hM (fun t x h => ih (by omega) t x h) t v h3, h4⟩

/-- The standard factory reads the tag and leaves `rest` exactly if the input is a form of the tag followed by `rest`. -/
theorem top_form (hr : Roomy) (strict : Bool) (bs : Bytes) (t : Tag P) (rest : Bytes) :
    Parser.top (Engine.std strict) bs = .ok t rest ↔ ∃ x k, bs = x ++ rest ∧ FormAt Acc.made strict k t x := by
  constructor
  · intro h
    rw [← tag_eq_top _ (Nat.lt_succ_self _)] at h
    obtain ⟨x, h1, h2⟩ := (Acc.tag hr strict _ _ _ _).mp h
    exact ⟨x, _, h1, h2⟩
  · rintro ⟨x, k, h1, h2⟩
    rw [← tag_eq_top (k := bs.length + 1 + k) _ (by omega)]
    exact (Acc.tag hr strict _ _ _ _).mpr ⟨x, h1, formAt_mono (fun _ _ _ h => h) (fun _ h => h) (by omega) t x h2⟩

/-- The same for a value. -/
theorem valueForm_made {L L' : Tag P → Bytes → Prop} (ih : ∀ t x, L t x → ∃ t', L' t' x ∧ Same t' t) (t : Tag P) (v : Bytes)
    (h3 : ValueForm (fun _ => Latest) L t v) : ∃ t', ValueForm Acc.made L' t' v ∧ Same t' t := by
  cases t with
  | atom a =>
    cases a with
    | strDict id es =>
      obtain ⟨ws, h6, h7⟩ := h3
      have hm := latest_made (ws := ws) rfl
      refine ⟨.atom (.strDict id _), ⟨ws, h6, rfl⟩, .strDict id fun e => ?_⟩
      rw [hm.2, h7.2]
    | _ => refine ⟨_, ?_, .atom _⟩; exact h3
  | seq id ts =>
    obtain ⟨us, h6, h7⟩ := listed_pw (R := fun a b => Same b a) ih ts v h3
    exact ⟨.seq id us, h6, .seq id h7.length.symm fun i h h' => h7.get i h' h⟩
  | array id ts =>
    obtain ⟨c, y, rfl, hc, h3⟩ := h3
    obtain ⟨us, h6, h7⟩ := listed_pw (R := fun a b => Same b a) ih ts y h3
    exact ⟨.array id us, ⟨c, y, rfl, by rw [← h7.length]; exact hc, h6⟩, .array id h7.length.symm fun i h h' => h7.get i h' h⟩
  | dict id es =>
    obtain ⟨ws, ⟨c, y, rfl, hc, h3⟩, h8⟩ := h3
    obtain ⟨us, h6, h7⟩ := listed_pw (L' := EntryForm (L'))
      (R := fun a b => a.1 = b.1 ∧ Same b.2 a.2) (by
        rintro e _ ⟨x, y, rfl, h1, h2⟩
        obtain ⟨t', h3, h4⟩ := ih _ _ h2
        exact ⟨(e.1, t'), ⟨x, y, rfl, h1, h3⟩, rfl, h4⟩) ws y h3
    have hm := latest_made (ws := us) rfl
    obtain ⟨hkeys, hlast⟩ := pw_last (R := fun a b => Same b a) h7
    refine ⟨.dict id _, ⟨us, ⟨c, y, rfl, by rw [← h7.length]; exact hc, h6⟩, rfl⟩, .dict id (fun k => ?_) fun k u t hu ht => ?_⟩
    · rw [latest_keys hm, latest_keys h8, hkeys]
    · obtain ⟨l, r, e, hr⟩ := (h8.2 k t).mp ht
      obtain ⟨l', u', r', e', hr', hs⟩ := hlast l k t r e hr
      rw [nodup_val hm.1 hu ((hm.2 k u').mpr ⟨l', r', e', hr'⟩)]
      exact hs

/-- Every form is, up to the order of maps, one that the code reads. -/
theorem formAt_made {strict : Bool} {k : Nat} (t : Tag P) (x : Bytes) (h : FormAt (fun _ => Latest) strict k t x) :
    ∃ t', FormAt Acc.made strict k t' x ∧ Same t' t := by
  induction k generalizing t x with
  | zero => exact h.elim
  | succ k ih =>
    obtain ⟨h1, hd, v, h2, h3, h4, h5⟩ := h
    obtain ⟨t', h6, h7⟩ := valueForm_made ih t v h3
    obtain ⟨hk, hi⟩ := same_kind_id h7
    exact ⟨t', ⟨Acc.stdTag_congr hk.symm hi.symm h1, hd, v, by rw [hi]; exact h2, h6, h4, by rw [hi]; exact h5⟩, h7⟩

theorem listed_replace {L : Tag P → Bytes → Prop} (ts us : List (Tag P)) (hl : ts.length = us.length)
    (h : ∀ i (h : i < ts.length) (h' : i < us.length) x, L ts[i] x → L us[i] x) (x : Bytes) (hx : Listed L ts x) :
    Listed L us x := by
  induction ts generalizing us x with
  | nil =>
    have : us = [] := List.length_eq_zero_iff.mp (by simpa using hl.symm)
    subst this; exact hx
  | cons t ts ih =>
    cases us with
    | nil => simp at hl
    | cons u us =>
      obtain ⟨x, y, rfl, h1, h2⟩ := hx
      exact ⟨x, y, rfl, h 0 (by simp) (by simp) x h1, ih us (by simpa using hl) (fun i a b z hz =>
        h (i + 1) (by simpa using a) (by simpa using b) z hz) y h2⟩

theorem entries_replace {L : α → Bytes → Prop} (es : List (String × α)) (ws : List (String × α))
    (h : ∀ l k t r, ws = l ++ (k, t) :: r → k ∉ r.map (·.1) → ∃ u, (k, u) ∈ es ∧ ∀ x, L t x → L u x) (x : Bytes)
    (hx : Listed (EntryForm L) ws x) :
    ∃ vs, Listed (EntryForm L) vs x ∧ vs.map (·.1) = ws.map (·.1) ∧
      ∀ k v l r, vs = l ++ (k, v) :: r → k ∉ r.map (·.1) → (k, v) ∈ es := by
  induction ws generalizing x with
  | nil => exact ⟨[], hx, rfl, fun k v l r h => by simp at h⟩
  | cons w ws ih =>
    obtain ⟨x, y, rfl, h1, h2⟩ := hx
    obtain ⟨vs, h3, h4, h5⟩ := ih (fun l k t r e hr => h (w :: l) k t r (by rw [e]; rfl) hr) y h2
    by_cases hk : w.1 ∈ ws.map (·.1)
    · refine ⟨w :: vs, ⟨x, y, rfl, h1, h3⟩, by simp [h4], fun k v l r e hr => ?_⟩
      cases l with
      | nil =>
        simp only [List.nil_append, List.cons.injEq] at e
        obtain ⟨rfl, rfl⟩ := e
        rw [h4] at hr
        exact absurd hk hr
      | cons z l =>
        simp only [List.cons_append, List.cons.injEq] at e
        exact h5 k v l r e.2 hr
    · obtain ⟨u, hu, hL⟩ := h [] w.1 w.2 ws rfl hk
      obtain ⟨a, b, rfl, h6, h7⟩ := h1
      refine ⟨(w.1, u) :: vs, ⟨_, y, rfl, ⟨a, b, rfl, h6, hL _ h7⟩, h3⟩, by simp [h4], fun k v l r e hr => ?_⟩
      cases l with
      | nil =>
        simp only [List.nil_append, List.cons.injEq, Prod.mk.injEq] at e
        obtain ⟨⟨rfl, rfl⟩, rfl⟩ := e
        exact hu
      | cons z l =>
        simp only [List.cons_append, List.cons.injEq] at e
        exact h5 k v l r e.2 hr

/-- The forms of a value do not depend on the order in which the tag lists its maps. -/
theorem valueForm_same {L : Tag P → Bytes → Prop} (ih : ∀ t u x, L t x → Same t u → MapsOk u → L u x) (t u : Tag P) (v : Bytes)
    (h3 : ValueForm (fun _ => Latest) L t v) (hs : Same t u) (hu : MapsOk u) : ValueForm (fun _ => Latest) L u v := by
  cases hs with
  | atom a => exact h3
  | @strDict id es fs he =>
    obtain ⟨ws, h6, h7⟩ := h3
    exact ⟨ws, h6, hu _ (.refl _), fun k v => (he (k, v)).symm.trans (h7.2 k v)⟩
  | @seq id ts us hl he =>
    exact listed_replace ts us hl (fun i a b x hx => ih _ _ x hx (he i a b) fun w hw =>
      hu w (.seq (List.getElem_mem b) hw)) v h3
  | @array id ts us hl he =>
    obtain ⟨c, y, rfl, hc, h3⟩ := h3
    exact ⟨c, y, rfl, by rw [← hl]; exact hc, listed_replace ts us hl (fun i a b x hx => ih _ _ x hx (he i a b) fun w hw =>
      hu w (.array (List.getElem_mem b) hw)) y h3⟩
  | @dict id es fs hkeys he =>
    obtain ⟨ws, ⟨c, y, rfl, hc, h3⟩, h7⟩ := h3
    obtain ⟨vs, h8, h9, h10⟩ := entries_replace fs ws (fun l k t r e hr => by
      have hm := (h7.2 k t).mpr ⟨l, r, e, hr⟩
      have hm' := (hkeys k).mp (List.mem_map.mpr ⟨(k, t), hm, rfl⟩)
      obtain ⟨⟨k', u⟩, hmu, rfl⟩ := List.mem_map.mp hm'
      exact ⟨u, hmu, fun x hx => ih t u x hx (he _ t u hm hmu) fun w hw => hu w (.dict hmu hw)⟩) y h3
    have hn : (fs.map (·.1)).Nodup := hu _ (.refl _)
    have hlen : vs.length = ws.length := by rw [← List.length_map (·.1), h9, List.length_map]
    refine ⟨vs, ⟨c, y, rfl, by rw [hlen]; exact hc, h8⟩, hn, fun k v => ⟨fun hm => ?_, fun ⟨l, r, e, hr⟩ => h10 k v l r e hr⟩⟩
    have hm' : k ∈ vs.map (·.1) := by
      rw [h9, ← latest_keys h7, hkeys]
      exact List.mem_map.mpr ⟨(k, v), hm, rfl⟩
    obtain ⟨v', l, r, e, hr⟩ := last_of_mem hm'
    have := nodup_val hn hm (h10 k v' l r e hr)
    subst this
    exact ⟨l, r, e, hr⟩

/-- The forms of a tag do not depend on the order in which it lists its maps. -/
theorem formAt_same {strict : Bool} {k : Nat} (t u : Tag P) (x : Bytes) (h : FormAt (fun _ => Latest) strict k t x)
    (hs : Same t u) (hu : MapsOk u) : FormAt (fun _ => Latest) strict k u x := by
  induction k generalizing t u x with
  | zero => exact h.elim
  | succ k ih =>
    obtain ⟨h1, hd, v, h2, h3, h4, h5⟩ := h
    obtain ⟨hk, hi⟩ := same_kind_id hs
    exact ⟨Acc.stdTag_congr hk hi h1, hd, v, by rw [← hi]; exact h2, valueForm_same ih t u v h3 hs hu, h4, by rw [← hi]; exact h5⟩

/-- What holds within the parts holds within the whole. -/
theorem valueForm_within {L : Tag P → Bytes → Prop} {Q : Tag P → Prop} (ih : ∀ t x, L t x → ∀ w, Within w t → Q w) (t : Tag P)
    (v : Bytes) (h3 : ValueForm (fun _ => Latest) L t v) (hQ : Q t) : ∀ w, Within w t → Q w := by
  have hlist : ∀ (ts : List (Tag P)) (x : Bytes), Listed L ts x → ∀ t ∈ ts, ∀ w, Within w t → Q w := by
    intro ts
    induction ts with
    | nil => intro x _ t ht; simp at ht
    | cons t ts ih2 =>
      rintro _ ⟨x, y, rfl, h1, h2⟩ u hu
      rcases List.mem_cons.mp hu with rfl | hu
      · exact ih _ _ h1
      · exact ih2 y h2 u hu
  have hent : ∀ (es : List (String × Tag P)) (x : Bytes), Listed (EntryForm L) es x → ∀ e ∈ es, ∀ w, Within w e.2 → Q w := by
    intro es
    induction es with
    | nil => intro x _ t ht; simp at ht
    | cons t ts ih2 =>
      rintro _ ⟨_, y, rfl, ⟨a, b, rfl, -, h1⟩, h2⟩ u hu
      rcases List.mem_cons.mp hu with rfl | hu
      · exact ih _ _ h1
      · exact ih2 y h2 u hu
  intro u hu
  cases hu with
  | refl => exact hQ
  | seq hm hw => exact hlist _ _ h3 _ hm u hw
  | array hm hw =>
    obtain ⟨c, y, rfl, -, h3⟩ := h3
    exact hlist _ _ h3 _ hm u hw
  | @dict key val id es hm hw =>
    obtain ⟨ws, ⟨c, y, rfl, -, h4⟩, h5⟩ := h3
    obtain ⟨l, r, rfl, -⟩ := (h5.2 _ _).mp hm
    exact hent _ _ h4 (key, val) (by simp) u hw

theorem valueForm_mapOk {L : Tag P → Bytes → Prop} (t : Tag P) (v : Bytes) (h3 : ValueForm (fun _ => Latest) L t v) :
    MapOk t := by
  cases t with
  | atom a =>
    cases a with
    | strDict id es => obtain ⟨ws, -, h⟩ := h3; exact h.1
    | _ => trivial
  | dict id es => obtain ⟨ws, -, h⟩ := h3; exact h.1
  | _ => trivial

/-- The maps of a tag that has a form have no key twice. -/
theorem formAt_mapsOk {strict : Bool} {k : Nat} (t : Tag P) (x : Bytes) (h : FormAt (fun _ => Latest) strict k t x) :
    MapsOk t := by
  induction k generalizing t x with
  | zero => exact h.elim
  | succ k ih =>
    obtain ⟨-, hd, v, -, h3, -⟩ := h
    exact valueForm_within ih t v h3 (valueForm_mapOk t v h3)
end
end Verif
