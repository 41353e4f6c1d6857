import Verif.Proof.Change
import Verif.Props.Grammar
/-!
# Bytes that differ from the encoding in the order of entries only
-/
namespace Verif
open Spec
variable {P : Type} [TagPayload P]

/-- One piece for each item. -/
def Each {α : Type} (R : α → Bytes → Prop) : List α → List Bytes → Prop
  | [], xs => xs = []
  | a :: as, xs => ∃ x ys, R a x ∧ Each R as ys ∧ xs = x :: ys

namespace Each
variable {α : Type} {R : α → Bytes → Prop}

theorem perm {as bs : List α} (h : as.Perm bs) : ∀ {xs : List Bytes}, Each R as xs → ∃ ys, Each R bs ys ∧ xs.Perm ys := by
  induction h with
  | nil => exact fun h => ⟨_, h, .refl _⟩
  | cons a _ ih =>
    rintro xs ⟨x, ys, hx, hy, rfl⟩
    obtain ⟨zs, h1, h2⟩ := ih hy
    exact ⟨x :: zs, ⟨x, zs, hx, h1, rfl⟩, h2.cons x⟩
  | swap a b l =>
    rintro xs ⟨x, _, hx, ⟨y, ys, hy, hl, rfl⟩, rfl⟩
    exact ⟨y :: x :: ys, ⟨y, _, hy, ⟨x, ys, hx, hl, rfl⟩, rfl⟩, .swap y x ys⟩
  | trans _ _ ih1 ih2 =>
    intro xs h
    obtain ⟨ys, h1, h2⟩ := ih1 h
    obtain ⟨zs, h3, h4⟩ := ih2 h1
    exact ⟨zs, h3, h2.trans h4⟩

/-- A permutation of the pieces belongs to a permutation of the items. -/
theorem perm' {ys xs : List Bytes} (h : ys.Perm xs) : ∀ {as : List α}, Each R as ys → ∃ bs, Each R bs xs ∧ as.Perm bs := by
  induction h with
  | nil => exact fun {as} h => ⟨as, h, .refl _⟩
  | cons x _ ih =>
    intro as h
    cases as with
    | nil => cases h
    | cons a as =>
      obtain ⟨_, _, hx, hy, e⟩ := h
      cases e
      obtain ⟨bs, h1, h2⟩ := ih hy
      exact ⟨a :: bs, ⟨_, _, hx, h1, rfl⟩, h2.cons a⟩
  | swap x y l =>
    intro as h
    cases as with
    | nil => cases h
    | cons a as =>
      obtain ⟨_, _, hx, hy, e⟩ := h
      cases e
      cases as with
      | nil => cases hy
      | cons b as =>
        obtain ⟨_, _, hy, hl, e⟩ := hy
        cases e
        exact ⟨b :: a :: as, ⟨_, _, hy, ⟨_, _, hx, hl, rfl⟩, rfl⟩, .swap b a as⟩
  | trans _ _ ih1 ih2 =>
    intro as h
    obtain ⟨ys, h1, h2⟩ := ih1 h
    obtain ⟨zs, h3, h4⟩ := ih2 h1
    exact ⟨zs, h3, h2.trans h4⟩

theorem of_eq {f : α → Bytes} : ∀ {as : List α} {xs : List Bytes}, Each (fun a x => x = f a) as xs ↔ xs = as.map f
  | [], xs => Iff.rfl
  | a :: as, xs => by
    constructor
    · rintro ⟨x, ys, rfl, h, rfl⟩; rw [of_eq.mp h]; rfl
    · rintro rfl; exact ⟨_, _, rfl, of_eq.mpr rfl, rfl⟩

theorem mono {R' : α → Bytes → Prop} : ∀ {as : List α} {xs : List Bytes}, (∀ a ∈ as, ∀ x, R a x → R' a x) →
    Each R as xs → Each R' as xs
  | [], _, _, h => h
  | a :: as, _, hR, ⟨x, ys, hx, hy, e⟩ =>
    ⟨x, ys, hR a (by simp) x hx, mono (fun b hb => hR b (by simp [hb])) hy, e⟩

theorem listed : ∀ {as : List α} {xs : List Bytes}, Each R as xs → Listed R as xs.flatten
  | [], _, h => by cases h; rfl
  | a :: as, _, ⟨x, ys, hx, hy, e⟩ => by subst e; exact ⟨x, ys.flatten, by simp, hx, listed hy⟩

theorem perm_flatMap {f : α → Bytes} : ∀ {as : List α} {xs : List Bytes}, (∀ a ∈ as, ∀ x, R a x → x.Perm (f a)) →
    Each R as xs → xs.flatten.Perm (as.flatMap f)
  | [], _, _, h => by cases h; exact .refl _
  | a :: as, _, hR, ⟨x, ys, hx, hy, e⟩ => by
    subst e
    rw [List.flatten_cons, List.flatMap_cons]
    exact (hR a (by simp) x hx).append (perm_flatMap (fun b hb => hR b (by simp [hb])) hy)

/-- Pieces that are together not longer than the encodings are none of them longer. -/
theorem tight {L : α → Bytes → Prop} {f : α → Bytes} : ∀ (as : List α) (x : Bytes),
    (∀ a ∈ as, ∀ y, L a y → (f a).length ≤ y.length ∧ (y.length ≤ (f a).length → R a y)) → Listed L as x →
    (as.flatMap f).length ≤ x.length ∧ (x.length ≤ (as.flatMap f).length → ∃ xs, Each R as xs ∧ x = xs.flatten)
  | [], x, _, h => by have h : x = [] := h; subst h; exact ⟨by simp, fun _ => ⟨[], rfl, rfl⟩⟩
  | a :: as, x, hL, ⟨y, z, e, h1, h2⟩ => by
    subst e
    obtain ⟨i1, i2⟩ := hL a (by simp) y h1
    obtain ⟨j1, j2⟩ := tight as z (fun b hb => hL b (by simp [hb])) h2
    rw [List.flatMap_cons, List.length_append, List.length_append]
    refine ⟨by omega, fun hl => ?_⟩
    obtain ⟨ys, h3, rfl⟩ := j2 (by omega)
    exact ⟨y :: ys, ⟨y, ys, i2 (by omega), h3, rfl⟩, by simp⟩

end Each

/-- The bytes of an entry. -/
def EntryShuffled (e : String × Tag P) (x : Bytes) : Prop := ∃ v, ShuffledValue e.2 v ∧ x = stringTag e.1 ++ wrap e.2.id v

theorem shuffledEach_iff : ∀ {es : List (String × Tag P)} {xs : List Bytes}, ShuffledEach es xs ↔ Each EntryShuffled es xs
  | [], _ => by unfold ShuffledEach Each; exact Iff.rfl
  | (k, t) :: es, xs => by
    unfold ShuffledEach Each
    constructor
    · rintro ⟨x, ys, h1, h2, rfl⟩; exact ⟨_, ys, ⟨x, h1, rfl⟩, shuffledEach_iff.mp h2, rfl⟩
    · rintro ⟨_, ys, ⟨x, h1, rfl⟩, h2, rfl⟩; exact ⟨x, ys, h1, shuffledEach_iff.mpr h2, rfl⟩

theorem shuffledAll_iff : ∀ {ts : List (Tag P)} {v : Bytes}, ShuffledAll ts v ↔ ∃ xs, Each Shuffled ts xs ∧ v = xs.flatten
  | [], v => by
    unfold ShuffledAll
    constructor
    · rintro rfl; exact ⟨[], rfl, rfl⟩
    · rintro ⟨xs, h, rfl⟩; cases h; rfl
  | t :: ts, v => by
    unfold ShuffledAll
    constructor
    · rintro ⟨x, y, h1, h2, rfl⟩
      obtain ⟨xs, h3, rfl⟩ := shuffledAll_iff.mp h2
      exact ⟨_, ⟨_, xs, ⟨x, h1, rfl⟩, h3, rfl⟩, by simp⟩
    · rintro ⟨_, ⟨_, xs, ⟨x, h1, rfl⟩, h3, rfl⟩, rfl⟩
      exact ⟨x, _, h1, shuffledAll_iff.mpr ⟨xs, h3, rfl⟩, by simp⟩

/-! ### From a form of the same length -/

theorem tight_map {α : Type} {L R : String × α → Bytes → Prop} {f : String × α → Bytes} {ws es : List (String × α)}
    {v : Bytes} (hL : Counted' L ws v) (hl : Latest ws es)
    (hR : ∀ a y, L a y → (f a).length ≤ y.length ∧ (y.length ≤ (f a).length → R a y)) (hf : ∀ a, 1 ≤ (f a).length)
    (hv : v.length ≤ (Spec.ilint es.length).length + (es.flatMap f).length) :
    ∃ xs ys : List Bytes, Each R es xs ∧ ys.Perm xs ∧ v = Spec.ilint es.length ++ ys.flatten := by
  letI : Env := Props.bigEnv
  obtain ⟨c, x, rfl, hc, hL⟩ := hL
  obtain ⟨t1, t2⟩ := Each.tight (R := R) ws x (fun a _ => hR a) hL
  obtain ⟨rest, hr⟩ := Snug.split_subset (nodup_of_nodup_keys hl.1) (ws := ws) (fun e he => by
    obtain ⟨l, r, rfl, -⟩ := (hl.2 e.1 e.2).mp he
    simp)
  have hlr := hr.length_eq
  rw [List.length_append] at hlr
  have hpl := (hr.flatMap_right f).length_eq
  rw [List.flatMap_append, List.length_append] at hpl
  have hrest : rest.length ≤ (rest.flatMap f).length := length_le_flatMap_ge f hf rest
  have h1 := (Snug.ilint (D := False) hc).1
  have h2 := Snug.ilint_length (m := es.length) (n := ws.length) (by omega) hc.1
  rw [List.length_append] at hv
  have : rest = [] := List.length_eq_zero_iff.mp (by omega)
  subst this
  rw [List.append_nil] at hr
  have hlen := hr.length_eq
  obtain ⟨ys, h3, rfl⟩ := t2 (by simp only [List.flatMap_nil, List.length_nil] at hpl; omega)
  obtain ⟨xs, h4, h5⟩ := Each.perm hr h3
  refine ⟨xs, ys, h4, h5, ?_⟩
  rw [hlen] at hc
  rw [(ILInt.ilint_shortest hc).2 (by have := (ILInt.ilint_shortest hc).1; omega)]

theorem flatMap_perm_length {α : Type} (f : α → Bytes) {l l' : List α} (h : l.Perm l') :
    (l.flatMap f).length = (l'.flatMap f).length := (h.flatMap_right f).length_eq

theorem value_shuffled {L : Tag P → Bytes → Prop} {t : Tag P} {v : Bytes} (hf : ValueForm (fun _ => Latest) L t v)
    (hL : ∀ u y, L u y → (enc u).length ≤ y.length ∧ (y.length ≤ (enc u).length → Shuffled u y))
    (hv : v.length ≤ (encValue t).length) : ShuffledValue t v := by
  letI : Env := Props.bigEnv
  have hst : ∀ s : String, 1 ≤ (Spec.stringTag s).length := fun s => by
    rw [Look.stringTag_eq]
    have := ilint_pos 17
    simp only [List.length_append]
    omega
  cases t with
  | seq i ts =>
    rw [encValue, encTags_eq] at hv
    unfold ShuffledValue
    exact shuffledAll_iff.mpr ((Each.tight ts v (fun a _ => hL a) hf).2 hv)
  | array i ts =>
    rw [encValue, encTags_eq, List.length_append] at hv
    obtain ⟨c, x, rfl, hc, hx⟩ := hf
    have h1 := ILInt.ilint_shortest hc
    have h2 := Each.tight (R := Shuffled) ts x (fun a _ => hL a) hx
    have h3 := h1.1
    have h4 := h2.1
    rw [List.length_append] at hv
    unfold ShuffledValue
    exact ⟨x, shuffledAll_iff.mpr (h2.2 (by omega)), by rw [h1.2 (by omega)]⟩
  | dict i es =>
    rw [encValue, encSorted_tags, List.length_append, flatMap_perm_length _ (sortByKey_perm es)] at hv
    obtain ⟨ws, h1, h2⟩ := hf
    obtain ⟨xs, ys, h3, h4, h5⟩ := tight_map (R := EntryShuffled) (f := fun e => Spec.stringTag e.1 ++ enc e.2) h1 h2
      (by
        rintro e y ⟨k, w, rfl, hk, hw⟩
        have i := Snug.string (D := True) hk
        have j := hL _ _ hw
        have i1 := i.1
        have j1 := j.1
        simp only [List.length_append]
        refine ⟨by omega, fun hle => ?_⟩
        obtain ⟨v, h6, rfl⟩ := j.2 (by omega)
        exact ⟨v, h6, by rw [(i.2 (by omega)).2 trivial]⟩)
      (fun e => by have := hst e.1; rw [List.length_append]; omega) hv
    unfold ShuffledValue
    exact ⟨xs, ys, shuffledEach_iff.mpr h3, h4, h5⟩
  | atom a =>
    have hv : v.length ≤ (encAtom a).length := hv
    have hs : (∀ i es, a ≠ .strDict i es) → Snug True v (encAtom a) := fun hne => by
      have := Snug.value (D := True) (L := fun (u : Tag P) x => False) (t := .atom a) (v := v) hf
        (fun _ => by cases a <;> first | trivial | exact absurd rfl (hne _ _)) (fun _ _ h => h.elim) (fun _ _ _ h => h.elim)
      exact this
    cases a with
    | strDict i es =>
      rw [encAtom, encSorted_eq, List.length_append, flatMap_perm_length _ (sortByKey_perm es)] at hv
      obtain ⟨ws, h1, h2⟩ := hf
      obtain ⟨xs, ys, h3, h4, h5⟩ := tight_map (R := fun e x => x = Spec.stringTag e.1 ++ Spec.stringTag e.2)
        (f := fun e => Spec.stringTag e.1 ++ Spec.stringTag e.2) h1 h2
        (by
          rintro e y ⟨k, w, rfl, hk, hw⟩
          have i := Snug.string (D := True) hk
          have j := Snug.string (D := True) hw
          have i1 := i.1
          have j1 := j.1
          simp only [List.length_append]
          refine ⟨by omega, fun hle => ?_⟩
          rw [(i.2 (by omega)).2 trivial, (j.2 (by omega)).2 trivial])
        (fun e => by have := hst e.1; rw [List.length_append]; omega) hv
      unfold ShuffledValue
      exact ⟨ys, h4.trans (Each.of_eq.mp h3 ▸ .refl _), h5⟩
    | _ => exact ((hs (fun _ _ => nofun)).2 hv).2 trivial

theorem formAt_shuffled (k : Nat) : ∀ (t : Tag P) (x : Bytes) (strict : Bool), FormAt (fun _ => Latest) strict k t x →
    x.length ≤ (enc t).length → Shuffled t x := by
  induction k with
  | zero => intro t x strict h; exact h.elim
  | succ k ih =>
    intro t x strict h hl
    obtain ⟨-, h, v, h1, h2, -, hx⟩ := h
    have hL : ∀ u y, FormAt (fun _ => Latest) strict k u y →
        (enc u).length ≤ y.length ∧ (y.length ≤ (enc u).length → Shuffled u y) := fun u y hu =>
      ⟨(Snug.formAt k False u y strict hu fun d => d.elim).1, ih u y strict hu⟩
    have hv : Snug False v (encValue t) := Snug.value h2 (fun d => d.elim)
      (fun u x hu => Snug.formAt k False u x strict hu fun d => d.elim)
      (fun u _ x hx => Snug.formAt k False u x strict hx fun d => d.elim)
    have hv1 := hv.1
    have i := ILInt.ilint_shortest h1
    have i1 := i.1
    unfold enc wrap at hl
    rcases hx with ⟨h15, rfl⟩ | ⟨h16, l, hl', rfl⟩
    · rw [if_pos h15, List.append_nil, List.length_append, List.length_append] at hl
      refine ⟨v, value_shuffled h2 hL (by omega), ?_⟩
      unfold wrap
      rw [if_pos h15, List.append_nil, i.2 (by omega)]
    · have j := ILInt.ilint_shortest hl'
      have j1 := j.1
      have j2 := Snug.ilint_length hv1 hl'.1
      rw [if_neg (by omega)] at hl
      simp only [List.length_append] at hl
      refine ⟨v, value_shuffled h2 hL (by omega), ?_⟩
      unfold wrap
      rw [if_neg (by omega), i.2 (by omega), j.2 (by omega)]

/-! ### The other way -/

theorem wrap_perm (id : UInt64) {v w : Bytes} (h : v.Perm w) : (wrap id v).Perm (wrap id w) := by
  unfold wrap
  rw [h.length_eq]
  exact List.Perm.append_left _ h

theorem shuffledValue_perm (t : Tag P) : ∀ {v : Bytes}, ShuffledValue t v → v.Perm (encValue t) := by
  letI : Env := Props.bigEnv
  induction t using Tag.ind with
  | atom a =>
    intro v h
    show v.Perm (encAtom a)
    by_cases hs : ∃ i es, a = .strDict i es
    · obtain ⟨i, es, rfl⟩ := hs
      unfold ShuffledValue at h
      obtain ⟨xs, h1, rfl⟩ := h
      rw [encAtom, encSorted_eq]
      refine List.Perm.append_left _ ((h1.flatten).trans ?_)
      rw [← List.flatMap_def]
      exact (sortByKey_perm es).symm.flatMap_right _
    · have : v = encAtom a := by
        cases a with
        | strDict i es => exact absurd ⟨i, es, rfl⟩ hs
        | _ => exact h
      exact this ▸ .refl _
  | seq id ts ih =>
    intro v h
    unfold ShuffledValue at h
    obtain ⟨xs, h1, rfl⟩ := shuffledAll_iff.mp h
    rw [encValue, encTags_eq]
    exact Each.perm_flatMap (fun a ha x ⟨w, hw, e⟩ => e ▸ wrap_perm _ (ih a ha hw)) h1
  | array id ts ih =>
    intro v h
    unfold ShuffledValue at h
    obtain ⟨x, h, rfl⟩ := h
    obtain ⟨xs, h1, rfl⟩ := shuffledAll_iff.mp h
    rw [encValue, encTags_eq]
    exact List.Perm.append_left _ (Each.perm_flatMap (fun a ha x ⟨w, hw, e⟩ => e ▸ wrap_perm _ (ih a ha hw)) h1)
  | dict id es ih =>
    intro v h
    unfold ShuffledValue at h
    obtain ⟨xs, ys, h1, h2, rfl⟩ := h
    rw [encValue, encSorted_tags]
    refine List.Perm.append_left _ (h2.flatten.trans ?_)
    have h3 : xs.flatten.Perm (es.flatMap fun e => Spec.stringTag e.1 ++ enc e.2) := by
      refine Each.perm_flatMap (R := EntryShuffled) ?_ (shuffledEach_iff.mp h1)
      rintro a ha x ⟨w, hw, rfl⟩
      exact List.Perm.append_left _ (wrap_perm _ (ih a.1 a.2 ha hw))
    exact h3.trans ((sortByKey_perm es).symm.flatMap_right _)

theorem shuffled_perm {t : Tag P} {bs : Bytes} (h : Shuffled t bs) : bs.Perm (enc t) := by
  obtain ⟨v, h, rfl⟩ := h
  exact wrap_perm _ (shuffledValue_perm t h)

theorem latest_perm {α : Type} {ws es : List (String × α)} (h : ws.Perm es) (hn : (es.map (·.1)).Nodup) : Latest ws es := by
  refine ⟨hn, fun k v => ⟨fun hm => ?_, ?_⟩⟩
  · obtain ⟨l, r, rfl⟩ := List.append_of_mem (h.mem_iff.mpr hm)
    refine ⟨l, r, rfl, fun hk => ?_⟩
    have := ((h.map (·.1)).nodup_iff).mpr hn
    rw [List.map_append, List.map_cons, List.nodup_append] at this
    exact (List.nodup_cons.mp this.2.1).1 hk
  · rintro ⟨l, r, rfl, -⟩
    exact h.mem_iff.mp (by simp)

theorem stringForm_tag {s : String} (h : (Spec.utf8 s).length ≤ maxValue) : StringForm s (Spec.stringTag s) := by
  have hm : maxValue = 536870912 := rfl
  refine ⟨Spec.ilint 17, Spec.ilint (Spec.utf8 s).length, ?_, ILInt.isILInt_ilint (by omega),
    ILInt.isILInt_ilint (by omega), h⟩
  rw [Look.stringTag_eq, List.append_assoc]

theorem uniform {α : Type} {Q : Nat → α → Prop} (hQ : ∀ k k' a, k ≤ k' → Q k a → Q k' a) :
    ∀ as : List α, (∀ a ∈ as, ∃ k, Q k a) → ∃ k, ∀ a ∈ as, Q k a
  | [], _ => ⟨0, by simp⟩
  | a :: as, h => by
    obtain ⟨k, hk⟩ := h a (by simp)
    obtain ⟨j, hj⟩ := uniform hQ as fun b hb => h b (by simp [hb])
    refine ⟨k + j, fun b hb => ?_⟩
    rcases List.mem_cons.mp hb with rfl | hb
    · exact hQ _ _ _ (by omega) hk
    · exact hQ _ _ _ (by omega) (hj b hb)

theorem shuffled_form (strict : Bool) (t : Tag P) : MapsOk t →
    (∀ u, Within u t → StdTag strict u ∧ (encValue u).length ≤ maxValue) →
    ∃ k, ∀ x, Shuffled t x → FormAt (fun _ => Latest) strict k t x := by
  letI : Env := Props.bigEnv
  have hmax : maxValue = 536870912 := rfl
  have hwrap : ∀ {t : Tag P} {k : Nat}, StdTag strict t → (encValue t).length ≤ maxValue →
      (∀ v, ShuffledValue t v → ValueForm (fun _ => Latest) (FormAt (fun _ => Latest) strict k) t v) →
      ∀ x, Shuffled t x → FormAt (fun _ => Latest) strict (k + 1) t x := by
    intro t k hs hl hv x hx
    obtain ⟨v, h1, rfl⟩ := hx
    have hvl := (shuffledValue_perm t h1).length_eq
    refine ⟨hs, Spec.ilint t.id.toNat, v, ILInt.isILInt_ilint t.id.toNat_lt, hv v h1, by omega, ?_⟩
    unfold wrap
    by_cases h15 : t.id.toNat ≤ 15
    · left; rw [if_pos h15, List.append_nil]; exact ⟨h15, rfl⟩
    · right; rw [if_neg h15]
      exact ⟨by omega, _, ILInt.isILInt_ilint (by omega), rfl⟩
  induction t using Tag.ind with
  | atom a =>
    intro hm hs
    have hl := (hs _ (.refl _)).2
    by_cases hd : ∃ i es, a = .strDict i es
    · obtain ⟨i, es, rfl⟩ := hd
      refine ⟨1, hwrap (k := 0) (hs _ (.refl _)).1 hl fun v hv => ?_⟩
      unfold ShuffledValue at hv
      obtain ⟨ys, h2, rfl⟩ := hv
      obtain ⟨ws, h3, h4⟩ := Each.perm' h2.symm
        (Each.of_eq (f := fun e : String × String => Spec.stringTag e.1 ++ Spec.stringTag e.2).mpr rfl)
      rw [show encValue (.atom (.strDict i es) : Tag P) = encAtom (.strDict i es : Atom P) from rfl, encAtom, encSorted_eq,
        List.length_append, flatMap_perm_length _ (sortByKey_perm es)] at hl
      have h5 : es.length ≤ (es.flatMap fun e => Spec.stringTag e.1 ++ Spec.stringTag e.2).length :=
        length_le_flatMap_ge _ (fun e => by rw [List.length_append, stringTag_length]; omega) es
      refine ⟨ws, ⟨_, _, rfl, h4.length_eq ▸ ILInt.isILInt_ilint (by omega), (h3.mono ?_).listed⟩,
        latest_perm h4.symm hm.self⟩
      rintro e he x rfl
      have h6 := mem_flatMap_length (g := fun e : String × String => Spec.stringTag e.1 ++ Spec.stringTag e.2)
        (h4.mem_iff.mpr he)
      rw [List.length_append, stringTag_length, stringTag_length] at h6
      exact ⟨_, _, rfl, stringForm_tag (by omega), stringForm_tag (by omega)⟩
    · have hback : Factory.fromBytes (Engine.std strict) (enc (.atom a)) = .ok (canon (.atom a : Tag P)) := by
        rw [fromBytes_ok_iff]; simpa using top_enc Props.bigEnv_ok (Engine.std strict) _ hm (std_supported hs) []
      obtain ⟨k, hk⟩ := (Props.C77_language Props.bigEnv_ok strict _ _).mpr ⟨hm, _, hback, (same_canon hm).symm⟩
      refine ⟨k, ?_⟩
      rintro x ⟨v, hv, rfl⟩
      have : v = encAtom a := by
        cases a with
        | strDict i es => exact absurd ⟨i, es, rfl⟩ hd
        | _ => exact hv
      subst this
      exact hk
  | seq id ts ih =>
    intro hm hs
    obtain ⟨k, hk⟩ := uniform (Q := fun k (u : Tag P) => ∀ x, Shuffled u x → FormAt (fun _ => Latest) strict k u x)
      (fun k k' u hle h x hx => formAt_mono (fun _ _ _ h => h) (fun _ h => h) hle u x (h x hx)) ts
      fun u hu => ih u hu (hm.of (within_seq hu)) fun w hw => hs w (hw.trans (within_seq hu))
    refine ⟨k + 1, hwrap (hs _ (.refl _)).1 (hs _ (.refl _)).2 fun v hv => ?_⟩
    unfold ShuffledValue at hv
    obtain ⟨xs, h1, rfl⟩ := shuffledAll_iff.mp hv
    exact (h1.mono hk).listed
  | array id ts ih =>
    intro hm hs
    obtain ⟨k, hk⟩ := uniform (Q := fun k (u : Tag P) => ∀ x, Shuffled u x → FormAt (fun _ => Latest) strict k u x)
      (fun k k' u hle h x hx => formAt_mono (fun _ _ _ h => h) (fun _ h => h) hle u x (h x hx)) ts
      fun u hu => ih u hu (hm.of (within_array hu)) fun w hw => hs w (hw.trans (within_array hu))
    have hl := (hs _ (.refl _)).2
    refine ⟨k + 1, hwrap (hs _ (.refl _)).1 hl fun v hv => ?_⟩
    unfold ShuffledValue at hv
    obtain ⟨x, hv, rfl⟩ := hv
    obtain ⟨xs, h1, rfl⟩ := shuffledAll_iff.mp hv
    have h2 := encTags_count ts
    rw [encValue, List.length_append] at hl
    exact ⟨_, _, rfl, ILInt.isILInt_ilint (by omega), (h1.mono hk).listed⟩
  | dict id es ih =>
    intro hm hs
    obtain ⟨k, hk⟩ := uniform
      (Q := fun k (e : String × Tag P) => ∀ x, Shuffled e.2 x → FormAt (fun _ => Latest) strict k e.2 x)
      (fun k k' e hle h x hx => formAt_mono (fun _ _ _ h => h) (fun _ h => h) hle e.2 x (h x hx)) es
      fun e he => ih e.1 e.2 he (hm.of (within_dict he)) fun w hw => hs w (hw.trans (within_dict he))
    have hl := (hs _ (.refl _)).2
    refine ⟨k + 1, hwrap (hs _ (.refl _)).1 hl fun v hv => ?_⟩
    unfold ShuffledValue at hv
    obtain ⟨xs, ys, h1, h2, rfl⟩ := hv
    obtain ⟨ws, h3, h4⟩ := Each.perm' h2.symm (shuffledEach_iff.mp h1)
    have h5 := encEntries_count es
    rw [encValue, List.length_append] at hl
    refine ⟨ws, ⟨_, _, rfl, h4.length_eq ▸ ILInt.isILInt_ilint (by omega), (h3.mono ?_).listed⟩,
      latest_perm h4.symm hm.self⟩
    rintro e he x ⟨w, hw, rfl⟩
    have he := h4.mem_iff.mpr he
    rw [encSorted_tags, flatMap_perm_length _ (sortByKey_perm es)] at hl
    have h6 := mem_flatMap_length (g := fun e : String × Tag P => Spec.stringTag e.1 ++ enc e.2) he
    rw [List.length_append, stringTag_length] at h6
    exact ⟨_, _, rfl, stringForm_tag (by omega), hk e he _ ⟨w, hw, rfl⟩⟩

end Verif
