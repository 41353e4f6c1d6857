import Verif.Proof.Renew
import Verif.Proof.Shuffle
import Verif.Spec.Brief
/-!
# Forms of the least length, for customised factories
-/
namespace Verif
open Spec
variable {P : Type} [TagPayload P]
set_option linter.unusedSectionVars false

/-- A payload of the factory, from the form of a value of it. -/
theorem payloadForm_made [Env] {e : Engine P} {t₀ t : Tag P} {v : Bytes} (h1 : e.createTag t.id = .ok (some t₀))
    (h : PayloadForm e t₀ t v) : ∃ id p₀ p, t = .atom (.payload id p) ∧
      e.createTag id = .ok (some (.atom (.payload id p₀))) ∧ PayloadReads e p₀ p v := by
  obtain ⟨id, p₀, p, rfl, rfl, hp⟩ := h
  exact ⟨id, p₀, p, rfl, h1, hp⟩

theorem customFormAt_shuffled [Env] {e : Engine P} (ht : Tidy e) (k : Nat) :
    ∀ (t : Tag P) (x : Bytes), CustomFormAt (fun _ => Latest) e k t x →
      (enc t).length ≤ x.length ∧ (Brief e → x.length ≤ (enc t).length → Shuffled t x) := by
  induction k with
  | zero => intro t x h; exact h.elim
  | succ k ih =>
    rintro t x ⟨t₀, h, v, h1, -, h3, h4, h5, hx⟩
    have key : (encValue t).length ≤ v.length ∧ (Brief e → v.length ≤ (encValue t).length → ShuffledValue t v) := by
      rcases h4 with h4 | h4
      · exact ⟨Renew.value_le h4 fun u y hu => (ih u y hu).1, fun hb => value_shuffled h4 fun u y hu => ⟨(ih u y hu).1, (ih u y hu).2 hb⟩⟩
      · obtain ⟨id, p₀, p, rfl, hc, hp⟩ := payloadForm_made h1 h4
        exact ⟨(ht id p₀ p v hc h5 hp).2.1, fun hb hl => hb id p₀ p v hc h5 hp hl⟩
    obtain ⟨hv1, hv2⟩ := key
    have i := ILInt.ilint_shortest h3
    have i1 := i.1
    unfold enc wrap
    rcases hx with ⟨h15, rfl⟩ | ⟨h16, l, hl', rfl⟩
    · rw [if_pos h15, List.append_nil, List.length_append, List.length_append]
      refine ⟨by omega, fun hb hl => ⟨v, hv2 hb (by omega), ?_⟩⟩
      unfold wrap
      rw [if_pos h15, List.append_nil, i.2 (by omega)]
    · have j := ILInt.ilint_shortest hl'
      have j1 := j.1
      have j2 := Snug.ilint_length hv1 hl'.1
      rw [if_neg (by omega)]
      simp only [List.length_append]
      refine ⟨by omega, fun hb hl => ⟨v, hv2 hb (by omega), ?_⟩⟩
      unfold wrap
      rw [if_neg (by omega), i.2 (by omega), j.2 (by omega)]

/-- What a tag of the factory consists of. -/
def PartOf [Env] (e : Engine P) (u : Tag P) : Prop :=
  (encValue u).length ≤ maxValue ∧ ∃ t₀, e.createTag u.id = .ok (some t₀) ∧ t₀.kind = u.kind ∧
    ((∃ L v, ValueForm (fun _ => Latest) L u v) ∨
      PayloadForm e t₀ u (encValue u) ∧ ∀ id p, u = .atom (.payload id p) → PayloadOk p)

theorem customFormAt_parts [Env] {e : Engine P} (ht : Tidy e) (k : Nat) (t : Tag P) (x : Bytes)
    (h : CustomFormAt (fun _ => Latest) e k t x) : ∀ w, Within w t → PartOf e w := by
  induction k generalizing t x with
  | zero => exact h.elim
  | succ k ih =>
    obtain ⟨t₀, h, v, h1, h2, h3, h4, h5, hx⟩ := h
    rcases h4 with h4 | h4
    · refine valueForm_within ih t v h4 ⟨?_, t₀, h1, h2, .inl ⟨_, _, h4⟩⟩
      exact Nat.le_trans (Renew.value_le h4 fun u y hu => (customFormAt_shuffled ht k u y hu).1) h5
    · obtain ⟨id, p₀, p, rfl, hc, hp⟩ := payloadForm_made h1 h4
      rintro w (_ | _)
      obtain ⟨g0, g1, g2⟩ := ht id p₀ p v hc h5 hp
      exact ⟨Nat.le_trans g1 h5, _, hc, rfl, .inr ⟨⟨id, p₀, p, rfl, rfl, g2⟩, fun _ _ h => by cases h; exact g0⟩⟩

/-- What a customised factory reads it supports. -/
theorem customFormAt_supported [Env] {e : Engine P} (he : Regular e) (ht : Tidy e) (k : Nat) (t : Tag P) (x : Bytes)
    (h : CustomFormAt (fun _ => Latest) e k t x) : PayloadsOk t ∧ Supported e t := by
  have hp := customFormAt_parts ht k t x h
  constructor
  · intro id p hw
    obtain ⟨-, t₀, -, -, ⟨L, v, h⟩ | ⟨-, h⟩⟩ := hp _ hw
    · exact h.elim
    · exact h id p rfl
  · intro u hu
    obtain ⟨h1, t₀, h2, h3, h4⟩ := hp u hu
    have hid := he.own _ _ h2
    refine ⟨⟨t₀, h2, h3, hid, ?_⟩, h1, fun hi => ?_⟩
    · rintro id₀ p₀ id p rfl rfl
      rcases h4 with ⟨L, v, h⟩ | ⟨⟨i, q₀, q, g1, g2, g3⟩, -⟩
      · exact h.elim
      · cases g1
        cases g2
        exact g3
    · have := he.implicit _ _ h2 hi
      rw [h3] at this
      exact std_sized this hi

theorem shuffled_custom [Env] {e : Engine P} (t : Tag P) : MapsOk t → (∀ u, Within u t → PartOf e u) →
    ∃ k, ∀ x, Shuffled t x → CustomFormAt (fun _ => Latest) e k t x := by
  have hmax : maxValue = 536870912 := rfl
  have hwrap : ∀ {t : Tag P} {k : Nat}, PartOf e t → (∀ v, ShuffledValue t v → 
        (ValueForm (fun _ => Latest) (CustomFormAt (fun _ => Latest) e k) t v ∨
          ∃ t₀, e.createTag t.id = .ok (some t₀) ∧ PayloadForm e t₀ t v)) →
      ∀ x, Shuffled t x → CustomFormAt (fun _ => Latest) e (k + 1) t x := by
    intro t k hs hv x hx
    obtain ⟨hl, t₀, h1, h2, -⟩ := hs
    obtain ⟨v, h3, rfl⟩ := hx
    have hvl := (shuffledValue_perm t h3).length_eq
    refine ⟨t₀, Spec.ilint t.id.toNat, v, h1, h2, ILInt.isILInt_ilint t.id.toNat_lt, ?_, by omega, ?_⟩
    · rcases hv v h3 with h | ⟨t₁, h4, h5⟩
      · exact .inl h
      · rw [h1] at h4; cases h4; exact .inr h5
    · unfold wrap
      by_cases h15 : t.id.toNat ≤ 15
      · left; rw [if_pos h15, List.append_nil]; exact ⟨h15, rfl⟩
      · right; rw [if_neg h15]
        exact ⟨by omega, _, ILInt.isILInt_ilint (by omega), rfl⟩
  have hmono : ∀ {k k' : Nat} {u : Tag P}, k ≤ k' → (∀ x, Shuffled u x → CustomFormAt (fun _ => Latest) e k u x) →
      ∀ x, Shuffled u x → CustomFormAt (fun _ => Latest) e k' u x := fun hle h x hx =>
    customFormAt_mono (fun _ _ _ h => h) e hle _ x (h x hx)
  induction t using Tag.ind with
  | atom a =>
    intro hm hs
    have hp := hs _ (.refl _)
    refine ⟨1, hwrap (k := 0) hp fun v hv => ?_⟩
    have hl := hp.1
    by_cases hd : ∃ i es, a = .strDict i es
    · obtain ⟨i, es, rfl⟩ := hd
      left
      unfold ShuffledValue at hv
      obtain ⟨ys, h2, rfl⟩ := hv
      obtain ⟨ws, h3, h4⟩ := Each.perm' h2.symm
        (Each.of_eq (f := fun e : String × String => Spec.stringTag e.1 ++ Spec.stringTag e.2).mpr rfl)
      rw [show encValue (.atom (.strDict i es) : Tag P) = encAtom (.strDict i es : Atom P) from rfl, encAtom, encSorted_eq,
        List.length_append, flatMap_perm_length _ (sortByKey_perm es)] at hl
      have h5 : es.length ≤ (es.flatMap fun e => Spec.stringTag e.1 ++ Spec.stringTag e.2).length :=
        length_le_flatMap_ge _ (fun e => by rw [List.length_append, stringTag_length]; omega) es
      refine ⟨ws, ⟨_, _, rfl, h4.length_eq ▸ ILInt.isILInt_ilint (by omega), (h3.mono ?_).listed⟩,
        latest_perm h4.symm hm.self⟩
      rintro e he x rfl
      have h6 := mem_flatMap_length (g := fun e : String × String => Spec.stringTag e.1 ++ Spec.stringTag e.2)
        (h4.mem_iff.mpr he)
      rw [List.length_append, stringTag_length, stringTag_length] at h6
      exact ⟨_, _, rfl, stringForm_tag (by omega), stringForm_tag (by omega)⟩
    · have : v = encAtom a := by
        cases a with
        | strDict i es => exact absurd ⟨i, es, rfl⟩ hd
        | _ => exact hv
      subst this
      obtain ⟨-, t₀, h1, -, ⟨L, v, h⟩ | ⟨h, -⟩⟩ := hp
      · exact .inl (Relay.atom h)
      · exact .inr ⟨t₀, h1, h⟩
  | seq id ts ih =>
    intro hm hs
    obtain ⟨k, hk⟩ := uniform (Q := fun k (u : Tag P) => ∀ x, Shuffled u x → CustomFormAt (fun _ => Latest) e k u x)
      (fun k k' u hle h => hmono hle h) ts
      fun u hu => ih u hu (hm.of (within_seq hu)) fun w hw => hs w (hw.trans (within_seq hu))
    refine ⟨k + 1, hwrap (hs _ (.refl _)) fun v hv => .inl ?_⟩
    unfold ShuffledValue at hv
    obtain ⟨xs, h1, rfl⟩ := shuffledAll_iff.mp hv
    exact (h1.mono hk).listed
  | array id ts ih =>
    intro hm hs
    obtain ⟨k, hk⟩ := uniform (Q := fun k (u : Tag P) => ∀ x, Shuffled u x → CustomFormAt (fun _ => Latest) e k u x)
      (fun k k' u hle h => hmono hle h) ts
      fun u hu => ih u hu (hm.of (within_array hu)) fun w hw => hs w (hw.trans (within_array hu))
    have hl := (hs _ (.refl _)).1
    refine ⟨k + 1, hwrap (hs _ (.refl _)) fun v hv => .inl ?_⟩
    unfold ShuffledValue at hv
    obtain ⟨x, hv, rfl⟩ := hv
    obtain ⟨xs, h1, rfl⟩ := shuffledAll_iff.mp hv
    have h2 := encTags_count ts
    rw [encValue, List.length_append] at hl
    exact ⟨_, _, rfl, ILInt.isILInt_ilint (by omega), (h1.mono hk).listed⟩
  | dict id es ih =>
    intro hm hs
    obtain ⟨k, hk⟩ := uniform
      (Q := fun k (u : String × Tag P) => ∀ x, Shuffled u.2 x → CustomFormAt (fun _ => Latest) e k u.2 x)
      (fun k k' u hle h => hmono hle h) es
      fun u hu => ih u.1 u.2 hu (hm.of (within_dict hu)) fun w hw => hs w (hw.trans (within_dict hu))
    have hl := (hs _ (.refl _)).1
    refine ⟨k + 1, hwrap (hs _ (.refl _)) fun v hv => .inl ?_⟩
    unfold ShuffledValue at hv
    obtain ⟨xs, ys, h1, h2, rfl⟩ := hv
    obtain ⟨ws, h3, h4⟩ := Each.perm' h2.symm (shuffledEach_iff.mp h1)
    have h5 := encEntries_count es
    rw [encValue, List.length_append] at hl
    refine ⟨ws, ⟨_, _, rfl, h4.length_eq ▸ ILInt.isILInt_ilint (by omega), (h3.mono ?_).listed⟩,
      latest_perm h4.symm hm.self⟩
    rintro u hu x ⟨w, hw, rfl⟩
    have hu := h4.mem_iff.mpr hu
    rw [encSorted_tags, flatMap_perm_length _ (sortByKey_perm es)] at hl
    have h6 := mem_flatMap_length (g := fun e : String × Tag P => Spec.stringTag e.1 ++ enc e.2) hu
    rw [List.length_append, stringTag_length] at h6
    exact ⟨_, _, rfl, stringForm_tag (by omega), hk u hu _ ⟨w, hw, rfl⟩⟩

end Verif
