import Verif.Proof.Custom
import Verif.Proof.Change
/-!
# A factory that knows fewer types passes everything on
-/
namespace Verif
open Spec
set_option linter.unusedSectionVars false

namespace Relay
section
variable {α β : Type}

theorem listed_enc {L : α → Bytes → Prop} {f : α → Bytes} (as : List α) (h : ∀ a ∈ as, L a (f a)) :
    Listed L as (as.flatMap f) := by
  induction as with
  | nil => exact rfl
  | cons a as ih =>
    rw [List.flatMap_cons]
    exact ⟨_, _, rfl, h a (by simp), ih fun b hb => h b (by simp [hb])⟩

theorem listed_mem {L : α → Bytes → Prop} {as : List α} {x : Bytes} (h : Listed L as x) : ∀ a ∈ as, ∃ y, L a y := by
  induction as generalizing x with
  | nil => intro a ha; simp at ha
  | cons a as ih =>
    obtain ⟨x, y, rfl, h1, h2⟩ := h
    intro b hb
    rcases List.mem_cons.mp hb with rfl | hb
    · exact ⟨x, h1⟩
    · exact ih h2 b hb

theorem string {s : String} {x : Bytes} (h : StringForm s x) : StringForm s (Spec.stringTag s) := by
  obtain ⟨h, l, rfl, h1, h2, h3⟩ := h
  refine ⟨Spec.ilint 17, Spec.ilint (Spec.utf8 s).length, ?_, ILInt.isILInt_ilint (by omega), ILInt.isILInt_ilint h2.1, h3⟩
  rw [Look.stringTag_eq, List.append_assoc]

theorem latest_of {ws es : List (String × α)} (hn : (es.map (·.1)).Nodup) (hw : (ws.map (·.1)).Nodup)
    (h : ∀ e, e ∈ ws ↔ e ∈ es) : Latest ws es := by
  refine ⟨hn, fun k v => ⟨fun hm => ?_, ?_⟩⟩
  · obtain ⟨l, r, rfl⟩ := List.append_of_mem ((h _).mpr hm)
    refine ⟨l, r, rfl, ?_⟩
    rw [List.map_append, List.nodup_append] at hw
    have := hw.2.1
    rw [List.map_cons, List.nodup_cons] at this
    exact this.1
  · rintro ⟨l, r, rfl, -⟩
    exact (h _).mp (by simp)

theorem latest_sorted {es : List (String × α)} (hn : (es.map (·.1)).Nodup) : Latest (sortByKey es) es := by
  letI : Env := Props.bigEnv
  exact latest_of hn (((sortByKey_perm es).map _).nodup_iff.mpr hn) fun e => (sortByKey_perm es).mem_iff

theorem chosen {LE : α → Bytes → Prop} {f : β → Bytes} {es : List (String × α)} (fs : List (String × β))
    (h : ∀ k u, (k, u) ∈ fs → StringForm k (Spec.stringTag k) ∧ ∃ t, (k, t) ∈ es ∧ LE t (f u)) :
    ∃ ws : List (String × α), ws.map (·.1) = fs.map (·.1) ∧ (∀ e ∈ ws, e ∈ es) ∧
      Listed (EntryForm LE) ws (fs.flatMap fun e => Spec.stringTag e.1 ++ f e.2) := by
  induction fs with
  | nil => exact ⟨[], rfl, fun _ h => by simp at h, rfl⟩
  | cons g fs ih =>
    obtain ⟨ws, h1, h2, h3⟩ := ih fun k u hm => h k u (by simp [hm])
    obtain ⟨h4, t, h5, h6⟩ := h g.1 g.2 (by simp)
    refine ⟨(g.1, t) :: ws, by simp [h1], ?_, ?_⟩
    · intro e he
      rcases List.mem_cons.mp he with rfl | he
      · exact h5
      · exact h2 e he
    · rw [List.flatMap_cons]
      exact ⟨_, _, rfl, ⟨_, _, rfl, h4, h6⟩, h3⟩
end

variable {P : Type} [TagPayload P]

theorem atom {a : Atom P} {v : Bytes} (h : AtomForm (fun _ => Latest) a v) : AtomForm (fun _ => Latest) a (encAtom a) := by
  cases a with
  | ilint i w => exact ILInt.isILInt_ilint h.1
  | signedILInt i w => exact ILInt.isILInt_ilint h.1
  | ilintArray i vs =>
    obtain ⟨c, x, rfl, h1, h2⟩ := h
    exact ⟨_, _, rfl, ILInt.isILInt_ilint h1.1, listed_enc vs fun a ha => ILInt.isILInt_ilint (listed_mem h2 a ha).choose_spec.1⟩
  | oid i vs =>
    obtain ⟨c, x, rfl, h1, h2⟩ := h
    exact ⟨_, _, rfl, ILInt.isILInt_ilint h1.1, listed_enc vs fun a ha => ILInt.isILInt_ilint (listed_mem h2 a ha).choose_spec.1⟩
  | range i w n =>
    obtain ⟨x, rfl, h1⟩ := h
    exact ⟨_, rfl, ILInt.isILInt_ilint h1.1⟩
  | strDict i es =>
    letI : Env := Props.bigEnv
    obtain ⟨ws, ⟨c, x, rfl, h1, h2⟩, h3⟩ := h
    have hsub : ∀ e ∈ es, e ∈ ws := fun e he => by
      obtain ⟨l, r, rfl, -⟩ := (h3.2 e.1 e.2).mp he
      simp
    obtain ⟨rest, hr⟩ := Snug.split_subset (nodup_of_nodup_keys h3.1) hsub
    have hl := hr.length_eq
    rw [List.length_append] at hl
    have h64 := h1.1
    refine ⟨sortByKey es, ⟨_, _, rfl, ?_, ?_⟩, latest_sorted h3.1⟩
    · rw [(sortByKey_perm es).length_eq]; exact ILInt.isILInt_ilint (by omega)
    · rw [encSorted_eq]
      refine listed_enc _ fun e he => ?_
      obtain ⟨y, a, b, rfl, h4, h5⟩ := listed_mem h2 e (hsub e ((sortByKey_perm es).mem_iff.mp he))
      exact ⟨_, _, rfl, string h4, string h5⟩
  | payload => exact h.elim
  | _ => exact rfl

/-- The value of a tag whose parts are passed on. -/
theorem value {L LE : Tag P → Bytes → Prop} {S : Bytes → Bytes → Prop}
    (ih : ∀ t x, LE t x → ∃ u, L u x ∧ LE t (enc u) ∧ S x (enc u)) (t : Tag P) (v : Bytes)
    (h : ValueForm (fun _ => Latest) LE t v) :
    ∃ u, u.kind = t.kind ∧ u.id = t.id ∧ ValueForm (fun _ => Latest) (fun u x => L u x ∧ S x (enc u)) u v ∧
      ValueForm (fun _ => Latest) LE t (encValue u) := by
  letI : Env := Props.bigEnv
  have ih' : ∀ t x, LE t x → ∃ u, (L u x ∧ S x (enc u)) ∧ LE t (enc u) := fun t x h => by
    obtain ⟨u, h1, h2, h3⟩ := ih t x h
    exact ⟨u, ⟨h1, h3⟩, h2⟩
  have hpw : ∀ ts us, Pw (fun t u : Tag P => LE t (enc u)) ts us → Listed LE ts (us.flatMap enc) := by
    intro ts us h
    induction h with
    | nil => exact rfl
    | cons h _ ih => rw [List.flatMap_cons]; exact ⟨_, _, rfl, h, ih⟩
  cases t with
  | atom a =>
    refine ⟨.atom a, rfl, rfl, ?_, ?_⟩
    · exact h
    · exact atom h
  | seq id ts =>
    obtain ⟨us, h1, h2⟩ := listed_pw ih' ts v h
    refine ⟨.seq id us, rfl, rfl, h1, ?_⟩
    rw [encValue, encTags_eq]
    exact hpw ts us h2
  | array id ts =>
    obtain ⟨c, x, rfl, hc, h⟩ := h
    obtain ⟨us, h1, h2⟩ := listed_pw ih' ts x h
    refine ⟨.array id us, rfl, rfl, ⟨c, x, rfl, by rw [← h2.length]; exact hc, h1⟩, ?_⟩
    rw [encValue, encTags_eq, ← h2.length]
    exact ⟨_, _, rfl, ILInt.isILInt_ilint hc.1, hpw ts us h2⟩
  | dict id es =>
    obtain ⟨ws, ⟨c, x, rfl, hc, h⟩, hl⟩ := h
    obtain ⟨us, h1, h2⟩ := listed_pw (L' := EntryForm fun u x => L u x ∧ S x (enc u))
      (R := fun a b => a.1 = b.1 ∧ LE a.2 (enc b.2)) (by
        rintro e _ ⟨x, y, rfl, h1, h2⟩
        obtain ⟨u, h3, h4⟩ := ih' _ _ h2
        exact ⟨(e.1, u), ⟨x, y, rfl, h1, h3⟩, rfl, h4⟩) ws x h
    have hm : Latest us (us.foldl (fun m e => HMap.insert e.1 e.2 m) []) := latest_made rfl
    generalize hfs : us.foldl (fun m e => HMap.insert e.1 e.2 m) [] = fs at hm
    obtain ⟨hkeys, hlast⟩ := pw_last (R := fun t u => LE t (enc u)) h2
    have hsub : ∀ e ∈ fs, e ∈ us := fun e he => by
      obtain ⟨l, r, rfl, -⟩ := (hm.2 e.1 e.2).mp he
      simp
    refine ⟨.dict id fs, rfl, rfl, ⟨us, ⟨c, x, rfl, by rw [← h2.length]; exact hc, h1⟩, hm⟩, ?_⟩
    rw [encValue, encSorted_tags]
    obtain ⟨ws', h3, h4, h5⟩ := chosen (LE := LE) (f := enc) (es := es) (sortByKey fs) (fun k u hku => by
      have hku := (sortByKey_perm fs).mem_iff.mp hku
      obtain ⟨y, a, b, rfl, h6, -⟩ := listed_mem h1 (k, u) (hsub _ hku)
      refine ⟨string h6, ?_⟩
      have hk : k ∈ es.map (·.1) := by
        rw [latest_keys hl, hkeys, ← latest_keys hm]
        exact List.mem_map.mpr ⟨_, hku, rfl⟩
      obtain ⟨⟨k', t⟩, ht, rfl⟩ := List.mem_map.mp hk
      obtain ⟨l, r, e, hr⟩ := (hl.2 k' t).mp ht
      obtain ⟨l', u', r', e', hr', hs⟩ := hlast l k' t r e hr
      rw [nodup_val hm.1 hku ((hm.2 k' u').mpr ⟨l', r', e', hr'⟩)]
      exact ⟨t, ht, hs⟩)
    have hlen : ws'.length = fs.length := by
      rw [← List.length_map (·.1), h3, List.length_map, (sortByKey_perm fs).length_eq]
    have hk' : (ws'.map (·.1)).Perm (fs.map (·.1)) := by rw [h3]; exact (sortByKey_perm fs).map _
    obtain ⟨rest, hr⟩ := Snug.split_subset (nodup_of_nodup_keys hm.1) hsub
    have hl2 := hr.length_eq
    rw [List.length_append] at hl2
    have hl3 := h2.length
    have h64 := hc.1
    refine ⟨ws', ⟨_, _, rfl, by rw [hlen]; exact ILInt.isILInt_ilint (by omega), h5⟩,
      latest_of hl.1 (hk'.nodup_iff.mpr hm.1) fun e => ⟨h4 e, fun he => ?_⟩⟩
    have : e.1 ∈ ws'.map (·.1) := by
      rw [hk'.mem_iff, latest_keys hm, ← hkeys, ← latest_keys hl]
      exact List.mem_map.mpr ⟨e, he, rfl⟩
    obtain ⟨e', he', hee⟩ := List.mem_map.mp this
    have h6 := h4 e' he'
    have : e' = e := by
      obtain ⟨a, b⟩ := e
      obtain ⟨a', b'⟩ := e'
      simp only at hee
      subst hee
      rw [nodup_val hl.1 he h6]
    rw [← this]
    exact he'

/-- A tag passed on. -/
theorem form [Env] {e E : Engine P} (hrel : RelayFor e E) (k : Nat) (t : Tag P) (x : Bytes)
    (h : CustomFormAt (fun _ => Latest) E k t x) :
    ∃ u, (CustomFormAt (fun _ => Latest) e k u x ∧ ∀ w, Within w u → w.kind ≠ .payload) ∧
      CustomFormAt (fun _ => Latest) E k t (enc u) ∧ Snug False x (enc u) := by
  induction k generalizing t x with
  | zero => exact h.elim
  | succ k ih =>
    obtain ⟨t₀, hd, v, h1, h2, h3, h4, h5, h6⟩ := h
    obtain ⟨t₁, h7, h8⟩ := hrel _ _ h1
    by_cases hsame : t₁.kind = t₀.kind ∧ t₀.kind ≠ .payload
    · -- a type that both know
      have h4 : ValueForm (fun _ => Latest) (CustomFormAt (fun _ => Latest) E k) t v := h4.resolve_right (by
        rintro ⟨_, _, _, rfl, -, -⟩
        exact hsame.2 rfl)
      obtain ⟨u, g1, g2, g3, g4⟩ := value ih t v h4
      have g5 : Snug False v (encValue u) := Snug.value g3 (fun h => h.elim) (fun _ _ h => h.2) fun _ _ _ h => h.2
      have hwrap : enc u = wrap t.id (encValue u) := by unfold enc; rw [g2]
      refine ⟨u, ⟨⟨t₁, hd, v, by rw [g2]; exact h7, by rw [g1, ← h2]; exact hsame.1, by rw [g2]; exact h3,
          .inl (valueForm_mono (fun _ _ _ h => h) (fun _ _ h => h.1.1) u v g3), h5, by rw [g2]; exact h6⟩,
          valueForm_within (fun _ _ h => h.1.2) u v g3 (by rw [g1, ← h2]; exact hsame.2)⟩,
        ⟨t₀, Spec.ilint t.id.toNat, encValue u, h1, h2, ILInt.isILInt_ilint h3.1, .inl g4, Nat.le_trans g5.1 h5, ?_⟩, ?_⟩
      · rw [hwrap]
        unfold wrap
        rcases h6 with ⟨h15, -⟩ | ⟨h16, l, hl, -⟩
        · rw [if_pos h15]; exact .inl ⟨h15, by simp⟩
        · rw [if_neg (by omega)]
          exact .inr ⟨h16, _, ILInt.isILInt_ilint (by have := g5.1; have := hl.1; omega), rfl⟩
      · rw [hwrap]
        unfold wrap
        rcases h6 with ⟨h15, rfl⟩ | ⟨h16, l, hl, rfl⟩
        · rw [if_pos h15, List.append_nil]; exact (Snug.ilint h3).append g5
        · rw [if_neg (by omega), List.append_assoc, List.append_assoc]
          exact (Snug.ilint h3).append (Snug.counted hl g5.1 g5 fun h => h)
    · -- an id the relay does not know
      obtain ⟨h16, hraw⟩ := h8.resolve_left hsame
      obtain ⟨h15, -⟩ | ⟨-, l, hl, rfl⟩ := h6
      · omega
      have henc : enc (.atom (.raw t.id v) : Tag P) = Spec.ilint t.id.toNat ++ Spec.ilint v.length ++ v := by
        unfold enc wrap
        rw [if_neg (by show ¬ t.id.toNat ≤ 15; omega)]
        rfl
      refine ⟨.atom (.raw t.id v), ⟨⟨t₁, hd, v, h7, hraw, h3, .inl rfl, h5, .inr ⟨h16, l, hl, rfl⟩⟩, fun w hw => ?_⟩,
        ⟨t₀, Spec.ilint t.id.toNat, v, h1, h2, ILInt.isILInt_ilint h3.1, h4, h5, .inr ⟨h16, _, ILInt.isILInt_ilint hl.1, henc⟩⟩, ?_⟩
      · cases hw
        intro h
        cases h
      · rw [henc]
        exact ((Snug.ilint h3).append (Snug.ilint hl)).append (.refl v)

/-- What a relay makes of a tag whose encoding it is given: a tag with the same encoding. -/
def Echo [Env] (e : Engine P) (t u : Tag P) : Prop :=
  u.id = t.id ∧ encValue u = encValue t ∧ MapsOk u ∧ Supported e u ∧
    ∀ id p, Within (.atom (.payload id p)) u → Within (.atom (.payload id p)) t

theorem supported_like [Env] {e : Engine P} {t u : Tag P} (h : SupportedHere e t) (hk : u.kind = t.kind) (hi : u.id = t.id)
    (he : encValue u = encValue t) (hn : u.kind ≠ .payload) : SupportedHere e u := by
  obtain ⟨⟨t₀, h1, h2, h3, -⟩, h4, h5⟩ := h
  refine ⟨⟨t₀, by rw [hi]; exact h1, by rw [hk]; exact h2, by rw [hi]; exact h3, ?_⟩, by rw [he]; exact h4,
    by rw [hi, he, hk]; exact h5⟩
  rintro id₀ p₀ id p - rfl
  exact absurd rfl hn

theorem echo_list [Env] {e : Engine P} (ts : List (Tag P)) (h : ∀ t ∈ ts, ∃ u, Echo e t u) : ∃ us, Pw (Echo e) ts us := by
  induction ts with
  | nil => exact ⟨[], .nil⟩
  | cons t ts ih =>
    obtain ⟨u, hu⟩ := h t (by simp)
    obtain ⟨us, hus⟩ := ih fun t ht => h t (by simp [ht])
    exact ⟨u :: us, .cons hu hus⟩

theorem echo_enc [Env] {e : Engine P} {t u : Tag P} (h : Echo e t u) : enc u = enc t := by
  unfold enc; rw [h.1, h.2.1]

theorem echo_tags [Env] {e : Engine P} {ts us : List (Tag P)} (h : Pw (Echo e) ts us) :
    encTags us = encTags ts ∧ ∀ u ∈ us, ∃ t ∈ ts, Echo e t u := by
  rw [encTags_eq, encTags_eq]
  induction h with
  | nil => exact ⟨rfl, by simp⟩
  | @cons t u ts us h _ ih =>
    refine ⟨by rw [List.flatMap_cons, List.flatMap_cons, echo_enc h, ih.1], fun w hw => ?_⟩
    rcases List.mem_cons.mp hw with rfl | hw
    · exact ⟨t, by simp, h⟩
    · obtain ⟨t', h1, h2⟩ := ih.2 w hw
      exact ⟨t', by simp [h1], h2⟩

theorem echo_entries [Env] {e : Engine P} (es : List (String × Tag P)) (h : ∀ k t, (k, t) ∈ es → ∃ u, Echo e t u) :
    ∃ fs : List (String × Tag P), fs.map (·.1) = es.map (·.1) ∧ encEntries fs = encEntries es ∧
      ∀ k u, (k, u) ∈ fs → ∃ t, (k, t) ∈ es ∧ Echo e t u := by
  induction es with
  | nil => exact ⟨[], rfl, rfl, by simp⟩
  | cons g es ih =>
    obtain ⟨k, t⟩ := g
    obtain ⟨u, hu⟩ := h k t (by simp)
    obtain ⟨fs, h1, h2, h3⟩ := ih fun k t ht => h k t (by simp [ht])
    refine ⟨(k, u) :: fs, by simp [h1], ?_, fun k' u' hm => ?_⟩
    · rw [encEntries, encEntries, h2, ← enc, ← enc, echo_enc hu]
    · rcases List.mem_cons.mp hm with hm | hm
      · cases hm
        exact ⟨t, by simp, hu⟩
      · obtain ⟨t', h4, h5⟩ := h3 k' u' hm
        exact ⟨t', by simp [h4], h5⟩

theorem seen [Env] {e : Engine P} (t : Tag P) (hm : MapsOk t) (h : ∀ u, Seen e u t → SupportedHere e u ∨ Hidden e u) :
    ∃ u, Echo e t u := by
  have hhid : ∀ t : Tag P, Hidden e t → Echo e t (.atom (.raw t.id (encValue t))) := by
    rintro t ⟨h16, ⟨t₁, h1, h2, h3⟩, h4⟩
    refine ⟨rfl, rfl, fun w hw => ?_, fun w hw => ?_, fun id p hw => ?_⟩
    · cases hw; trivial
    · cases hw
      refine ⟨⟨t₁, h1, h2, h3, ?_⟩, h4, fun h => absurd h16 (by show ¬ 16 ≤ t.id.toNat; have : t.id.toNat ≤ 15 := h; omega)⟩
      rintro _ _ _ _ - hc
      cases hc
    · cases hw
  induction t using Tag.ind with
  | atom a =>
    rcases h _ (.refl _) with h1 | h1
    · exact ⟨.atom a, rfl, rfl, hm, fun w hw => by cases hw; exact h1, fun _ _ hw => hw⟩
    · exact ⟨_, hhid _ h1⟩
  | seq id ts ih =>
    rcases h _ (.refl _) with h1 | h1
    · obtain ⟨us, hus⟩ := echo_list ts fun t ht => ih t ht (hm.of (within_seq ht)) fun u hu => h u (.seq h1 ht hu)
      obtain ⟨h2, h3⟩ := echo_tags hus
      have h4 : encValue (.seq id us) = encValue (.seq id ts) := by rw [encValue, encValue, h2]
      refine ⟨.seq id us, rfl, h4, fun w hw => ?_, fun w hw => ?_, fun i p hw => ?_⟩
      · cases hw with
        | refl => trivial
        | seq hu hw => obtain ⟨t, ht, he⟩ := h3 _ hu; exact he.2.2.1 w hw
      · cases hw with
        | refl => exact supported_like h1 rfl rfl h4 (by intro h; cases h)
        | seq hu hw => obtain ⟨t, ht, he⟩ := h3 _ hu; exact he.2.2.2.1 w hw
      · cases hw with
        | seq hu hw => obtain ⟨t, ht, he⟩ := h3 _ hu; exact .seq ht (he.2.2.2.2 _ _ hw)
    · exact ⟨_, hhid _ h1⟩
  | array id ts ih =>
    rcases h _ (.refl _) with h1 | h1
    · obtain ⟨us, hus⟩ := echo_list ts fun t ht => ih t ht (hm.of (within_array ht)) fun u hu => h u (.array h1 ht hu)
      obtain ⟨h2, h3⟩ := echo_tags hus
      have h4 : encValue (.array id us) = encValue (.array id ts) := by rw [encValue, encValue, h2, hus.length]
      refine ⟨.array id us, rfl, h4, fun w hw => ?_, fun w hw => ?_, fun i p hw => ?_⟩
      · cases hw with
        | refl => trivial
        | array hu hw => obtain ⟨t, ht, he⟩ := h3 _ hu; exact he.2.2.1 w hw
      · cases hw with
        | refl => exact supported_like h1 rfl rfl h4 (by intro h; cases h)
        | array hu hw => obtain ⟨t, ht, he⟩ := h3 _ hu; exact he.2.2.2.1 w hw
      · cases hw with
        | array hu hw => obtain ⟨t, ht, he⟩ := h3 _ hu; exact .array ht (he.2.2.2.2 _ _ hw)
    · exact ⟨_, hhid _ h1⟩
  | dict id es ih =>
    rcases h _ (.refl _) with h1 | h1
    · obtain ⟨fs, h0, h2, h3⟩ := echo_entries es fun k t ht => ih k t ht (hm.of (within_dict ht)) fun u hu => h u (.dict h1 ht hu)
      have hlen : fs.length = es.length := by rw [← List.length_map (·.1), h0, List.length_map]
      have h4 : encValue (.dict id fs) = encValue (.dict id es) := by rw [encValue, encValue, h2, hlen]
      refine ⟨.dict id fs, rfl, h4, fun w hw => ?_, fun w hw => ?_, fun i p hw => ?_⟩
      · cases hw with
        | refl => show (fs.map (·.1)).Nodup; rw [h0]; exact hm.self
        | dict hu hw => obtain ⟨t, ht, he⟩ := h3 _ _ hu; exact he.2.2.1 w hw
      · cases hw with
        | refl => exact supported_like h1 rfl rfl h4 (by intro h; cases h)
        | dict hu hw => obtain ⟨t, ht, he⟩ := h3 _ _ hu; exact he.2.2.2.1 w hw
      · cases hw with
        | dict hu hw => obtain ⟨t, ht, he⟩ := h3 _ _ hu; exact .dict ht (he.2.2.2.2 _ _ hw)
    · exact ⟨_, hhid _ h1⟩

end Relay
end Verif
