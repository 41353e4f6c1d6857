import Verif.Spec.Client
import Verif.Proof.Canon
import Verif.Proof.Keeps
import Verif.Proof.Ser
import Verif.Proof.Recursion
/-!
# Tags of the same content behave alike
-/
namespace Verif
open Spec
variable {P : Type} [TagPayload P]
set_option linter.unusedSectionVars false

/-! ### Sizes -/

theorem add_right_comm64 (a b c : UInt64) : a + b + c = a + c + b := by
  rw [UInt64.add_assoc, UInt64.add_comm b, ← UInt64.add_assoc]

theorem sizeSum_canon (ts : List (Tag P)) (ih : ∀ t ∈ ts, (canon t).valueSize = t.valueSize) (acc : UInt64) :
    Tag.sizeSum acc (ts.map canon) = Tag.sizeSum acc ts := by
  induction ts generalizing acc with
  | nil => rfl
  | cons t ts h =>
    rw [List.map_cons, Tag.sizeSum, Tag.sizeSum, canon_id, ih t (by simp), h fun u hu => ih u (by simp [hu])]

theorem entriesSum_canon (es : List (String × Tag P)) (ih : ∀ k t, (k, t) ∈ es → (canon t).valueSize = t.valueSize)
    (acc : UInt64) : Tag.entriesSum acc (es.map fun e => (e.1, canon e.2)) = Tag.entriesSum acc es := by
  induction es generalizing acc with
  | nil => rfl
  | cons e es h =>
    obtain ⟨k, t⟩ := e
    rw [List.map_cons, Tag.entriesSum, Tag.entriesSum, canon_id, ih k t (by simp), h fun k u hu => ih k u (by simp [hu])]

theorem entriesSum_perm {es fs : List (String × Tag P)} (h : es.Perm fs) (acc : UInt64) :
    Tag.entriesSum acc es = Tag.entriesSum acc fs := by
  induction h generalizing acc with
  | nil => rfl
  | cons e _ ih => obtain ⟨k, t⟩ := e; rw [Tag.entriesSum, Tag.entriesSum, ih]
  | swap e f l =>
    obtain ⟨k, t⟩ := e
    obtain ⟨k', t'⟩ := f
    rw [Tag.entriesSum, Tag.entriesSum, Tag.entriesSum, Tag.entriesSum, add_right_comm64]
  | trans _ _ ih ih' => rw [ih, ih']

theorem strDictSize_perm {es fs : List (String × String)} (h : es.Perm fs) : Atom.strDictSize es = Atom.strDictSize fs := by
  unfold Atom.strDictSize
  rw [h.length_eq]
  congr 1
  generalize (0 : UInt64) = acc
  induction h generalizing acc with
  | nil => rfl
  | cons e _ ih => rw [List.foldl_cons, List.foldl_cons, ih]
  | swap e f l => rw [List.foldl_cons, List.foldl_cons, List.foldl_cons, List.foldl_cons, add_right_comm64]
  | trans _ _ ih ih' => rw [ih, ih']

theorem valueSize_canon (t : Tag P) : (canon t).valueSize = t.valueSize := by
  induction t using Tag.ind with
  | atom a =>
    cases a <;> first | rfl | skip
    case strDict id es => exact strDictSize_perm (sortByKey_perm es)
  | seq id ts ih => simp only [canon, canonTags_eq, Tag.valueSize]; exact sizeSum_canon ts ih 0
  | array id ts ih => simp only [canon, canonTags_eq, Tag.valueSize, List.length_map, sizeSum_canon ts ih 0]
  | dict id es ih =>
    simp only [canon, canonEntries_eq, Tag.valueSize, sortByKey_length, List.length_map,
      entriesSum_perm (sortByKey_perm _), entriesSum_canon es ih 0]

/-! ### Serialization -/

theorem get_permuted {V : Type} {es fs : List (String × V)} (hp : es.Perm fs) (hn : (fs.map (·.1)).Nodup) (k : String) :
    HMap.get k es = HMap.get k fs := by
  have hn' : (es.map (·.1)).Nodup := (hp.map _).nodup_iff.mpr hn
  cases hg : HMap.get k fs with
  | none =>
    rw [HMap.get_eq_none] at hg ⊢
    exact fun h => hg ((hp.map _).mem_iff.mp h)
  | some v => exact HMap.get_eq_some_of_mem hn' (hp.mem_iff.mpr (HMap.mem_of_get hg))

theorem serializeEntries_congr {ω : Type} [Writer ω] {a b : List (String × Act TagErr ω Unit)} (keys : List String)
    (h : ∀ k, HMap.get k a = HMap.get k b) : Tag.serializeEntries a keys = Tag.serializeEntries b keys := by
  induction keys with
  | nil => rfl
  | cons k ks ih => simp only [Tag.serializeEntries, h k, ih]

theorem serializeStrEntries_congr {ω : Type} [Writer ω] {a b : List (String × String)} (keys : List String)
    (h : ∀ k, HMap.get k a = HMap.get k b) :
    (Atom.serializeStrEntries a keys : Act TagErr ω Unit) = Atom.serializeStrEntries b keys := by
  induction keys with
  | nil => rfl
  | cons k ks ih => simp only [Atom.serializeStrEntries, h k, ih]

theorem sortKeys_sorted {V : Type} {es : List (String × V)} (hn : (es.map (·.1)).Nodup) :
    sortKeys ((sortByKey es).map (·.1)) = sortKeys (es.map (·.1)) := by
  rw [sortKeys_eq, sortKeys_eq, sortByKey_congr (sortByKey_keys_nodup hn) hn fun e => mem_sortByKey]

theorem serializeSeq_canon {ω : Type} [Writer ω] (ts : List (Tag P))
    (ih : ∀ t ∈ ts, ((canon t).serializeValue : Act TagErr ω Unit) = t.serializeValue) :
    (Tag.serializeSeq (ts.map canon) : Act TagErr ω Unit) = Tag.serializeSeq ts := by
  induction ts with
  | nil => rfl
  | cons t ts h =>
    rw [List.map_cons, Tag.serializeSeq, Tag.serializeSeq, canon_id, valueSize_canon, ih t (by simp),
      h fun u hu => ih u (by simp [hu])]

theorem serializeValue_canon {ω : Type} [Writer ω] (t : Tag P) : MapsOk t →
    ((canon t).serializeValue : Act TagErr ω Unit) = t.serializeValue := by
  induction t using Tag.ind with
  | atom a =>
    intro hm
    cases a <;> first | rfl | skip
    case strDict id es =>
      have hn : (es.map (·.1)).Nodup := hm.self
      simp only [canon, Tag.serializeValue, Atom.serializeValue, sortByKey_length, sortKeys_sorted hn,
        serializeStrEntries_congr _ (get_permuted (sortByKey_perm es) hn)]
  | seq id ts ih =>
    intro hm
    simp only [canon, canonTags_eq, Tag.serializeValue]
    exact serializeSeq_canon ts fun t ht => ih t ht (hm.of (within_seq ht))
  | array id ts ih =>
    intro hm
    simp only [canon, canonTags_eq, Tag.serializeValue, List.length_map,
      serializeSeq_canon ts fun t ht => ih t ht (hm.of (within_array ht))]
  | dict id es ih =>
    intro hm
    have hn : (es.map (·.1)).Nodup := hm.self
    have hk : (es.map fun e => (e.1, canon e.2)).map (·.1) = es.map (·.1) := by simp
    have hn' : ((es.map fun e => (e.1, canon e.2)).map (·.1)).Nodup := by rw [hk]; exact hn
    simp only [canon, canonEntries_eq, Tag.serializeValue, sortByKey_length, List.length_map, sortKeys_sorted hn']
    rw [hk]
    congr 1
    funext _
    refine serializeEntries_congr _ fun k => ?_
    rw [Tag.entrySerializers_eq, Tag.entrySerializers_eq, HMap.get_map, HMap.get_map,
      get_permuted (sortByKey_perm _) hn', HMap.get_map]
    cases hg : HMap.get k es with
    | none => rfl
    | some t =>
      have ht := HMap.mem_of_get hg
      simp only [Option.map_some, Option.some.injEq]
      unfold Tag.serialize
      rw [canon_id, valueSize_canon, ih k t ht (hm.of (within_dict ht))]

theorem Spec.Same.valueSize_eq {t u : Tag P} (h : Same t u) (ht : MapsOk t) (hu : MapsOk u) :
    t.valueSize = u.valueSize := by
  rw [← valueSize_canon t, h.canon_eq ht hu, valueSize_canon]

theorem Spec.Same.size_eq {t u : Tag P} (h : Same t u) (ht : MapsOk t) (hu : MapsOk u) : t.size = u.size := by
  unfold Tag.size
  rw [h.id_eq, h.valueSize_eq ht hu]

theorem Spec.Same.serializeValue_eq {ω : Type} [Writer ω] {t u : Tag P} (h : Same t u) (ht : MapsOk t) (hu : MapsOk u) :
    (t.serializeValue : Act TagErr ω Unit) = u.serializeValue := by
  rw [← serializeValue_canon t ht, h.canon_eq ht hu, serializeValue_canon u hu]

theorem Spec.Same.serialize_eq {ω : Type} [Writer ω] {t u : Tag P} (h : Same t u) (ht : MapsOk t) (hu : MapsOk u) :
    (t.serialize : Act TagErr ω Unit) = u.serialize := by
  unfold Tag.serialize
  rw [h.id_eq, h.valueSize_eq ht hu, h.serializeValue_eq ht hu]

theorem Spec.Same.toBytes_eq [Env] {t u : Tag P} (h : Same t u) (ht : MapsOk t) (hu : MapsOk u) :
    t.toBytes = u.toBytes := by
  unfold Tag.toBytes
  rw [h.size_eq ht hu, h.serialize_eq ht hu]

/-! ### Reading into tags of the same content -/
section
variable [Env] {σ : Type} [Reader σ]

/-- The two calls have the same result and take the same bytes, and leave the same value or none of the two has been
changed. -/
def Level {τ α : Type} (m m' : Act TagErr (τ × σ) α) (t u : τ) (s : σ) : Prop :=
  ∃ r s', (∃ v, m (t, s) = (r, (v, s')) ∧ m' (u, s) = (r, (v, s'))) ∨ (m (t, s) = (r, (t, s')) ∧ m' (u, s) = (r, (u, s')))

theorem Level.set {τ α : Type} (k : Act TagErr (τ × σ) α) (v t u : τ) (s : σ) :
    Level (setSelf v >>= fun _ => k) (setSelf v >>= fun _ => k) t u s := by
  rcases h : k (v, s) with ⟨r, w, s'⟩
  exact ⟨r, s', .inl ⟨w, h, h⟩⟩

theorem Level.reader {τ α β : Type} (m : Act TagErr σ β) (k : β → Act TagErr (τ × σ) α) (t u : τ) (s : σ)
    (h : ∀ b s', Level (k b) (k b) t u s') : Level (onReader m >>= k) (onReader m >>= k) t u s := by
  unfold Level
  rw [Act.bind_apply, Act.bind_apply]
  unfold onReader
  rcases m s with ⟨b | e | _ | _, s₁⟩
  · exact h b s₁
  · exact ⟨.err e, s₁, .inr ⟨rfl, rfl⟩⟩
  · exact ⟨.panic, s₁, .inr ⟨rfl, rfl⟩⟩
  · exact ⟨.diverge, s₁, .inr ⟨rfl, rfl⟩⟩

theorem Level.fail {τ α : Type} (e : TagErr) (t u : τ) (s : σ) :
    Level (Act.fail e : Act TagErr (τ × σ) α) (Act.fail e) t u s := ⟨.err e, s, .inr ⟨rfl, rfl⟩⟩

theorem Level.limited {τ α : Type} {n : Nat} {m m' : Act TagErr (τ × Limited σ) α} {t u : τ} {s : σ}
    (h : Level m m' t u (⟨s, n⟩ : Limited σ)) : Level (withLimited n m) (withLimited n m') t u s := by
  unfold Level withLimited
  obtain ⟨r, s', ⟨v, h1, h2⟩ | ⟨h1, h2⟩⟩ := h
  · exact ⟨r, s'.source, .inl ⟨v, by rw [h1], by rw [h2]⟩⟩
  · exact ⟨r, s'.source, .inr ⟨by rw [h1], by rw [h2]⟩⟩

theorem level_strDict (n : Nat) (es fs : List (String × String)) (s : σ) :
    Level (Atom.deserializeStrDict n) (Atom.deserializeStrDict n) es fs s :=
  Level.limited (Level.reader _ _ _ _ _ fun _ _ => Level.set _ _ _ _ _)

theorem level_seq (f : FactoryDeser P) (n : Nat) (ts us : List (Tag P)) (s : σ) :
    Level (Tag.deserializeSeq f n) (Tag.deserializeSeq f n) ts us s :=
  Level.limited (Level.set _ _ _ _ _)

theorem level_array (f : FactoryDeser P) (n : Nat) (ts us : List (Tag P)) (s : σ) :
    Level (Tag.deserializeArray f n) (Tag.deserializeArray f n) ts us s := by
  refine Level.limited (Level.reader _ _ _ _ _ fun c s' => ?_)
  split
  · exact Level.fail _ _ _ _
  · exact Level.set _ _ _ _ _

theorem level_dict (f : FactoryDeser P) (n : Nat) (es fs : List (String × Tag P)) (s : σ) :
    Level (Tag.deserializeDict f n) (Tag.deserializeDict f n) es fs s :=
  Level.limited (Level.reader _ _ _ _ _ fun _ _ => Level.set _ _ _ _ _)

theorem Level.zoom {τ τ' α : Type} (wrap : τ → τ') {m m' : Act TagErr (τ × σ) α} {t u : τ} {s : σ}
    (h : Level m m' t u s) : Level (zoom wrap t m) (zoom wrap u m') (wrap t) (wrap u) s := by
  unfold Level Verif.zoom
  obtain ⟨r, s', ⟨v, h1, h2⟩ | ⟨h1, h2⟩⟩ := h
  · exact ⟨r, s', .inl ⟨wrap v, by rw [h1], by rw [h2]⟩⟩
  · exact ⟨r, s', .inr ⟨by rw [h1], by rw [h2]⟩⟩

theorem level_value (f : FactoryDeser P) (n : Nat) {t u : Tag P} (h : Same t u) (s : σ) :
    Level (t.deserializeValue f n) (u.deserializeValue f n) t u s := by
  cases h with
  | atom a =>
    rcases h : (Tag.atom a).deserializeValue f n (.atom a, s) with ⟨r, w, s'⟩
    exact ⟨r, s', .inl ⟨w, h, h⟩⟩
  | strDict id h => exact Level.zoom _ (Level.zoom _ (level_strDict n _ _ s))
  | seq id _ _ => exact Level.zoom _ (level_seq f n _ _ s)
  | array id _ _ => exact Level.zoom _ (level_array f n _ _ s)
  | dict id _ _ => exact Level.zoom _ (level_dict f n _ _ s)

theorem level_valueInto (f : FactoryDeser P) (n : Nat) {t u : Tag P} (h : Same t u) (s : σ) :
    Level (Factory.deserializeTagValueInto f n) (Factory.deserializeTagValueInto f n) t u s := by
  refine Level.limited ?_
  obtain ⟨r, l, ⟨v, h1, h2⟩ | ⟨h1, h2⟩⟩ := level_value f n h (⟨s, n⟩ : Limited σ)
  · unfold Level
    dsimp only
    rw [Act.bind_apply, Act.bind_apply, h1, h2]
    cases r with
    | ok a =>
      rcases h3 : Factory.checkEmpty (v, l) with ⟨r, w, l'⟩
      exact ⟨r, l', .inl ⟨w, h3, h3⟩⟩
    | _ => exact ⟨_, l, .inl ⟨v, rfl, rfl⟩⟩
  · unfold Level
    dsimp only
    rw [Act.bind_apply, Act.bind_apply, h1, h2]
    cases r with
    | ok a =>
      dsimp only [Factory.checkEmpty]
      rw [h.id_eq]
      split
      · exact ⟨_, l, .inr ⟨rfl, rfl⟩⟩
      · exact ⟨_, l, .inr ⟨rfl, rfl⟩⟩
    | _ => exact ⟨_, l, .inr ⟨rfl, rfl⟩⟩

theorem level_into (e : Engine P) {t u : Tag P} (h : Same t u) (s : σ) :
    Level (Factory.deserializeInto e) (Factory.deserializeInto e) t u s := by
  unfold Level Factory.deserializeInto
  rw [Act.bind_apply, Act.bind_apply]
  unfold onReader
  rcases (Ser.deserializeILInt : Act TagErr σ UInt64) s with ⟨id | e | _ | _, s₁⟩
  · dsimp only
    rw [Act.bind_apply, Act.bind_apply]
    unfold Act.get
    dsimp only
    rw [← h.id_eq]
    by_cases hid : id ≠ t.id
    · rw [if_pos hid]
      exact ⟨_, s₁, .inr ⟨rfl, rfl⟩⟩
    · rw [if_neg hid]
      exact Level.reader _ _ _ _ _ fun n s' => level_valueInto _ n h s'
  · exact ⟨.err e, s₁, .inr ⟨rfl, rfl⟩⟩
  · exact ⟨.panic, s₁, .inr ⟨rfl, rfl⟩⟩
  · exact ⟨.diverge, s₁, .inr ⟨rfl, rfl⟩⟩

end

/-! ### Two tags of the same content, both with proper maps -/

/-- The same content, and proper maps in both. -/
def Mates (t u : Tag P) : Prop := Same t u ∧ MapsOk t ∧ MapsOk u

/-- No tag in both places, or tags of the same content. -/
inductive Pairs : Option (Tag P) → Option (Tag P) → Prop where
  | none : Pairs none none
  | some {t u : Tag P} : Mates t u → Pairs (some t) (some u)

theorem mapsOk_seq_iff {id : UInt64} {ts : List (Tag P)} : MapsOk (.seq id ts) ↔ ∀ t ∈ ts, MapsOk t := by
  refine ⟨fun h t ht => h.of (within_seq ht), fun h u hu => ?_⟩
  cases hu with
  | refl => trivial
  | seq hv hw => exact h _ hv _ hw

theorem mapsOk_array_iff {id : UInt64} {ts : List (Tag P)} : MapsOk (.array id ts) ↔ ∀ t ∈ ts, MapsOk t := by
  refine ⟨fun h t ht => h.of (within_array ht), fun h u hu => ?_⟩
  cases hu with
  | refl => trivial
  | array hv hw => exact h _ hv _ hw

theorem mapsOk_dict_iff {id : UInt64} {es : List (String × Tag P)} :
    MapsOk (.dict id es) ↔ (es.map (·.1)).Nodup ∧ ∀ k t, (k, t) ∈ es → MapsOk t := by
  refine ⟨fun h => ⟨h.self, fun k t ht => h.of (within_dict ht)⟩, fun h u hu => ?_⟩
  cases hu with
  | refl => exact h.1
  | dict hv hw => exact h.2 _ _ hv _ hw

theorem mapsOk_strDict_iff {id : UInt64} {es : List (String × String)} :
    MapsOk (.atom (.strDict id es) : Tag P) ↔ (es.map (·.1)).Nodup := by
  refine ⟨fun h => h.self, fun h u hu => ?_⟩
  cases hu
  exact h

theorem mapsOk_atom {a : Atom P} (h : a.kind ≠ .strDict) : MapsOk (.atom a) := by
  intro u hu
  cases hu
  cases a <;> first | trivial | exact absurd rfl h

theorem Mates.refl {t : Tag P} (h : MapsOk t) : Mates t t := ⟨.refl h, h, h⟩

theorem Pairs.length {ts us : List (Tag P)} (h : ∀ i : Nat, Pairs ts[i]? us[i]?) : ts.length = us.length := by
  have h1 := h ts.length
  have h2 := h us.length
  rw [List.getElem?_eq_none (Nat.le_refl _)] at h1 h2
  have h1' : us[ts.length]? = Option.none := by generalize us[ts.length]? = o at h1 ⊢; cases h1; rfl
  have h2' : ts[us.length]? = Option.none := by generalize ts[us.length]? = o at h2 ⊢; cases h2; rfl
  rw [List.getElem?_eq_none_iff] at h1' h2'
  omega

theorem pairs_lists {ts us : List (Tag P)} : (∀ i : Nat, Pairs ts[i]? us[i]?) ↔
    (ts.length = us.length ∧ ∀ (i : Nat) (h : i < ts.length) (h' : i < us.length), Same ts[i] us[i]) ∧
    (∀ t ∈ ts, MapsOk t) ∧ ∀ t ∈ us, MapsOk t := by
  constructor
  · intro h
    have hp : ∀ (i : Nat) (h : i < ts.length) (h' : i < us.length), Mates ts[i] us[i] := fun i h1 h2 => by
      have := h i
      rw [List.getElem?_eq_getElem h1, List.getElem?_eq_getElem h2] at this
      cases this
      assumption
    have hl := Pairs.length h
    refine ⟨⟨hl, fun i h1 h2 => (hp i h1 h2).1⟩, fun t ht => ?_, fun t ht => ?_⟩
    · obtain ⟨i, hi, rfl⟩ := List.getElem_of_mem ht
      exact (hp i hi (by omega)).2.1
    · obtain ⟨i, hi, rfl⟩ := List.getElem_of_mem ht
      exact (hp i (by omega) hi).2.2
  · rintro ⟨⟨hl, hs⟩, ht, hu⟩ i
    by_cases hi : i < ts.length
    · rw [List.getElem?_eq_getElem hi, List.getElem?_eq_getElem (hl ▸ hi)]
      exact .some ⟨hs i hi (hl ▸ hi), ht _ (List.getElem_mem _), hu _ (List.getElem_mem _)⟩
    · rw [List.getElem?_eq_none (by omega), List.getElem?_eq_none (by omega)]
      exact .none

theorem mates_seq {id : UInt64} {ts us : List (Tag P)} :
    Mates (.seq id ts) (.seq id us) ↔ ∀ i : Nat, Pairs ts[i]? us[i]? := by
  rw [pairs_lists, Mates, mapsOk_seq_iff, mapsOk_seq_iff]
  refine and_congr_left fun _ => ⟨fun h => ?_, fun h => .seq id h.1 h.2⟩
  cases h with
  | seq _ h1 h2 => exact ⟨h1, h2⟩

theorem mates_array {id : UInt64} {ts us : List (Tag P)} :
    Mates (.array id ts) (.array id us) ↔ ∀ i : Nat, Pairs ts[i]? us[i]? := by
  rw [pairs_lists, Mates, mapsOk_array_iff, mapsOk_array_iff]
  refine and_congr_left fun _ => ⟨fun h => ?_, fun h => .array id h.1 h.2⟩
  cases h with
  | array _ h1 h2 => exact ⟨h1, h2⟩

theorem mates_dict {id : UInt64} {es fs : List (String × Tag P)} : Mates (.dict id es) (.dict id fs) ↔
    (es.map (·.1)).Nodup ∧ (fs.map (·.1)).Nodup ∧ ∀ k, Pairs (HMap.get k es) (HMap.get k fs) := by
  rw [Mates, mapsOk_dict_iff, mapsOk_dict_iff]
  constructor
  · rintro ⟨hs, ⟨hn, he⟩, hn', hf⟩
    refine ⟨hn, hn', fun k => ?_⟩
    cases hs with
    | dict _ hk hv =>
      cases hg : HMap.get k es with
      | none =>
        have : HMap.get k fs = none := HMap.get_eq_none.mpr fun h => HMap.get_eq_none.mp hg ((hk k).mpr h)
        rw [this]
        exact .none
      | some t =>
        cases hg' : HMap.get k fs with
        | none =>
          exact absurd ((hk k).mp (List.mem_map.mpr ⟨_, HMap.mem_of_get hg, rfl⟩)) (HMap.get_eq_none.mp hg')
        | some u =>
          have h1 := HMap.mem_of_get hg
          have h2 := HMap.mem_of_get hg'
          exact .some ⟨hv k t u h1 h2, he k t h1, hf k u h2⟩
  · rintro ⟨hn, hn', h⟩
    have hm : ∀ k t, (k, t) ∈ es → ∃ u, (k, u) ∈ fs ∧ Mates t u := fun k t ht => by
      have := h k
      rw [HMap.get_eq_some_of_mem hn ht] at this
      cases hg : HMap.get k fs with
      | none => rw [hg] at this; cases this
      | some u => rw [hg] at this; cases this; exact ⟨u, HMap.mem_of_get hg, by assumption⟩
    have hm' : ∀ k u, (k, u) ∈ fs → ∃ t, (k, t) ∈ es ∧ Mates t u := fun k u hu => by
      have := h k
      rw [HMap.get_eq_some_of_mem hn' hu] at this
      cases hg : HMap.get k es with
      | none => rw [hg] at this; cases this
      | some t => rw [hg] at this; cases this; exact ⟨t, HMap.mem_of_get hg, by assumption⟩
    refine ⟨.dict id (fun k => ⟨fun hk => ?_, fun hk => ?_⟩) fun k t u ht hu => ?_, ⟨hn, fun k t ht => ?_⟩, hn', fun k u hu => ?_⟩
    · obtain ⟨⟨_, t⟩, ht, rfl⟩ := List.mem_map.mp hk
      obtain ⟨u, hu, -⟩ := hm _ _ ht
      exact List.mem_map.mpr ⟨_, hu, rfl⟩
    · obtain ⟨⟨_, t⟩, ht, rfl⟩ := List.mem_map.mp hk
      obtain ⟨u, hu, -⟩ := hm' _ _ ht
      exact List.mem_map.mpr ⟨_, hu, rfl⟩
    · have := h k
      rw [HMap.get_eq_some_of_mem hn ht, HMap.get_eq_some_of_mem hn' hu] at this
      cases this with
      | some h => exact h.1
    · obtain ⟨_, -, h⟩ := hm k t ht
      exact h.2.1
    · obtain ⟨_, -, h⟩ := hm' k u hu
      exact h.2.2

theorem mates_strDict {id : UInt64} {es fs : List (String × String)} :
    Mates (.atom (.strDict id es) : Tag P) (.atom (.strDict id fs)) ↔
    (es.map (·.1)).Nodup ∧ (fs.map (·.1)).Nodup ∧ ∀ k, HMap.get k es = HMap.get k fs := by
  rw [Mates, mapsOk_strDict_iff, mapsOk_strDict_iff]
  constructor
  · rintro ⟨hs, hn, hn'⟩
    refine ⟨hn, hn', fun k => ?_⟩
    have h : ∀ e, e ∈ es ↔ e ∈ fs := by
      cases hs with
      | atom => exact fun _ => Iff.rfl
      | strDict _ h => exact h
    cases hg : HMap.get k es with
    | none =>
      symm
      refine HMap.get_eq_none.mpr fun hk => HMap.get_eq_none.mp hg ?_
      obtain ⟨e, he, rfl⟩ := List.mem_map.mp hk
      exact List.mem_map.mpr ⟨e, (h e).mpr he, rfl⟩
    | some t => exact (HMap.get_eq_some_of_mem hn' ((h _).mp (HMap.mem_of_get hg))).symm
  · rintro ⟨hn, hn', h⟩
    refine ⟨.strDict id fun ⟨k, v⟩ => ⟨fun hm => ?_, fun hm => ?_⟩, hn, hn'⟩
    · exact HMap.mem_of_get ((h k).symm.trans (HMap.get_eq_some_of_mem hn hm))
    · exact HMap.mem_of_get ((h k).trans (HMap.get_eq_some_of_mem hn' hm))

/-! ### The calls on tags -/

theorem Mates.kind_eq {t u : Tag P} (h : Mates t u) : t.kind = u.kind := by
  obtain ⟨h, -, -⟩ := h
  cases h <;> rfl

theorem Mates.plainValue_eq {t u : Tag P} (h : Mates t u) : t.plainValue = u.plainValue := by
  obtain ⟨h, -, -⟩ := h
  cases h <;> rfl

theorem count_canon (t : Tag P) : (canon t).count = t.count := by
  cases t with
  | atom a => cases a <;> simp [canon, Tag.count, sortByKey_length]
  | seq | array => simp [canon, canonTags_eq, Tag.count]
  | dict => simp [canon, canonEntries_eq, Tag.count, sortByKey_length]

theorem Mates.count_eq {t u : Tag P} (h : Mates t u) : t.count = u.count := by
  rw [← count_canon t, h.1.canon_eq h.2.1 h.2.2, count_canon]

theorem Mates.item {t u : Tag P} (h : Mates t u) (n : Nat) : Pairs (t.item n) (u.item n) := by
  have h' := h.1
  cases h' with
  | seq id _ _ => exact mates_seq.mp h n
  | array id _ _ => exact mates_array.mp h n
  | _ => exact .none

theorem Pairs.set {ts us : List (Tag P)} (h : ∀ i : Nat, Pairs ts[i]? us[i]?) (n : Nat) {t u : Tag P} (hv : Mates t u) (i : Nat) :
    Pairs (ts.set n t)[i]? (us.set n u)[i]? := by
  rw [List.getElem?_set, List.getElem?_set, Pairs.length h]
  by_cases h1 : n = i
  · rw [if_pos h1, if_pos h1]
    split
    · exact .some hv
    · exact .none
  · rw [if_neg h1, if_neg h1]
    exact h i

theorem Pairs.push {ts us : List (Tag P)} (h : ∀ i : Nat, Pairs ts[i]? us[i]?) {t u : Tag P} (hv : Mates t u) (i : Nat) :
    Pairs (ts ++ [t])[i]? (us ++ [u])[i]? := by
  rw [List.getElem?_append, List.getElem?_append, Pairs.length h]
  split
  · exact h i
  · cases i - us.length with
    | zero => exact .some hv
    | succ j => exact .none

theorem Pairs.erase {ts us : List (Tag P)} (h : ∀ i : Nat, Pairs ts[i]? us[i]?) (n i : Nat) :
    Pairs (ts.eraseIdx n)[i]? (us.eraseIdx n)[i]? := by
  rw [List.getElem?_eraseIdx, List.getElem?_eraseIdx]
  split
  · exact h i
  · exact h (i + 1)

theorem Mates.setItem {t u v w : Tag P} (h : Mates t u) (hv : Mates v w) (n : Nat) :
    Mates (t.setItem n v) (u.setItem n w) := by
  have h' := h.1
  cases h' with
  | seq id _ _ => exact mates_seq.mpr (Pairs.set (mates_seq.mp h) n hv)
  | array id _ _ => exact mates_array.mpr (Pairs.set (mates_array.mp h) n hv)
  | _ => exact h

theorem Mates.push {t u v w : Tag P} (h : Mates t u) (hv : Mates v w) : Mates (t.push v) (u.push w) := by
  have h' := h.1
  cases h' with
  | seq id _ _ => exact mates_seq.mpr (Pairs.push (mates_seq.mp h) hv)
  | array id _ _ => exact mates_array.mpr (Pairs.push (mates_array.mp h) hv)
  | _ => exact h

theorem Mates.removeItem {t u : Tag P} (h : Mates t u) (n : Nat) : Mates (t.removeItem n) (u.removeItem n) := by
  have h' := h.1
  cases h' with
  | seq id _ _ => exact mates_seq.mpr (Pairs.erase (mates_seq.mp h) n)
  | array id _ _ => exact mates_array.mpr (Pairs.erase (mates_array.mp h) n)
  | _ => exact h

theorem mapsOk_empty (id : UInt64) :
    MapsOk (.seq id [] : Tag P) ∧ MapsOk (.array id [] : Tag P) ∧ MapsOk (.dict id [] : Tag P) ∧
      MapsOk (.atom (.strDict id []) : Tag P) :=
  ⟨mapsOk_seq_iff.mpr (by simp), mapsOk_array_iff.mpr (by simp), mapsOk_dict_iff.mpr (by simp), mapsOk_strDict_iff.mpr (by simp)⟩

theorem Mates.clear {t u : Tag P} (h : Mates t u) : Mates t.clear u.clear := by
  have h' := h.1
  cases h' with
  | atom a =>
    cases a <;> first | exact h | exact .refl (mapsOk_empty _).2.2.2
  | strDict id _ => exact .refl (mapsOk_empty id).2.2.2
  | seq id _ _ => exact .refl (mapsOk_empty id).1
  | array id _ _ => exact .refl (mapsOk_empty id).2.1
  | dict id _ _ => exact .refl (mapsOk_empty id).2.2.1

theorem Mates.entry {t u : Tag P} (h : Mates t u) (k : String) : Pairs (t.entry k) (u.entry k) := by
  have h' := h.1
  cases h' with
  | dict id _ _ => exact (mates_dict.mp h).2.2 k
  | _ => exact .none

theorem Mates.insertEntry {t u v w : Tag P} (h : Mates t u) (hv : Mates v w) (k : String) :
    Mates (t.insertEntry k v) (u.insertEntry k w) := by
  have h' := h.1
  cases h' with
  | dict id _ _ =>
    obtain ⟨h1, h2, h3⟩ := mates_dict.mp h
    refine mates_dict.mpr ⟨HMap.nodup_insert h1 k v, HMap.nodup_insert h2 k w, fun k' => ?_⟩
    rw [HMap.get_insert, HMap.get_insert]
    split
    · exact .some hv
    · exact h3 k'
  | _ => exact h

theorem Mates.removeEntry {t u : Tag P} (h : Mates t u) (k : String) : Mates (t.removeEntry k) (u.removeEntry k) := by
  have h' := h.1
  cases h' with
  | dict id _ _ =>
    obtain ⟨h1, h2, h3⟩ := mates_dict.mp h
    refine mates_dict.mpr ⟨HMap.nodup_remove h1 k, HMap.nodup_remove h2 k, fun k' => ?_⟩
    rw [HMap.get_remove h1, HMap.get_remove h2]
    split
    · exact .none
    · exact h3 k'
  | _ => exact h

theorem Mates.text_eq {t u : Tag P} (h : Mates t u) (k : String) : t.text k = u.text k := by
  have h' := h.1
  cases h' with
  | strDict id _ => exact (mates_strDict.mp h).2.2 k
  | _ => rfl

theorem Mates.insertText {t u : Tag P} (h : Mates t u) (k v : String) : Mates (t.insertText k v) (u.insertText k v) := by
  have key : ∀ {id : UInt64} {es fs : List (String × String)}, Mates (.atom (.strDict id es) : Tag P) (.atom (.strDict id fs)) →
      Mates (.atom (.strDict id (HMap.insert k v es)) : Tag P) (.atom (.strDict id (HMap.insert k v fs))) := fun h => by
    obtain ⟨h1, h2, h3⟩ := mates_strDict.mp h
    exact mates_strDict.mpr ⟨HMap.nodup_insert h1 k v, HMap.nodup_insert h2 k v, fun k' => by
      rw [HMap.get_insert, HMap.get_insert, h3]⟩
  have h' := h.1
  cases h' with
  | strDict id _ => exact key h
  | atom a => cases a <;> first | exact h | exact key h
  | _ => exact h

theorem Mates.removeText {t u : Tag P} (h : Mates t u) (k : String) : Mates (t.removeText k) (u.removeText k) := by
  have key : ∀ {id : UInt64} {es fs : List (String × String)}, Mates (.atom (.strDict id es) : Tag P) (.atom (.strDict id fs)) →
      Mates (.atom (.strDict id (HMap.remove k es)) : Tag P) (.atom (.strDict id (HMap.remove k fs))) := fun h => by
    obtain ⟨h1, h2, h3⟩ := mates_strDict.mp h
    exact mates_strDict.mpr ⟨HMap.nodup_remove h1 k, HMap.nodup_remove h2 k, fun k' => by
      rw [HMap.get_remove h1, HMap.get_remove h2, h3]⟩
  have h' := h.1
  cases h' with
  | strDict id _ => exact key h
  | atom a => cases a <;> first | exact h | exact key h
  | _ => exact h

/-! ### What is read has proper maps -/
section
variable [Env] {σ : Type} [Reader σ]

/-- The value is replaced by one that has the property, or the call does not succeed and leaves it as it was. -/
def Sets {τ α : Type} (Q : τ → Prop) (m : Act TagErr (τ × σ) α) : Prop :=
  ∀ t s, Q (m (t, s)).2.1 ∨ ((m (t, s)).2.1 = t ∧ ∀ a, (m (t, s)).1 ≠ .ok a)

theorem Sets.set {τ α : Type} {Q : τ → Prop} {v : τ} (hv : Q v) {k : Act TagErr (τ × σ) α} (hk : Inv Q k) :
    Sets Q (setSelf v >>= fun _ => k) := fun _ s => .inl (hk v s hv)

theorem Sets.fail {τ α : Type} {Q : τ → Prop} (e : TagErr) : Sets Q (Act.fail e : Act TagErr (τ × σ) α) :=
  fun _ _ => .inr ⟨rfl, fun _ h => by cases h⟩

theorem Sets.reader {τ α β : Type} {Q : τ → Prop} (m : Act TagErr σ β) {k : β → Act TagErr (τ × σ) α}
    (h : ∀ b, Sets Q (k b)) : Sets Q (onReader m >>= k) := by
  intro t s
  rw [Act.bind_apply]
  unfold onReader
  rcases m s with ⟨b | e | _ | _, s₁⟩
  · exact h b t s₁
  · exact .inr ⟨rfl, fun _ h => by cases h⟩
  · exact .inr ⟨rfl, fun _ h => by cases h⟩
  · exact .inr ⟨rfl, fun _ h => by cases h⟩

theorem Sets.limited {τ α : Type} {Q : τ → Prop} {n : Nat} {m : Act TagErr (τ × Limited σ) α} (h : Sets Q m) :
    Sets Q (withLimited n m) := fun t s => h t ⟨s, n⟩

theorem Inv.modify {τ : Type} {Q : τ → Prop} {f : τ → τ} (h : ∀ t, Q t → Q (f t)) :
    Inv Q (modifySelf f : Act TagErr (τ × σ) Unit) := fun t _ ht => h t ht

theorem Inv.alloc {τ : Type} {Q : τ → Prop} (a b : Nat) : Inv Q (Data.alloc a b : Act TagErr (τ × σ) Unit) := by
  intro t s h
  unfold Data.alloc
  split <;> exact h

theorem Inv.ensureEmpty {τ : Type} {Q : τ → Prop} : Inv Q (ensureEmpty : Act TagErr (τ × Limited σ) Unit) := by
  intro t s h
  unfold Verif.ensureEmpty
  split <;> exact h

/-- What the factory makes has proper maps. -/
def MakesOk (f : FactoryDeser P) : Prop := ∀ (σ : Type) [Reader σ] (s s' : σ) t, f σ none s = (.ok t, s') → MapsOk t

theorem Inv.made {τ α : Type} {Q : τ → Prop} {f : FactoryDeser P} (hf : MakesOk f) {k : Tag P → Act TagErr (τ × σ) α}
    (hk : ∀ t, MapsOk t → Inv Q (k t)) : Inv Q (Verif.onReader (f σ none) >>= k) := by
  intro t s h
  rw [Act.bind_apply]
  unfold Verif.onReader
  rcases hr : f σ none s with ⟨v | e | _ | _, s₁⟩
  · exact hk v (hf σ s s₁ v hr) t s₁ h
  · exact h
  · exact h
  · exact h

theorem inv_strEntries (n : Nat) : Inv (fun es => (es.map (·.1)).Nodup)
    (Atom.insertStrEntries n : Act TagErr (List (String × String) × σ) Unit) := by
  induction n with
  | zero => exact Inv.pure _
  | succ n ih =>
    exact Inv.bind (Inv.onReader _) fun k => Inv.bind (Inv.onReader _) fun v =>
      Inv.bind (Inv.modify fun es h => HMap.nodup_insert h k v) fun _ => ih

theorem inv_entries {f : FactoryDeser P} (hf : MakesOk f) (n : Nat) :
    Inv (fun es => (es.map (·.1)).Nodup ∧ ∀ k t, (k, t) ∈ es → MapsOk t)
      (Tag.insertEntries f n : Act TagErr (List (String × Tag P) × σ) Unit) := by
  induction n with
  | zero => exact Inv.pure _
  | succ n ih =>
    refine Inv.bind (Inv.onReader _) fun k => Inv.made hf fun v hv =>
      Inv.bind (Inv.modify fun es h => ⟨HMap.nodup_insert h.1 k v, fun k' t ht => ?_⟩) fun _ => ih
    have hg := HMap.get_eq_some_of_mem (HMap.nodup_insert h.1 k v) ht
    rw [HMap.get_insert] at hg
    split at hg
    · cases hg; exact hv
    · exact h.2 k' t (HMap.mem_of_get hg)

theorem all_append {ts : List (Tag P)} {t : Tag P} (h : ∀ u ∈ ts, MapsOk u) (ht : MapsOk t) : ∀ u ∈ ts ++ [t], MapsOk u := by
  intro u hu
  rcases List.mem_append.mp hu with hu | hu
  · exact h u hu
  · rw [List.mem_singleton.mp hu]; exact ht

theorem inv_pushTags {f : FactoryDeser P} (hf : MakesOk f) (n : Nat) : Inv (fun ts => ∀ t ∈ ts, MapsOk t)
    (Tag.pushTags f n : Act TagErr (List (Tag P) × σ) Unit) := by
  induction n with
  | zero => exact Inv.pure _
  | succ n ih => exact Inv.made hf fun v hv => Inv.bind (Inv.modify fun ts h => all_append h hv) fun _ => ih

theorem inv_while {f : FactoryDeser P} (hf : MakesOk f) (n : Nat) : Inv (fun ts => ∀ t ∈ ts, MapsOk t)
    (Tag.pushWhileNotEmpty f n : Act TagErr (List (Tag P) × Limited σ) Unit) := by
  induction n with
  | zero => exact fun _ _ h => h
  | succ n ih =>
    intro ts s h
    unfold Tag.pushWhileNotEmpty
    split
    · exact h
    · exact Inv.made hf (fun v hv => Inv.bind (Inv.modify fun ts h => all_append h hv) fun _ => ih) ts s h

theorem sets_value {f : FactoryDeser P} (hf : MakesOk f) (n : Nat) (t : Tag P) (s : σ) :
    MapsOk (t.deserializeValue f n (t, s)).2.1 ∨
      ((t.deserializeValue f n (t, s)).2.1 = t ∧ ∀ a, (t.deserializeValue f n (t, s)).1 ≠ .ok a) := by
  cases t with
  | atom a =>
    by_cases ha : a.kind = .strDict
    · cases a <;> simp only [Atom.kind, reduceCtorEq] at ha
      rename_i id es
      have h : Sets (fun es => (es.map (·.1)).Nodup) (Atom.deserializeStrDict n : Act TagErr (_ × σ) Unit) :=
        Sets.limited (Sets.reader _ fun c => Sets.set (by simp) (Inv.bind (inv_strEntries _) fun _ => Inv.ensureEmpty))
      rcases h es s with h | ⟨h1, h2⟩
      · exact .inl (mapsOk_strDict_iff.mpr h)
      · exact .inr ⟨congrArg (fun es => Tag.atom (.strDict id es)) h1, h2⟩
    · have h := (Atom.deserializeValue_keeps (σ := σ) f n a a s ⟨rfl, rfl⟩).2
      exact .inl (mapsOk_atom (a := (Atom.deserializeValue f n a (a, s)).2.1) fun h' => ha (h.symm.trans h'))
  | seq id ts =>
    have h : Sets (fun ts => ∀ t ∈ ts, MapsOk t) (Tag.deserializeSeq f n : Act TagErr (_ × σ) Unit) :=
      Sets.limited (Sets.set (by simp) (inv_while hf _))
    rcases h ts s with h | ⟨h1, h2⟩
    · exact .inl (mapsOk_seq_iff.mpr h)
    · exact .inr ⟨congrArg (Tag.seq id) h1, h2⟩
  | array id ts =>
    have h : Sets (fun ts => ∀ t ∈ ts, MapsOk t) (Tag.deserializeArray f n : Act TagErr (_ × σ) Unit) := by
      refine Sets.limited (Sets.reader _ fun c => ?_)
      split
      · exact Sets.fail _
      · exact Sets.set (by simp) (Inv.bind (Inv.alloc _ _) fun _ => Inv.bind (inv_pushTags hf _) fun _ => Inv.ensureEmpty)
    rcases h ts s with h | ⟨h1, h2⟩
    · exact .inl (mapsOk_array_iff.mpr h)
    · exact .inr ⟨congrArg (Tag.array id) h1, h2⟩
  | dict id es =>
    have h : Sets (fun es => (es.map (·.1)).Nodup ∧ ∀ k t, (k, t) ∈ es → MapsOk t)
        (Tag.deserializeDict f n : Act TagErr (_ × σ) Unit) :=
      Sets.limited (Sets.reader _ fun c => Sets.set (by simp) (Inv.bind (inv_entries hf _) fun _ => Inv.ensureEmpty))
    rcases h es s with h | ⟨h1, h2⟩
    · exact .inl (mapsOk_dict_iff.mpr h)
    · exact .inr ⟨congrArg (Tag.dict id) h1, h2⟩

theorem sets_valueInto {f : FactoryDeser P} (hf : MakesOk f) (n : Nat) :
    Sets MapsOk (Factory.deserializeTagValueInto f n : Act TagErr (Tag P × σ) Unit) := by
  refine Sets.limited fun t s => ?_
  have h := sets_value hf n t s
  dsimp only
  rw [Act.bind_apply]
  rcases hv : t.deserializeValue f n (t, s) with ⟨r, t', l⟩
  rw [hv] at h
  cases r with
  | ok a =>
    rcases h with h | ⟨-, h⟩
    · refine .inl ?_
      dsimp only [Factory.checkEmpty]
      split <;> exact h
    · exact absurd rfl (h a)
  | err e => exact h.imp id fun h => ⟨h.1, fun a ha => by cases ha⟩
  | panic => exact h.imp id fun h => ⟨h.1, fun a ha => by cases ha⟩
  | diverge => exact h.imp id fun h => ⟨h.1, fun a ha => by cases ha⟩

theorem bind_succeeds {α β : Type} {m : Act TagErr σ α} {k : α → Act TagErr σ β} {s s' : σ} {b : β}
    (h : (m >>= k) s = (.ok b, s')) : ∃ a s₁, m s = (.ok a, s₁) ∧ k a s₁ = (.ok b, s') := by
  rw [Act.bind_apply] at h
  rcases hm : m s with ⟨a | e | _ | _, s₁⟩
  · rw [hm] at h; exact ⟨a, s₁, rfl, h⟩
  · rw [hm] at h; cases h
  · rw [hm] at h; cases h
  · rw [hm] at h; cases h

theorem makesOk_fuel (e : Engine P) (k : Nat) : MakesOk (Factory.deserializeFuel e k) := by
  induction k with
  | zero => intro σ _ s s' t h; cases h
  | succ k ih =>
    intro σ _ s s' t h
    rw [deserializeFuel_succ] at h
    obtain ⟨id, s₁, -, h⟩ := bind_succeeds h
    obtain ⟨n, s₂, -, h⟩ := bind_succeeds (show (Factory.deserializeTagSize id >>= fun size =>
      afterHeader e (Factory.deserializeFuel e k) id size) s₁ = _ from h)
    obtain ⟨o, s₃, -, h⟩ := bind_succeeds h
    cases o with
    | none => cases h
    | some tag =>
      dsimp only at h
      have hs := sets_valueInto (σ := σ) ih n tag s₃
      rcases hv : Factory.deserializeTagValueInto (Factory.deserializeFuel e k) n (tag, s₃) with ⟨r, t', s₄⟩
      rw [hv] at h hs
      cases r with
      | ok a =>
        simp only [Res.map, Prod.mk.injEq, Res.ok.injEq] at h
        rcases hs with hs | ⟨-, hs⟩
        · rw [← h.1]; exact hs
        · exact absurd rfl (hs a)
      | err e => simp [Res.map] at h
      | panic => simp [Res.map] at h
      | diverge => simp [Res.map] at h

theorem makesOk (e : Engine P) : MakesOk (Factory.methods e) := by
  unfold Factory.methods
  exact makesOk_fuel e Factory.fuel

theorem fromBytes_maps (e : Engine P) {bs : Bytes} {t : Tag P} (h : Factory.fromBytes e bs = .ok t) : MapsOk t := by
  unfold Factory.fromBytes at h
  rcases hd : Factory.deserialize e ByteArrayReader (ByteArrayReader.new bs) with ⟨r, s⟩
  rw [hd] at h
  cases r with
  | ok u =>
    dsimp only at h
    split at h
    · cases h
      unfold Factory.deserialize at hd
      exact makesOk e ByteArrayReader _ _ _ hd
    · cases h
  | err e => cases h
  | panic => cases h
  | diverge => cases h

theorem into_maps (e : Engine P) : Inv MapsOk (Factory.deserializeInto e : Act TagErr (Tag P × σ) Unit) := by
  refine Inv.bind (Inv.onReader _) fun id => ?_
  intro t s h
  rw [Act.bind_apply]
  unfold Act.get
  dsimp only
  split
  · exact h
  · refine Inv.bind (Inv.onReader _) (fun n t s h => ?_) t s h
    rcases sets_valueInto (makesOk e) n t s with h' | ⟨h', -⟩
    · exact h'
    · rw [h']; exact h

theorem mates_into (e : Engine P) {t u : Tag P} (h : Mates t u) (s : σ) : ∃ r s' v w, Mates v w ∧
    Factory.deserializeInto e (t, s) = (r, (v, s')) ∧ Factory.deserializeInto e (u, s) = (r, (w, s')) := by
  obtain ⟨r, s', ⟨v, h1, h2⟩ | ⟨h1, h2⟩⟩ := level_into e h.1 s
  · have := into_maps e t s h.2.1
    rw [h1] at this
    exact ⟨r, s', v, v, .refl this, h1, h2⟩
  · exact ⟨r, s', t, u, h, h1, h2⟩

/-! ### Programs -/

/-- The same content, and proper maps, in all variables. -/
def StoreMates (x y : Store P) : Prop := ∀ i, Mates (x i) (y i)

theorem StoreMates.set {x y : Store P} (h : StoreMates x y) (i : Nat) {t u : Tag P} (ht : Mates t u) :
    StoreMates (x.set i t) (y.set i u) := by
  intro j
  unfold Store.set
  split
  · exact ht
  · exact h j

/-- The answers are the same and the variables hold tags of the same content again. -/
def StepMates (p q : Ans P × Store P) : Prop := p.1 = q.1 ∧ StoreMates p.2 q.2

theorem StoreMates.keep {x y : Store P} (h : StoreMates x y) (j : Nat) {r : Res TagErr (Tag P)}
    (hr : ∀ t, r = .ok t → MapsOk t) : StepMates (x.keep j r) (y.keep j r) := by
  cases r with
  | ok t => exact ⟨rfl, h.set j (.refl (hr t rfl))⟩
  | err e => exact ⟨rfl, h⟩
  | panic => exact ⟨rfl, h⟩
  | diverge => exact ⟨rfl, h⟩

theorem StoreMates.keepFound {x y : Store P} (h : StoreMates x y) (j : Nat) {o p : Option (Tag P)} (hp : Pairs o p) :
    StepMates (x.keepFound j o) (y.keepFound j p) := by
  cases hp with
  | none => exact ⟨rfl, h⟩
  | some ht => exact ⟨rfl, h.set j ht⟩

theorem Pairs.isSome_eq {o p : Option (Tag P)} (h : Pairs o p) : o.isSome = p.isSome := by cases h <;> rfl

theorem clone_maps (e : Engine P) (t : Tag P) : ∀ u, tagCloneWithFactory e t = .ok u → MapsOk u := by
  intro u h
  unfold tagCloneWithFactory at h
  cases hb : t.toBytes with
  | ok bs => rw [hb] at h; exact fromBytes_maps e h
  | err e => rw [hb] at h; cases h
  | panic => rw [hb] at h; cases h
  | diverge => rw [hb] at h; cases h

theorem freshAtom_maps (a : Atom P) : MapsOk (.atom (freshAtom a)) := by
  cases a <;> first | exact (mapsOk_empty _).2.2.2 | exact mapsOk_atom (by simp [freshAtom, Atom.kind])

theorem step_mates (e : Engine P) {x y : Store P} (h : StoreMates x y) (c : Call P) : StepMates (c.step e x) (c.step e y) := by
  cases c with
  | atom i a => exact ⟨rfl, h.set i (.refl (freshAtom_maps a))⟩
  | newSeq i n => exact ⟨rfl, h.set i (.refl (mapsOk_empty n).1)⟩
  | newArray i n => exact ⟨rfl, h.set i (.refl (mapsOk_empty n).2.1)⟩
  | newDict i n => exact ⟨rfl, h.set i (.refl (mapsOk_empty n).2.2.1)⟩
  | move i j => exact ⟨rfl, h.set j (h i)⟩
  | kind i => exact ⟨congrArg Ans.kind (h i).kind_eq, h⟩
  | id i => exact ⟨congrArg (fun v : UInt64 => Ans.number v.toNat) (h i).1.id_eq, h⟩
  | size i => exact ⟨congrArg (fun v : UInt64 => Ans.number v.toNat) ((h i).1.size_eq (h i).2.1 (h i).2.2), h⟩
  | valueSize i => exact ⟨congrArg (fun v : UInt64 => Ans.number v.toNat) ((h i).1.valueSize_eq (h i).2.1 (h i).2.2), h⟩
  | bytes i => exact ⟨congrArg Ans.bytes ((h i).1.toBytes_eq (h i).2.1 (h i).2.2), h⟩
  | equal i j =>
    refine ⟨congrArg Ans.truth ?_, h⟩
    unfold tagsAreEqual
    rw [(h i).1.toBytes_eq (h i).2.1 (h i).2.2, (h j).1.toBytes_eq (h j).2.1 (h j).2.2]
  | clone i j =>
    have : tagCloneWithFactory e (x i) = tagCloneWithFactory e (y i) := by
      unfold tagCloneWithFactory
      rw [(h i).1.toBytes_eq (h i).2.1 (h i).2.2]
    dsimp only [Call.step]
    rw [this]
    exact h.keep j (clone_maps e _)
  | value i => exact ⟨congrArg Ans.value (h i).plainValue_eq, h⟩
  | len i => exact ⟨congrArg Ans.count (h i).count_eq, h⟩
  | item i n j => exact h.keepFound j ((h i).item n)
  | setItem i n j => exact ⟨congrArg Ans.found ((h i).item n).isSome_eq, h.set i ((h i).setItem (h j) n)⟩
  | push i j => exact ⟨rfl, h.set i ((h i).push (h j))⟩
  | removeItem i n => exact ⟨congrArg Ans.found ((h i).item n).isSome_eq, h.set i ((h i).removeItem n)⟩
  | clear i => exact ⟨rfl, h.set i (h i).clear⟩
  | get i k j => exact h.keepFound j ((h i).entry k)
  | insert i k j => exact ⟨congrArg Ans.found ((h i).entry k).isSome_eq, h.set i ((h i).insertEntry (h j) k)⟩
  | remove i k => exact ⟨congrArg Ans.found ((h i).entry k).isSome_eq, h.set i ((h i).removeEntry k)⟩
  | getText i k => exact ⟨congrArg Ans.text ((h i).text_eq k), h⟩
  | insertText i k v => exact ⟨congrArg Ans.text ((h i).text_eq k), h.set i ((h i).insertText k v)⟩
  | removeText i k => exact ⟨congrArg Ans.text ((h i).text_eq k), h.set i ((h i).removeText k)⟩
  | read i bs => exact h.keep i fun t ht => fromBytes_maps e ht
  | into i bs =>
    obtain ⟨r, s', v, w, hm, h1, h2⟩ := mates_into e (h i) (ByteArrayReader.new bs)
    dsimp only [Call.step]
    rw [h1, h2]
    exact ⟨rfl, h.set i hm⟩

theorem run_mates (e : Engine P) (prog : Client P) {x y : Store P} (h : StoreMates x y) :
    (prog.run e x).1 = (prog.run e y).1 ∧ StoreMates (prog.run e x).2 (prog.run e y).2 := by
  induction prog generalizing x y with
  | stop => exact ⟨rfl, h⟩
  | call c next ih =>
    obtain ⟨h1, h2⟩ := step_mates e h c
    dsimp only [Client.run]
    rw [h1]
    obtain ⟨h3, h4⟩ := ih (c.step e y).1 h2
    exact ⟨congrArg _ h3, h4⟩

end

end Verif
