import Verif.Spec.Dict
import Verif.Props.RoundTrip
/-!
# C74: dictionary tags are maps
-/
namespace Verif.Props
open Verif Verif.Spec
variable {V P : Type}

theorem lookup_snoc (h : List (MapOp V)) (op : MapOp V) (k : String) :
    lookup (h ++ [op]) k = lookupNewest k (op :: h.reverse) := by
  unfold lookup; rw [List.reverse_append]; rfl

theorem get_perm {es fs : List (String × V)} (hp : es.Perm fs) (hn : (fs.map (·.1)).Nodup) (k : String) :
    HMap.get k es = HMap.get k fs := by
  have hn' : (es.map (·.1)).Nodup := (hp.map _).nodup_iff.mpr hn
  cases hg : HMap.get k fs with
  | none =>
    rw [HMap.get_eq_none] at hg ⊢
    exact fun h => hg ((hp.map _).mem_iff.mp h)
  | some v => exact HMap.get_eq_some_of_mem hn' (hp.mem_iff.mpr (HMap.mem_of_get hg))

theorem nodup_remove {es : List (String × V)} (k : String) (hn : (es.map (·.1)).Nodup) :
    ((HMap.remove k es).map (·.1)).Nodup := by
  have hs : (HMap.remove k es).Sublist es := by
    clear hn
    induction es with
    | nil => exact List.Sublist.slnil
    | cons e es ih =>
      obtain ⟨k', v⟩ := e
      unfold HMap.remove
      split
      · exact List.sublist_cons_self ..
      · exact ih.cons_cons _
  exact (hs.map _).nodup hn

theorem history_inv {id : UInt64} {h : List (MapOp V)} {rs : List (MapAns V)} {t : MapTag V} (H : History id h rs t) :
    t.id = id ∧ (t.value.map (·.1)).Nodup ∧ ∀ k, t.get k = lookup h k := by
  induction H with
  | start => exact ⟨rfl, List.nodup_nil, fun _ => rfl⟩
  | @step h rs t t' op _ hid hp ih =>
    obtain ⟨i1, i2, i3⟩ := ih
    suffices hs : (op.call t).2.id = id ∧ ((op.call t).2.value.map (·.1)).Nodup ∧
        ∀ k, (op.call t).2.get k = lookup (h ++ [op]) k by
      obtain ⟨s1, s2, s3⟩ := hs
      exact ⟨hid.trans s1, (hp.map _).nodup_iff.mpr s2, fun k => (get_perm hp s2 k).trans (s3 k)⟩
    simp only [lookup_snoc]
    cases op with
    | insert k' v =>
      refine ⟨i1, HMap.nodup_insert i2 k' v, fun k => ?_⟩
      show HMap.get k (HMap.insert k' v t.value) = _
      rw [HMap.get_insert]
      have := i3 k
      unfold MapTag.get lookup at this
      simp only [lookupNewest, ← this]
      by_cases hk : k' = k
      · simp [hk]
      · have : k ≠ k' := fun e => hk e.symm
        simp [hk, this]
    | remove k' =>
      refine ⟨i1, nodup_remove k' i2, fun k => ?_⟩
      show HMap.get k (HMap.remove k' t.value) = _
      rw [HMap.get_remove i2]
      have := i3 k
      unfold MapTag.get lookup at this
      simp only [lookupNewest, ← this]
      by_cases hk : k' = k
      · simp [hk]
      · have : k ≠ k' := fun e => hk e.symm
        simp [hk, this]
    | clear => exact ⟨i1, List.nodup_nil, fun _ => rfl⟩
    | get k' => exact ⟨i1, i2, i3⟩
    | len => exact ⟨i1, i2, i3⟩
    | isEmpty => exact ⟨i1, i2, i3⟩

theorem history_keys {id : UInt64} {h : List (MapOp V)} {rs : List (MapAns V)} {t : MapTag V} (H : History id h rs t)
    (k : String) : k ∈ t.value.map (·.1) ↔ (lookup h k).isSome := by
  rw [← (history_inv H).2.2 k]
  unfold MapTag.get
  cases hg : HMap.get k t.value with
  | none => simp [HMap.get_eq_none.mp hg]
  | some v => simp only [Option.isSome_some, iff_true]; exact List.mem_map.mpr ⟨_, HMap.mem_of_get hg, rfl⟩

/-- **C74** After any history of `insert`, `remove`, `clear`, `get`, `len` and `is_empty` on a dictionary tag, whatever
order the hash map keeps its entries in, the next call answers as a map does: `insert` and `remove` return what was
under the key, `get` returns what is under it, `len` counts the keys that have a value. -/
theorem C74_answers (id : UInt64) (h : List (MapOp V)) (rs : List (MapAns V)) (t : MapTag V) (H : History id h rs t)
    (op : MapOp V) : Answers h op (op.call t).1 := by
  obtain ⟨-, h2, h3⟩ := history_inv H
  cases op with
  | insert k v => exact congrArg MapAns.value (h3 k)
  | remove k => exact congrArg MapAns.value (h3 k)
  | clear => rfl
  | get k => exact congrArg MapAns.value (h3 k)
  | len => exact ⟨t.len, ⟨t.value.map (·.1), h2, history_keys H, by simp [MapTag.len]⟩, rfl⟩
  | isEmpty =>
    refine ⟨t.isEmpty, ⟨fun he k => ?_, fun hn => ?_⟩, rfl⟩
    · have : t.value = [] := List.isEmpty_iff.mp he
      rw [← h3 k, MapTag.get, this]; rfl
    · refine List.isEmpty_iff.mpr (List.eq_nil_iff_forall_not_mem.mpr fun e he => ?_)
      have := (history_keys H e.1).mp (List.mem_map.mpr ⟨e, he, rfl⟩)
      rw [hn] at this
      cases this

/-- **C74** All the answers of a history are those of a map. -/
theorem C74_history (id : UInt64) (h : List (MapOp V)) (rs : List (MapAns V)) (t : MapTag V) (H : History id h rs t) :
    rs.length = h.length ∧ ∀ (i : Nat) (op : MapOp V) (r : MapAns V), h[i]? = some op → rs[i]? = some r →
      Answers (h.take i) op r := by
  induction H with
  | start => exact ⟨rfl, fun i op r h => by simp at h⟩
  | @step h rs t t' op H' hid hp ih =>
    obtain ⟨hl, ha⟩ := ih
    refine ⟨by simp [hl], fun i o r ho hr => ?_⟩
    by_cases hi : i < h.length
    · rw [List.getElem?_append_left hi] at ho
      rw [List.getElem?_append_left (by omega)] at hr
      rw [List.take_append_of_le_length (by omega)]
      exact ha i o r ho hr
    · have : i = h.length := by
        have := (List.getElem?_eq_some_iff.mp ho).1
        simp at this; omega
      subst this
      rw [List.getElem?_append_right (Nat.le_refl _)] at ho
      rw [List.getElem?_append_right (by omega)] at hr
      simp only [Nat.sub_self, List.getElem?_cons_zero, Option.some.injEq] at ho
      simp only [hl, Nat.sub_self, List.getElem?_cons_zero, Option.some.injEq] at hr
      subst ho hr
      rw [List.take_left' rfl]
      exact C74_answers id h rs t H' op

/-! ### Serialization -/

/-- The tags a history puts into the dictionary are well-formed. -/
def ValuesOk (h : List (MapOp (Tag P))) : Prop := ∀ k v, MapOp.insert k v ∈ h → MapsOk v

theorem lookupNewest_mem {h : List (MapOp V)} {k : String} {v : V} (hl : lookupNewest k h = some v) :
    MapOp.insert k v ∈ h := by
  induction h with
  | nil => cases hl
  | cons op h ih =>
    cases op with
    | insert k' v' =>
      simp only [lookupNewest] at hl
      split at hl
      · next hk => cases hl; subst hk; simp
      · exact List.mem_cons_of_mem _ (ih hl)
    | remove k' =>
      simp only [lookupNewest] at hl
      split at hl
      · cases hl
      · exact List.mem_cons_of_mem _ (ih hl)
    | clear => cases hl
    | get k' => exact List.mem_cons_of_mem _ (ih hl)
    | len => exact List.mem_cons_of_mem _ (ih hl)
    | isEmpty => exact List.mem_cons_of_mem _ (ih hl)

theorem lookup_mem {h : List (MapOp V)} {k : String} {v : V} (hl : lookup h k = some v) : MapOp.insert k v ∈ h :=
  List.mem_reverse.mp (lookupNewest_mem hl)

theorem history_mem {id : UInt64} {h : List (MapOp V)} {rs : List (MapAns V)} {t : MapTag V} (H : History id h rs t)
    (k : String) (v : V) : (k, v) ∈ t.value ↔ lookup h k = some v := by
  obtain ⟨-, h2, h3⟩ := history_inv H
  rw [← h3 k]
  exact ⟨HMap.get_eq_some_of_mem h2, HMap.mem_of_get⟩

theorem history_mapsOk {id : UInt64} {h : List (MapOp (Tag P))} {rs : List (MapAns (Tag P))} {t : MapTag (Tag P)}
    (H : History id h rs t) (hv : ValuesOk h) : MapsOk t.dictTag := by
  intro u hu
  cases hu with
  | refl => exact (history_inv H).2.1
  | dict hm hw => exact hv _ _ (lookup_mem ((history_mem H _ _).mp hm)) _ hw

theorem history_strOk {id : UInt64} {h : List (MapOp String)} {rs : List (MapAns String)} {t : MapTag String}
    (H : History id h rs t) : MapsOk (t.strDictTag : Tag P) := by
  intro u hu
  cases hu
  exact (history_inv H).2.1

/-- **C74** Two dictionary tags that hold the same entries serialize to the same bytes, however they were built: any two
histories after which each key has the same value, and any hash order. -/
theorem C74_dict_bytes [TagPayload P] [Env] (id : UInt64) (h h' : List (MapOp (Tag P))) (rs rs' : List (MapAns (Tag P)))
    (t t' : MapTag (Tag P)) (H : History id h rs t) (H' : History id h' rs' t') (hv : ValuesOk h) (hv' : ValuesOk h')
    (hsame : ∀ k, lookup h k = lookup h' k) (hp : PayloadsOk t.dictTag) (hl : (enc t.dictTag).length < 2 ^ 64) :
    t.dictTag.toBytes = t'.dictTag.toBytes ∧ t.dictTag.size = t'.dictTag.size := by
  have hs : Same t.dictTag t'.dictTag := by
    unfold MapTag.dictTag
    rw [(history_inv H).1, (history_inv H').1]
    refine .dict id (fun k => by rw [history_keys H, history_keys H', hsame]) fun k u w hu hw => ?_
    have h1 := (history_mem H k u).mp hu
    have h2 := (history_mem H' k w).mp hw
    rw [hsame, h2] at h1
    cases h1
    exact Same.refl (hv' _ _ (lookup_mem h2))
  obtain ⟨c1, -, c3, -⟩ := C38_hash_order _ _ hs (history_mapsOk H hv) (history_mapsOk H' hv') hp hl
  exact ⟨c3, c1⟩

/-- **C74** The same for dictionaries of strings. -/
theorem C74_strDict_bytes [TagPayload P] [Env] (id : UInt64) (h h' : List (MapOp String)) (rs rs' : List (MapAns String))
    (t t' : MapTag String) (H : History id h rs t) (H' : History id h' rs' t')
    (hsame : ∀ k, lookup h k = lookup h' k) (hl : (enc (t.strDictTag : Tag P)).length < 2 ^ 64) :
    (t.strDictTag : Tag P).toBytes = (t'.strDictTag : Tag P).toBytes ∧
      (t.strDictTag : Tag P).size = (t'.strDictTag : Tag P).size := by
  have hs : Same (t.strDictTag : Tag P) t'.strDictTag := by
    unfold MapTag.strDictTag
    rw [(history_inv H).1, (history_inv H').1]
    refine .strDict id fun e => ?_
    obtain ⟨k, v⟩ := e
    rw [history_mem H, history_mem H', hsame]
  have hp : PayloadsOk (t.strDictTag : Tag P) := by intro i p hu; cases hu
  obtain ⟨c1, -, c3, -⟩ := C38_hash_order _ _ hs (history_strOk H) (history_strOk H') hp hl
  exact ⟨c3, c1⟩

/-- **C74** A dictionary of strings written out and read back answers `get` for every key as the history says. -/
theorem C74_strDict_read_back [TagPayload P] [Env] (hr : MemoryOk) (e : Engine P) (id : UInt64)
    (h : List (MapOp String)) (rs : List (MapAns String)) (t : MapTag String) (H : History id h rs t)
    (hs : Supported e (t.strDictTag : Tag P)) :
    ∃ bs m, (t.strDictTag : Tag P).toBytes = .ok bs ∧
      Factory.fromBytes e bs = .ok (MapTag.strDictTag ⟨id, m⟩) ∧
      ∀ k, (MapTag.mk id m).get k = lookup h k := by
  have hp : PayloadsOk (t.strDictTag : Tag P) := by intro i p hu; cases hu
  have hm := history_strOk (P := P) H
  refine ⟨enc (t.strDictTag : Tag P), sortByKey t.value, toBytes_eq_enc hr hm hp hs, ?_, fun k => ?_⟩
  · rw [fromBytes_ok_iff]
    have := top_enc hr e _ hm hs []
    rw [List.append_nil] at this
    have hc : canon (t.strDictTag : Tag P) = MapTag.strDictTag ⟨id, sortByKey t.value⟩ := by
      unfold MapTag.strDictTag
      rw [(history_inv H).1]
      simp only [canon]
    rw [hc] at this
    exact this
  · rw [← (history_inv H).2.2 k]
    exact get_perm (sortByKey_perm _) (history_inv H).2.1 k

/-- **C74** A dictionary of tags written out and read back has, under every key, a tag of the same types, ids and
content as the history says, and nothing under the other keys. -/
theorem C74_dict_read_back [TagPayload P] [Env] (hr : MemoryOk) (e : Engine P) (id : UInt64)
    (h : List (MapOp (Tag P))) (rs : List (MapAns (Tag P))) (t : MapTag (Tag P)) (H : History id h rs t)
    (hv : ValuesOk h) (hp : PayloadsOk t.dictTag) (hs : Supported e t.dictTag) :
    ∃ bs m, t.dictTag.toBytes = .ok bs ∧ Factory.fromBytes e bs = .ok (MapTag.dictTag ⟨id, m⟩) ∧
      ∀ k, match lookup h k with
        | none => (MapTag.mk id m).get k = none
        | some v => ∃ v', (MapTag.mk id m).get k = some v' ∧ Same v v' := by
  have hm := history_mapsOk H hv
  have hn : ((t.value.map fun e => (e.1, canon e.2)).map (·.1)).Nodup := by
    rw [List.map_map]
    exact (history_inv H).2.1
  refine ⟨enc t.dictTag, sortByKey (t.value.map fun e => (e.1, canon e.2)), toBytes_eq_enc hr hm hp hs, ?_, fun k => ?_⟩
  · rw [fromBytes_ok_iff]
    have := top_enc hr e _ hm hs []
    rw [List.append_nil] at this
    have hc : canon t.dictTag = MapTag.dictTag ⟨id, sortByKey (t.value.map fun e => (e.1, canon e.2))⟩ := by
      unfold MapTag.dictTag
      rw [(history_inv H).1]
      simp only [canon, canonEntries_eq]
    rw [hc] at this
    exact this
  · have hg : (MapTag.mk id (sortByKey (t.value.map fun e => (e.1, canon e.2)))).get k = (t.get k).map canon := by
      unfold MapTag.get
      rw [get_perm (sortByKey_perm _) hn k, HMap.get_map]
    rw [(history_inv H).2.2 k] at hg
    rw [hg]
    cases hl : lookup h k with
    | none => rfl
    | some v => exact ⟨canon v, rfl, same_canon (hv k v (lookup_mem hl))⟩

/-- A history with an overwritten, a removed and a kept key. -/
example : ∃ rs, History 31 [.insert "b" "1", .insert "a" "2", .insert "b" "3", .remove "a", .len] rs
    ⟨31, [("b", "3")]⟩ ∧ rs[2]? = some (.value (some "1")) ∧ rs[4]? = some (.len 1) := by
  refine ⟨_, .step (t := ⟨31, [("b", "3")]⟩) .len (.step (t := ⟨31, [("b", "3"), ("a", "2")]⟩) (.remove "a")
    (.step (t := ⟨31, [("a", "2"), ("b", "1")]⟩) (.insert "b" "3") (.step (t := ⟨31, [("b", "1")]⟩) (.insert "a" "2")
      (.step (.insert "b" "1") .start rfl ?_) rfl ?_) rfl ?_) rfl ?_) rfl ?_, rfl, rfl⟩
  · exact .refl _
  · exact .swap ..
  · exact .swap ..
  · exact .refl _
  · exact .refl _


/-- Every list of calls has a history: the map that does not reorder. -/
theorem history_of {V : Type} (id : UInt64) (ops : List (MapOp V)) : ∃ rs,
    History id ops rs (ops.foldl (fun t op => (op.call t).2) (MapTag.withId id)) := by
  suffices h : ∀ (ops h : List (MapOp V)) rs t, History id h rs t →
      ∃ rs', History id (h ++ ops) rs' (ops.foldl (fun t op => (op.call t).2) t) by
    simpa using h ops [] [] _ .start
  intro ops
  induction ops with
  | nil => intro h rs t H; exact ⟨rs, by simpa using H⟩
  | cons op ops ih =>
    intro h rs t H
    have := ih _ _ _ (H.step op rfl (.refl _))
    simpa using this

section
attribute [local instance] bigEnv

def dictOps : List (MapOp (Tag Empty)) := [.insert "b" (.atom (.null 0)), .insert "a" (.atom (.uint8 3 7))]
/-- Another way to the same map: `a` first with another value, and a third key that does not stay. -/
def dictOps' : List (MapOp (Tag Empty)) :=
  [.insert "a" (.atom (.uint8 3 1)), .insert "c" (.atom (.null 0)), .insert "b" (.atom (.null 0)), .remove "c",
    .insert "a" (.atom (.uint8 3 7))]

theorem dictOps_values : ValuesOk dictOps ∧ ValuesOk dictOps' := by
  constructor <;> intro k v h <;>
    simp only [dictOps, dictOps', List.mem_cons, List.not_mem_nil, or_false, MapOp.insert.injEq, reduceCtorEq, false_or] at h
  · rcases h with h | h <;> rw [h.2] <;> exact mapsOk_of_B rfl
  · rcases h with h | h | h | h <;> rw [h.2] <;> exact mapsOk_of_B rfl

theorem dictOps_same (k : String) : lookup dictOps k = lookup dictOps' k := by
  simp only [lookup, dictOps, dictOps', List.reverse_cons, List.reverse_nil, List.nil_append, List.cons_append, lookupNewest]
  grind

example : (dictOps.foldl (fun t op => (op.call t).2) (MapTag.withId 30)).dictTag.toBytes =
    (dictOps'.foldl (fun t op => (op.call t).2) (MapTag.withId 30)).dictTag.toBytes := by
  obtain ⟨rs, H⟩ := history_of 30 dictOps
  obtain ⟨rs', H'⟩ := history_of 30 dictOps'
  exact (C74_dict_bytes 30 _ _ _ _ _ _ H H' dictOps_values.1 dictOps_values.2 dictOps_same (sample_payloads _)
    (by decide +kernel)).1

example : ∃ bs m, (dictOps'.foldl (fun t op => (op.call t).2) (MapTag.withId 30)).dictTag.toBytes = .ok bs ∧
    Factory.fromBytes (Engine.std true : Engine Empty) bs = .ok (MapTag.dictTag ⟨30, m⟩) ∧ (MapTag.mk 30 m).get "c" = none := by
  obtain ⟨rs', H'⟩ := history_of 30 dictOps'
  obtain ⟨bs, m, h1, h2, h3⟩ := C74_dict_read_back bigEnv_ok (Engine.std true) 30 _ _ _ H' dictOps_values.2
    (sample_payloads _) (supported_of_B (by decide +kernel))
  exact ⟨bs, m, h1, h2, h3 "c"⟩

example : ∃ bs m, (MapTag.strDictTag (P := Empty) ⟨31, [("b", "3")]⟩).toBytes = .ok bs ∧
    Factory.fromBytes (Engine.std true : Engine Empty) bs = .ok (MapTag.strDictTag ⟨31, m⟩) ∧ (MapTag.mk 31 m).get "b" = some "3" ∧
    (MapTag.mk 31 m).get "a" = none := by
  obtain ⟨rs, H⟩ := history_of 31 [MapOp.insert "b" "1", .insert "a" "2", .insert "b" "3", .remove "a", .len]
  obtain ⟨bs, m, h1, h2, h3⟩ := C74_strDict_read_back bigEnv_ok (Engine.std true : Engine Empty) 31 _ _ _ H
    (supported_of_B (by decide +kernel))
  exact ⟨bs, m, h1, h2, h3 "b", h3 "a"⟩


end

end Verif.Props
