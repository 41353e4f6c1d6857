import Verif.Model.Cost
import Verif.Spec.Cost
import Verif.Proof.Ser
/-!
# Counting `value_size` calls
-/
namespace Verif
open Spec
variable {P : Type}

namespace Counted
variable {α β : Type}
@[simp] theorem pure_value (a : α) : (pure a : Counted α).value = a := rfl
@[simp] theorem pure_calls (a : α) : (pure a : Counted α).calls = 0 := rfl
@[simp] theorem bind_value (x : Counted α) (f : α → Counted β) : (x >>= f).value = (f x.value).value := rfl
@[simp] theorem bind_calls (x : Counted α) (f : α → Counted β) :
    (x >>= f).calls = x.calls + (f x.value).calls := rfl
@[simp] theorem tick_calls : tick.calls = 1 := rfl
end Counted

theorem sizeOfC_value (id : UInt64) (vs : Counted UInt64) : (sizeOfC id vs).value = sizeFrom id vs.value := by
  unfold sizeOfC sizeFrom
  split <;> simp

theorem sizeOfC_calls_implicit {id : UInt64} (h : isImplicitTag id = true) (vs : Counted UInt64) :
    (sizeOfC id vs).calls = vs.calls := by
  unfold sizeOfC; rw [if_pos h]; simp

theorem sizeOfC_calls_explicit {id : UInt64} (h : isImplicitTag id = false) (vs : Counted UInt64) :
    (sizeOfC id vs).calls = 2 * vs.calls := by
  unfold sizeOfC; rw [if_neg (by simp [h])]; simp; omega

theorem sizeOfC_calls_le (id : UInt64) (vs : Counted UInt64) : (sizeOfC id vs).calls ≤ 2 * vs.calls := by
  rcases Bool.eq_false_or_eq_true (isImplicitTag id) with h | h
  · rw [sizeOfC_calls_implicit h]; omega
  · rw [sizeOfC_calls_explicit h]; omega

namespace Tag
variable [TagPayload P]

theorem sizeSumC_value (ts : List (Tag P)) (ih : ∀ t ∈ ts, t.valueSizeC.value = t.valueSize) (acc : UInt64) :
    (sizeSumC acc ts).value = sizeSum acc ts := by
  induction ts generalizing acc with
  | nil => simp [sizeSumC, sizeSum]
  | cons t ts ih' =>
    simp only [sizeSumC, sizeSum, Counted.bind_value, sizeOfC_value, ih t (by simp)]
    exact ih' (fun u hu => ih u (by simp [hu])) _

theorem entriesSumC_value (es : List (String × Tag P)) (ih : ∀ k t, (k, t) ∈ es → t.valueSizeC.value = t.valueSize)
    (acc : UInt64) : (entriesSumC acc es).value = entriesSum acc es := by
  induction es generalizing acc with
  | nil => simp [entriesSumC, entriesSum]
  | cons e es ih' =>
    obtain ⟨k, t⟩ := e
    simp only [entriesSumC, entriesSum, Counted.bind_value, sizeOfC_value, ih k t (by simp)]
    exact ih' (fun k u hu => ih k u (by simp [hu])) _

theorem valueSizeC_value (t : Tag P) : t.valueSizeC.value = t.valueSize := by
  induction t using Tag.ind with
  | atom a => simp [valueSizeC, valueSize]
  | seq id ts ih => simp [valueSizeC, valueSize, sizeSumC_value ts ih]
  | array id ts ih => simp [valueSizeC, valueSize, sizeSumC_value ts ih]
  | dict id es ih => simp [valueSizeC, valueSize, entriesSumC_value es ih]

theorem sizeC_value (t : Tag P) : t.sizeC.value = t.size := by
  unfold sizeC size; rw [sizeOfC_value, valueSizeC_value]

/-- Cost of the children's `size()` calls. -/
theorem sizeSumC_calls (ts : List (Tag P)) (ih : ∀ t ∈ ts, t.valueSizeC.calls ≤ 2 ^ height t * tagCount t)
    (acc : UInt64) : (sizeSumC acc ts).calls ≤ 2 ^ (1 + heights ts) * tagCounts ts := by
  induction ts generalizing acc with
  | nil => simp [sizeSumC]
  | cons t ts ih' =>
    simp only [sizeSumC, Counted.bind_calls, heights, tagCounts]
    have h1 := ih' (fun u hu => ih u (by simp [hu])) (acc + (sizeOfC t.id t.valueSizeC).value)
    have h2 := ih t (by simp)
    have h3 := sizeOfC_calls_le t.id t.valueSizeC
    have h4 : 2 ^ height t ≤ 2 ^ max (height t) (heights ts) := Nat.pow_le_pow_right (by omega) (by omega)
    have h5 : 2 ^ (1 + heights ts) ≤ 2 ^ (1 + max (height t) (heights ts)) := Nat.pow_le_pow_right (by omega) (by omega)
    have h6 := Nat.mul_le_mul_right (tagCount t) h4
    have h7 := Nat.mul_le_mul_right (tagCounts ts) h5
    rw [Nat.mul_add, show 2 ^ (1 + max (height t) (heights ts)) * tagCount t
      = 2 * (2 ^ max (height t) (heights ts) * tagCount t) by rw [Nat.pow_add, Nat.pow_one, Nat.mul_assoc]]
    omega

theorem entriesSumC_calls (es : List (String × Tag P))
    (ih : ∀ k t, (k, t) ∈ es → t.valueSizeC.calls ≤ 2 ^ height t * tagCount t)
    (acc : UInt64) : (entriesSumC acc es).calls ≤ 2 ^ (1 + entryHeights es) * entryCounts es := by
  induction es generalizing acc with
  | nil => simp [entriesSumC]
  | cons e es ih' =>
    obtain ⟨k, t⟩ := e
    simp only [entriesSumC, Counted.bind_calls, entryHeights, entryCounts]
    have h1 := ih' (fun k u hu => ih k u (by simp [hu])) (acc + (stringTagSize k + (sizeOfC t.id t.valueSizeC).value))
    have h2 := ih k t (by simp)
    have h3 := sizeOfC_calls_le t.id t.valueSizeC
    have h4 : 2 ^ height t ≤ 2 ^ max (height t) (entryHeights es) := Nat.pow_le_pow_right (by omega) (by omega)
    have h5 : 2 ^ (1 + entryHeights es) ≤ 2 ^ (1 + max (height t) (entryHeights es)) :=
      Nat.pow_le_pow_right (by omega) (by omega)
    have h6 := Nat.mul_le_mul_right (tagCount t) h4
    have h7 := Nat.mul_le_mul_right (entryCounts es) h5
    rw [Nat.mul_add, show 2 ^ (1 + max (height t) (entryHeights es)) * tagCount t
      = 2 * (2 ^ max (height t) (entryHeights es) * tagCount t) by rw [Nat.pow_add, Nat.pow_one, Nat.mul_assoc]]
    omega

theorem valueSizeC_calls (t : Tag P) : t.valueSizeC.calls ≤ 2 ^ height t * tagCount t := by
  induction t using Tag.ind with
  | atom a => simp [valueSizeC, tagCount, height]
  | seq id ts ih =>
    have := sizeSumC_calls ts ih 0
    have hp : 1 ≤ 2 ^ (1 + heights ts) := Nat.one_le_two_pow
    simp only [valueSizeC, Counted.bind_calls, Counted.tick_calls, height, tagCount, Nat.mul_add, Nat.mul_one]
    omega
  | array id ts ih =>
    have := sizeSumC_calls ts ih 0
    have hp : 1 ≤ 2 ^ (1 + heights ts) := Nat.one_le_two_pow
    simp only [valueSizeC, Counted.bind_calls, Counted.tick_calls, Counted.pure_calls, height, tagCount, Nat.mul_add,
      Nat.mul_one]
    omega
  | dict id es ih =>
    have := entriesSumC_calls es ih 0
    have hp : 1 ≤ 2 ^ (1 + entryHeights es) := Nat.one_le_two_pow
    simp only [valueSizeC, Counted.bind_calls, Counted.tick_calls, Counted.pure_calls, height, tagCount, Nat.mul_add,
      Nat.mul_one]
    omega

theorem sizeC_calls (t : Tag P) : t.sizeC.calls ≤ 2 ^ (height t + 1) * tagCount t := by
  have h1 := sizeOfC_calls_le t.id t.valueSizeC
  have h2 := valueSizeC_calls t
  unfold sizeC
  rw [Nat.pow_succ, Nat.mul_comm (2 ^ height t) 2, Nat.mul_assoc]
  omega

end Tag

/-! ### Serialization -/

/-- `x` does to the writer what `y` does, with at most `b` calls of `value_size`. -/
def Counts {ω α : Type} (x : Act TagErr (Counting ω) α) (y : Act TagErr ω α) (b : Nat) : Prop :=
  ∀ w n, ∃ k, k ≤ b ∧ x ⟨w, n⟩ = ((y w).1, ⟨(y w).2, n + k⟩)

namespace Counts
variable {ω α β : Type}

theorem mono {x : Act TagErr (Counting ω) α} {y : Act TagErr ω α} {b c : Nat} (h : Counts x y b) (hbc : b ≤ c) :
    Counts x y c := fun w n => by
  obtain ⟨k, hk, e⟩ := h w n
  exact ⟨k, by omega, e⟩

theorem ret (r : Res TagErr α) : Counts (Act.lift r : Act TagErr (Counting ω) α) (Act.lift r) 0 :=
  fun _ _ => ⟨0, Nat.le_refl _, rfl⟩

theorem bind {x : Act TagErr (Counting ω) α} {y : Act TagErr ω α} {f : α → Act TagErr (Counting ω) β}
    {g : α → Act TagErr ω β} {b c : Nat} (h : Counts x y b) (hf : ∀ a, Counts (f a) (g a) c) :
    Counts (x >>= f) (y >>= g) (b + c) := by
  intro w n
  obtain ⟨k, hk, e⟩ := h w n
  show ∃ k, _ ∧ Act.bind x f _ = ((Act.bind y g w).1, ⟨(Act.bind y g w).2, _⟩)
  simp only [Act.bind, e]
  rcases hy : y w with ⟨r, w'⟩
  cases r with
  | ok a =>
    obtain ⟨k', hk', e'⟩ := hf a w' (n + k)
    exact ⟨k + k', by omega, by simp only [e', Nat.add_assoc]⟩
  | err e => exact ⟨k, by omega, rfl⟩
  | panic => exact ⟨k, by omega, rfl⟩
  | diverge => exact ⟨k, by omega, rfl⟩

variable [Writer ω]

theorem op (o : WOp) : Counts (o.run : Act TagErr (Counting ω) Unit) o.run 0 := by
  intro w n
  refine ⟨0, Nat.le_refl _, ?_⟩
  cases o <;> rfl

theorem ops (os : List WOp) : Counts (runOps os : Act TagErr (Counting ω) Unit) (runOps os) 0 := by
  induction os with
  | nil => exact ret (.ok ())
  | cons o os ih => exact (op o).bind fun _ => ih

theorem writes {C : Prop} {m : ∀ (ω : Type) [Writer ω], Act TagErr ω Unit} {bs : Bytes} (h : WritesIf C m bs) :
    Counts (m (Counting ω)) (m ω) 0 := by
  obtain ⟨os, r, h1, -⟩ := h
  rw [h1, h1]
  exact (ops os).bind fun _ => ret r

theorem ilint (v : UInt64) : Counts (Ser.serializeILInt v : Act TagErr (Counting ω) Unit) (Ser.serializeILInt v) 0 :=
  writes (WritesIf.ilint (C := False) v)

theorem serializeWith {id v : UInt64} {vs : Counted UInt64} {x : Act TagErr (Counting ω) Unit}
    {y : Act TagErr ω Unit} {b : Nat} (hv : vs.value = v) (h : Counts x y b) :
    Counts (Tag.serializeWithC id vs x) (Tag.serializeWith id v y) (vs.calls + b) := by
  unfold Tag.serializeWithC Tag.serializeWith
  rcases Bool.eq_false_or_eq_true (isImplicitTag id) with hi | hi
  · simp only [hi, if_true]
    exact ((ilint id).bind fun _ => h).mono (by omega)
  · simp only [hi, Bool.false_eq_true, if_false]
    have he : Counts (Counting.eval vs : Act TagErr (Counting ω) UInt64) (Act.lift (.ok v)) vs.calls :=
      fun w n => ⟨vs.calls, Nat.le_refl _, by simp [Counting.eval, hv, Act.lift]⟩
    have := (ilint (ω := ω) id).bind fun _ => he.bind fun a => (ilint (ω := ω) a).bind fun _ => h
    exact this.mono (by omega)

end Counts

namespace Tag
variable [TagPayload P] {ω : Type} [Writer ω]

theorem serializeC_counts {t : Tag P}
    (h : Counts (t.serializeValueC : Act TagErr (Counting ω) Unit) t.serializeValue (2 ^ height t * tagCount t)) :
    Counts (t.serializeC : Act TagErr (Counting ω) Unit) t.serialize (2 ^ (height t + 1) * tagCount t) := by
  refine (Counts.serializeWith (valueSizeC_value t) h).mono ?_
  have := valueSizeC_calls t
  rw [Nat.pow_succ, Nat.mul_comm (2 ^ height t) 2, Nat.mul_assoc]
  omega

theorem serializeSeqC_counts (ts : List (Tag P)) (ih : ∀ t ∈ ts,
    Counts (t.serializeC : Act TagErr (Counting ω) Unit) t.serialize (2 ^ (height t + 1) * tagCount t)) :
    Counts (serializeSeqC ts : Act TagErr (Counting ω) Unit) (serializeSeq ts)
      (2 ^ (1 + heights ts) * tagCounts ts) := by
  induction ts with
  | nil => simp only [serializeSeqC, serializeSeq]; exact (Counts.ret (.ok ())).mono (by omega)
  | cons t ts ih' =>
    simp only [serializeSeqC, serializeSeq]
    refine ((ih t (by simp)).bind fun _ => ih' fun u hu => ih u (by simp [hu])).mono ?_
    simp only [heights, tagCounts]
    have h4 : 2 ^ (height t + 1) ≤ 2 ^ (1 + max (height t) (heights ts)) := Nat.pow_le_pow_right (by omega) (by omega)
    have h5 : 2 ^ (1 + heights ts) ≤ 2 ^ (1 + max (height t) (heights ts)) := Nat.pow_le_pow_right (by omega) (by omega)
    have h6 := Nat.mul_le_mul_right (tagCount t) h4
    have h7 := Nat.mul_le_mul_right (tagCounts ts) h5
    rw [Nat.mul_add]
    omega

theorem entrySerializersC_eq (es : List (String × Tag P)) :
    (entrySerializersC es : List (String × Act TagErr (Counting ω) Unit)) = es.map fun e => (e.1, e.2.serializeC) := by
  induction es with
  | nil => simp [entrySerializersC]
  | cons e es ih => obtain ⟨k, t⟩ := e; simp [entrySerializersC, ih, serializeC]

/-- Sum of a measure over the entries. -/
def entryTotal (f : Tag P → Nat) (l : List (String × Tag P)) : Nat := (l.map fun e => f e.2).sum

theorem serializeEntriesC_counts (es : List (String × Tag P)) (b : Tag P → Nat) (ih : ∀ k t, (k, t) ∈ es →
    Counts (t.serializeC : Act TagErr (Counting ω) Unit) t.serialize (b t))
    (l : List (String × Tag P)) (hl : ∀ e ∈ l, HMap.get e.1 es = some e.2) :
    Counts (serializeEntries (entrySerializersC es) (l.map (·.1)) : Act TagErr (Counting ω) Unit)
      (serializeEntries (entrySerializers es) (l.map (·.1))) (entryTotal b l) := by
  induction l with
  | nil => exact Counts.ret (.ok ())
  | cons e l ih' =>
    have hg := hl e (by simp)
    have hm := HMap.mem_of_get hg
    have h1 : HMap.get e.1 (entrySerializersC es : List (String × Act TagErr (Counting ω) Unit))
        = some e.2.serializeC := by rw [entrySerializersC_eq, HMap.get_map, hg]; rfl
    have h2 : HMap.get e.1 (entrySerializers es : List (String × Act TagErr ω Unit)) = some e.2.serialize := by
      rw [entrySerializers_eq, HMap.get_map, hg]; rfl
    simp only [List.map_cons, serializeEntries, h1, h2, entryTotal, List.sum_cons]
    have hk : Counts (serializeStringTag e.1 : Act TagErr (Counting ω) Unit) (serializeStringTag e.1) 0 :=
      Counts.writes (WritesIf.stringTag (C := False) nofun)
    exact (hk.bind fun _ => (ih _ _ hm).bind fun _ => ih' fun e' he' => hl e' (by simp [he'])).mono
      (by simp only [entryTotal]; omega)

theorem entryTotal_perm {f : Tag P → Nat} {l l' : List (String × Tag P)} (h : l.Perm l') :
    entryTotal f l = entryTotal f l' := (h.map _).sum_nat

theorem entryTotal_le (es : List (String × Tag P)) :
    entryTotal (fun t => 2 ^ (height t + 1) * tagCount t) es ≤ 2 ^ (1 + entryHeights es) * entryCounts es := by
  induction es with
  | nil => simp [entryTotal]
  | cons e es ih =>
    obtain ⟨k, t⟩ := e
    simp only [entryTotal, List.map_cons, List.sum_cons, entryHeights, entryCounts] at ih ⊢
    have h4 : 2 ^ (height t + 1) ≤ 2 ^ (1 + max (height t) (entryHeights es)) :=
      Nat.pow_le_pow_right (by omega) (by omega)
    have h5 : 2 ^ (1 + entryHeights es) ≤ 2 ^ (1 + max (height t) (entryHeights es)) :=
      Nat.pow_le_pow_right (by omega) (by omega)
    have h6 := Nat.mul_le_mul_right (tagCount t) h4
    have h7 := Nat.mul_le_mul_right (entryCounts es) h5
    rw [Nat.mul_add]
    omega

theorem serializeValueC_counts (t : Tag P) : MapsOk t →
    Counts (t.serializeValueC : Act TagErr (Counting ω) Unit) t.serializeValue (2 ^ height t * tagCount t) := by
  induction t using Tag.ind with
  | atom a =>
    intro hm
    simp only [serializeValueC, serializeValue]
    exact (Counts.writes (Atom.writes a hm.self)).mono (by omega)
  | seq id ts ih =>
    intro hm
    simp only [serializeValueC, serializeValue]
    refine (serializeSeqC_counts ts fun t ht => serializeC_counts (ih t ht (hm.of (within_seq ht)))).mono ?_
    simp only [height, tagCount]
    exact Nat.mul_le_mul_left _ (by omega)
  | array id ts ih =>
    intro hm
    simp only [serializeValueC, serializeValue]
    refine ((Counts.ilint _).bind fun _ =>
      serializeSeqC_counts ts fun t ht => serializeC_counts (ih t ht (hm.of (within_array ht)))).mono ?_
    simp only [height, tagCount, Nat.zero_add]
    exact Nat.mul_le_mul_left _ (by omega)
  | dict id es ih =>
    intro hm
    have hn : (es.map (·.1)).Nodup := hm.self
    simp only [serializeValueC, serializeValue, sortKeys_eq]
    refine ((Counts.ilint _).bind fun _ => serializeEntriesC_counts es _ (fun k t ht =>
      serializeC_counts (ih k t ht (hm.of (within_dict ht)))) (sortByKey es) (get_sorted hn)).mono ?_
    have hperm : (sortByKey es).Perm es := sortByKey_perm es
    rw [entryTotal_perm hperm]
    refine Nat.le_trans (by rw [Nat.zero_add]; exact entryTotal_le es) ?_
    simp only [height, tagCount]
    exact Nat.mul_le_mul_left _ (by omega)

end Tag

/-! ### Number of tags and bytes -/

theorem tagCount_le [TagPayload P] (t : Tag P) : tagCount t ≤ (enc t).length := by
  have hts : ∀ ts : List (Tag P), (∀ t ∈ ts, tagCount t ≤ (enc t).length) → tagCounts ts ≤ (encTags ts).length := by
    intro ts ih
    induction ts with
    | nil => simp [tagCounts]
    | cons t ts ih' =>
      have h1 := ih t (by simp)
      have h2 := ih' fun u hu => ih u (by simp [hu])
      simp only [tagCounts, encTags, List.length_append]
      simp only [enc] at h1
      omega
  have hes : ∀ es : List (String × Tag P), (∀ k t, (k, t) ∈ es → tagCount t ≤ (enc t).length) →
      entryCounts es ≤ (encSorted (encEntries es)).length := by
    intro es ih
    rw [encSorted_length, encEntries_eq]
    induction es with
    | nil => simp [entryCounts]
    | cons e es ih' =>
      obtain ⟨k, t⟩ := e
      have h1 := ih k t (by simp)
      have h2 := ih' fun k u hu => ih k u (by simp [hu])
      simp only [entryCounts, List.map_cons, List.flatMap_cons, List.length_append]
      omega
  induction t using Tag.ind with
  | atom a => simp only [tagCount]; exact enc_length_pos _
  | seq id ts ih =>
    have h1 := encValue_lt (.seq id ts : Tag P)
    have h2 := hts ts ih
    simp only [tagCount, encValue] at h1 ⊢
    omega
  | array id ts ih =>
    have h1 := encValue_lt (.array id ts : Tag P)
    have h2 := hts ts ih
    simp only [tagCount, encValue, List.length_append] at h1 ⊢
    omega
  | dict id es ih =>
    have h1 := encValue_lt (.dict id es : Tag P)
    have h2 := hes es ih
    simp only [tagCount, encValue, List.length_append] at h1 ⊢
    omega

end Verif
