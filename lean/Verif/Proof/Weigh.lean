import Verif.Proof.Cost
import Verif.Spec.Weigh
/-!
# The exact number of `value_size` calls
-/
namespace Verif
open Spec
variable {P : Type}

theorem weighs_eq (f : Nat → Nat) (d : Nat) (ts : List (Tag P)) : weighs f d ts = (ts.map (weigh f d)).sum := by
  induction ts with
  | nil => rfl
  | cons t ts ih => simp [weighs, ih]

theorem weighEntries_eq (f : Nat → Nat) (d : Nat) (es : List (String × Tag P)) :
    weighEntries f d es = Tag.entryTotal (weigh f d) es := by
  induction es with
  | nil => rfl
  | cons e es ih => obtain ⟨k, t⟩ := e; simp [weighEntries, ih, Tag.entryTotal]

theorem layer_implicit {id : UInt64} (h : isImplicitTag id = true) : layer id = 0 := by
  unfold isImplicitTag at h
  unfold layer
  have : id.toNat < 16 := by
    have : id.toNat ≤ 15 := by simpa [UInt64.le_iff_toNat_le] using h
    omega
  simp [this]

theorem layer_explicit {id : UInt64} (h : isImplicitTag id = false) : layer id = 1 := by
  unfold isImplicitTag at h
  unfold layer
  have : ¬ id.toNat < 16 := by
    have : 15 < id.toNat := by simpa [UInt64.lt_iff_toNat_lt, UInt64.le_iff_toNat_le] using h
    omega
  simp [this]

/-- One layer more doubles the weight. -/
theorem weigh_shift (t : Tag P) : ∀ d, weigh (2 ^ ·) d t = 2 ^ d * weigh (2 ^ ·) 0 t := by
  have hts : ∀ ts : List (Tag P), (∀ t ∈ ts, ∀ d, weigh (2 ^ ·) d t = 2 ^ d * weigh (2 ^ ·) 0 t) →
      ∀ d, weighs (2 ^ ·) d ts = 2 ^ d * weighs (2 ^ ·) 0 ts := by
    intro ts ih d
    induction ts with
    | nil => simp [weighs]
    | cons t ts ih' =>
      simp only [weighs]
      rw [ih t (by simp) d, ih' fun u hu => ih u (by simp [hu]), Nat.mul_add]
  have hes : ∀ es : List (String × Tag P), (∀ k t, (k, t) ∈ es → ∀ d, weigh (2 ^ ·) d t = 2 ^ d * weigh (2 ^ ·) 0 t) →
      ∀ d, weighEntries (2 ^ ·) d es = 2 ^ d * weighEntries (2 ^ ·) 0 es := by
    intro es ih d
    induction es with
    | nil => simp [weighEntries]
    | cons e es ih' =>
      obtain ⟨k, t⟩ := e
      simp only [weighEntries]
      rw [ih k t (by simp) d, ih' fun k u hu => ih k u (by simp [hu]), Nat.mul_add]
  induction t using Tag.ind with
  | atom a => intro d; simp [weigh, Nat.pow_add]
  | seq id ts ih =>
    intro d
    simp only [weigh, Nat.zero_add]
    rw [hts ts ih (d + layer id), hts ts ih (layer id), Nat.pow_add, Nat.mul_add, Nat.mul_assoc]
  | array id ts ih =>
    intro d
    simp only [weigh, Nat.zero_add]
    rw [hts ts ih (d + layer id), hts ts ih (layer id), Nat.pow_add, Nat.mul_add, Nat.mul_assoc]
  | dict id es ih =>
    intro d
    simp only [weigh, Nat.zero_add]
    rw [hes es ih (d + layer id), hes es ih (layer id), Nat.pow_add, Nat.mul_add, Nat.mul_assoc]

theorem weighs_shift (ts : List (Tag P)) (l : Nat) : weighs (2 ^ ·) l ts = 2 ^ l * weighs (2 ^ ·) 0 ts := by
  induction ts with
  | nil => simp [weighs]
  | cons t ts ih' => simp only [weighs]; rw [weigh_shift t l, ih', Nat.mul_add]

theorem weighEntries_shift (es : List (String × Tag P)) (l : Nat) :
    weighEntries (2 ^ ·) l es = 2 ^ l * weighEntries (2 ^ ·) 0 es := by
  induction es with
  | nil => simp [weighEntries]
  | cons e es ih' =>
    obtain ⟨k, t⟩ := e
    simp only [weighEntries]; rw [weigh_shift t l, ih', Nat.mul_add]

theorem weigh_seq (id : UInt64) (ts : List (Tag P)) :
    weigh (2 ^ ·) 0 (.seq id ts) = 2 ^ layer id * (1 + weighs (2 ^ ·) 0 ts) := by
  simp only [weigh, Nat.zero_add]
  rw [weighs_shift, Nat.mul_add, Nat.mul_one]

theorem weigh_array (id : UInt64) (ts : List (Tag P)) :
    weigh (2 ^ ·) 0 (.array id ts) = 2 ^ layer id * (1 + weighs (2 ^ ·) 0 ts) := by
  simp only [weigh, Nat.zero_add]
  rw [weighs_shift, Nat.mul_add, Nat.mul_one]

theorem weigh_dict (id : UInt64) (es : List (String × Tag P)) :
    weigh (2 ^ ·) 0 (.dict id es) = 2 ^ layer id * (1 + weighEntries (2 ^ ·) 0 es) := by
  simp only [weigh, Nat.zero_add]
  rw [weighEntries_shift, Nat.mul_add, Nat.mul_one]

/-- Weighing is additive. -/
theorem weigh_add (f g : Nat → Nat) (t : Tag P) : ∀ d, weigh (fun e => f e + g e) d t = weigh f d t + weigh g d t := by
  induction t using Tag.ind with
  | atom a => intro d; simp [weigh]
  | seq id ts ih =>
    intro d
    have : weighs (fun e => f e + g e) (d + layer id) ts = weighs f (d + layer id) ts + weighs g (d + layer id) ts := by
      generalize d + layer id = d
      induction ts with
      | nil => rfl
      | cons t ts ih' => simp only [weighs]; rw [ih t (by simp), ih' fun u hu => ih u (by simp [hu])]; omega
    simp only [weigh, this]; omega
  | array id ts ih =>
    intro d
    have : weighs (fun e => f e + g e) (d + layer id) ts = weighs f (d + layer id) ts + weighs g (d + layer id) ts := by
      generalize d + layer id = d
      induction ts with
      | nil => rfl
      | cons t ts ih' => simp only [weighs]; rw [ih t (by simp), ih' fun u hu => ih u (by simp [hu])]; omega
    simp only [weigh, this]; omega
  | dict id es ih =>
    intro d
    have : weighEntries (fun e => f e + g e) (d + layer id) es
        = weighEntries f (d + layer id) es + weighEntries g (d + layer id) es := by
      generalize d + layer id = d
      induction es with
      | nil => rfl
      | cons e es ih' =>
        obtain ⟨k, t⟩ := e
        simp only [weighEntries]; rw [ih k t (by simp), ih' fun k u hu => ih k u (by simp [hu])]; omega
    simp only [weigh, this]; omega

/-- `2 ^ e` is one more than `2 ^ e - 1`. -/
theorem weigh_pow (t : Tag P) (d : Nat) :
    weigh (2 ^ ·) d t = weigh (fun e => 2 ^ e - 1) d t + weigh (fun _ => 1) d t := by
  rw [← weigh_add]
  congr 1
  funext e
  have : 1 ≤ 2 ^ e := Nat.one_le_two_pow
  omega

/-- The constant weight does not depend on the depth. -/
theorem weigh_one (t : Tag P) : ∀ d, weigh (fun _ => 1) d t = tagCount t := by
  have hts : ∀ ts : List (Tag P), (∀ t ∈ ts, ∀ d, weigh (fun _ => 1) d t = tagCount t) →
      ∀ d, weighs (fun _ => 1) d ts = tagCounts ts := by
    intro ts ih d
    induction ts with
    | nil => rfl
    | cons t ts ih' =>
      simp only [weighs, tagCounts]; rw [ih t (by simp) d, ih' fun u hu => ih u (by simp [hu])]
  have hes : ∀ es : List (String × Tag P), (∀ k t, (k, t) ∈ es → ∀ d, weigh (fun _ => 1) d t = tagCount t) →
      ∀ d, weighEntries (fun _ => 1) d es = entryCounts es := by
    intro es ih d
    induction es with
    | nil => rfl
    | cons e es ih' =>
      obtain ⟨k, t⟩ := e
      simp only [weighEntries, entryCounts]; rw [ih k t (by simp) d, ih' fun k u hu => ih k u (by simp [hu])]
  induction t using Tag.ind with
  | atom a => intro d; rfl
  | seq id ts ih => intro d; simp only [weigh, tagCount]; rw [hts ts ih]
  | array id ts ih => intro d; simp only [weigh, tagCount]; rw [hts ts ih]
  | dict id es ih => intro d; simp only [weigh, tagCount]; rw [hes es ih]

namespace Tag
variable [TagPayload P]

theorem sizeOfC_calls_layer (id : UInt64) (vs : Counted UInt64) : (sizeOfC id vs).calls = 2 ^ layer id * vs.calls := by
  rcases Bool.eq_false_or_eq_true (isImplicitTag id) with hi | hi
  · rw [sizeOfC_calls_implicit hi, layer_implicit hi]; omega
  · rw [sizeOfC_calls_explicit hi, layer_explicit hi]

/-- Every nested tag is weighed by what lies between. -/
theorem valueSizeC_exact (t : Tag P) : 2 ^ layer t.id * t.valueSizeC.calls = weigh (2 ^ ·) 0 t := by
  have hts : ∀ ts : List (Tag P), (∀ t ∈ ts, 2 ^ layer t.id * t.valueSizeC.calls = weigh (2 ^ ·) 0 t) →
      ∀ acc, (sizeSumC acc ts).calls = weighs (2 ^ ·) 0 ts := by
    intro ts ih
    induction ts with
    | nil => intro acc; simp [sizeSumC, weighs]
    | cons t ts ih' =>
      intro acc
      simp only [sizeSumC, Counted.bind_calls, weighs, sizeOfC_calls_layer]
      rw [ih t (by simp), ih' fun u hu => ih u (by simp [hu])]
  have hes : ∀ es : List (String × Tag P), (∀ k t, (k, t) ∈ es → 2 ^ layer t.id * t.valueSizeC.calls = weigh (2 ^ ·) 0 t) →
      ∀ acc, (entriesSumC acc es).calls = weighEntries (2 ^ ·) 0 es := by
    intro es ih
    induction es with
    | nil => intro acc; simp [entriesSumC, weighEntries]
    | cons e es ih' =>
      intro acc
      obtain ⟨k, t⟩ := e
      simp only [entriesSumC, Counted.bind_calls, weighEntries, sizeOfC_calls_layer]
      rw [ih k t (by simp), ih' fun k u hu => ih k u (by simp [hu])]
  induction t using Tag.ind with
  | atom a => simp [valueSizeC, weigh, Tag.id]
  | seq id ts ih =>
    rw [weigh_seq, ← hts ts ih 0]
    simp [valueSizeC, Tag.id]
  | array id ts ih =>
    rw [weigh_array, ← hts ts ih 0]
    simp [valueSizeC, Tag.id]
  | dict id es ih =>
    rw [weigh_dict, ← hes es ih 0]
    simp [valueSizeC, Tag.id]

theorem sizeC_exact (t : Tag P) : t.sizeC.calls = weigh (2 ^ ·) 0 t := by
  unfold sizeC
  rw [sizeOfC_calls_layer, valueSizeC_exact]

end Tag

/-- When `y` succeeds `x` does the same to the writer, with exactly `b` calls of `value_size`. -/
def Exactly {ω α : Type} (x : Act TagErr (Counting ω) α) (y : Act TagErr ω α) (b : Nat) : Prop :=
  ∀ w n a w', y w = (.ok a, w') → x ⟨w, n⟩ = (.ok a, ⟨w', n + b⟩)

namespace Exactly
variable {ω α β : Type}

theorem of_zero {x : Act TagErr (Counting ω) α} {y : Act TagErr ω α} (h : Counts x y 0) : Exactly x y 0 := by
  intro w n a w' hy
  obtain ⟨k, hk, e⟩ := h w n
  rw [e, hy, show k = 0 by omega]

theorem bind {x : Act TagErr (Counting ω) α} {y : Act TagErr ω α} {f : α → Act TagErr (Counting ω) β}
    {g : α → Act TagErr ω β} {b c : Nat} (h : Exactly x y b) (hf : ∀ a, Exactly (f a) (g a) c) :
    Exactly (x >>= f) (y >>= g) (b + c) := by
  intro w n a w' hy
  have hy : Act.bind y g w = _ := hy
  show Act.bind x f _ = _
  simp only [Act.bind] at hy ⊢
  rcases hyw : y w with ⟨r, w1⟩
  rw [hyw] at hy
  cases r with
  | ok a1 =>
    rw [h w n a1 w1 hyw]
    show f a1 _ = _
    rw [hf a1 w1 (n + b) a w' hy, Nat.add_assoc]
  | err e => cases hy
  | panic => cases hy
  | diverge => cases hy

variable [Writer ω]

theorem serializeWith {id v : UInt64} {vs : Counted UInt64} {x : Act TagErr (Counting ω) Unit}
    {y : Act TagErr ω Unit} {b : Nat} (hv : vs.value = v) (h : Exactly x y b) :
    Exactly (Tag.serializeWithC id vs x) (Tag.serializeWith id v y) (layer id * vs.calls + b) := by
  unfold Tag.serializeWithC Tag.serializeWith
  rcases Bool.eq_false_or_eq_true (isImplicitTag id) with hi | hi
  · simp only [hi, if_true, layer_implicit hi, Nat.zero_mul]
    exact (of_zero (Counts.ilint id)).bind fun _ => h
  · simp only [hi, Bool.false_eq_true, if_false, layer_explicit hi, Nat.one_mul]
    have he : Exactly (Counting.eval vs : Act TagErr (Counting ω) UInt64) (Act.lift (.ok v)) vs.calls := by
      intro w n a w' hy
      cases hy
      simp [Counting.eval, hv]
    have := (of_zero (Counts.ilint (ω := ω) id)).bind fun _ => he.bind fun a =>
      (of_zero (Counts.ilint (ω := ω) a)).bind fun _ => h
    rw [Nat.zero_add, Nat.zero_add] at this
    exact this

end Exactly

namespace Tag
variable [TagPayload P] {ω : Type} [Writer ω]

/-- The total of serialization, apart from the number of tags. -/
theorem ser_total (l v s c W : Nat) (hl : l = 0 ∨ l = 1) (hv : v = 1 + W) (hs : s + c = W) :
    l * v + s + (1 + c) = 2 ^ l * (1 + W) := by
  rcases hl with rfl | rfl <;> simp <;> omega

omit [TagPayload P] in
theorem layer_cases (id : UInt64) : layer id = 0 ∨ layer id = 1 := by unfold layer; split <;> simp

/-- `serialize` makes `2 ^ e - 1` calls on a tag in `e` explicit ones. -/
theorem serializeC_exact (t : Tag P) : MapsOk t → ∃ s, s + tagCount t = weigh (2 ^ ·) 0 t ∧
    Exactly (t.serializeC : Act TagErr (Counting ω) Unit) t.serialize s := by
  have hpow : ∀ l : Nat, 0 < 2 ^ l := fun l => Nat.two_pow_pos l
  have hts : ∀ ts : List (Tag P), (∀ t ∈ ts, ∃ s, s + tagCount t = weigh (2 ^ ·) 0 t ∧
      Exactly (t.serializeC : Act TagErr (Counting ω) Unit) t.serialize s) →
      ∃ s, s + tagCounts ts = weighs (2 ^ ·) 0 ts ∧
        Exactly (serializeSeqC ts : Act TagErr (Counting ω) Unit) (serializeSeq ts) s := by
    intro ts ih
    induction ts with
    | nil =>
      refine ⟨0, rfl, ?_⟩
      simp only [serializeSeqC, serializeSeq]
      exact Exactly.of_zero (Counts.ret (.ok ()))
    | cons t ts ih' =>
      obtain ⟨s1, h1, e1⟩ := ih t (by simp)
      obtain ⟨s2, h2, e2⟩ := ih' fun u hu => ih u (by simp [hu])
      refine ⟨s1 + s2, by simp only [tagCounts, weighs]; omega, ?_⟩
      simp only [serializeSeqC, serializeSeq]
      exact e1.bind fun _ => e2
  have step : ∀ (t : Tag P) (s c W : Nat), s + c = W → tagCount t = 1 + c → weigh (2 ^ ·) 0 t = 2 ^ layer t.id * (1 + W) →
      Exactly (t.serializeValueC : Act TagErr (Counting ω) Unit) t.serializeValue s →
      ∃ s, s + tagCount t = weigh (2 ^ ·) 0 t ∧ Exactly (t.serializeC : Act TagErr (Counting ω) Unit) t.serialize s := by
    intro t s c W hs hc hw he
    refine ⟨layer t.id * t.valueSizeC.calls + s, ?_, Exactly.serializeWith (valueSizeC_value t) he⟩
    rw [hc, hw]
    refine ser_total _ _ _ _ _ (layer_cases _) ?_ hs
    have := valueSizeC_exact t
    rw [hw] at this
    exact Nat.eq_of_mul_eq_mul_left (hpow _) this
  have hes : ∀ es l : List (String × Tag P), (∀ k t, (k, t) ∈ es → ∃ s, s + tagCount t = weigh (2 ^ ·) 0 t ∧
      Exactly (t.serializeC : Act TagErr (Counting ω) Unit) t.serialize s) →
      (∀ e ∈ l, HMap.get e.1 es = some e.2) →
      ∃ s, s + entryTotal tagCount l = entryTotal (weigh (2 ^ ·) 0) l ∧
        Exactly (serializeEntries (entrySerializersC es) (l.map (·.1)) : Act TagErr (Counting ω) Unit)
          (serializeEntries (entrySerializers es) (l.map (·.1))) s := by
    intro es l ih hl
    induction l with
    | nil => exact ⟨0, rfl, Exactly.of_zero (Counts.ret (.ok ()))⟩
    | cons e l ih' =>
      have hg := hl e (by simp)
      have h1 : HMap.get e.1 (entrySerializersC es : List (String × Act TagErr (Counting ω) Unit))
          = some e.2.serializeC := by rw [entrySerializersC_eq, HMap.get_map, hg]; rfl
      have h2 : HMap.get e.1 (entrySerializers es : List (String × Act TagErr ω Unit)) = some e.2.serialize := by
        rw [entrySerializers_eq, HMap.get_map, hg]; rfl
      obtain ⟨s1, q1, e1⟩ := ih _ _ (HMap.mem_of_get hg)
      obtain ⟨s2, q2, e2⟩ := ih' fun e' he' => hl e' (by simp [he'])
      refine ⟨s1 + s2, by simp only [entryTotal, List.map_cons, List.sum_cons] at q2 ⊢; omega, ?_⟩
      simp only [List.map_cons, serializeEntries, h1, h2]
      have hk : Exactly (serializeStringTag e.1 : Act TagErr (Counting ω) Unit) (serializeStringTag e.1) 0 :=
        Exactly.of_zero (Counts.writes (WritesIf.stringTag (C := False) nofun))
      simpa using hk.bind fun _ => e1.bind fun _ => e2
  induction t using Tag.ind with
  | atom a =>
    intro hm
    refine step _ 0 0 0 rfl rfl (by simp [weigh, Tag.id]) ?_
    simp only [serializeValueC, serializeValue]
    exact Exactly.of_zero (Counts.writes (Atom.writes a hm.self))
  | seq id ts ih =>
    intro hm
    obtain ⟨s, h1, h2⟩ := hts ts fun t ht => ih t ht (hm.of (within_seq ht))
    refine step _ s (tagCounts ts) (weighs (2 ^ ·) 0 ts) h1 (by simp [tagCount]) (weigh_seq id ts) ?_
    simp only [serializeValueC, serializeValue]
    exact h2
  | array id ts ih =>
    intro hm
    obtain ⟨s, h1, h2⟩ := hts ts fun t ht => ih t ht (hm.of (within_array ht))
    refine step _ s (tagCounts ts) (weighs (2 ^ ·) 0 ts) h1 (by simp [tagCount]) (weigh_array id ts) ?_
    simp only [serializeValueC, serializeValue]
    simpa using (Exactly.of_zero (Counts.ilint _)).bind fun _ => h2
  | dict id es ih =>
    intro hm
    have hn : (es.map (·.1)).Nodup := hm.self
    obtain ⟨s, h1, h2⟩ := hes es (sortByKey es) (fun k t ht => ih k t ht (hm.of (within_dict ht))) (get_sorted hn)
    have hperm : (sortByKey es).Perm es := sortByKey_perm es
    rw [entryTotal_perm hperm, entryTotal_perm hperm, ← weighEntries_eq] at h1
    have hc : entryCounts es = entryTotal tagCount es := by
      clear h1 h2 hperm hn hm ih
      induction es with
      | nil => rfl
      | cons e es ih => obtain ⟨k, t⟩ := e; simp [entryCounts, entryTotal, ih]
    refine step _ s (entryTotal tagCount es) (weighEntries (2 ^ ·) 0 es) h1 (by simp [tagCount, hc]) (weigh_dict id es) ?_
    simp only [serializeValueC, serializeValue, sortKeys_eq]
    simpa using (Exactly.of_zero (Counts.ilint _)).bind fun _ => h2

end Tag
end Verif
