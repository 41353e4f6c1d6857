import Verif.Proof.Cost
import Verif.Proof.Weigh
import Verif.Props.Depth
/-!
# C73: how often sizes are computed

`Tag.valueSizeC`, `Tag.sizeC`, `Tag.serializeC` and `Tag.toBytesC` are `value_size`, `size`, `serialize` and `to_bytes`
with a counter of the `value_size` calls made on tags.
-/
namespace Verif.Props
open Verif Verif.Spec
variable {P : Type} [TagPayload P]

/-- **C73** The counting functions are the functions they count: same sizes, and the same effect of serialization on
every writer. -/
theorem C73_same (t : Tag P) :
    t.valueSizeC.value = t.valueSize ∧ t.sizeC.value = t.size ∧
    ∀ (ω : Type) [Writer ω] (w : ω) (n : Nat), MapsOk t →
      (t.serializeC (⟨w, n⟩ : Counting ω)).1 = (t.serialize w).1 ∧
      (t.serializeC (⟨w, n⟩ : Counting ω)).2.writer = (t.serialize w).2 := by
  refine ⟨t.valueSizeC_value, t.sizeC_value, fun ω _ w n hm => ?_⟩
  obtain ⟨k, -, e⟩ := Tag.serializeC_counts (t.serializeValueC_counts hm) w n
  rw [e]
  exact ⟨rfl, rfl⟩

theorem toBytesC_spec [Env] (t : Tag P) (hm : MapsOk t) :
    t.toBytesC.value = t.toBytes ∧ t.sizeC.calls ≤ t.toBytesC.calls ∧
    t.toBytesC.calls ≤ t.sizeC.calls + 2 ^ (height t + 1) * tagCount t := by
  obtain ⟨k, hk, e⟩ := Tag.serializeC_counts (t.serializeValueC_counts hm) VecWriter.new t.sizeC.calls
  unfold Tag.toBytesC Tag.toBytes
  simp only [t.sizeC_value, e]
  split
  · rcases t.serialize VecWriter.new with ⟨r, w⟩
    cases r <;> exact ⟨rfl, by simp; try omega, by simp; try omega⟩
  · exact ⟨rfl, by simp, by simp⟩

/-- **C73** `to_bytes` counts too. -/
theorem C73_same_toBytes [Env] (t : Tag P) (hm : MapsOk t) : t.toBytesC.value = t.toBytes := (toBytesC_spec t hm).1

theorem nest_calls (d : Nat) : (nest d : Tag P).valueSizeC.calls + 1 = 2 ^ (d + 1) := by
  induction d with
  | zero => simp [nest, Tag.valueSizeC, Tag.sizeSumC]
  | succ d ih =>
    simp only [nest, Tag.valueSizeC, Tag.sizeSumC, Counted.bind_calls, Counted.tick_calls, Counted.pure_calls]
    rw [sizeOfC_calls_explicit (by cases d <;> rfl), Nat.pow_succ]
    omega

omit [TagPayload P] in
theorem nest_canon (d : Nat) : canon (nest d : Tag P) = nest d := by
  induction d with
  | zero => simp [nest, canon, canonTags]
  | succ d ih => simp [nest, canon, canonTags, ih]

/-- **C73** (violated) The work to measure or serialize a tag is not bounded by any polynomial in its size: for every
`d` (up to what fits in the largest tag) there are at most `6 * d + 10` bytes, accepted by the standard factory, such
that on the resulting tag one `value_size()` makes `2 ^ (d + 1) - 1` calls of `value_size`, and `to_bytes()` at least
that many, though it returns no more than those bytes. -/
theorem C73_exponential [Env] (hr : MemoryOk) (strict : Bool) (d : Nat) (hd : 6 * d ≤ maxValue) :
    ∃ bs t, bs.length ≤ 6 * d + 10 ∧ Factory.fromBytes (Engine.std strict : Engine P) bs = .ok t ∧
      t.valueSizeC.calls + 1 = 2 ^ (d + 1) ∧ t.toBytesC.calls + 2 ≥ 2 ^ (d + 2) ∧ t.toBytes = .ok bs := by
  have h9 : maxValue = 536870912 := rfl
  have hl : (enc (nest d : Tag P)).length ≤ 6 * d + 10 := by
    have := nest_length (P := P) d hd
    have h5 := ilint_le5 (n := (encValue (nest d : Tag P)).length) (by omega)
    simp only [enc, wrap_length, nest_id]
    rw [show (Spec.ilint (22 : UInt64).toNat).length = 1 from by decide]
    split <;> omega
  refine ⟨enc (nest d : Tag P), nest d, hl, ?_, nest_calls d, ?_, ?_⟩
  · rw [fromBytes_ok_iff]
    have := top_enc hr (Engine.std strict) (nest d : Tag P) (nest_maps d) (std_supported (nest_std strict d hd)) []
    rw [nest_canon] at this
    simpa using this
  · have h1 := (toBytesC_spec (nest d : Tag P) (nest_maps d)).2.1
    have h2 := nest_calls (P := P) d
    unfold Tag.sizeC at h1
    rw [sizeOfC_calls_explicit (by cases d <;> rfl)] at h1
    rw [show 2 ^ (d + 2) = 2 * 2 ^ (d + 1) by rw [Nat.pow_succ]; omega]
    omega
  · have hp : PayloadsOk (nest d : Tag P) := by
      intro id p hw
      obtain ⟨c, -, hc⟩ := within_nest hw
      cases c <;> cases hc
    have ha : 16 * maxValue ≤ Env.allocMax := hr
    rw [C29_to_bytes (nest d) (nest_maps d) hp (by omega) (by omega)]
    rfl

/-- **C73** The number of calls is at most `2 ^ (h + 2)` times the length of the serialization, `h` being the nesting:
linear when the nesting is bounded. -/
theorem C73_bound [Env] (t : Tag P) (hm : MapsOk t) :
    t.sizeC.calls ≤ 2 ^ (height t + 1) * (enc t).length ∧
    t.toBytesC.calls ≤ 2 ^ (height t + 2) * (enc t).length ∧
    ∀ (ω : Type) [Writer ω] (w : ω) (n : Nat),
      (t.serializeC (⟨w, n⟩ : Counting ω)).2.calls ≤ n + 2 ^ (height t + 1) * (enc t).length := by
  have h1 := t.sizeC_calls
  have h2 := (toBytesC_spec t hm).2.2
  have h3 := Nat.mul_le_mul_left (2 ^ (height t + 1)) (tagCount_le t)
  refine ⟨Nat.le_trans h1 h3, ?_, fun ω _ w n => ?_⟩
  · rw [show 2 ^ (height t + 2) = 2 * 2 ^ (height t + 1) by rw [Nat.pow_succ]; omega, Nat.mul_assoc]
    omega
  · obtain ⟨k, hk, e⟩ := Tag.serializeC_counts (t.serializeValueC_counts hm) w n
    rw [e]
    exact Nat.add_le_add_left (Nat.le_trans hk h3) n

/-- **C73** The exact number of calls: on a tag that lies in `e` explicit tags, itself included, `size()` calls
`value_size` `2 ^ e` times, a successful `serialize` `2 ^ e - 1` times and a successful `to_bytes()` `2 ^ (e + 1) - 1`
times, in all the sum of this over all the tags. -/
theorem C73_exactly (t : Tag P) :
    t.sizeC.calls = weigh (fun e => 2 ^ e) 0 t ∧
    (MapsOk t → ∀ (ω : Type) [Writer ω] (w w' : ω) (n : Nat), t.serialize w = (.ok (), w') →
      (t.serializeC (⟨w, n⟩ : Counting ω)).2.calls = n + weigh (fun e => 2 ^ e - 1) 0 t) ∧
    (MapsOk t → ∀ [Env] (bs : Bytes), t.toBytes = .ok bs →
      t.toBytesC.calls = weigh (fun e => 2 ^ (e + 1) - 1) 0 t) := by
  have hw := weigh_pow t 0
  rw [weigh_one] at hw
  refine ⟨t.sizeC_exact, fun hm ω _ w w' n h => ?_, fun hm _ bs h => ?_⟩
  · obtain ⟨s, h1, h2⟩ := t.serializeC_exact (ω := ω) hm
    rw [h2 w n () w' h]
    show n + s = _
    omega
  · obtain ⟨s, h1, h2⟩ := t.serializeC_exact (ω := VecWriter) hm
    have h3 : weigh (fun e => 2 ^ (e + 1) - 1) 0 t = weigh (2 ^ ·) 0 t + weigh (fun e => 2 ^ e - 1) 0 t := by
      rw [← weigh_add]
      congr 1
      funext e
      have : 1 ≤ 2 ^ e := Nat.one_le_two_pow
      rw [Nat.pow_succ]
      omega
    unfold Tag.toBytes at h
    unfold Tag.toBytesC
    simp only [t.sizeC_value] at h ⊢
    split at h
    · rename_i hle
      rw [if_pos hle]
      rcases hser : t.serialize VecWriter.new with ⟨r, w⟩
      rw [hser] at h
      cases r with
      | ok u =>
        rw [h2 _ t.sizeC.calls () w hser, t.sizeC_exact]
        show _ + s = _
        omega
      | err e => cases h
      | panic => cases h
      | diverge => cases h
    · cases h

/-- A number in one layer, a text in three (its own included) and a null tag in two. -/
example :
    let t : Tag Empty := .seq 22 [.atom (.uint8 3 1), .array 21 [.atom (.string 17 "ab"), .atom (.null 0)]]
    weigh (fun e => 2 ^ e) 0 t = 2 + (2 + (4 + (8 + 4))) ∧ t.sizeC = ⟨12, 20⟩ ∧
    weigh (fun e => 2 ^ e - 1) 0 t = 1 + (1 + (3 + (7 + 3))) ∧
    (t.serializeC (⟨VecWriter.new, 0⟩ : Counting VecWriter)).2.calls = 15 := by
  refine ⟨by decide +kernel, by decide +kernel, by decide +kernel, by decide +kernel⟩

/-- Flat data is cheap, and the bound is met: a sequence of three integers. -/
example : (Tag.seq 22 [.atom (.uint8 3 1), .atom (.uint8 3 2), .atom (.string 17 "ab")] : Tag Empty).sizeC
    = ⟨10, 10⟩ := by decide +kernel
/-- 82 bytes that need more than two million million calls. -/
example : (enc (nest 40 : Tag Empty)).length = 82 ∧ (nest 40 : Tag Empty).valueSizeC.calls + 1 = 2 ^ 41 :=
  ⟨by decide +kernel, nest_calls 40⟩

end Verif.Props
