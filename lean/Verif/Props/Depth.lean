import Verif.Props.Normal
/-!
# C62: the depth of the recursion is chosen by the input

`Factory.deserializeFuel e d` is the deserializer with room for `d` nested calls of `deserialize`: a call beyond that
does not return (in the program: the stack overflows).
-/
namespace Verif.Props
open Verif Verif.Spec
variable {P : Type}
set_option linter.unusedSectionVars false

/-- `d + 1` sequences, one inside the other. -/
def nest : Nat → Tag P
  | 0 => .seq 22 []
  | d + 1 => .seq 22 [nest d]

section
variable [TagPayload P] [Env]

theorem nest_value (d : Nat) : encValue (nest (d + 1) : Tag P) = enc (nest d : Tag P) := by
  simp only [nest, encValue, encTags, List.append_nil]
  rfl

theorem nest_id (d : Nat) : (nest d : Tag P).id = 22 := by cases d <;> rfl

theorem ilint_le5 {n : Nat} (h : n < 2 ^ 32) : (Spec.ilint n).length ≤ 5 := by
  have := ilint_length_mono (a := n) (b := 2 ^ 32 - 1) (by omega) (by decide)
  rw [show (Spec.ilint (2 ^ 32 - 1)).length = 5 from by decide] at this
  exact this

/-- At most six bytes per level. -/
theorem nest_length (d : Nat) (h : 6 * d ≤ maxValue) : (encValue (nest d : Tag P)).length ≤ 6 * d := by
  have h9 : maxValue = 536870912 := rfl
  induction d with
  | zero => simp [nest, encValue, encTags]
  | succ d ih =>
    have ih := ih (by omega)
    rw [nest_value]
    simp only [enc, wrap_length, nest_id]
    have := ilint_le5 (n := (encValue (nest d : Tag P)).length) (by omega)
    rw [show (Spec.ilint (22 : UInt64).toNat).length = 1 from by decide]
    split <;> omega

theorem within_nest {d : Nat} {u : Tag P} (h : Within u (nest d)) : ∃ c, c ≤ d ∧ u = nest c := by
  induction d with
  | zero => 
    unfold nest at h
    cases h with
    | refl => exact ⟨0, Nat.le_refl _, rfl⟩
    | seq hm _ => simp at hm
  | succ d ih =>
    unfold nest at h
    cases h with
    | refl => exact ⟨d + 1, Nat.le_refl _, rfl⟩
    | seq hm hw =>
      simp only [List.mem_singleton] at hm
      subst hm
      obtain ⟨c, hc, rfl⟩ := ih hw
      exact ⟨c, by omega, rfl⟩

theorem nest_std (strict : Bool) (d : Nat) (h : 6 * d ≤ maxValue) :
    ∀ u : Tag P, Within u (nest d) → StdTag strict u ∧ (encValue u).length ≤ maxValue := by
  intro u hu
  obtain ⟨c, hc, rfl⟩ := within_nest hu
  refine ⟨.inl ?_, Nat.le_trans (nest_length c (by omega)) (by omega)⟩
  cases c <;> rfl

theorem nest_maps (d : Nat) : MapsOk (nest d : Tag P) := by
  intro u hu
  obtain ⟨c, -, rfl⟩ := within_nest hu
  cases c <;> trivial

theorem nest_diverges (strict : Bool) (d k : Nat) (hk : k ≤ d) (h : 6 * d ≤ maxValue) (x : Bytes) :
    Parser.tag (Engine.std strict : Engine P) k none (enc (nest d : Tag P) ++ x) = .diverge := by
  induction d generalizing k x with
  | zero => 
    obtain rfl : k = 0 := by omega
    rfl
  | succ d ih =>
    cases k with
    | zero => rfl
    | succ k =>
      have hv := nest_length (P := P) (d + 1) h
      have hle : (encValue (nest (d + 1) : Tag P)).length ≤ maxTagSize := by rw [← maxValue_eq]; omega
      obtain ⟨t₀, hc, hk₀, hid⟩ := std_create (P := P) (strict := strict) (id := 22) (k := .seq) rfl
      unfold Parser.tag
      unfold enc
      rw [nest_id, wrap_explicit (by decide), List.append_assoc, List.append_assoc, Parser.bind_ok (ilint_enc _ _),
        tagSize_explicit (by decide), Parser.bind_assoc,
        Parser.bind_ok (ilint_enc_nat (by unfold maxTagSize at hle; omega) _), tagSizeToUsize_eq hle,
        Parser.lift_ok, Parser.pure_bind, hc, Parser.lift_ok, Parser.pure_bind]
      show Parser.tagValueInto (Parser.tag _ k) _ t₀ _ = _
      have ht : ∃ id ts, t₀ = .seq id ts := by
        cases t₀ with
        | atom a => cases a <;> cases hk₀
        | seq id ts => exact ⟨_, _, rfl⟩
        | array => cases hk₀
        | dict => cases hk₀
      obtain ⟨id, ts, rfl⟩ := ht
      have hw : Parser.tagsWhile (Parser.tag (Engine.std strict : Engine P) k none) 0
          ((encValue (nest (d + 1) : Tag P)).length + 1) [] (encValue (nest (d + 1) : Tag P)) = .diverge := by
        unfold Parser.tagsWhile
        have hpos := enc_length_pos (nest d : Tag P)
        rw [if_neg (by rw [nest_value]; omega), nest_value]
        have := ih k (by omega) (by omega) []
        rw [List.append_nil] at this
        rw [Parser.bind_apply, this]
      have hs : Parser.seq (Parser.tag (Engine.std strict : Engine P) k none) (encValue (nest (d + 1) : Tag P)).length
          (encValue (nest (d + 1) : Tag P)) = .diverge := by
        unfold Parser.seq Parser.limited
        rw [if_pos (Nat.le_refl _), List.take_length]
        simp only [hw]
      unfold Parser.tagValueInto Parser.limited
      rw [if_pos (by simp), List.take_left' rfl]
      simp only [Parser.bind_apply]
      have : Parser.tagValue (Parser.tag (Engine.std strict : Engine P) k) (encValue (nest (d + 1) : Tag P)).length
          (.seq id ts) (encValue (nest (d + 1) : Tag P)) = .diverge := by
        simp only [Parser.tagValue, Parser.bind_apply, hs]
      rw [this]

/-- **C62** (violated) The stack needed is not bounded: for every depth `d` (up to what fits in the largest tag) there
are at most `6 * d + 10` bytes, accepted by the standard factory, on which a deserializer that has room for `d` nested
calls does not return, whatever the (well-behaved) reader. -/
theorem C62_unbounded (hr : MemoryOk) (strict : Bool) (d : Nat) (hd : 6 * d ≤ maxValue) :
    ∃ bs t, bs.length ≤ 6 * d + 10 ∧ Factory.fromBytes (Engine.std strict : Engine P) bs = .ok t ∧
      ∀ (σ : Type) [Reader σ] (V : View σ) (s : σ), V.R s bs →
        ∀ k, k ≤ d → ∃ s', Factory.deserializeFuel (Engine.std strict : Engine P) k σ none s = (.diverge, s') := by
  refine ⟨enc (nest d : Tag P), canon (nest d), ?_, ?_, ?_⟩
  · have h9 : maxValue = 536870912 := rfl
    have := nest_length (P := P) d hd
    have h5 := ilint_le5 (n := (encValue (nest d : Tag P)).length) (by omega)
    simp only [enc, wrap_length, nest_id]
    rw [show (Spec.ilint (22 : UInt64).toNat).length = 1 from by decide]
    split <;> omega
  · rw [fromBytes_ok_iff]
    simpa using top_enc hr (Engine.std strict) (nest d : Tag P) (nest_maps d) (std_supported (nest_std strict d hd)) []
  · intro σ _ V s hR k hk
    have := sim_deserializeFuel (Engine.std strict : Engine P) k σ V none s _ hR
    have hn := nest_diverges (P := P) strict d k hk hd []
    rw [List.append_nil] at hn
    rw [hn] at this
    exact this

/-- A thousand levels in about 6 kB. -/
example : 6 * 1000 ≤ maxValue := by decide
/-- Three levels: 6 bytes. -/
example : enc (nest 2 : Tag Empty) = [22, 4, 22, 2, 22, 0] := by decide +kernel

/-! ### The bound that does hold -/

/-- Without nested tags the nested deserializer is not used. -/
theorem atomValue_plain (f g : Option (Tag P) → Parser (Tag P)) (n : Nat) (a : Atom P) (h : a.kind ≠ .payload) :
    Parser.atomValue f n a = Parser.atomValue g n a := by
  cases a <;> first | rfl | exact absurd rfl h

/-- Only payloads fill tags. -/
theorem tagValueInto_plain (f : Option (Tag P) → Parser (Tag P)) (n : Nat) (t : Tag P) (h : t.kind ≠ .payload) :
    Parser.tagValueInto f n t = Parser.tagValueInto (fun _ => f none) n t := by
  unfold Parser.tagValueInto
  cases t with
  | atom a => simp only [Parser.tagValue]; rw [atomValue_plain f (fun _ => f none) n a h]
  | _ => rfl

theorem tag_agree_half (strict : Bool) (N : Nat) :
    ∀ k l, N < 2 * k → N < 2 * l →
      Agree N (Parser.tag (Engine.std strict : Engine P) k none) (Parser.tag (Engine.std strict) l none) := by
  induction N using Nat.strongRecOn with
  | _ N ih =>
    intro k l hk hl bs hb
    obtain ⟨k, rfl⟩ : ∃ k', k = k' + 1 := ⟨k - 1, by omega⟩
    obtain ⟨l, rfl⟩ : ∃ l', l = l' + 1 := ⟨l - 1, by omega⟩
    simp only [Parser.tag]
    rw [Parser.bind_apply, Parser.bind_apply]
    cases h1 : Parser.ilint bs with
    | ok id r =>
      have hl1 := ilint_shrinks h1
      simp only
      rw [Parser.bind_apply, Parser.bind_apply]
      cases h2 : Parser.tagSize id r with
      | ok size r' =>
        simp only
        rw [Parser.bind_apply, Parser.bind_apply]
        cases h3 : Parser.lift ((Engine.std strict : Engine P).createTag id) r' with
        | ok o r'' =>
          rw [lift_eq_ok] at h3
          obtain ⟨h3, rfl⟩ := h3
          cases o with
          | none => rfl
          | some t₀ =>
            simp only
            rcases Bool.eq_false_or_eq_true (isImplicitTag id) with hi | hi
            · obtain ⟨hs, hid, hpk⟩ := std_created h3
              have ha : ∃ a, t₀ = .atom a := by
                rw [isImplicitTag_iff, ← hid] at hi
                cases t₀ with
                | atom a => exact ⟨a, rfl⟩
                | seq id' ts =>
                  rcases hs with hs | ⟨-, hs, -⟩
                  · simp only [Tag.kind, standardId, Option.some.injEq] at hs; omega
                  · simp [Tag.kind] at hs
                | array id' ts =>
                  rcases hs with hs | ⟨-, hs, -⟩
                  · simp only [Tag.kind, standardId, Option.some.injEq] at hs; omega
                  · simp [Tag.kind] at hs
                | dict id' ts =>
                  rcases hs with hs | ⟨-, hs, -⟩
                  · simp only [Tag.kind, standardId, Option.some.injEq] at hs; omega
                  · simp [Tag.kind] at hs
              obtain ⟨a, rfl⟩ := ha
              unfold Parser.tagValueInto
              simp only [Parser.tagValue]
              rw [atomValue_plain (Parser.tag (Engine.std strict) k) (Parser.tag (Engine.std strict) l) size a hpk]
            · rw [tagSize_explicit hi] at h2
              obtain ⟨n, r₂, h4, h5⟩ := Parser.bind_eq_ok.mp h2
              rw [lift_eq_ok] at h5
              obtain ⟨h5, rfl⟩ := h5
              have hl2 := ilint_shrinks h4
              have hpk := (std_created h3).2.2
              rw [tagValueInto_plain _ _ _ hpk, tagValueInto_plain (Parser.tag _ l) _ _ hpk]
              exact Agree.tagValueInto (fun _ => Local.tag _ k none)
                (fun _ => ih (N - 2) (by omega) k l (by omega) (by omega)) size t₀ (.inl (Nat.le_refl _)) r₂ (by omega)
        | _ => rfl
      | _ => rfl
    | _ => rfl

/-- **C62** The bound that does hold: with room for half as many nested calls as there are bytes, plus one, the standard
factory gives the result it gives without any bound. -/
theorem C62_half (strict : Bool) {σ : Type} [Reader σ] (V : View σ) (s : σ) (bs : Bytes) (hR : V.R s bs) (k : Nat)
    (hk : bs.length / 2 + 1 ≤ k) :
    SameClass (Factory.deserializeFuel (Engine.std strict : Engine P) k σ none s).1
      (Factory.deserialize (Engine.std strict : Engine P) σ s).1 := by
  have h1 := sim_deserializeFuel (Engine.std strict : Engine P) k σ V none s bs hR
  have h2 := deserialize_matches (Engine.std strict : Engine P) V hR
  have he : Parser.tag (Engine.std strict : Engine P) k none bs = Parser.top (Engine.std strict) bs := by
    rw [← tag_eq_top (Engine.std strict) (k := bs.length + 1) (by omega)]
    exact tag_agree_half strict bs.length k (bs.length + 1) (by omega) (by omega) bs (Nat.le_refl _)
  rw [he] at h1
  cases hq : Parser.top (Engine.std strict : Engine P) bs with
  | ok t rest => rw [hq] at h1 h2; obtain ⟨_, h1, _⟩ := h1; obtain ⟨_, h2, _⟩ := h2; rw [h1, h2]; rfl
  | short => rw [hq] at h1 h2; obtain ⟨_, _, h1, _⟩ := h1; obtain ⟨_, _, h2, _⟩ := h2; rw [h1, h2]; trivial
  | fail x => rw [hq] at h1 h2; obtain ⟨_, h1⟩ := h1; obtain ⟨_, h2⟩ := h2; rw [h1, h2]; cases x <;> trivial
  | panic => rw [hq] at h1 h2; obtain ⟨_, h1⟩ := h1; obtain ⟨_, h2⟩ := h2; rw [h1, h2]; rfl
  | diverge => rw [hq] at h1 h2; obtain ⟨_, h1⟩ := h1; obtain ⟨_, h2⟩ := h2; rw [h1, h2]; rfl

/-- **C62** In particular it returns. -/
theorem C62_returns (hr : MemoryOk) (strict : Bool) {σ : Type} [Reader σ] (V : View σ) (s : σ) (bs : Bytes)
    (hR : V.R s bs) (k : Nat) (hk : bs.length / 2 + 1 ≤ k) :
    (Factory.deserializeFuel (Engine.std strict : Engine P) k σ none s).1 ≠ .diverge := by
  intro hd
  have h := C62_half (P := P) strict V s bs hR k hk
  rw [hd] at h
  rcases C36_streams hr (Engine.std strict : Engine P) (std_calm strict) V s bs hR with ⟨t, ht⟩ | ⟨x, hx⟩
  · rw [ht] at h; cases h
  · rw [hx] at h; cases h

/-- **C62** For any factory, whatever types and payloads it has: with room for as many nested calls as there are bytes,
plus one, it gives the result it gives without any bound, and returns if none of the user's code panics or loops. -/
theorem C62_any_factory (hr : MemoryOk) (e : Engine P) {σ : Type} [Reader σ] (V : View σ) (s : σ) (bs : Bytes)
    (hR : V.R s bs) (k : Nat) (hk : bs.length + 1 ≤ k) :
    SameClass (Factory.deserializeFuel e k σ none s).1 (Factory.deserialize e σ s).1 ∧
      (CalmCreators e → (Factory.deserializeFuel e k σ none s).1 ≠ .diverge) := by
  have h : SameClass (Factory.deserializeFuel e k σ none s).1 (Factory.deserialize e σ s).1 := by
    have h1 := sim_deserializeFuel e k σ V none s bs hR
    have h2 := deserialize_matches e V hR
    rw [tag_eq_top e (k := k) (bs := bs) (by omega)] at h1
    cases hq : Parser.top e bs with
    | ok t rest => rw [hq] at h1 h2; obtain ⟨_, h1, _⟩ := h1; obtain ⟨_, h2, _⟩ := h2; rw [h1, h2]; rfl
    | short => rw [hq] at h1 h2; obtain ⟨_, _, h1, _⟩ := h1; obtain ⟨_, _, h2, _⟩ := h2; rw [h1, h2]; trivial
    | fail x => rw [hq] at h1 h2; obtain ⟨_, h1⟩ := h1; obtain ⟨_, h2⟩ := h2; rw [h1, h2]; cases x <;> trivial
    | panic => rw [hq] at h1 h2; obtain ⟨_, h1⟩ := h1; obtain ⟨_, h2⟩ := h2; rw [h1, h2]; rfl
    | diverge => rw [hq] at h1 h2; obtain ⟨_, h1⟩ := h1; obtain ⟨_, h2⟩ := h2; rw [h1, h2]; rfl
  refine ⟨h, fun he hd => ?_⟩
  rw [hd] at h
  rcases C36_streams hr e he V s bs hR with ⟨t, ht⟩ | ⟨x, hx⟩
  · rw [ht] at h; cases h
  · rw [hx] at h; cases h

end

/-- Six bytes: four calls suffice, and (`nest_diverges`) two do not. -/
example : ByteArrayReader.view.R (ByteArrayReader.new [22, 4, 22, 2, 22, 0]) [22, 4, 22, 2, 22, 0] ∧
    [22, 4, 22, 2, 22, (0 : Byte)].length / 2 + 1 = 4 := ⟨ByteArrayReader.view_new _, rfl⟩

end Verif.Props
