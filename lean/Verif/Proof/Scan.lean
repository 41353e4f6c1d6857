import Verif.Spec.Raw
import Verif.Proof.Shrink
import Verif.Proof.Keeps
/-!
# The raw tag scanner on byte strings
-/
namespace Verif
open Spec
set_option linter.unusedSectionVars false

theorem ofNat_toNat64 {n : Nat} (h : n < 2 ^ 64) : (UInt64.ofNat n).toNat = n := UInt64.toNat_ofNat_of_lt' h

section
variable {σ : Type} [Reader σ]

theorem addU64_ok {ε : Type} {m : ArithMode} {a b : UInt64} (h : a.toNat + b.toNat < 2 ^ 64) :
    (addU64 m a b : Res ε UInt64) = .ok (a + b) := by unfold addU64; rw [if_pos h]

theorem addU64_some {ε : Type} {m : ArithMode} {a b c : UInt64} (h : (addU64 m a b : Res ε UInt64) = .ok c) : c = a + b := by
  unfold addU64 at h
  split at h
  · exact (Res.ok.inj h).symm
  · cases m
    · cases h
    · exact (Res.ok.inj h).symm

namespace RawTagScanner

theorem onReader_apply {ε α : Type} {x : Act ε σ α} {sc : RawTagScanner σ} {r : Res ε α} {s' : σ}
    (h : x sc.reader = (r, s')) : onReader x sc = (r, { sc with reader := s' }) := by
  unfold onReader; simp only [h]

/-- What the steps of `next_tag` are. -/
theorem nextTag_ok {m : ArithMode} {off : UInt64} {s s₁ s₂ s₃ : σ} {id a b c : UInt64}
    (h1 : (Ser.deserializeILInt : Act TagErr σ UInt64) s = (.ok id, s₁))
    (h2 : extractTagSize id s₁ = (.ok (a, b, c), s₂))
    (ho : off.toNat + ((ilSize id).toNat + a.toNat + b.toNat) < 2 ^ 64)
    (h3 : Reader.skipU64 c s₂ = (.ok (), s₃)) :
    nextTag m ⟨off, s⟩ = (.ok (some ⟨id, off, ilSize id + a, b⟩), ⟨off + (ilSize id + a + b), s₃⟩) := by
  have e1 : (ilSize id + a).toNat = (ilSize id).toNat + a.toNat := by
    rw [UInt64.toNat_add, Nat.mod_eq_of_lt (by omega)]
  have e2 : (ilSize id + a + b).toNat = (ilSize id).toNat + a.toNat + b.toNat := by
    rw [UInt64.toNat_add, e1, Nat.mod_eq_of_lt (by omega)]
  unfold nextTag
  rw [Act.bind_ok (onReader_apply h1), Act.bind_ok (onReader_apply h2)]
  simp only
  rw [addU64_ok (by omega)]
  rw [Act.bind_ok (show Act.lift (Res.ok (ilSize id + a)) _ = (.ok _, _) from rfl)]
  rw [Act.bind_ok (show (Act.get : Act TagErr (RawTagScanner σ) _) _ = (.ok _, _) from rfl)]
  simp only
  rw [addU64_ok (by omega), Act.bind_ok (show Act.lift (Res.ok (ilSize id + a + b)) _ = (.ok _, _) from rfl)]
  rw [addU64_ok (by omega), Act.bind_ok (show Act.lift (Res.ok (off + (ilSize id + a + b))) _ = (.ok _, _) from rfl)]
  rw [Act.bind_ok (show Act.set _ _ = (.ok (), _) from rfl)]
  have h4 : (tagIo (Reader.skipU64 c) : Act TagErr σ Unit) s₂ = (.ok (), s₃) := by
    simp only [tagIo, Act.mapErr, h3, Res.mapErr]
  rw [Act.bind_ok (onReader_apply h4)]
  rfl

theorem bind_ok_inv {ε τ α β : Type} {x : Act ε τ α} {k : α → Act ε τ β} {s s' : τ} {b : β}
    (h : (x >>= k) s = (.ok b, s')) : ∃ a s₁, x s = (.ok a, s₁) ∧ k a s₁ = (.ok b, s') := by
  rcases hx : x s with ⟨r, s₁⟩
  cases r with
  | ok a => rw [Act.bind_ok hx] at h; exact ⟨a, s₁, rfl, h⟩
  | err e => rw [Act.bind_err hx] at h; simp at h
  | panic => rw [Act.bind_panic hx] at h; simp at h
  | diverge => rw [Act.bind_diverge hx] at h; simp at h

theorem onReader_ok_inv {ε α : Type} {x : Act ε σ α} {sc sc' : RawTagScanner σ} {a : α}
    (h : onReader x sc = (.ok a, sc')) : x sc.reader = (.ok a, sc'.reader) ∧ sc'.offset = sc.offset := by
  unfold onReader at h
  rcases hx : x sc.reader with ⟨r, s₁⟩
  simp only [hx, Prod.mk.injEq] at h
  obtain ⟨rfl, rfl⟩ := h
  exact ⟨rfl, rfl⟩

theorem lift_ok_inv {ε τ α : Type} {r : Res ε α} {s s' : τ} {a : α} (h : Act.lift r s = (.ok a, s')) : r = .ok a ∧ s' = s := by
  simp only [Act.lift, Prod.mk.injEq] at h
  exact ⟨h.1, h.2.symm⟩

/-- What a success of `next_tag` means, for any reader. -/
theorem nextTag_inv {m : ArithMode} {sc sc' : RawTagScanner σ} {r : Option RawTagOffset}
    (h : nextTag m sc = (.ok r, sc')) : ∃ o s₁ s₂ a c, r = some o ∧
      (Ser.deserializeILInt : Act TagErr σ UInt64) sc.reader = (.ok o.id, s₁) ∧
      extractTagSize o.id s₁ = (.ok (a, o.valueSize, c), s₂) ∧ Reader.skipU64 c s₂ = (.ok (), sc'.reader) ∧
      o.offset = sc.offset ∧ o.headerSize = ilSize o.id + a ∧ sc'.offset = sc.offset + (ilSize o.id + a + o.valueSize) := by
  unfold nextTag at h
  obtain ⟨id, c₁, h1, h⟩ := bind_ok_inv h
  obtain ⟨⟨a, b, c⟩, c₂, h2, h⟩ := bind_ok_inv h
  obtain ⟨hs, c₃, h3, h⟩ := bind_ok_inv h
  obtain ⟨g, c₄, h4, h⟩ := bind_ok_inv h
  obtain ⟨tot, c₅, h5, h⟩ := bind_ok_inv h
  obtain ⟨no, c₆, h6, h⟩ := bind_ok_inv h
  obtain ⟨u, c₇, h7, h⟩ := bind_ok_inv h
  replace h : (onReader (tagIo (Reader.skipU64 c)) >>= fun _ => (pure (some ⟨id, g.offset, hs, b⟩) :
    Act TagErr (RawTagScanner σ) (Option RawTagOffset))) c₇ = (.ok r, sc') := h
  obtain ⟨v, c₈, h8, hf⟩ := bind_ok_inv h
  obtain ⟨k1, e1⟩ := onReader_ok_inv h1
  obtain ⟨k2, e2⟩ := onReader_ok_inv h2
  obtain ⟨k3, rfl⟩ := lift_ok_inv h3
  simp only [Act.get, Prod.mk.injEq, Res.ok.injEq] at h4
  obtain ⟨rfl, rfl⟩ := h4
  obtain ⟨k5, rfl⟩ := lift_ok_inv h5
  obtain ⟨k6, rfl⟩ := lift_ok_inv h6
  simp only [Act.set, Prod.mk.injEq] at h7
  obtain ⟨-, rfl⟩ := h7
  obtain ⟨k8, e8⟩ := onReader_ok_inv h8
  have hx := congrArg Prod.fst hf
  have hy : c₈ = sc' := congrArg Prod.snd hf
  replace hx : some _ = r := Res.ok.inj hx
  subst hx hy
  have q3 : hs = ilSize id + a := addU64_some k3
  have q5 : tot = hs + b := addU64_some k5
  have q6 : no = _ + tot := addU64_some k6
  subst q3 q5 q6
  suffices h9 : (Reader.skipU64 c c₆.reader : Res IoErr Unit × σ) = (.ok (), c₈.reader) by
    exact ⟨_, _, _, a, c, rfl, k1, k2, h9, e2.trans e1, rfl, by rw [e8]; simp only; rw [e2, e1]⟩
  unfold tagIo Act.mapErr at k8
  rcases hk : Reader.skipU64 c c₆.reader with ⟨r, s₃⟩
  simp only [hk] at k8
  simp only [Prod.mk.injEq] at k8
  obtain ⟨h9, rfl⟩ := k8
  cases r with
  | ok u => rfl
  | _ => cases h9

end RawTagScanner

variable {V : View σ}

theorem sim_ok {α : Type} {x : Act TagErr σ α} {p : Parser α} (hx : Sim V x p) {s s' : σ} {bs : Bytes} {a : α}
    (hR : V.R s bs) (h : x s = (.ok a, s')) : ∃ rest, p bs = .ok a rest ∧ V.R s' rest := by
  have hm := hx s bs hR
  rw [h] at hm
  cases hp : p bs with
  | ok b rest =>
    rw [hp] at hm
    obtain ⟨s₁, e, h1⟩ := hm
    simp only [Prod.mk.injEq, Res.ok.injEq] at e
    obtain ⟨rfl, rfl⟩ := e
    exact ⟨rest, rfl, h1⟩
  | short => rw [hp] at hm; obtain ⟨_, _, e, _⟩ := hm; simp at e
  | _ => rw [hp] at hm; obtain ⟨_, e⟩ := hm; simp at e

theorem isILInt_lt {bs : Bytes} {v : Nat} (h : IsILInt bs v) : v < 2 ^ 64 := h.1

theorem decodedSize_tail (h : Byte) : ILInt.decodedSize h = 1 + ilintTail h := by
  rw [ILInt.decodedSize_eq]
  unfold ilintTail
  split <;> omega

theorem ilintTail_le (h : Byte) : ilintTail h ≤ 8 := by
  unfold ilintTail
  have := h.toNat_lt
  split <;> omega

theorem implicit_size (id : UInt64) (h : id.toNat ≤ 15) : (implicitTagSize id).toNat = implicitLen id.toNat := by
  have : ∀ n : Fin 16, (implicitTagSize (UInt64.ofNat n.1)).toNat = implicitLen n.1 := by decide
  have := this ⟨id.toNat, by omega⟩
  simpa using this

theorem implicitLen_le (n : Nat) : implicitLen n ≤ 16 := by
  by_cases h : n < 16
  · have : ∀ n : Fin 16, implicitLen n.1 ≤ 16 := by decide
    exact this ⟨n, h⟩
  · unfold implicitLen
    rw [List.getD_eq_getElem?_getD, List.getElem?_eq_none (by simp; omega)]
    simp

theorem isImplicit_false {id : UInt64} (h : 16 ≤ id.toNat) : isImplicitTag id = false := by
  rcases Bool.eq_false_or_eq_true (isImplicitTag id) with hi | hi
  · rw [isImplicitTag_iff] at hi; omega
  · exact hi

/-- The scanner reads the header that the layout describes. -/
theorem extract_of_layout {id : UInt64} {sz value rest : Bytes} {s : σ} (hl : Layout id.toNat sz value)
    (hv : value.length < 2 ^ 64) (hR : V.R s (sz ++ value ++ rest)) :
    ∃ s' c pre, RawTagScanner.extractTagSize id s =
        (.ok (UInt64.ofNat (minSize id.toNat value), UInt64.ofNat value.length, c), s') ∧
      value.length = pre + c.toNat ∧ V.R s' (value.drop pre ++ rest) := by
  unfold Layout at hl
  unfold RawTagScanner.extractTagSize minSize
  by_cases h16 : 16 ≤ id.toNat
  · rw [if_pos h16] at hl ⊢
    rw [if_neg (by rw [isImplicit_false h16]; simp)]
    have hm := Sim.ilint (V := V) s _ hR
    rw [List.append_assoc, ilint_isILInt hl] at hm
    obtain ⟨s', h1, h2⟩ := hm
    refine ⟨s', UInt64.ofNat value.length, 0, ?_, ?_, by simpa using h2⟩
    · rw [Act.bind_ok h1, ilSize_eq]
      rw [ofNat_toNat64 hv]
      rfl
    · rw [ofNat_toNat64 hv]; omega
  · rw [if_neg h16] at hl ⊢
    obtain ⟨rfl, hl⟩ := hl
    rw [List.nil_append] at hR
    rw [if_pos (isImplicitTag_iff.mpr (by omega))]
    have e10 : (id = Id.ilint ∨ id = Id.signedILInt) ↔ (id.toNat = 10 ∨ id.toNat = 14) := by
      rw [← UInt64.toNat_inj, ← UInt64.toNat_inj]; rfl
    have e15 : id = 15 ↔ id.toNat = 15 := by rw [← UInt64.toNat_inj]; rfl
    by_cases h10 : id.toNat = 10 ∨ id.toNat = 14
    · rw [if_pos h10] at hl
      rw [if_pos (e10.mpr h10)]
      obtain ⟨hd, body, rfl, hb⟩ := hl
      have hm := Sim.byte (V := V) s _ hR
      rw [List.cons_append] at hm
      obtain ⟨s', h1, h2⟩ := hm
      refine ⟨s', UInt64.ofNat body.length, 1, ?_, ?_, by simpa using h2⟩
      · unfold RawTagScanner.extractImplicitILIntTagSize
        rw [Act.bind_ok h1, decodedSize_tail, ← hb]
        simp only [List.length_cons, Nat.add_comm 1, Nat.add_sub_cancel]
        rfl
      · have := ilintTail_le hd
        rw [ofNat_toNat64 (by omega)]; simp; omega
    · rw [if_neg h10] at hl
      rw [if_neg (fun h => h10 (e10.mp h)), if_neg (fun h => hl.1 (e15.mp h))]
      have hi : implicitTagSize id = UInt64.ofNat value.length := by
        rw [hl.2, ← implicit_size id (by omega)]; simp
      refine ⟨s, UInt64.ofNat value.length, 0, by rw [hi]; rfl, ?_, by simpa using hR⟩
      rw [ofNat_toNat64 hv]; omega

/-- ... and conversely. -/
theorem layout_of_extract {id a b c : UInt64} {s s' : σ} {bs rest : Bytes}
    (h : RawTagScanner.extractTagSize id s = (.ok (a, b, c), s')) (hR : V.R s bs) (hR' : V.R s' rest)
    (hc : c.toNat ≤ rest.length) : ∃ sz value, bs = sz ++ value ++ rest.drop c.toNat ∧ Layout id.toNat sz value ∧
      a = UInt64.ofNat (minSize id.toNat value) ∧ b = UInt64.ofNat value.length ∧ value.length = b.toNat := by
  have hcut : rest = rest.take c.toNat ++ rest.drop c.toNat := (List.take_append_drop _ _).symm
  unfold RawTagScanner.extractTagSize at h
  unfold Layout minSize
  by_cases h16 : 16 ≤ id.toNat
  · rw [if_neg (by rw [isImplicit_false h16]; simp)] at h
    obtain ⟨v, s₁, h1, h2⟩ := RawTagScanner.bind_ok_inv h
    simp only [Act.pure_apply, Prod.mk.injEq, Res.ok.injEq] at h2
    obtain ⟨⟨rfl, rfl, rfl⟩, rfl⟩ := h2
    obtain ⟨r, h3, h4⟩ := sim_ok Sim.ilint hR h1
    have := V.unique h4 hR'
    subst this
    obtain ⟨u, rfl, hu⟩ := ilint_parsed h3
    have hlen : (r.take v.toNat).length = v.toNat := by rw [List.length_take]; omega
    refine ⟨u, r.take v.toNat, ?_, ?_, ?_, ?_, hlen⟩
    · rw [List.append_assoc, ← hcut]
    · rw [if_pos h16, hlen]; exact hu
    · rw [if_pos h16, hlen, ilSize_eq]
    · rw [hlen]; simp
  · have e10 : (id = Id.ilint ∨ id = Id.signedILInt) ↔ (id.toNat = 10 ∨ id.toNat = 14) := by
      rw [← UInt64.toNat_inj, ← UInt64.toNat_inj]; rfl
    have e15 : id = 15 ↔ id.toNat = 15 := by rw [← UInt64.toNat_inj]; rfl
    rw [if_pos (isImplicitTag_iff.mpr (by omega))] at h
    by_cases h10 : id.toNat = 10 ∨ id.toNat = 14
    · rw [if_pos (e10.mpr h10)] at h
      obtain ⟨hd, s₁, h1, h2⟩ := RawTagScanner.bind_ok_inv h
      simp only [Act.pure_apply, Prod.mk.injEq, Res.ok.injEq] at h2
      obtain ⟨⟨rfl, rfl, rfl⟩, rfl⟩ := h2
      obtain ⟨r, h3, h4⟩ := sim_ok Sim.byte hR h1
      have := V.unique h4 hR'
      subst this
      have := byte_ok h3
      subst this
      have ht := ilintTail_le hd
      have hn : (UInt64.ofNat (ILInt.decodedSize hd - 1)).toNat = ilintTail hd := by
        rw [decodedSize_tail, ofNat_toNat64 (by omega)]; omega
      rw [hn] at hc hcut ⊢
      have hlen : (r.take (ilintTail hd)).length = ilintTail hd := by rw [List.length_take]; omega
      refine ⟨[], hd :: r.take (ilintTail hd), ?_, ?_, ?_, ?_, ?_⟩
      · simp only [List.nil_append, List.cons_append]; rw [← hcut]
      · rw [if_neg h16, if_pos h10]; exact ⟨rfl, hd, _, rfl, hlen⟩
      · rw [if_neg h16]; rfl
      · rw [decodedSize_tail, List.length_cons, hlen, Nat.add_comm]
      · rw [decodedSize_tail, List.length_cons, hlen, ofNat_toNat64 (by omega)]; omega
    · rw [if_neg (fun h => h10 (e10.mp h))] at h
      by_cases h15 : id = 15
      · rw [if_pos h15] at h; cases h
      · rw [if_neg h15] at h
        simp only [Act.pure_apply, Prod.mk.injEq, Res.ok.injEq] at h
        obtain ⟨⟨rfl, rfl, rfl⟩, rfl⟩ := h
        have := V.unique hR hR'
        subst this
        have hi := implicit_size id (by omega)
        have hlen : (bs.take (implicitTagSize id).toNat).length = (implicitTagSize id).toNat := by
          rw [List.length_take]; omega
        refine ⟨[], bs.take (implicitTagSize id).toNat, ?_, ?_, ?_, ?_, hlen⟩
        · rw [List.nil_append, ← hcut]
        · rw [if_neg h16, if_neg h10]; exact ⟨rfl, fun h => h15 (e15.mpr h), by rw [hlen, hi]⟩
        · rw [if_neg h16]; rfl
        · rw [hlen]; simp

end

section
variable {σ : Type} [Reader σ] {V : SkipView σ}

/-- The scanner on bytes with the layout of a tag. -/
theorem nextTag_of_layout {m : ArithMode} {off id : UInt64} {s : σ} {idb sz value rest : Bytes} (hid : IsILInt idb id.toNat)
    (hl : Layout id.toNat sz value) (hR : V.R s (idb ++ sz ++ value ++ rest))
    (ho : off.toNat + ((Spec.ilint id.toNat).length + minSize id.toNat value + value.length) < 2 ^ 64) :
    ∃ s', RawTagScanner.nextTag m ⟨off, s⟩ =
        (.ok (some ⟨id, off, UInt64.ofNat ((Spec.ilint id.toNat).length + minSize id.toNat value),
            UInt64.ofNat value.length⟩),
          ⟨off + UInt64.ofNat ((Spec.ilint id.toNat).length + minSize id.toNat value + value.length), s'⟩) ∧
      V.R s' rest := by
  have hm := Sim.ilint (V := V.toView) s _ hR
  rw [show idb ++ sz ++ value ++ rest = idb ++ (sz ++ value ++ rest) by simp, ilint_isILInt hid] at hm
  obtain ⟨s₁, h1, h2⟩ := hm
  rw [UInt64.ofNat_toNat] at h1
  obtain ⟨s₂, c, pre, h3, h4, h5⟩ := extract_of_layout (V := V.toView) hl (by omega) h2
  obtain ⟨s₃, h6, h7⟩ := V.skipU64_ok (n := c) h5 (by simp only [List.length_append, List.length_drop]; omega)
  have hm9 : minSize id.toNat value ≤ 9 := by
    unfold minSize; split
    · exact ilint_le9 _
    · omega
  have hi9 := ilint_le9 id.toNat
  have e1 : (ilSize id).toNat = (Spec.ilint id.toNat).length := by
    rw [ilSize_eq, ofNat_toNat64 (by omega)]
  have e2 : (UInt64.ofNat (minSize id.toNat value)).toNat = minSize id.toNat value :=
    ofNat_toNat64 (by omega)
  have e3 : (UInt64.ofNat value.length).toNat = value.length := ofNat_toNat64 (by omega)
  have hn := RawTagScanner.nextTag_ok (m := m) (off := off) h1 h3 (by rw [e1, e2, e3]; omega) h6
  refine ⟨s₃, ?_, ?_⟩
  · rw [hn, ilSize_eq]
    simp only [← UInt64.ofNat_add]
  · have hd : (value.drop pre ++ rest).drop c.toNat = rest := by
      rw [show c.toNat = (value.drop pre).length by rw [List.length_drop]; omega, List.drop_left]
    rw [hd] at h7
    exact h7

/-- ... and conversely: whatever it accepts has the layout of a tag. -/
theorem layout_of_nextTag {m : ArithMode} {sc sc' : RawTagScanner σ} {r : Option RawTagOffset} {bs : Bytes}
    (h : RawTagScanner.nextTag m sc = (.ok r, sc')) (hR : V.R sc.reader bs) :
    ∃ o idb sz value rest, r = some o ∧ bs = idb ++ sz ++ value ++ rest ∧ IsILInt idb o.id.toNat ∧
      Layout o.id.toNat sz value ∧ V.R sc'.reader rest ∧ o.offset = sc.offset ∧
      o.headerSize = UInt64.ofNat ((Spec.ilint o.id.toNat).length + minSize o.id.toNat value) ∧
      o.valueSize = UInt64.ofNat value.length ∧ o.valueSize.toNat = value.length ∧
      sc'.offset = sc.offset + UInt64.ofNat ((Spec.ilint o.id.toNat).length + minSize o.id.toNat value + value.length) := by
  obtain ⟨o, s₁, s₂, a, c, rfl, h1, h2, h3, h4, h5, h6⟩ := RawTagScanner.nextTag_inv h
  obtain ⟨r₁, p1, hR1⟩ := sim_ok (V := V.toView) Sim.ilint hR h1
  obtain ⟨idb, rfl, hid⟩ := ilint_parsed p1
  have hs2 : ∃ r₂, V.R s₂ r₂ := by
    unfold RawTagScanner.extractTagSize at h2
    split at h2
    · split at h2
      · obtain ⟨hd, s₃, h7, h8⟩ := RawTagScanner.bind_ok_inv h2
        obtain ⟨r, -, h9⟩ := sim_ok (V := V.toView) Sim.byte hR1 h7
        simp only [Act.pure_apply, Prod.mk.injEq] at h8
        rw [← h8.2]; exact ⟨r, h9⟩
      · split at h2
        · cases h2
        · simp only [Act.pure_apply, Prod.mk.injEq] at h2
          rw [← h2.2]; exact ⟨_, hR1⟩
    · obtain ⟨v, s₃, h7, h8⟩ := RawTagScanner.bind_ok_inv h2
      obtain ⟨r, -, h9⟩ := sim_ok (V := V.toView) Sim.ilint hR1 h7
      simp only [Act.pure_apply, Prod.mk.injEq] at h8
      rw [← h8.2]; exact ⟨r, h9⟩
  obtain ⟨r₂, hR2⟩ := hs2
  have hc : c.toNat ≤ r₂.length := by
    rcases Nat.lt_or_ge r₂.length c.toNat with hlt | hge
    · obtain ⟨e, s', he⟩ := V.skipU64_short hR2 hlt
      rw [h3] at he; simp at he
    · exact hge
  obtain ⟨sz, value, hb, hlay, ha, hv, hv'⟩ := layout_of_extract (V := V.toView) h2 hR1 hR2 hc
  obtain ⟨s₃, h7, h8⟩ := V.skipU64_ok hR2 hc
  rw [h3, Prod.mk.injEq] at h7
  have h9 := h7.2
  subst h9
  refine ⟨o, idb, sz, value, r₂.drop c.toNat, rfl, by rw [hb]; simp, hid, hlay, h8, h4, ?_, hv, hv'.symm, ?_⟩
  · rw [h5, ha, ilSize_eq]; simp only [← UInt64.ofNat_add]
  · rw [h6, ha, hv, ilSize_eq]; simp only [← UInt64.ofNat_add]

end

theorem isILInt_tail {bs : Bytes} {v : Nat} (h : IsILInt bs v) : ∃ hd body, bs = hd :: body ∧ body.length = ilintTail hd := by
  rcases h.2 with ⟨b, rfl, hb, -⟩ | ⟨hd, body, rfl, h1, h8, hh, -⟩
  · exact ⟨b, [], rfl, by unfold ilintTail; rw [if_pos hb]; rfl⟩
  · exact ⟨hd, body, rfl, by unfold ilintTail; rw [if_neg (by omega)]; omega⟩

theorem isILInt_append {a b r r' : Bytes} {v w : Nat} (ha : IsILInt a v) (hb : IsILInt b w) (h : a ++ r = b ++ r') :
    a = b ∧ v = w ∧ r = r' := by
  obtain ⟨hd, body, rfl, h1⟩ := isILInt_tail ha
  obtain ⟨hd', body', rfl, h2⟩ := isILInt_tail hb
  simp only [List.cons_append, List.cons.injEq] at h
  obtain ⟨rfl, h⟩ := h
  obtain ⟨rfl, rfl⟩ := List.append_inj h (by omega)
  exact ⟨rfl, ILInt.isILInt_unique ha hb, rfl⟩

/-- The layout of a tag says where it ends. -/
theorem layout_unique {id : Nat} {sz sz' v v' r r' : Bytes} (h : Layout id sz v) (h' : Layout id sz' v')
    (he : sz ++ v ++ r = sz' ++ v' ++ r') : sz = sz' ∧ v = v' ∧ r = r' := by
  unfold Layout at h h'
  simp only [List.append_assoc] at he
  by_cases h16 : 16 ≤ id
  · rw [if_pos h16] at h h'
    obtain ⟨rfl, hl, he⟩ := isILInt_append h h' he
    obtain ⟨rfl, rfl⟩ := List.append_inj he hl
    exact ⟨rfl, rfl, rfl⟩
  · rw [if_neg h16] at h h'
    obtain ⟨rfl, h⟩ := h
    obtain ⟨rfl, h'⟩ := h'
    simp only [List.nil_append] at he
    by_cases h10 : id = 10 ∨ id = 14
    · rw [if_pos h10] at h h'
      obtain ⟨hd, b, rfl, hb⟩ := h
      obtain ⟨hd', b', rfl, hb'⟩ := h'
      simp only [List.cons_append, List.cons.injEq] at he
      obtain ⟨rfl, he⟩ := he
      obtain ⟨rfl, rfl⟩ := List.append_inj he (by omega)
      exact ⟨rfl, rfl, rfl⟩
    · rw [if_neg h10] at h h'
      obtain ⟨rfl, rfl⟩ := List.append_inj he (by omega)
      exact ⟨rfl, rfl, rfl⟩

section
variable {P : Type} [Env] [TagPayload P]

theorem tagValueInto_id {e : Engine P} {size : Nat} {t₀ t : Tag P} {bs rest : Bytes}
    (h : Parser.tagValueInto (Parser.call e) size t₀ bs = .ok t rest) : t.id = t₀.id := by
  have hm := sim_tagValueInto (V := ByteArrayReader.view.toView) (sim_deserializeFuel e Factory.fuel) size t₀
    (ByteArrayReader.new bs) bs (ByteArrayReader.view_new bs)
  have hk := (tagValueInto_keeps (Factory.deserializeFuel e Factory.fuel) size t₀ (ByteArrayReader.new bs)).1
  simp only at hm
  rw [show Parser.tagValueInto (Parser.tag e Factory.fuel) size t₀ bs = .ok t rest from h] at hm
  obtain ⟨s', hm, -⟩ := hm
  rw [hm] at hk
  exact hk

/-- The value region is used up, unless the tag says it is an ILInt (ids 10 and 14). -/
theorem tagValueInto_used {e : Engine P} {size : Nat} {t₀ t : Tag P} {bs rest : Bytes}
    (h : Parser.tagValueInto (Parser.call e) size t₀ bs = .ok t rest) (hid : t₀.id.toNat ≠ 10 ∧ t₀.id.toNat ≠ 14) :
    ∃ v, bs = v ++ rest ∧ v.length = size := by
  have h0 := tagValueInto_id h
  have e1 : t.id ≠ Id.ilint := by rw [h0]; intro hx; exact hid.1 (by rw [hx]; rfl)
  have e2 : t.id ≠ Id.signedILInt := by rw [h0]; intro hx; exact hid.2 (by rw [hx]; rfl)
  have key : ∀ {slack : Nat} {ds r : Bytes}, (Parser.tagValue (Parser.call e) size t₀ >>= Parser.checkEmpty slack) ds = .ok t r →
      r = [] ∧ slack = 0 := by
    intro slack ds r hp
    obtain ⟨u, r₁, -, h2⟩ := Parser.bind_eq_ok.mp hp
    unfold Parser.checkEmpty at h2
    split at h2
    · simp at h2
    · next hn =>
      simp only [PRes.ok.injEq] at h2
      obtain ⟨rfl, rfl⟩ := h2
      have : r₁.length + slack = 0 := by
        rcases Nat.eq_zero_or_pos (r₁.length + slack) with h0 | h0
        · exact h0
        · exact absurd ⟨e1, e2, by omega⟩ hn
      exact ⟨List.eq_nil_of_length_eq_zero (by omega), by omega⟩
  unfold Parser.tagValueInto Parser.limited at h
  split at h
  · next hle =>
    cases hp : (Parser.tagValue (Parser.call e) size t₀ >>= Parser.checkEmpty 0) (bs.take size) with
    | ok a r =>
      simp only [hp, PRes.ok.injEq] at h
      obtain ⟨rfl, rfl⟩ := h
      obtain ⟨rfl, -⟩ := key hp
      exact ⟨bs.take size, by simp, by rw [List.length_take]; omega⟩
    | _ => simp only [hp] at h; cases h
  · obtain ⟨-, h2⟩ := key h
    omega

/-- ... and the ILInt types read one ILInt. -/
theorem tagValueInto_ilint {e : Engine P} {size : Nat} {t₀ t : Tag P} {bs rest : Bytes}
    (h : Parser.tagValueInto (Parser.call e) size t₀ bs = .ok t rest) (hk : oneILInt t₀.kind) :
    ∃ v w, bs = v ++ rest ∧ IsILInt v w := by
  have key : ∀ {slack : Nat} {ds r : Bytes}, (Parser.tagValue (Parser.call e) size t₀ >>= Parser.checkEmpty slack) ds = .ok t r →
      ∃ v w, ds = v ++ r ∧ IsILInt v w := by
    intro slack ds r hp
    obtain ⟨u, r₁, h1, h2⟩ := Parser.bind_eq_ok.mp hp
    have hr : r₁ = r := by
      unfold Parser.checkEmpty at h2
      split at h2
      · simp at h2
      · simp only [PRes.ok.injEq] at h2; exact h2.2
    subst hr
    cases t₀ with
    | atom a =>
      cases a with
      | ilint id v =>
        simp only [Parser.tagValue, Parser.atomValue] at h1
        obtain ⟨a', r₂, h3, h4⟩ := Parser.bind_eq_ok.mp h1
        obtain ⟨x, r₃, h5, h6⟩ := Parser.bind_eq_ok.mp h3
        simp only [Parser.pure_apply, PRes.ok.injEq] at h4 h6
        obtain ⟨used, rfl, hu⟩ := ilint_parsed h5
        exact ⟨used, _, by rw [h6.2, h4.2], hu⟩
      | signedILInt id v =>
        simp only [Parser.tagValue, Parser.atomValue] at h1
        obtain ⟨a', r₂, h3, h4⟩ := Parser.bind_eq_ok.mp h1
        obtain ⟨x, r₃, h5, h6⟩ := Parser.bind_eq_ok.mp h3
        simp only [Parser.pure_apply, PRes.ok.injEq] at h4 h6
        obtain ⟨used, rfl, hu⟩ := ilint_parsed h5
        exact ⟨used, _, by rw [h6.2, h4.2], hu⟩
      | _ => exact hk.elim
    | _ => exact hk.elim
  unfold Parser.tagValueInto Parser.limited at h
  split at h
  · next hle =>
    cases hp : (Parser.tagValue (Parser.call e) size t₀ >>= Parser.checkEmpty 0) (bs.take size) with
    | ok a r =>
      simp only [hp, PRes.ok.injEq] at h
      obtain ⟨rfl, rfl⟩ := h
      obtain ⟨v, w, hv, hw⟩ := key hp
      exact ⟨v, w, by rw [← List.append_assoc, ← hv, List.take_append_drop], hw⟩
    | _ => simp only [hp] at h; cases h
  · exact key h

/-- What a factory with faithful creators accepts has the layout of a tag. -/
theorem top_layout {e : Engine P} (he : Faithful e) {bs rest : Bytes} {t : Tag P} (h : Parser.top e bs = .ok t rest) :
    ∃ idb sz value, bs = idb ++ sz ++ value ++ rest ∧ IsILInt idb t.id.toNat ∧
      (t.id.toNat ≠ 15 → Layout t.id.toNat sz value) := by
  rw [top_eq] at h
  obtain ⟨id, r₁, h1, h0⟩ := Parser.bind_eq_ok.mp h
  obtain ⟨size, r₂, h2, h'⟩ := Parser.bind_eq_ok.mp h0
  obtain ⟨o, r₃, h3', hf⟩ := Parser.bind_eq_ok.mp h'
  obtain ⟨h3, rfl⟩ := lift_eq_ok.mp h3'
  clear h h0 h' h3'
  cases o with
  | none => cases hf
  | some t₀ =>
    have h : Parser.tagValueInto (Parser.call e) size t₀ r₂ = .ok t rest := hf
    clear hf
    obtain ⟨hid, hk⟩ := he id t₀ h3
    have ht := tagValueInto_id h
    rw [hid] at ht
    obtain ⟨idb, rfl, hidb⟩ := ilint_parsed h1
    subst ht
    rcases Bool.eq_false_or_eq_true (isImplicitTag t.id) with hi | hi
    · have hi' := isImplicitTag_iff.mp hi
      rw [tagSize_implicit hi, lift_eq_ok] at h2
      obtain ⟨h2', rfl⟩ := h2
      obtain ⟨rfl, -⟩ := tagSizeToUsize_ok h2'
      by_cases h10 : t.id.toNat = 10 ∨ t.id.toNat = 14
      · have hk' := hk (by
          rcases h10 with h | h
          · exact .inl (UInt64.toNat_inj.mp h)
          · exact .inr (UInt64.toNat_inj.mp h))
        obtain ⟨v, w, rfl, hw⟩ := tagValueInto_ilint h hk'
        refine ⟨idb, [], v, by simp, hidb, fun _ => ?_⟩
        unfold Layout
        rw [if_neg (by omega), if_pos h10]
        exact ⟨rfl, isILInt_tail hw⟩
      · obtain ⟨v, rfl, hv⟩ := tagValueInto_used h (by rw [hid]; omega)
        refine ⟨idb, [], v, by simp, hidb, fun h15 => ?_⟩
        unfold Layout
        rw [if_neg (by omega), if_neg h10]
        exact ⟨rfl, h15, by rw [hv, implicit_size _ (by omega)]⟩
    · have hi' : 16 ≤ t.id.toNat := by
        rcases Nat.lt_or_ge t.id.toNat 16 with hlt | hge
        · rw [isImplicitTag_iff.mpr (by omega)] at hi; cases hi
        · exact hge
      rw [tagSize_explicit hi] at h2
      obtain ⟨sz, r₄, h4, h5⟩ := Parser.bind_eq_ok.mp h2
      obtain ⟨h6, rfl⟩ := lift_eq_ok.mp h5
      obtain ⟨rfl, -⟩ := tagSizeToUsize_ok h6
      obtain ⟨szb, rfl, hszb⟩ := ilint_parsed h4
      obtain ⟨v, rfl, hv⟩ := tagValueInto_used h (by rw [hid]; omega)
      refine ⟨idb, szb, v, by simp, hidb, fun _ => ?_⟩
      unfold Layout
      rw [if_pos hi', hv]
      exact hszb

/-- The standard creators are faithful. -/
theorem std_faithful (strict : Bool) : Faithful (Engine.std strict : Engine P) := by
  intro id t h
  obtain ⟨h1, h2, -⟩ := std_created h
  refine ⟨h2, fun h10 => ?_⟩
  rcases h1 with h1 | ⟨-, -, h1, -⟩
  · rw [h2] at h1
    revert h1
    rcases h10 with rfl | rfl <;> cases t.kind <;> simp [standardId, oneILInt]
  · rw [h2] at h1
    rcases h10 with rfl | rfl <;> simp at h1

end
end Verif
