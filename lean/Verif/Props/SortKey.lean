import Verif.Proof.SortKey
import Verif.Props.RoundTrip
import Verif.Props.Text
/-!
# C112: serialized tags as sort keys
-/
namespace Verif.Props
open Verif Verif.Spec

section
variable {P : Type} [TagPayload P] [Env]

theorem bytes_eq {t : Tag P} {a : Bytes} (hm : MapsOk t) (hp : PayloadsOk t) (hl : (enc t).length < 2 ^ 64)
    (h : t.toBytes = .ok a) : a = enc t := by
  by_cases ha : (enc t).length ≤ Env.allocMax
  · have := C29_to_bytes t hm hp hl ha
    rw [h, Res.ok.injEq] at this
    exact this
  · unfold Tag.toBytes at h
    rw [t.size_eq hp hl, show (UInt64.ofNat (enc t).length).toNat = (enc t).length from lenU64_toNat hl, if_neg ha] at h
    cases h

/-- **C112** In general serializations are ordered by id, then by the length of the value if the id is explicit, then by
the bytes of the value. -/
theorem C112_order (t u : Tag P) (ht : MapsOk t ∧ PayloadsOk t) (hu : MapsOk u ∧ PayloadsOk u)
    (hl : (enc t).length < 2 ^ 64) (hl' : (enc u).length < 2 ^ 64) : BytesBefore t u (TagOrder t u) := by
  intro a b ha hb
  rw [bytes_eq ht.1 ht.2 hl ha, bytes_eq hu.1 hu.2 hl' hb]
  have h1 := encValue_lt t
  have h2 := encValue_lt u
  exact lex_wrap (by omega) (by omega)

/-- The same for atoms without entries and payloads. -/
theorem before_atom {x y : Atom P} {p : Prop} (hx : MapsOk (.atom x) ∧ PayloadsOk (.atom x))
    (hy : MapsOk (.atom y) ∧ PayloadsOk (.atom y)) (lx : (encAtom x).length < 2 ^ 63) (ly : (encAtom y).length < 2 ^ 63)
    (h : wrap x.id (encAtom x) < wrap y.id (encAtom y) ↔ p) : BytesBefore (.atom x) (.atom y) p := by
  have hl : ∀ x : Atom P, (encAtom x).length < 2 ^ 63 → (enc (.atom x)).length < 2 ^ 64 := by
    intro x hx
    have h1 := ilint_le9 x.id.toNat
    have h2 := ilint_le9 (encAtom x).length
    show (wrap x.id (encAtom x)).length < 2 ^ 64
    unfold wrap
    simp only [List.length_append]
    split <;> simp <;> omega
  intro a b ha hb
  rw [bytes_eq hx.1 hx.2 (hl x lx) ha, bytes_eq hy.1 hy.2 (hl y ly) hb]
  exact h

theorem plain_ok {x : Atom P} (h1 : ∀ id es, x ≠ .strDict id es) (h2 : ∀ id p, x ≠ .payload id p) :
    MapsOk (.atom x) ∧ PayloadsOk (.atom x) := by
  constructor
  · rintro u (_ | _)
    cases x <;> first | trivial | exact absurd rfl (h1 _ _)
  · intro id p hu
    cases hu
    exact absurd rfl (h2 _ _)

/-- Values of the same length. -/
theorem before_len {x y : Atom P} {p : Prop} (hi : x.id = y.id) (hx : MapsOk (.atom x) ∧ PayloadsOk (.atom x))
    (hy : MapsOk (.atom y) ∧ PayloadsOk (.atom y)) (n : Nat) (hn : n < 2 ^ 63) (lx : (encAtom x).length = n)
    (ly : (encAtom y).length = n) (h : encAtom x < encAtom y ↔ p) : BytesBefore (.atom x) (.atom y) p := by
  refine before_atom hx hy (by omega) (by omega) ?_
  rw [hi, lex_wrap_len (by omega) (by omega)]
  exact h

/-- **C112** Unsigned integers and ILInts with the same id are in the order of their values. -/
theorem C112_unsigned (id : UInt64) :
    (∀ v w, BytesBefore (.atom (.uint8 id v) : Tag P) (.atom (.uint8 id w)) (v < w)) ∧
    (∀ v w, BytesBefore (.atom (.uint16 id v) : Tag P) (.atom (.uint16 id w)) (v < w)) ∧
    (∀ v w, BytesBefore (.atom (.uint32 id v) : Tag P) (.atom (.uint32 id w)) (v < w)) ∧
    (∀ v w, BytesBefore (.atom (.uint64 id v) : Tag P) (.atom (.uint64 id w)) (v < w)) ∧
    (∀ v w, BytesBefore (.atom (.ilint id v) : Tag P) (.atom (.ilint id w)) (v < w)) := by
  refine ⟨fun v w => ?_, fun v w => ?_, fun v w => ?_, fun v w => ?_, fun v w => ?_⟩
  · exact before_len rfl (plain_ok nofun nofun) (plain_ok nofun nofun) 1 (by decide) (by simp [encAtom]) (by simp [encAtom])
      ((lex_be v.toNat_lt w.toNat_lt).trans UInt8.lt_iff_toNat_lt.symm)
  · exact before_len rfl (plain_ok nofun nofun) (plain_ok nofun nofun) 2 (by decide) (by simp [encAtom]) (by simp [encAtom])
      ((lex_be v.toNat_lt w.toNat_lt).trans UInt16.lt_iff_toNat_lt.symm)
  · exact before_len rfl (plain_ok nofun nofun) (plain_ok nofun nofun) 4 (by decide) (by simp [encAtom]) (by simp [encAtom])
      ((lex_be v.toNat_lt w.toNat_lt).trans UInt32.lt_iff_toNat_lt.symm)
  · exact before_len rfl (plain_ok nofun nofun) (plain_ok nofun nofun) 8 (by decide) (by simp [encAtom]) (by simp [encAtom])
      ((lex_be v.toNat_lt w.toNat_lt).trans UInt64.lt_iff_toNat_lt.symm)
  · have h1 := ilint_le9 v.toNat
    have h2 := ilint_le9 w.toNat
    refine before_atom (plain_ok nofun nofun) (plain_ok nofun nofun) (by simp only [encAtom]; omega)
      (by simp only [encAtom]; omega) ?_
    have := lex_wrap_ilint (id := id) (a := []) (b := []) v.toNat_lt w.toNat_lt rfl (by decide)
    simp only [List.append_nil, List.lt_irrefl, and_false, or_false] at this
    exact this.trans UInt64.lt_iff_toNat_lt.symm

omit [TagPayload P] [Env] in
theorem twos_lt (k : Nat) (v : Int) : twos k v < 256 ^ k := by
  unfold twos
  have : (2 : Int) ^ (8 * k) = ((256 ^ k : Nat) : Int) := by
    rw [Int.pow_mul]; simp [Int.natCast_pow]
  rw [this]
  have h0 : 0 < 256 ^ k := Nat.pow_pos (by decide)
  have := Int.emod_lt_of_pos v (Int.natCast_pos.mpr h0)
  have := Int.emod_nonneg v (b := ((256 ^ k : Nat) : Int)) (by omega)
  omega

/-- **C112** Signed integers of fixed width are not in the order of their values: the negative ones come last. -/
theorem C112_signed (id : UInt64) :
    (∀ v w, BytesBefore (.atom (.int8 id v) : Tag P) (.atom (.int8 id w)) (UnsignedOrder v.toInt w.toInt)) ∧
    (∀ v w, BytesBefore (.atom (.int16 id v) : Tag P) (.atom (.int16 id w)) (UnsignedOrder v.toInt w.toInt)) ∧
    (∀ v w, BytesBefore (.atom (.int32 id v) : Tag P) (.atom (.int32 id w)) (UnsignedOrder v.toInt w.toInt)) ∧
    (∀ v w, BytesBefore (.atom (.int64 id v) : Tag P) (.atom (.int64 id w)) (UnsignedOrder v.toInt w.toInt)) := by
  refine ⟨fun v w => ?_, fun v w => ?_, fun v w => ?_, fun v w => ?_⟩
  · exact before_len rfl (plain_ok nofun nofun) (plain_ok nofun nofun) 1 (by decide) (by simp [encAtom]) (by simp [encAtom])
      ((lex_be (twos_lt 1 _) (twos_lt 1 _)).trans
        (twos_order (2 ^ 7) (by decide) v.le_toInt v.toInt_lt w.le_toInt w.toInt_lt))
  · exact before_len rfl (plain_ok nofun nofun) (plain_ok nofun nofun) 2 (by decide) (by simp [encAtom]) (by simp [encAtom])
      ((lex_be (twos_lt 2 _) (twos_lt 2 _)).trans
        (twos_order (2 ^ 15) (by decide) v.le_toInt v.toInt_lt w.le_toInt w.toInt_lt))
  · exact before_len rfl (plain_ok nofun nofun) (plain_ok nofun nofun) 4 (by decide) (by simp [encAtom]) (by simp [encAtom])
      ((lex_be (twos_lt 4 _) (twos_lt 4 _)).trans
        (twos_order (2 ^ 31) (by decide) v.le_toInt v.toInt_lt w.le_toInt w.toInt_lt))
  · exact before_len rfl (plain_ok nofun nofun) (plain_ok nofun nofun) 8 (by decide) (by simp [encAtom]) (by simp [encAtom])
      ((lex_be (twos_lt 8 _) (twos_lt 8 _)).trans
        (twos_order (2 ^ 63) (by decide) v.le_toInt v.toInt_lt w.le_toInt w.toInt_lt))

/-- **C112** Signed ILInts are in the order of their distance from 0. -/
theorem C112_signed_ilint (id : UInt64) (v w : Int64) :
    BytesBefore (.atom (.signedILInt id v) : Tag P) (.atom (.signedILInt id w)) (MagnitudeOrder v.toInt w.toInt) := by
  have hz : ∀ v : Int64, zigzag v.toInt < 2 ^ 64 := by
    intro v
    have h1 := v.le_toInt
    have h2 := v.toInt_lt
    unfold zigzag
    split <;> omega
  have h1 := ilint_le9 (zigzag v.toInt)
  have h2 := ilint_le9 (zigzag w.toInt)
  refine before_atom (plain_ok nofun nofun) (plain_ok nofun nofun) (by simp only [encAtom, signedILInt]; omega)
    (by simp only [encAtom, signedILInt]; omega) ?_
  have := lex_wrap_ilint (id := id) (a := []) (b := []) (hz v) (hz w) rfl (by decide)
  simp only [List.append_nil, List.lt_irrefl, and_false, or_false] at this
  refine this.trans ?_
  unfold zigzag MagnitudeOrder
  split <;> split <;> omega

/-- **C112** Floating point numbers without a sign are in the order of their values; those with a sign come after them, in
the opposite order of their values. -/
theorem C112_floats (id : UInt64) :
    (∀ v w, BytesBefore (.atom (.bin32 id v) : Tag P) (.atom (.bin32 id w)) (FloatOrder 23 31 v.toNat w.toNat)) ∧
    (∀ v w, BytesBefore (.atom (.bin64 id v) : Tag P) (.atom (.bin64 id w)) (FloatOrder 52 63 v.toNat w.toNat)) := by
  refine ⟨fun v w => ?_, fun v w => ?_⟩
  · exact before_len rfl (plain_ok nofun nofun) (plain_ok nofun nofun) 4 (by decide) (by simp [encAtom]) (by simp [encAtom])
      ((lex_be v.toNat_lt w.toNat_lt).trans (floatOrder_iff 23 v.toNat_lt w.toNat_lt))
  · exact before_len rfl (plain_ok nofun nofun) (plain_ok nofun nofun) 8 (by decide) (by simp [encAtom]) (by simp [encAtom])
      ((lex_be v.toNat_lt w.toNat_lt).trans (floatOrder_iff 52 v.toNat_lt w.toNat_lt))

/-- **C112** Texts are in the order of the number of their bytes, those of the same number in the order of their code
points; byte strings likewise. -/
theorem C112_text (id : UInt64) (hi : 15 < id.toNat) :
    (∀ v w : String, (Spec.utf8 v).length < 2 ^ 63 → (Spec.utf8 w).length < 2 ^ 63 →
      BytesBefore (.atom (.string id v) : Tag P) (.atom (.string id w))
        ((Spec.utf8 v).length < (Spec.utf8 w).length ∨
          (Spec.utf8 v).length = (Spec.utf8 w).length ∧ codePoints v < codePoints w)) ∧
    (∀ v w : Bytes, v.length < 2 ^ 63 → w.length < 2 ^ 63 →
      BytesBefore (.atom (.byteArray v) : Tag P) (.atom (.byteArray w)) (ShortLex v w)) := by
  have hw : ∀ {id : UInt64} {v w : Bytes}, 15 < id.toNat → v.length < 2 ^ 63 → w.length < 2 ^ 63 →
      (wrap id v < wrap id w ↔ ShortLex v w) := by
    intro id v w hi hv hw
    rw [lex_wrap (by omega) (by omega), if_neg (by omega)]
    simp [UInt64.lt_irrefl]
  constructor
  · intro v w hv hv'
    refine before_atom (plain_ok nofun nofun) (plain_ok nofun nofun) hv hv' ?_
    rw [← C86_order]
    exact hw hi hv hv'
  · intro v w hv hv'
    exact before_atom (plain_ok nofun nofun) (plain_ok nofun nofun) hv hv' (hw (id := 16) (by decide) hv hv')

/-- **C112** Ranges are in the order of their first numbers, then of their counts. -/
theorem C112_range (id v w : UInt64) (n m : UInt16) :
    BytesBefore (.atom (.range id v n) : Tag P) (.atom (.range id w m)) (v < w ∨ v = w ∧ n < m) := by
  have h1 := ilint_le9 v.toNat
  have h2 := ilint_le9 w.toNat
  refine before_atom (plain_ok nofun nofun) (plain_ok nofun nofun) (by simp [encAtom]; omega)
    (by simp [encAtom]; omega) ?_
  refine (lex_wrap_ilint (id := id) v.toNat_lt w.toNat_lt (by simp) (by simp)).trans ?_
  rw [lex_be n.toNat_lt m.toNat_lt, ← UInt64.lt_iff_toNat_lt, UInt64.toNat_inj, ← UInt16.lt_iff_toNat_lt]

omit [TagPayload P] [Env] in
theorem lex_part (a b : Int32) (x y : Bytes) :
    be 4 (twos 4 a.toInt) ++ x < be 4 (twos 4 b.toInt) ++ y ↔ UnsignedOrder a.toInt b.toInt ∨ a = b ∧ x < y := by
  have h := (lex_be (twos_lt 4 a.toInt) (twos_lt 4 b.toInt)).trans
    (twos_order (2 ^ 31) (by decide) a.le_toInt a.toInt_lt b.le_toInt b.toInt_lt)
  rw [lex_len (by simp), h]
  refine or_congr Iff.rfl (and_congr_left fun _ => ⟨fun he => ?_, fun he => by rw [he]⟩)
  letI : Env := bigEnv
  rw [← dec_i32 a, ← dec_i32 b, he]

/-- **C112** Versions whose parts are not negative are in the order of the first part that differs. -/
theorem C112_version (id : UInt64) (a b c d a' b' c' d' : Int32)
    (h : ∀ x ∈ [a, b, c, d, a', b', c', d'], 0 ≤ x) :
    BytesBefore (.atom (.version id a b c d) : Tag P) (.atom (.version id a' b' c' d'))
      (a < a' ∨ a = a' ∧ (b < b' ∨ b = b' ∧ (c < c' ∨ c = c' ∧ d < d'))) := by
  refine before_len rfl (plain_ok nofun nofun) (plain_ok nofun nofun) 16 (by decide) (by simp [encAtom]) (by simp [encAtom]) ?_
  have ho : ∀ x ∈ [a, b, c, d, a', b', c', d'], ∀ y ∈ [a, b, c, d, a', b', c', d'],
      (UnsignedOrder x.toInt y.toInt ↔ x < y) := by
    intro x hx y hy
    have h1 : (0 : Int) ≤ x.toInt := Int32.le_iff_toInt_le.mp (h x hx)
    have h2 : (0 : Int) ≤ y.toInt := Int32.le_iff_toInt_le.mp (h y hy)
    rw [Int32.lt_iff_toInt_lt]
    unfold UnsignedOrder
    omega
  have hl := lex_part d d' [] []
  simp only [List.append_nil, List.lt_irrefl, and_false, or_false] at hl
  simp only [encAtom, List.append_assoc]
  rw [lex_part, lex_part, lex_part, hl, ho a (by simp) a' (by simp), ho b (by simp) b' (by simp),
    ho c (by simp) c' (by simp), ho d (by simp) d' (by simp)]

/-- **C112** Records: of tags serialized one after another the first that differs decides, as in a list.  `bss < css` is
the order of lists of byte strings. -/
theorem C112_records (hr : MemoryOk) (e : Engine P) (ts us : List (Tag P)) (bss css : List Bytes)
    (ht : ∀ t ∈ ts, MapsOk t ∧ PayloadsOk t ∧ Supported e t) (hu : ∀ t ∈ us, MapsOk t ∧ PayloadsOk t ∧ Supported e t)
    (hb : ts.map (·.toBytes) = bss.map .ok) (hc : us.map (·.toBytes) = css.map .ok) :
    bss.flatten < css.flatten ↔ bss < css := by
  induction ts generalizing bss us css with
  | nil =>
    cases bss with
    | cons => simp at hb
    | nil =>
      cases us with
      | nil =>
        cases css with
        | cons => simp at hc
        | nil => simp
      | cons u us =>
        cases css with
        | nil => simp at hc
        | cons c css =>
          have hu1 := hu u (by simp)
          simp only [List.map_cons, List.cons.injEq] at hc
          have := hc.1
          rw [toBytes_eq_enc hr hu1.1 hu1.2.1 hu1.2.2, Res.ok.injEq] at this
          have hne : c ≠ [] := by
            rw [← this]
            intro h0
            have := congrArg List.length h0
            have h1 := ilint_pos u.id.toNat
            simp only [enc, wrap, List.length_append, List.length_nil] at this
            omega
          cases c with
          | nil => exact absurd rfl hne
          | cons x c => simp
  | cons t ts ih =>
    cases bss with
    | nil => simp at hb
    | cons b bss =>
      have ht1 := ht t (by simp)
      simp only [List.map_cons, List.cons.injEq] at hb
      cases us with
      | nil =>
        cases css with
        | cons => simp at hc
        | nil => simp
      | cons u us =>
        cases css with
        | nil => simp at hc
        | cons c css =>
          have hu1 := hu u (by simp)
          simp only [List.map_cons, List.cons.injEq] at hc
          have ih := ih us bss css (fun t h => ht t (by simp [h])) (fun t h => hu t (by simp [h])) hb.2 hc.2
          simp only [List.flatten_cons]
          rw [List.cons_lt_cons_iff, ← ih]
          by_cases hbc : b = c
          · subst hbc
            rw [lex_left]
            simp [List.lt_irrefl]
          · have h1 : ∀ {t u : Tag P} {b c : Bytes}, (MapsOk t ∧ PayloadsOk t ∧ Supported e t) →
                (MapsOk u ∧ PayloadsOk u ∧ Supported e u) → t.toBytes = .ok b → u.toBytes = .ok c → b ≠ c → ¬ b <+: c := by
              rintro t u b c ht hu hb hc hne ⟨x, rfl⟩
              have := (C32_prefix_free hr e t u ht hu hb hc).1
              subst this
              simp at hne
            rw [lex_apart (h1 ht1 hu1 hb.1 hc.1 hbc) (h1 hu1 ht1 hc.1 hb.1 (Ne.symm hbc))]
            simp [hbc]

end

attribute [local instance] bigEnv

/-! The cases that are not in the order of the values: `-1` after `1`, `-2` after `1` and before `2`, `"b"` before `"aa"`,
`-0.5` after every number without a sign; and a record of two tags. -/
example :
    ((Tag.atom (.int8 2 (-1)) : Tag Empty).toBytes = .ok [2, 255] ∧ (Tag.atom (.int8 2 1) : Tag Empty).toBytes = .ok [2, 1]) ∧
    ((Tag.atom (.signedILInt 14 (-2)) : Tag Empty).toBytes = .ok [14, 3] ∧
      (Tag.atom (.signedILInt 14 1) : Tag Empty).toBytes = .ok [14, 2]) ∧
    ((Tag.atom (.string 17 "b") : Tag Empty).toBytes = .ok [17, 1, 98] ∧
      (Tag.atom (.string 17 "aa") : Tag Empty).toBytes = .ok [17, 2, 97, 97]) ∧
    (Tag.atom (.bin32 11 0xBF000000) : Tag Empty).toBytes = .ok [11, 0xBF, 0, 0, 0] ∧
    UnsignedOrder 1 (-1) ∧ MagnitudeOrder 1 (-2) ∧ MagnitudeOrder (-2) 2 ∧ FloatOrder 23 31 0x7F800000 0xBF000000 ∧
    ([17, 1, 98] : Bytes) < [17, 2, 97, 97] := by
  unfold UnsignedOrder MagnitudeOrder FloatOrder
  decide +kernel

example : magnitude 23 0x3F800000 = 2 ^ 149 ∧ magnitude 23 0x40000000 = 2 * 2 ^ 149 ∧ magnitude 23 1 = 1 ∧
    magnitude 52 0x3FF0000000000000 = 2 ^ 1074 := by decide +kernel

/-! Records of a number and a text: the number decides, then the text. -/
theorem pair_ok (n : UInt8) (c : String) (hc : (Spec.utf8 c).length ≤ maxValue) (t : Tag Empty)
    (ht : t ∈ ([.atom (.uint8 3 n), .atom (.string 17 c)] : List (Tag Empty))) :
    MapsOk t ∧ PayloadsOk t ∧ Supported (Engine.std true) t := by
  simp only [List.mem_cons, List.not_mem_nil, or_false] at ht
  rcases ht with rfl | rfl
  · have h := plain_ok (x := (.uint8 3 n : Atom Empty)) nofun nofun
    refine ⟨h.1, h.2, std_supported fun u hu => ?_⟩
    cases hu
    exact ⟨.inl rfl, by simp [encValue, encAtom, maxValue]⟩
  · have h := plain_ok (x := (.string 17 c : Atom Empty)) nofun nofun
    refine ⟨h.1, h.2, std_supported fun u hu => ?_⟩
    cases hu
    exact ⟨.inl rfl, hc⟩

example : (([[3, 7], [17, 1, 97]] : List Bytes).flatten < [[3, 7], [17, 1, 98]].flatten) ↔
    ([[3, 7], [17, 1, 97]] : List Bytes) < [[3, 7], [17, 1, 98]] :=
  C112_records bigEnv_ok (Engine.std true) [.atom (.uint8 3 7), .atom (.string 17 "a")]
    [.atom (.uint8 3 7), .atom (.string 17 "b")] _ _ (pair_ok 7 "a" (by decide)) (pair_ok 7 "b" (by decide))
    (by decide +kernel) (by decide +kernel)

end Verif.Props
