import Verif.Spec.Factory
import Verif.Proof.Fuel
import Verif.Proof.Canon
import Verif.Proof.Views
import Verif.Proof.Zigzag
/-!
# Reading back what was written
-/
namespace Verif
open Spec
set_option linter.unusedSectionVars false

section
variable {α : Type}

theorem take_append (bs x : Bytes) : Parser.take bs.length (bs ++ x) = .ok bs x := by
  simp [Parser.take]
theorem take_exact (bs : Bytes) : Parser.take bs.length bs = .ok bs [] := by
  simpa using take_append bs []
theorem take_eq {bs : Bytes} {n : Nat} (h : bs.length = n) (x : Bytes) : Parser.take n (bs ++ x) = .ok bs x := by
  rw [← h]; exact take_append bs x

/-- Any encoding of a value is decoded. -/
theorem ilint_isILInt {bs : Bytes} {v : Nat} (h : IsILInt bs v) (x : Bytes) :
    Parser.ilint (bs ++ x) = .ok (UInt64.ofNat v) x := by
  obtain ⟨hv, ⟨b, rfl, hb, rfl⟩ | ⟨hd, body, rfl, h1, h8, hh, rfl⟩⟩ := h
  · unfold Parser.ilint
    rw [List.cons_append, Parser.bind_ok (show Parser.byte (b :: ([] ++ x)) = .ok b ([] ++ x) from rfl)]
    rw [if_pos (by rw [ILInt.decodedSize_eq, if_pos hb])]
    simp
  · unfold Parser.ilint
    rw [List.cons_append, Parser.bind_ok (show Parser.byte (hd :: (body ++ x)) = .ok hd (body ++ x) from rfl)]
    rw [if_neg (by rw [ILInt.decodedSize_eq, if_neg (by omega)]; omega)]
    have hl : ILInt.decodedSize hd - 1 = body.length := by
      rw [ILInt.decodedSize_eq, if_neg (by omega)]; omega
    rw [hl, Parser.bind_ok (take_append body x), ILInt.decodeBody_eq _ h1 h8, if_pos hv]
    rfl

theorem ilint_enc (v : UInt64) (x : Bytes) : Parser.ilint (Spec.ilint v.toNat ++ x) = .ok v x := by
  have := ilint_isILInt (ILInt.isILInt_ilint v.toNat_lt) x
  simpa using this

theorem ilint_enc_nat {n : Nat} (h : n < 2 ^ 64) (x : Bytes) :
    Parser.ilint (Spec.ilint n ++ x) = .ok (UInt64.ofNat n) x := ilint_isILInt (ILInt.isILInt_ilint h) x

/-- A limited region whose body reads exactly `used` and accepts what is left of the region. -/
theorem limited_ok {q : Nat → Parser α} (h : Stable q) {n : Nat} {used : Bytes} {a : α} (hn : used.length ≤ n)
    (hq : q (n - used.length) used = .ok a []) (x : Bytes) : Parser.limited n q (used ++ x) = .ok a x := by
  have h1 : Parser.limited n q used = .ok a [] := by
    unfold Parser.limited
    by_cases hl : n ≤ used.length
    · rw [if_pos hl, List.take_of_length_le hn]
      have : n - used.length = 0 := by omega
      rw [this] at hq
      rw [hq]
      simp; omega
    · rw [if_neg hl]; exact hq
  obtain ⟨u, hu, h2⟩ := (Local.limited h n).ok h1
  simp only [List.append_nil] at hu
  subst hu
  exact h2 x

theorem limited_exact {q : Nat → Parser α} (h : Stable q) {n : Nat} {used : Bytes} {a : α} (hn : used.length = n)
    (hq : q 0 used = .ok a []) (x : Bytes) : Parser.limited n q (used ++ x) = .ok a x :=
  limited_ok h (by omega) (by rw [hn, Nat.sub_self]; exact hq) x

end

section
variable {P : Type} [Env] {f : Parser (Tag P)} {F : Option (Tag P) → Parser (Tag P)}

theorem bytes_ok (hr : Roomy) {n : Nat} (h : n ≤ maxTagSize) : Parser.bytes n = Parser.take n := by
  unfold Parser.bytes Roomy at *
  rw [if_pos (by omega)]

theorem utf8_ok (hr : Roomy) {s : String} (h : (Spec.utf8 s).length ≤ maxTagSize) (x : Bytes) :
    Parser.utf8 (Spec.utf8 s).length (Spec.utf8 s ++ x) = .ok s x := by
  unfold Parser.utf8
  rw [bytes_ok hr h, Parser.bind_ok (take_append _ x), ← utf8_eq, fromUtf8_utf8]
  rfl

theorem tagSizeToUsize_eq {n : Nat} (h : n ≤ maxTagSize) : tagSizeToUsize (UInt64.ofNat n) = .ok n := by
  have : (UInt64.ofNat n).toNat = n := by
    unfold maxTagSize at h
    simp; omega
  unfold tagSizeToUsize
  rw [this, if_neg (by omega)]

omit [Env] in
theorem wrap_explicit {id : UInt64} (h : ¬ id.toNat ≤ 15) (v : Bytes) :
    wrap id v = Spec.ilint id.toNat ++ Spec.ilint v.length ++ v := by
  unfold wrap; rw [if_neg h]
omit [Env] in
theorem wrap_implicit {id : UInt64} (h : id.toNat ≤ 15) (v : Bytes) : wrap id v = Spec.ilint id.toNat ++ v := by
  unfold wrap; rw [if_pos h]; simp

omit [Env] in
theorem ilint_pos (v : Nat) : 1 ≤ (Spec.ilint v).length := by rw [ILInt.length_ilint]; omega
omit [Env] in
theorem ilint_le9 (v : Nat) : (Spec.ilint v).length ≤ 9 := by
  rw [ILInt.length_ilint]; have := ILInt.ilintExtra_le v; omega

omit [Env] in
theorem wrap_length_ge (id : UInt64) (v : Bytes) : v.length + 1 ≤ (wrap id v).length := by
  have := ilint_pos id.toNat
  simp only [wrap, List.length_append]; omega

theorem stringTag_ok (hr : Roomy) {s : String} (h : (Spec.utf8 s).length ≤ maxTagSize) (x : Bytes) :
    Parser.stringTag (Spec.stringTag s ++ x) = .ok s x := by
  unfold Parser.stringTag Spec.stringTag
  rw [wrap_explicit (by decide), List.append_assoc, List.append_assoc, Parser.bind_ok (ilint_enc 17 _)]
  rw [if_neg (by decide)]
  have h64 : (Spec.utf8 s).length < 2 ^ 64 := by unfold maxTagSize at h; omega
  rw [Parser.bind_ok (ilint_enc_nat h64 _), tagSizeToUsize_eq h]
  exact utf8_ok hr h x

theorem i32_ok (v : Int32) (x : Bytes) : Parser.i32 (be 4 (twos 4 v.toInt) ++ x) = .ok v x := by
  unfold Parser.i32
  rw [Parser.bind_ok (take_eq (by simp) x), fromBE_eq_beVal, beVal_be, ← twos_int32]
  have := v.toUInt32.toNat_lt
  rw [Nat.mod_eq_of_lt (by omega)]
  simp

theorem ilints_ok (vs acc : List UInt64) (x : Bytes) :
    Parser.ilints vs.length acc (vs.flatMap (fun v => Spec.ilint v.toNat) ++ x) = .ok (acc ++ vs) x := by
  induction vs generalizing acc with
  | nil => simp [Parser.ilints]
  | cons v vs ih =>
    simp only [List.length_cons, Parser.ilints, List.flatMap_cons, List.append_assoc]
    rw [Parser.bind_ok (ilint_enc v _), ih]
    simp

theorem length_le_flatMap_ge {β : Type} (g : β → Bytes) (hg : ∀ b, 1 ≤ (g b).length) (l : List β) :
    l.length ≤ (l.flatMap g).length := by
  induction l with
  | nil => simp
  | cons b l ih =>
    have := hg b
    simp only [List.flatMap_cons, List.length_append, List.length_cons]; omega

theorem toNat_ofNat_max {n : Nat} (h : n ≤ maxTagSize) : (UInt64.ofNat n).toNat = n := by
  unfold maxTagSize at h
  simp; omega

theorem ilintArray_ok (hr : Roomy) {vs : List UInt64} {n : Nat} (hn : (encILInts vs).length = n)
    (h : n ≤ maxTagSize) (x : Bytes) : Parser.ilintArray n (encILInts vs ++ x) = .ok vs x := by
  unfold Parser.ilintArray
  have hst : Stable fun slack => (Parser.ilint >>= fun count =>
      if count.toNat > n then Parser.fail .corruptedData
      else if 8 * count.toNat ≤ Env.allocMax then (do
        let r ← Parser.ilints count.toNat []
        Parser.ensureEmpty slack
        pure r) else Parser.panic : Parser (List UInt64)) := by
    refine Stable.bind (q := fun _ => Parser.ilint) Local.ilint fun count => ?_
    refine Stable.ite (Stable.const (Local.fail _)) (Stable.ite ?_ (Stable.const Local.panic))
    exact Stable.bind (q := fun _ => Parser.ilints count.toNat []) (Local.ilints _ _) fun r => Stable.finish r
  refine limited_exact hst hn ?_ x
  have hl := length_le_flatMap_ge (fun v : UInt64 => Spec.ilint v.toNat) (fun v => ilint_pos _) vs
  have hle : vs.length ≤ n := by
    rw [← hn]; unfold encILInts; simp only [List.length_append]; omega
  have hc : (UInt64.ofNat vs.length).toNat = vs.length := toNat_ofNat_max (by omega)
  have h64 : vs.length < 2 ^ 64 := by unfold maxTagSize at h; omega
  unfold encILInts
  rw [Parser.bind_ok (ilint_enc_nat h64 _), hc, if_neg (by omega)]
  unfold Roomy at hr
  rw [if_pos (by omega)]
  have := ilints_ok vs [] []
  rw [List.append_nil, List.nil_append] at this
  rw [Parser.bind_ok this]
  rfl

theorem strEntries_ok (hr : Roomy) (es acc : List (String × String)) (hn : ((acc ++ es).map (·.1)).Nodup) (x : Bytes)
    (h : (es.flatMap fun e => Spec.stringTag e.1 ++ Spec.stringTag e.2).length ≤ maxTagSize) :
    Parser.strEntries es.length acc ((es.flatMap fun e => Spec.stringTag e.1 ++ Spec.stringTag e.2) ++ x)
      = .ok (acc ++ es) x := by
  induction es generalizing acc with
  | nil => simp [Parser.strEntries]
  | cons e es ih =>
    obtain ⟨k, v⟩ := e
    simp only [List.flatMap_cons, List.length_append] at h
    have hk := wrap_length_ge 17 (Spec.utf8 k)
    have hv := wrap_length_ge 17 (Spec.utf8 v)
    simp only [Spec.stringTag] at h
    simp only [List.length_cons, Parser.strEntries, List.flatMap_cons, List.append_assoc]
    rw [Parser.bind_ok (stringTag_ok hr (by omega) _), Parser.bind_ok (stringTag_ok hr (by omega) _)]
    have hnew : k ∉ acc.map (·.1) := by
      intro hc
      simp only [List.map_append, List.map_cons, List.nodup_append] at hn
      exact hn.2.2 k hc k (by simp) rfl
    rw [HMap.insert_new v hnew, ih _ (by simpa using hn) (by simp only [Spec.stringTag]; omega)]
    simp

theorem encSorted_eq {es : List (String × String)} :
    encSorted (es.map fun e => (e.1, Spec.stringTag e.2)) =
      (sortByKey es).flatMap fun e => Spec.stringTag e.1 ++ Spec.stringTag e.2 := by
  unfold encSorted
  rw [sortByKey_map es Spec.stringTag, List.flatMap_map]

theorem strDict_ok (hr : Roomy) {es : List (String × String)} (hn : (es.map (·.1)).Nodup) (x : Bytes)
    (h : (Spec.ilint es.length ++ encSorted (es.map fun e => (e.1, Spec.stringTag e.2))).length ≤ maxTagSize) :
    Parser.strDict (Spec.ilint es.length ++ encSorted (es.map fun e => (e.1, Spec.stringTag e.2))).length
      ((Spec.ilint es.length ++ encSorted (es.map fun e => (e.1, Spec.stringTag e.2))) ++ x) = .ok (sortByKey es) x := by
  unfold Parser.strDict
  have hst : Stable fun slack => (do
      let count ← Parser.ilint
      let r ← Parser.strEntries count.toNat []
      Parser.ensureEmpty slack
      pure r : Parser (List (String × String))) :=
    Stable.bind (q := fun _ => Parser.ilint) Local.ilint fun count =>
      Stable.bind (q := fun _ => Parser.strEntries count.toNat []) (Local.strEntries _ _) fun r => Stable.finish r
  refine limited_exact hst rfl ?_ x
  rw [encSorted_eq] at h ⊢
  simp only [List.length_append] at h
  have hl := length_le_flatMap_ge (fun e : String × String => Spec.stringTag e.1 ++ Spec.stringTag e.2)
    (fun e => by
      have := wrap_length_ge 17 (Spec.utf8 e.1)
      simp only [Spec.stringTag, List.length_append]; omega) (sortByKey es)
  rw [sortByKey_length] at hl
  have hc : (UInt64.ofNat es.length).toNat = es.length := toNat_ofNat_max (by omega)
  have h64 : es.length < 2 ^ 64 := by unfold maxTagSize at h; omega
  rw [Parser.bind_ok (ilint_enc_nat h64 _), hc]
  have := strEntries_ok hr (sortByKey es) [] (by simpa using sortByKey_keys_nodup hn) [] (by omega)
  rw [List.append_nil, List.nil_append, sortByKey_length] at this
  rw [Parser.bind_ok this]
  rfl

theorem range_ok (a : UInt64) (b : UInt16) (x : Bytes) :
    Parser.range (Spec.ilint a.toNat ++ be 2 b.toNat).length ((Spec.ilint a.toNat ++ be 2 b.toNat) ++ x)
      = .ok (a, b) x := by
  unfold Parser.range
  have hst : Stable fun slack => (do
      let start ← Parser.ilint
      let count ← Parser.take 2
      Parser.ensureEmpty slack
      pure (start, UInt16.ofNat (fromBE count)) : Parser (UInt64 × UInt16)) :=
    Stable.bind (q := fun _ => Parser.ilint) Local.ilint fun _ =>
      Stable.bind (q := fun _ => Parser.take 2) (Local.take _) fun r => Stable.finish _
  refine limited_exact hst rfl ?_ x
  rw [Parser.bind_ok (ilint_enc a _)]
  have := take_eq (n := 2) (bs := be 2 b.toNat) (by simp) []
  rw [List.append_nil] at this
  rw [Parser.bind_ok this, fromBE_eq_beVal, beVal_be, Nat.mod_eq_of_lt (by have := b.toNat_lt; omega)]
  simp [Parser.bind_apply, Parser.ensureEmpty]

theorem fixed_ok {n : Nat} (g : Bytes → Atom P) {bs : Bytes} (h : bs.length = n) :
    Parser.fixed bs.length n g bs = .ok (g bs) [] := by
  unfold Parser.fixed
  rw [if_pos h]
  have := take_eq h []
  rw [List.append_nil] at this
  rw [Parser.bind_ok this]
  rfl


theorem dec_u16 (v : UInt16) : UInt16.ofNat (fromBE (be 2 v.toNat)) = v := by
  rw [fromBE_eq_beVal, beVal_be, Nat.mod_eq_of_lt (by have := v.toNat_lt; omega)]
  simp
theorem dec_i16 (v : Int16) : (UInt16.ofNat (fromBE (be 2 (twos 2 v.toInt)))).toInt16 = v := by
  rw [← twos_int16, dec_u16]
  rfl
theorem dec_u32 (v : UInt32) : UInt32.ofNat (fromBE (be 4 v.toNat)) = v := by
  rw [fromBE_eq_beVal, beVal_be, Nat.mod_eq_of_lt (by have := v.toNat_lt; omega)]
  simp
theorem dec_i32 (v : Int32) : (UInt32.ofNat (fromBE (be 4 (twos 4 v.toInt)))).toInt32 = v := by
  rw [← twos_int32, dec_u32]
  rfl
theorem dec_u64 (v : UInt64) : UInt64.ofNat (fromBE (be 8 v.toNat)) = v := by
  rw [fromBE_eq_beVal, beVal_be, Nat.mod_eq_of_lt (by have := v.toNat_lt; omega)]
  simp
theorem dec_i64 (v : Int64) : (UInt64.ofNat (fromBE (be 8 (twos 8 v.toInt)))).toInt64 = v := by
  rw [← twos_int64, dec_u64]
  rfl
theorem be1 (n : Nat) (h : n < 256) : be 1 n = [UInt8.ofNat n] := by
  rw [be_succ, be_zero, Nat.mod_eq_of_lt h]; rfl

/-- Parsing the value bytes of an atom. -/
theorem atomValue_ok [TagPayload P] (hr : Roomy) {a₀ a : Atom P} (hk : a₀.kind = a.kind) (hid : a₀.id = a.id)
    {vs : Nat} (hvs : (encAtom a).length = vs ∨ oneILInt a.kind) (hmax : (encAtom a).length ≤ maxTagSize)
    (hm : MapOk (.atom a))
    (hp : ∀ id₀ p₀ id p, a₀ = .payload id₀ p₀ → a = .payload id p →
      Parser.rprog F (TagPayload.deserialize p₀ (payloadBytes p).length) (payloadBytes p) = .ok p []) :
    Parser.tagValue F vs (.atom a₀) (encAtom a) = .ok (canon (.atom a)) [] := by
  cases a <;> cases a₀ <;> first | (simp [Atom.kind] at hk; done) | skip
  all_goals simp only [Atom.id] at hid
  all_goals first | subst hid | skip
  all_goals simp only [Parser.tagValue, canon]
  all_goals first
    | simp only [Atom.kind, oneILInt, or_false] at hvs
    | skip
  case int16.int16 =>
    subst hvs
    simp only [encAtom, Parser.atomValue]
    rw [Parser.bind_ok (fixed_ok _ (by simp)), dec_i16]
    rfl
  case uint16.uint16 =>
    subst hvs
    simp only [encAtom, Parser.atomValue]
    rw [Parser.bind_ok (fixed_ok _ (by simp)), dec_u16]
    rfl
  case int32.int32 =>
    subst hvs
    simp only [encAtom, Parser.atomValue]
    rw [Parser.bind_ok (fixed_ok _ (by simp)), dec_i32]
    rfl
  case uint32.uint32 =>
    subst hvs
    simp only [encAtom, Parser.atomValue]
    rw [Parser.bind_ok (fixed_ok _ (by simp)), dec_u32]
    rfl
  case int64.int64 =>
    subst hvs
    simp only [encAtom, Parser.atomValue]
    rw [Parser.bind_ok (fixed_ok _ (by simp)), dec_i64]
    rfl
  case uint64.uint64 =>
    subst hvs
    simp only [encAtom, Parser.atomValue]
    rw [Parser.bind_ok (fixed_ok _ (by simp)), dec_u64]
    rfl
  case bin32.bin32 =>
    subst hvs
    simp only [encAtom, Parser.atomValue]
    rw [Parser.bind_ok (fixed_ok _ (by simp)), dec_u32]
    rfl
  case bin64.bin64 =>
    subst hvs
    simp only [encAtom, Parser.atomValue]
    rw [Parser.bind_ok (fixed_ok _ (by simp)), dec_u64]
    rfl
  case null.null => subst hvs; rfl
  case bool.bool v _ _ => subst hvs; cases v <;> rfl
  case int8.int8 v _ _ =>
    subst hvs
    have hv := twos_int8 v
    have hl := v.toUInt8.toNat_lt
    simp only [encAtom, Parser.atomValue, ← hv, be1 _ hl]
    simp [Parser.bind_apply, Parser.byte]
  case uint8.uint8 v _ _ =>
    subst hvs
    simp only [encAtom, Parser.atomValue, be1 _ v.toNat_lt]
    simp [Parser.bind_apply, Parser.byte]
  case bin128.bin128 v _ _ =>
    simp only [encAtom] at hvs
    simp only [encAtom, Parser.atomValue]
    rw [if_pos (by rw [← hvs]; exact v.2)]
    have := take_eq v.2 []
    rw [List.append_nil] at this
    simp only [Parser.bind_assoc]
    rw [Parser.bind_ok this, dif_pos v.2]
    rfl
  case ilint.ilint v _ _ => 
    have := ilint_enc v []
    rw [List.append_nil] at this
    simp only [encAtom, Parser.atomValue, Parser.bind_assoc]
    rw [Parser.bind_ok this]
    rfl
  case signedILInt.signedILInt v _ _ =>
    have := ilint_enc (ILInt.encodeSign v) []
    rw [List.append_nil, ILInt.encodeSign_eq] at this
    simp only [encAtom, Parser.atomValue, Spec.signedILInt, Parser.bind_assoc]
    rw [Parser.bind_ok this, ILInt.decodeSign_encodeSign]
    rfl
  case raw.raw v _ _ =>
    subst hvs
    simp only [encAtom, Parser.atomValue, Parser.bind_assoc] at hmax ⊢
    rw [bytes_ok hr hmax, Parser.bind_ok (take_exact v)]
    rfl
  case byteArray.byteArray v _ =>
    subst hvs
    simp only [encAtom, Parser.atomValue, Parser.bind_assoc] at hmax ⊢
    rw [bytes_ok hr hmax, Parser.bind_ok (take_exact v)]
    rfl
  case bigInt.bigInt v _ =>
    subst hvs
    simp only [encAtom, Parser.atomValue, Parser.bind_assoc] at hmax ⊢
    rw [bytes_ok hr hmax, Parser.bind_ok (take_exact v)]
    rfl
  case string.string v _ _ =>
    subst hvs
    simp only [encAtom, Parser.atomValue, Parser.bind_assoc]
    have := utf8_ok hr hmax []
    rw [List.append_nil] at this
    rw [Parser.bind_ok this]
    rfl
  case bigDec.bigDec sc v _ _ _ =>
    simp only [encAtom, List.length_append, be_length] at hvs hmax
    subst hvs
    simp only [encAtom, Parser.atomValue]
    rw [if_pos (by omega)]
    simp only [Parser.bind_assoc]
    rw [Parser.bind_ok (i32_ok sc v), Nat.add_sub_cancel_left, bytes_ok hr (by omega), Parser.bind_ok (take_exact v)]
    rfl
  case ilintArray.ilintArray v _ _ =>
    subst hvs
    simp only [encAtom, Parser.atomValue, Parser.bind_assoc] at hmax ⊢
    have := ilintArray_ok hr rfl hmax []
    rw [List.append_nil] at this
    rw [Parser.bind_ok this]
    rfl
  case oid.oid v _ _ =>
    subst hvs
    simp only [encAtom, Parser.atomValue, Parser.bind_assoc] at hmax ⊢
    have := ilintArray_ok hr rfl hmax []
    rw [List.append_nil] at this
    rw [Parser.bind_ok this]
    rfl
  case range.range a b _ _ _ =>
    subst hvs
    simp only [encAtom, Parser.atomValue, Parser.bind_assoc] at hmax ⊢
    have := range_ok a b []
    rw [List.append_nil] at this
    rw [Parser.bind_ok this]
    rfl
  case version.version a b c d _ _ _ _ _ =>
    simp only [encAtom, List.length_append, be_length] at hvs hmax
    simp only [encAtom, Parser.atomValue]
    rw [if_pos (by omega)]
    simp only [Parser.bind_assoc, List.append_assoc]
    have := i32_ok d []
    rw [List.append_nil] at this
    rw [Parser.bind_ok (i32_ok a _), Parser.bind_ok (i32_ok b _), Parser.bind_ok (i32_ok c _), Parser.bind_ok this]
    rfl
  case strDict.strDict es _ _ =>
    subst hvs
    simp only [encAtom, Parser.atomValue, Parser.bind_assoc] at hmax ⊢
    have := strDict_ok hr hm [] hmax
    rw [List.append_nil] at this
    rw [Parser.bind_ok this]
    rfl
  case payload.payload p _ p₀ =>
    subst hvs
    simp only [encAtom, Parser.atomValue, Parser.bind_assoc]
    rw [Parser.bind_ok (hp _ p₀ _ p rfl rfl)]
    rfl

theorem enc_pos [TagPayload P] (t : Tag P) : 1 ≤ (enc t).length := by
  have := wrap_length_ge t.id (encValue t); unfold enc; omega

theorem enc_ge [TagPayload P] (t : Tag P) : (encValue t).length + 1 ≤ (enc t).length := wrap_length_ge _ _

theorem tags_ok [TagPayload P] (ts acc : List (Tag P)) (x : Bytes)
    (h : ∀ t ∈ ts, ∀ x, f (enc t ++ x) = .ok (canon t) x) :
    Parser.tags f ts.length acc (ts.flatMap enc ++ x) = .ok (acc ++ ts.map canon) x := by
  induction ts generalizing acc with
  | nil => simp [Parser.tags]
  | cons t ts ih =>
    simp only [List.length_cons, Parser.tags, List.flatMap_cons, List.append_assoc]
    rw [Parser.bind_ok (h t (by simp) _), ih _ (fun t ht => h t (by simp [ht]))]
    simp

theorem tagsWhile_ok [TagPayload P] (ts acc : List (Tag P)) (n : Nat) (hn : ts.length < n)
    (h : ∀ t ∈ ts, ∀ x, f (enc t ++ x) = .ok (canon t) x) :
    Parser.tagsWhile f 0 n acc (ts.flatMap enc) = .ok (acc ++ ts.map canon) [] := by
  induction ts generalizing acc n with
  | nil =>
    obtain ⟨n, rfl⟩ : ∃ m, n = m + 1 := ⟨n - 1, by simp at hn; omega⟩
    simp [Parser.tagsWhile]
  | cons t ts ih =>
    obtain ⟨n, rfl⟩ : ∃ m, n = m + 1 := ⟨n - 1, by omega⟩
    have := enc_pos t
    simp only [List.length_cons] at hn
    simp only [Parser.tagsWhile]
    rw [if_neg (by simp only [List.flatMap_cons, List.length_append]; omega)]
    rw [List.flatMap_cons, Parser.bind_ok (h t (by simp) _), ih _ n (by omega) (fun t ht => h t (by simp [ht]))]
    simp

theorem entries_ok [TagPayload P] (hr : Roomy) (es acc : List (String × Tag P))
    (hn : ((acc ++ es.map fun e => (e.1, canon e.2)).map (·.1)).Nodup) (x : Bytes)
    (hl : (es.flatMap fun e => Spec.stringTag e.1 ++ enc e.2).length ≤ maxTagSize)
    (h : ∀ e ∈ es, ∀ x, f (enc e.2 ++ x) = .ok (canon e.2) x) :
    Parser.entries f es.length acc ((es.flatMap fun e => Spec.stringTag e.1 ++ enc e.2) ++ x)
      = .ok (acc ++ es.map fun e => (e.1, canon e.2)) x := by
  induction es generalizing acc with
  | nil => simp [Parser.entries]
  | cons e es ih =>
    obtain ⟨k, v⟩ := e
    simp only [List.flatMap_cons, List.length_append] at hl
    have hk := wrap_length_ge 17 (Spec.utf8 k)
    simp only [Spec.stringTag] at hl
    simp only [List.length_cons, Parser.entries, List.flatMap_cons, List.append_assoc]
    rw [Parser.bind_ok (stringTag_ok hr (by omega) _), Parser.bind_ok (h (k, v) (by simp) _)]
    have hnew : k ∉ acc.map (·.1) := by
      intro hc
      simp only [List.map_append, List.map_cons, List.nodup_append] at hn
      exact hn.2.2 k hc k (by simp) rfl
    rw [HMap.insert_new _ hnew, ih _ (by simpa using hn) (by simp only [Spec.stringTag]; omega)
      (fun e he => h e (by simp [he]))]
    simp

theorem encSorted_tags [TagPayload P] (es : List (String × Tag P)) :
    encSorted (encEntries es) = (sortByKey es).flatMap fun e => Spec.stringTag e.1 ++ enc e.2 := by
  unfold encSorted
  rw [encEntries_eq, sortByKey_map es enc, List.flatMap_map]

theorem Stable.array_body (hf : Local f) (vs : Nat) : Stable fun slack => (do
    let count ← Parser.ilint
    if count.toNat > vs then Parser.fail .corruptedData
    else if 16 * count.toNat ≤ Env.allocMax then (do
      let r ← Parser.tags f count.toNat []
      Parser.ensureEmpty slack
      pure r)
    else Parser.panic : Parser (List (Tag P))) := by
  refine Stable.bind (q := fun _ => Parser.ilint) Local.ilint fun count => ?_
  refine Stable.ite (Stable.const (Local.fail _)) (Stable.ite ?_ (Stable.const Local.panic))
  exact Stable.bind (q := fun _ => Parser.tags f count.toNat []) (Local.tags hf _ _) fun r => Stable.finish r

theorem Stable.dict_body (hf : Local f) : Stable fun slack => (do
    let count ← Parser.ilint
    let r ← Parser.entries f count.toNat []
    Parser.ensureEmpty slack
    pure r : Parser (List (String × Tag P))) := by
  refine Stable.bind (q := fun _ => Parser.ilint) Local.ilint fun count => ?_
  exact Stable.bind (q := fun _ => Parser.entries f count.toNat []) (Local.entries hf _ _) fun r => Stable.finish r

/-- The payload condition in terms of parsers. -/
theorem Spec.ReadsBack.parse [TagPayload P] {e : Engine P} {p₀ p : P} (h : ReadsBack e p₀ p) :
    Parser.rprog (Parser.call e) (TagPayload.deserialize p₀ (payloadBytes p).length) (payloadBytes p) = .ok p [] := by
  obtain ⟨r, h1, h2⟩ := h
  have hs := sim_rprog (V := ByteArrayReader.view.toView)
    (sim_deserializeFuel e Factory.fuel ByteArrayReader ByteArrayReader.view.toView)
    (TagPayload.deserialize p₀ (payloadBytes p).length) p₀ (ByteArrayReader.new (payloadBytes p)) (payloadBytes p)
    (ByteArrayReader.view_new _)
  have h1' : RProg.run (Factory.deserializeFuel e Factory.fuel)
      (TagPayload.deserialize p₀ (payloadBytes p).length) (p₀, ByteArrayReader.new (payloadBytes p))
        = (.ok (), (p, r)) := h1
  rw [h1'] at hs
  change MatchesS _ _ (Parser.rprog (Parser.call e) _ _) at hs
  cases hq : Parser.rprog (Parser.call e) (TagPayload.deserialize p₀ (payloadBytes p).length) (payloadBytes p) with
  | ok a rest =>
    rw [hq] at hs
    obtain ⟨s', hs1, hs2⟩ := hs
    simp only [Prod.mk.injEq, true_and] at hs1
    obtain ⟨rfl, rfl⟩ := hs1
    have : rest = [] := by
      have h3 := hs2.2
      unfold ByteArrayReader.available at h2
      rw [h3]
      apply List.drop_of_length_le
      unfold ByteArrayReader.len at h2
      omega
    rw [this]
  | short => rw [hq] at hs; obtain ⟨_, _, _, hs, _⟩ := hs; simp at hs
  | fail e => rw [hq] at hs; obtain ⟨_, _, hs⟩ := hs; simp at hs
  | panic => rw [hq] at hs; obtain ⟨_, _, hs⟩ := hs; simp at hs
  | diverge => rw [hq] at hs; obtain ⟨_, _, hs⟩ := hs; simp at hs

theorem Spec.Supported.of [TagPayload P] {e : Engine P} {t u : Tag P} (h : Supported e t) (hw : Within u t) :
    Supported e u := fun _ hv => h _ (hv.trans hw)

omit [Env] in
theorem implicitTagSize_eq {id : UInt64} (h : id.toNat ≤ 15) :
    tagSizeToUsize (implicitTagSize id) = .ok (implicitLen id.toNat) := by
  have : ∀ n : Fin 16, tagSizeToUsize (implicitTagSize (UInt64.ofNat n.1)) = .ok (implicitLen n.1) := by decide
  have := this ⟨id.toNat, by omega⟩
  simpa using this

omit [Env] in
theorem isImplicitTag_iff {id : UInt64} : isImplicitTag id = true ↔ id.toNat ≤ 15 := by
  simp [isImplicitTag, UInt64.le_iff_toNat_le]

/-- Reading the value region. -/
theorem tagValueInto_ok [TagPayload P] (hf : ∀ o, Local (F o)) {t₀ t : Tag P} {size : Nat} (used : Bytes)
    (h : Parser.tagValue F size t₀ used = .ok t []) (hl : used.length = size ∨ used.length ≤ size ∧ (t.id = 10 ∨ t.id = 14))
    (x : Bytes) : Parser.tagValueInto F size t₀ (used ++ x) = .ok t x := by
  refine limited_ok (Stable.bind (q := fun _ => Parser.tagValue F size t₀) (Local.tagValue hf size t₀)
    fun t' => Stable.checkEmpty t') (by omega) ?_ x
  show (Parser.tagValue F size t₀ >>= Parser.checkEmpty _) used = _
  rw [Parser.bind_ok h]
  simp only [Parser.checkEmpty]
  rw [if_neg]
  rintro ⟨h1, h2, h3⟩
  rcases hl with hl | ⟨hl, h10 | h14⟩
  · simp at h3; omega
  · exact h1 h10
  · exact h2 h14


theorem maxValue_eq : maxValue = maxTagSize := rfl

/-- Reading back a tag whose value is read back. -/
theorem top_of_value [TagPayload P] {e : Engine P} {t : Tag P} (hs : SupportedHere e t)
    (h : ∀ t₀ size, t₀.kind = t.kind → t₀.id = t.id →
      (∀ id₀ p₀ id p, t₀ = .atom (.payload id₀ p₀) → t = .atom (.payload id p) → ReadsBack e p₀ p) →
      ((encValue t).length = size ∨ oneILInt t.kind) →
      Parser.tagValue (Parser.call e) size t₀ (encValue t) = .ok (canon t) []) (x : Bytes) :
    Parser.top e (enc t ++ x) = .ok (canon t) x := by
  obtain ⟨t₀, hc, hk, hid, hp⟩ := hs.made
  have hfits := hs.fits
  rw [maxValue_eq] at hfits
  rw [top_eq]
  unfold enc
  by_cases hi : t.id.toNat ≤ 15
  · rw [wrap_implicit hi, List.append_assoc, Parser.bind_ok (ilint_enc _ _), tagSize_implicit (isImplicitTag_iff.mpr hi),
      implicitTagSize_eq hi, Parser.lift_ok, Parser.pure_bind, hc, Parser.lift_ok, Parser.pure_bind]
    show Parser.tagValueInto (Parser.call e) _ t₀ _ = _
    rcases hs.sized hi with hl | ⟨hid', ho⟩
    · exact tagValueInto_ok (Local.call e) _ (h t₀ _ hk hid hp (.inl hl)) (.inl hl) x
    · refine tagValueInto_ok (Local.call e) _ (h t₀ _ hk hid hp (.inr ho)) (.inr ⟨?_, ?_⟩) x
      · have h9 : implicitLen t.id.toNat = 9 := by rcases hid' with h | h <;> rw [h] <;> rfl
        rw [h9]
        cases t with
        | atom a =>
          cases a <;> first | exact ho.elim | skip
          · exact ilint_le9 _
          · exact ilint_le9 _
        | _ => exact ho.elim
      · rw [canon_id]; exact hid'
  · have hi' : isImplicitTag t.id = false := by
      rcases Bool.eq_false_or_eq_true (isImplicitTag t.id) with h | h
      · exact absurd (isImplicitTag_iff.mp h) hi
      · exact h
    have h64 : (encValue t).length < 2 ^ 64 := by unfold maxTagSize at hfits; omega
    rw [wrap_explicit hi, List.append_assoc, List.append_assoc, Parser.bind_ok (ilint_enc _ _), tagSize_explicit hi',
      Parser.bind_assoc, Parser.bind_ok (ilint_enc_nat h64 _), tagSizeToUsize_eq hfits,
      Parser.lift_ok, Parser.pure_bind, hc, Parser.lift_ok, Parser.pure_bind]
    show Parser.tagValueInto (Parser.call e) _ t₀ _ = _
    exact tagValueInto_ok (Local.call e) _ (h t₀ _ hk hid hp (.inl rfl)) (.inl rfl) x

/-- Reading back a value, into a tag of the same type and id. -/
theorem value_enc [TagPayload P] (hr : Roomy) (e : Engine P) (t : Tag P) : MapsOk t → Supported e t →
    ∀ t₀ size, t₀.kind = t.kind → t₀.id = t.id →
      (∀ id₀ p₀ id p, t₀ = .atom (.payload id₀ p₀) → t = .atom (.payload id p) → ReadsBack e p₀ p) →
      ((encValue t).length = size ∨ oneILInt t.kind) →
      Parser.tagValue (Parser.call e) size t₀ (encValue t) = .ok (canon t) [] := by
  induction t using Tag.ind with
  | atom a =>
    intro hm hs t₀ size hk hid hp hl
    cases t₀ with
    | atom a₀ =>
      refine atomValue_ok hr hk hid hl (hs _ (.refl _)).fits hm.self ?_
      intro id₀ p₀ id p h1 h2
      exact (hp id₀ p₀ id p (by rw [h1]) (by rw [h2])).parse
    | _ => cases a <;> simp [Tag.kind, Atom.kind] at hk
  | seq id ts ih =>
    intro hm hs t₀ size hk hid hp hl
    have hl' : (encValue (.seq id ts)).length = size := hl.resolve_right (fun h => h)
    cases t₀ with
    | atom a => cases a <;> simp [Tag.kind, Atom.kind] at hk
    | seq id₀ ts₀ =>
      simp only [Tag.id] at hid
      subst hid
      simp only [Parser.tagValue, encValue, canon, encTags_eq, canonTags_eq] at hl' ⊢
      have hts := length_le_flatMap_ge enc enc_pos ts
      have := tagsWhile_ok (f := Parser.top e) ts [] (size + 1) (by omega)
        (fun t ht => top_of_value (hs.of (within_seq ht) _ (.refl _)) (ih t ht (hm.of (within_seq ht)) (hs.of (within_seq ht))))
      have h2 := limited_exact (Stable.tagsWhile (Local.top e) (size + 1) []) hl' this []
      rw [List.append_nil] at h2
      unfold Parser.seq
      rw [Parser.bind_ok h2]
      simp
    | _ => simp [Tag.kind] at hk
  | array id ts ih =>
    intro hm hs t₀ size hk hid hp hl
    have hl' : (encValue (.array id ts)).length = size := hl.resolve_right (fun h => h)
    have hfits := (hs _ (.refl _)).fits
    rw [hl', maxValue_eq] at hfits
    cases t₀ with
    | atom a => cases a <;> simp [Tag.kind, Atom.kind] at hk
    | array id₀ ts₀ =>
      simp only [Tag.id] at hid
      subst hid
      simp only [Parser.tagValue, encValue, canon, encTags_eq, canonTags_eq] at hl' ⊢
      have hts := length_le_flatMap_ge enc enc_pos ts
      have hle : ts.length ≤ size := by rw [← hl']; simp only [List.length_append]; omega
      have hc : (UInt64.ofNat ts.length).toNat = ts.length := toNat_ofNat_max (by omega)
      have h64 : ts.length < 2 ^ 64 := by unfold maxTagSize at hfits; omega
      have h1 := tags_ok (f := Parser.top e) ts [] []
        (fun t ht => top_of_value (hs.of (within_array ht) _ (.refl _)) (ih t ht (hm.of (within_array ht)) (hs.of (within_array ht))))
      rw [List.append_nil, List.nil_append] at h1
      have h2 := limited_exact (a := ts.map canon) (Stable.array_body (Local.top e) size) hl' (by
        rw [Parser.bind_ok (ilint_enc_nat h64 _), hc, if_neg (by omega)]
        unfold Roomy at hr
        rw [if_pos (by omega), Parser.bind_ok h1]
        rfl) []
      rw [List.append_nil] at h2
      unfold Parser.array
      rw [Parser.bind_ok h2]
      rfl
    | _ => simp [Tag.kind] at hk
  | dict id es ih =>
    intro hm hs t₀ size hk hid hp hl
    have hl' : (encValue (.dict id es)).length = size := hl.resolve_right (fun h => h)
    have hfits := (hs _ (.refl _)).fits
    rw [hl', maxValue_eq] at hfits
    cases t₀ with
    | atom a => cases a <;> simp [Tag.kind, Atom.kind] at hk
    | dict id₀ es₀ =>
      simp only [Tag.id] at hid
      subst hid
      simp only [Parser.tagValue, encValue, canon, encSorted_tags, canonEntries_eq] at hl' ⊢
      have hts := length_le_flatMap_ge (fun e : String × Tag P => Spec.stringTag e.1 ++ enc e.2)
        (fun e => by have := enc_pos e.2; simp only [List.length_append]; omega) (sortByKey es)
      rw [sortByKey_length] at hts
      have hfl : ((sortByKey es).flatMap fun e => Spec.stringTag e.1 ++ enc e.2).length ≤ maxTagSize := by
        simp only [List.length_append] at hl'; omega
      have hle : es.length ≤ size := by rw [← hl']; simp only [List.length_append]; omega
      have hc : (UInt64.ofNat es.length).toNat = es.length := toNat_ofNat_max (by omega)
      have h64 : es.length < 2 ^ 64 := by unfold maxTagSize at hfits; omega
      have hnd : (es.map (·.1)).Nodup := hm.self
      have h1 := entries_ok (f := Parser.top e) hr (sortByKey es) [] (by
          rw [List.nil_append, List.map_map]
          exact sortByKey_keys_nodup hnd) [] hfl
        (fun e he => top_of_value (hs.of (within_dict (mem_sortByKey.mp he)) _ (.refl _)) (ih e.1 e.2
          (mem_sortByKey.mp he) (hm.of (within_dict (mem_sortByKey.mp he))) (hs.of (within_dict (mem_sortByKey.mp he)))))
      rw [List.append_nil, List.nil_append, sortByKey_length] at h1
      have h2 := limited_exact (a := (sortByKey es).map fun e => (e.1, canon e.2))
        (Stable.dict_body (Local.top e)) hl' (by
        rw [Parser.bind_ok (ilint_enc_nat h64 _), hc, Parser.bind_ok h1]
        rfl) []
      rw [List.append_nil] at h2
      unfold Parser.dict
      rw [Parser.bind_ok h2, ← sortByKey_map es canon]
      rfl
    | _ => simp [Tag.kind] at hk

/-- Reading back a tag. -/
theorem top_enc [TagPayload P] (hr : Roomy) (e : Engine P) (t : Tag P) (hm : MapsOk t) (hs : Supported e t) (x : Bytes) :
    Parser.top e (enc t ++ x) = .ok (canon t) x :=
  top_of_value (hs _ (.refl _)) (value_enc hr e t hm hs) x

end
end Verif
