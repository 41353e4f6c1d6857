import Verif.Proof.Modes
import Verif.Props.Lying
/-!
# Debug and release builds (C111)
-/
namespace Verif.Props
open Verif Verif.Spec
variable {P : Type} [TagPayload P] {ω : Type} [Writer ω]

/-- **C111** A release build does what C28, C29, C53 and C54 say: `Model/Tag` and `Model/Util` are its functions. -/
theorem C111_release [Env] (t u : Tag P) (e : Engine P) :
    t.sizeM .wrapping = .ok t.size ∧ (t.serializeM .wrapping : Act TagErr ω Unit) = t.serialize ∧
    t.toBytesM .wrapping = t.toBytes ∧ tagsAreEqualM .wrapping t u = tagsAreEqual t u ∧
    tagCloneWithFactoryM .wrapping e t = tagCloneWithFactory e t := by
  have h1 : ∀ t : Tag P, t.sizeM .wrapping = .ok t.size := fun t =>
    (Near.size t).elim id fun h => nomatch h.1
  have h2 : ∀ {ω : Type} [Writer ω] (t : Tag P), (t.serializeM .wrapping : Act TagErr ω Unit) = t.serialize := fun t => by
    funext s; exact (NearA.serialize t s).elim id fun h => nomatch h.1
  have h3 : ∀ t : Tag P, t.toBytesM .wrapping = t.toBytes := fun t => by
    unfold Tag.toBytesM Tag.toBytes; rw [h1, h2]; rfl
  refine ⟨h1 t, h2 t, h3 t, ?_, ?_⟩
  · unfold tagsAreEqualM tagsAreEqual; rw [h3, h3]; rfl
  · unfold tagCloneWithFactoryM tagCloneWithFactory; rw [h3]

theorem toBytes_near [Env] (m : ArithMode) (t : Tag P) : Near m (t.toBytesM m) t.toBytes := by
  unfold Tag.toBytesM Tag.toBytes
  refine Near.bind (Near.size t) ?_
  split
  · rcases NearA.serialize (m := m) t VecWriter.new with h | ⟨hm, h⟩
    · rw [h]; exact .inl rfl
    · rcases hx : Tag.serializeM m t VecWriter.new with ⟨r, s⟩
      rw [hx] at h
      cases h
      exact .inr ⟨hm, rfl⟩
  · exact .inl rfl

/-- **C111** A debug build does the same or panics, for every tag, whatever its payloads report and write, and every
writer: `serialize` leaves the writer in the same state, `to_bytes` gives the same bytes or the same error,
`iltag_are_equal` and `iltag_clone_with_factory` the same verdict and the same tag. -/
theorem C111_same [Env] (t u : Tag P) (e : Engine P) (w : ω) :
    ((t.serializeM .checked w).1 = .panic ∨ t.serializeM .checked w = t.serialize w) ∧
    (t.toBytesM .checked = .panic ∨ t.toBytesM .checked = t.toBytes) ∧
    (tagsAreEqualM .checked t u = .panic ∨ tagsAreEqualM .checked t u = tagsAreEqual t u) ∧
    (tagCloneWithFactoryM .checked e t = .panic ∨ tagCloneWithFactoryM .checked e t = tagCloneWithFactory e t) := by
  have hb : ∀ t : Tag P, t.toBytesM .checked = .panic ∨ t.toBytesM .checked = t.toBytes := fun t =>
    (toBytes_near .checked t).elim .inr fun h => .inl h.2
  refine ⟨(NearA.serialize t w).elim .inr fun h => .inl h.2, hb t, ?_, ?_⟩
  · unfold tagsAreEqualM tagsAreEqual
    rcases hb t with h | h
    · rw [h]; exact .inl rfl
    · rw [h]
      cases t.toBytes with
      | ok bs =>
        rcases hb u with h | h
        · rw [h]; exact .inl rfl
        · rw [h]; exact .inr rfl
      | _ => exact .inr rfl
  · unfold tagCloneWithFactoryM tagCloneWithFactory
    rcases hb t with h | h
    · rw [h]; exact .inl rfl
    · rw [h]; exact .inr rfl

/-! ### Exactly when it panics -/

/-- `n` as a `u64`, or the panic of a checked build. -/
def fit (n : Nat) : Res TagErr UInt64 := if n < 2 ^ 64 then .ok (UInt64.ofNat n) else .panic

theorem fit_ok {n : Nat} (h : n < 2 ^ 64) : fit n = .ok (UInt64.ofNat n) := if_pos h
theorem fit_panic {n : Nat} (h : ¬ n < 2 ^ 64) : fit n = .panic := if_neg h

theorem fit_add {a b : Nat} (ha : a < 2 ^ 64) (hb : b < 2 ^ 64) :
    (addU64 .checked (UInt64.ofNat a) (UInt64.ofNat b) : Res TagErr UInt64) = fit (a + b) := by
  by_cases h : a + b < 2 ^ 64
  · rw [addU64_ofNat _ h, fit_ok h]
  · unfold addU64
    have ha : (UInt64.ofNat a).toNat = a := by simp; omega
    have hb : (UInt64.ofNat b).toNat = b := by simp; omega
    rw [ha, hb, if_neg h, fit_panic h]

theorem fit_add_bind {a b : Nat} (ha : a < 2 ^ 64) :
    (do let v ← fit b; addU64 .checked (UInt64.ofNat a) v : Res TagErr UInt64) = fit (a + b) := by
  by_cases h : b < 2 ^ 64
  · rw [fit_ok h]; exact fit_add ha h
  · rw [fit_panic h, fit_panic (by omega)]; rfl

theorem fit_sizeFrom (id : UInt64) (n : Nat) :
    (do let v ← fit n; sizeFromM .checked id v) = fit (framed id.toNat n) := by
  have hid := ilint_le9 id.toNat
  by_cases h : n < 2 ^ 64
  · have hn := ilint_le9 n
    rw [fit_ok h, Res.ok_bind]
    unfold sizeFromM framed
    rw [ilSize_eq, show ilSize (UInt64.ofNat n) = _ from ilSize_len (n := n) h]
    by_cases hi : id.toNat ≤ 15
    · rw [if_pos ((isImplicit_iff id).mpr hi), if_pos hi, Nat.add_zero, fit_add (by omega) h]
    · rw [if_neg (fun hc => hi ((isImplicit_iff id).mp hc)), if_neg hi, fit_add (by omega) (by omega), fit_ok (by omega),
        Res.ok_bind, fit_add (by omega) h]
  · rw [fit_panic h, fit_panic (by unfold framed; omega)]; rfl

theorem addressable_of {t u : Tag P} (h : Addressable t) (hw : Within u t) : Addressable u :=
  fun _ hv => h _ (hv.trans hw)

theorem le_sum {n : Nat} {l : List Nat} (h : n ∈ l) : n ≤ l.sum := by
  induction l with
  | nil => cases h
  | cons a l ih =>
    rw [List.sum_cons]
    rcases List.mem_cons.mp h with rfl | h
    · omega
    · have := ih h; omega

theorem atom_fit (a : Atom P) (h : own (.atom a) < 2 ^ 64) :
    Tag.valueSizeM .checked (.atom a) = fit (reportedValue (.atom a)) := by
  by_cases hp : ∃ id p, a = .payload id p
  · obtain ⟨id, p, rfl⟩ := hp
    exact (fit_ok h).symm
  · have ho : own (.atom a) = (encAtom a).length ∧ reportedValue (.atom a) = (encAtom a).length := by
      cases a with
      | payload id p => exact absurd ⟨id, p, rfl⟩ hp
      | _ => exact ⟨rfl, rfl⟩
    rw [ho.1] at h
    rw [ho.2, fit_ok h]
    exact Atom.valueSizeM_eq _ a (fun id p he => absurd ⟨id, p, he⟩ hp) h

theorem valueSize_fit (t : Tag P) : Addressable t → t.valueSizeM .checked = fit (reportedValue t) := by
  have hlist : ∀ (ts : List (Tag P)) (a : Nat), a < 2 ^ 64 →
      (∀ t ∈ ts, t.valueSizeM .checked = fit (reportedValue t)) →
      Tag.sizeSumM .checked (UInt64.ofNat a) ts = fit (a + reportedAll ts) := by
    intro ts
    induction ts with
    | nil => intro a ha _; exact (fit_ok ha).symm
    | cons t ts ih =>
      intro a ha h
      have h1 := fit_sizeFrom t.id (reportedValue t)
      rw [← h t (by simp)] at h1
      unfold Tag.sizeSumM
      rw [show (Tag.valueSizeM .checked t >>= fun v => sizeFromM .checked t.id v >>= fun s =>
        addU64 .checked (UInt64.ofNat a) s >>= fun acc' => Tag.sizeSumM .checked acc' ts) =
        ((Tag.valueSizeM .checked t >>= fun v => sizeFromM .checked t.id v) >>= fun s =>
        addU64 .checked (UInt64.ofNat a) s >>= fun acc' => Tag.sizeSumM .checked acc' ts) from by
          cases Tag.valueSizeM .checked t <;> rfl, h1]
      unfold reportedAll
      by_cases hf : framed t.id.toNat (reportedValue t) < 2 ^ 64
      · rw [fit_ok hf, Res.ok_bind, fit_add ha hf]
        by_cases hs : a + framed t.id.toNat (reportedValue t) < 2 ^ 64
        · rw [fit_ok hs, Res.ok_bind, ih _ hs fun u hu => h u (by simp [hu]), Nat.add_assoc]
        · rw [fit_panic hs, fit_panic (by omega)]; rfl
      · rw [fit_panic hf, fit_panic (by omega)]; rfl
  have hent : ∀ (es : List (String × Tag P)) (a : Nat), a < 2 ^ 64 →
      (∀ k t, (k, t) ∈ es → (stringTag k).length < 2 ^ 64) →
      (∀ k t, (k, t) ∈ es → t.valueSizeM .checked = fit (reportedValue t)) →
      Tag.entriesSumM .checked (UInt64.ofNat a) es = fit (a + reportedEntries es) := by
    intro es
    induction es with
    | nil => intro a ha _ _; exact (fit_ok ha).symm
    | cons e es ih =>
      obtain ⟨k, t⟩ := e
      intro a ha hk h
      have hk' := hk k t (by simp)
      have h1 := fit_sizeFrom t.id (reportedValue t)
      rw [← h k t (by simp)] at h1
      unfold Tag.entriesSumM
      rw [stringTagSizeM_eq _ hk', Res.ok_bind]
      rw [show (Tag.valueSizeM .checked t >>= fun v => sizeFromM .checked t.id v >>= fun s =>
        addU64 .checked (UInt64.ofNat (stringTag k).length) s >>= fun x => addU64 .checked (UInt64.ofNat a) x >>=
          fun acc' => Tag.entriesSumM .checked acc' es) =
        ((Tag.valueSizeM .checked t >>= fun v => sizeFromM .checked t.id v) >>= fun s =>
        addU64 .checked (UInt64.ofNat (stringTag k).length) s >>= fun x => addU64 .checked (UInt64.ofNat a) x >>=
          fun acc' => Tag.entriesSumM .checked acc' es) from by cases Tag.valueSizeM .checked t <;> rfl, h1]
      unfold reportedEntries
      by_cases hf : framed t.id.toNat (reportedValue t) < 2 ^ 64
      · rw [fit_ok hf, Res.ok_bind, fit_add hk' hf]
        by_cases hx : (stringTag k).length + framed t.id.toNat (reportedValue t) < 2 ^ 64
        · rw [fit_ok hx, Res.ok_bind, fit_add ha hx]
          by_cases hs : a + ((stringTag k).length + framed t.id.toNat (reportedValue t)) < 2 ^ 64
          · rw [fit_ok hs, Res.ok_bind, ih _ hs (fun k u hu => hk k u (by simp [hu])) fun k u hu => h k u (by simp [hu]),
              Nat.add_assoc]
          · rw [fit_panic hs, fit_panic (by omega)]; rfl
        · rw [fit_panic hx, fit_panic (by omega)]; rfl
      · rw [fit_panic hf, fit_panic (by omega)]; rfl
  induction t using Tag.ind with
  | atom a => exact fun ha => atom_fit a (ha _ (.refl _))
  | seq id ts ih =>
    intro ha
    have := hlist ts 0 (by omega) fun t ht => ih t ht (addressable_of ha (within_seq ht))
    rwa [Nat.zero_add] at this
  | array id ts ih =>
    intro ha
    have h := ha _ (.refl _)
    simp only [own] at h
    have h9 := ilint_le9 ts.length
    have := hlist ts 0 (by omega) fun t ht => ih t ht (addressable_of ha (within_array ht))
    rw [Nat.zero_add] at this
    unfold Tag.valueSizeM reportedValue
    rw [show (0 : UInt64) = UInt64.ofNat 0 from rfl, this, ilSize_len h, fit_add_bind (by omega)]
  | dict id es ih =>
    intro ha
    have h := ha _ (.refl _)
    simp only [own] at h
    have h9 := ilint_le9 es.length
    have hk : ∀ k t, (k, t) ∈ es → (stringTag k).length < 2 ^ 64 := fun k t hm => by
      have : (stringTag k).length ≤ (es.map fun e => (stringTag e.1).length).sum :=
        le_sum (List.mem_map.mpr ⟨(k, t), hm, rfl⟩)
      omega
    have := hent es 0 (by omega) hk fun k t ht => ih k t ht (addressable_of ha (within_dict ht))
    rw [Nat.zero_add] at this
    unfold Tag.valueSizeM reportedValue
    rw [show (0 : UInt64) = UInt64.ofNat 0 from rfl, this, ilSize_len (by omega), fit_add_bind (by omega)]

/-- **C111** In a debug build `size` is the size reported, or a panic if that is 2^64 or more. -/
theorem C111_size (t : Tag P) (ha : Addressable t) :
    t.sizeM .checked = if reported t < 2 ^ 64 then .ok (UInt64.ofNat (reported t)) else .panic := by
  unfold Tag.sizeM
  rw [valueSize_fit t ha, fit_sizeFrom]
  rfl

/-! ### Agreement where nothing overflows -/

omit [TagPayload P] in
theorem bind_not_panic {α β : Type} {r : Res TagErr α} {f : α → Res TagErr β} (h : r >>= f ≠ .panic) : r ≠ .panic := by
  rintro rfl; exact h rfl

theorem wrap_agree {t : Tag P} {A : Act TagErr ω Unit} (h : t.valueSizeM .checked ≠ .panic) :
    serializeWithM t.id (t.valueSizeM .checked) A = Tag.serializeWith t.id t.valueSize A := by
  rcases Near.valueSize (m := .checked) t with h' | h'
  · rw [h']; rfl
  · exact absurd h'.2 h

theorem value_agree (t : Tag P) : t.valueSizeM .checked ≠ .panic →
    (t.serializeValueM .checked : Act TagErr ω Unit) = t.serializeValue := by
  have hlist : ∀ (ts : List (Tag P)) (a : UInt64), (∀ t ∈ ts, t.valueSizeM .checked ≠ .panic →
      (t.serializeValueM .checked : Act TagErr ω Unit) = t.serializeValue) → Tag.sizeSumM .checked a ts ≠ .panic →
      (Tag.serializeSeqM .checked ts : Act TagErr ω Unit) = Tag.serializeSeq ts := by
    intro ts
    induction ts with
    | nil => intro _ _ _; rfl
    | cons t ts ih =>
      intro a h hn
      unfold Tag.sizeSumM at hn
      have h1 := bind_not_panic hn
      unfold Tag.serializeSeqM Tag.serializeSeq
      rw [wrap_agree h1, h t (by simp) h1]
      cases hv : Tag.valueSizeM .checked t with
      | ok v =>
        rw [hv, Res.ok_bind] at hn
        have h2 := bind_not_panic hn
        cases hf : sizeFromM .checked t.id v with
        | ok f =>
          rw [hf, Res.ok_bind] at hn
          cases ha : (addU64 .checked a f : Res TagErr UInt64) with
          | ok b =>
            rw [ha, Res.ok_bind] at hn
            rw [ih b (fun u hu => h u (by simp [hu])) hn]
          | panic => exact absurd (by rw [ha]; rfl) hn
          | _ => rcases Near.add (m := .checked) a f with hx | hx <;> rw [ha] at hx <;> simp at hx
        | panic => exact absurd hf h2
        | _ => rcases Near.sizeFrom (m := .checked) t.id v with hx | hx <;> rw [hf] at hx <;> simp at hx
      | panic => exact absurd hv h1
      | _ => rcases Near.valueSize (m := .checked) t with hx | hx <;> rw [hv] at hx <;> simp at hx
  have hent : ∀ (es : List (String × Tag P)) (a : UInt64), (∀ k t, (k, t) ∈ es → t.valueSizeM .checked ≠ .panic →
      (t.serializeValueM .checked : Act TagErr ω Unit) = t.serializeValue) → Tag.entriesSumM .checked a es ≠ .panic →
      (Tag.entrySerializersM .checked es : List (String × Act TagErr ω Unit)) = Tag.entrySerializers es := by
    intro es
    induction es with
    | nil => intro _ _ _; rfl
    | cons e es ih =>
      obtain ⟨k, t⟩ := e
      intro a h hn
      unfold Tag.entriesSumM at hn
      cases hk : stringTagSizeM .checked k with
      | ok kk =>
        rw [hk, Res.ok_bind] at hn
        have h1 := bind_not_panic hn
        unfold Tag.entrySerializersM Tag.entrySerializers
        rw [wrap_agree h1, h k t (by simp) h1]
        cases hv : Tag.valueSizeM .checked t with
        | ok v =>
          rw [hv, Res.ok_bind] at hn
          have h2 := bind_not_panic hn
          cases hf : sizeFromM .checked t.id v with
          | ok f =>
            rw [hf, Res.ok_bind] at hn
            cases hb : (addU64 .checked kk f : Res TagErr UInt64) with
            | ok b =>
              rw [hb, Res.ok_bind] at hn
              cases ha : (addU64 .checked a b : Res TagErr UInt64) with
              | ok c =>
                rw [ha, Res.ok_bind] at hn
                rw [ih c (fun k u hu => h k u (by simp [hu])) hn]
              | panic => exact absurd (by rw [ha]; rfl) hn
              | _ => rcases Near.add (m := .checked) a b with hx | hx <;> rw [ha] at hx <;> simp at hx
            | panic => exact absurd (by rw [hb]; rfl) hn
            | _ => rcases Near.add (m := .checked) kk f with hx | hx <;> rw [hb] at hx <;> simp at hx
          | panic => exact absurd hf h2
          | _ => rcases Near.sizeFrom (m := .checked) t.id v with hx | hx <;> rw [hf] at hx <;> simp at hx
        | panic => exact absurd hv h1
        | _ => rcases Near.valueSize (m := .checked) t with hx | hx <;> rw [hv] at hx <;> simp at hx
      | panic => exact absurd (by rw [hk]; rfl) hn
      | _ => rcases Near.stringTag (m := .checked) k with hx | hx <;> rw [hk] at hx <;> simp at hx
  induction t using Tag.ind with
  | atom a => intro _; rfl
  | seq id ts ih => intro h; exact hlist ts 0 ih h
  | array id ts ih =>
    intro h
    unfold Tag.valueSizeM at h
    unfold Tag.serializeValueM Tag.serializeValue
    rw [hlist ts 0 ih (bind_not_panic h)]
  | dict id es ih =>
    intro h
    unfold Tag.valueSizeM at h
    unfold Tag.serializeValueM Tag.serializeValue
    rw [hent es 0 ih (bind_not_panic h)]

/-- **C111** `serialize` of a tag whose value reports less than 2^64 bytes is that of a release build, for every writer;
if it reports more and the id is explicit, a debug build writes the id and panics. -/
theorem C111_serialize (t : Tag P) (ha : Addressable t) :
    (reportedValue t < 2 ^ 64 → (t.serializeM .checked : Act TagErr ω Unit) = t.serialize) ∧
    (2 ^ 64 ≤ reportedValue t → 15 < t.id.toNat →
      (t.serializeM .checked : Act TagErr ω Unit) = do Ser.serializeILInt t.id; Act.panic) := by
  have hv := valueSize_fit t ha
  constructor
  · intro h
    have hn : t.valueSizeM .checked ≠ .panic := by rw [hv, fit_ok h]; exact nofun
    unfold Tag.serializeM Tag.serialize
    rw [wrap_agree hn, value_agree t hn]
  · intro h hi
    unfold Tag.serializeM serializeWithM
    rw [hv, fit_panic (by omega), if_neg (fun hc => by have := (isImplicit_iff t.id).mp hc; omega)]
    rfl

/-- **C111** `to_bytes` of a debug build is that of a release build if the size reported is below 2^64, and else a
panic. -/
theorem C111_to_bytes [Env] (t : Tag P) (ha : Addressable t) :
    t.toBytesM .checked = if reported t < 2 ^ 64 then t.toBytes else .panic := by
  have hs := C111_size t ha
  unfold Tag.toBytesM
  by_cases h : reported t < 2 ^ 64
  · have hr : reportedValue t < 2 ^ 64 := by unfold reported framed at h; omega
    rw [(C111_serialize t ha).1 hr, if_pos h]
    rw [if_pos h] at hs
    rcases Near.size (m := .checked) t with h' | h'
    · rw [h']; rfl
    · rw [h'.2] at hs; cases hs
  · rw [hs, if_neg h, if_neg h]; rfl

/-- **C111** For tags that report their sizes truthfully the builds agree in everything, up to 2^64 bytes. -/
theorem C111_honest [Env] (t : Tag P) (hp : PayloadsOk t) (hl : (enc t).length < 2 ^ 64) :
    t.sizeM .checked = .ok t.size ∧ (t.serializeM .checked : Act TagErr ω Unit) = t.serialize ∧
    t.toBytesM .checked = t.toBytes := by
  have h1 := encValue_lt t
  have h2 : t.sizeM .checked = .ok t.size := by rw [t.sizeM_eq _ hp hl, t.size_eq hp hl]
  have hn : t.valueSizeM .checked ≠ .panic := by rw [t.valueSizeM_eq _ hp (by omega)]; exact nofun
  have h3 : ∀ {ω : Type} [Writer ω], (t.serializeM .checked : Act TagErr ω Unit) = t.serialize := by
    intro ω _
    unfold Tag.serializeM Tag.serialize
    rw [wrap_agree hn, value_agree t hn]
  refine ⟨h2, h3, ?_⟩
  unfold Tag.toBytesM Tag.toBytes
  rw [h2, h3]; rfl

/-- **C111** So for these tags the comparison and the copy are the same too. -/
theorem C111_honest_util [Env] (t u : Tag P) (e : Engine P) (hp : PayloadsOk t) (hl : (enc t).length < 2 ^ 64)
    (hp' : PayloadsOk u) (hl' : (enc u).length < 2 ^ 64) :
    tagsAreEqualM .checked t u = tagsAreEqual t u ∧
    tagCloneWithFactoryM .checked e t = tagCloneWithFactory e t := by
  have h1 := (C111_honest (ω := VecWriter) t hp hl).2.2
  have h2 := (C111_honest (ω := VecWriter) u hp' hl').2.2
  have h3 := (C111_release (ω := VecWriter) t u e).2.2
  rw [← h3.2.1, ← h3.2.2]
  unfold tagsAreEqualM tagCloneWithFactoryM
  rw [h1, h2, (C111_release (ω := VecWriter) t u e).2.2.1, (C111_release (ω := VecWriter) u t e).2.2.1]
  exact ⟨rfl, rfl⟩

/-- **C111** The copy panics in a debug build exactly if the size reported by the tag is too large, the comparison exactly if
that of the first tag is, or that of the second one and the first can be serialized. -/
theorem C111_util [Env] (t u : Tag P) (e : Engine P) (ha : Addressable t) (hu : Addressable u) :
    tagCloneWithFactoryM .checked e t = (if reported t < 2 ^ 64 then tagCloneWithFactory e t else .panic) ∧
    tagsAreEqualM .checked t u =
      if 2 ^ 64 ≤ reported t then .panic
      else if 2 ^ 64 ≤ reported u ∧ t.toBytes.isOk then .panic
      else tagsAreEqual t u := by
  have h1 := C111_to_bytes t ha
  have h2 := C111_to_bytes u hu
  constructor
  · unfold tagCloneWithFactoryM tagCloneWithFactory
    rw [h1]
    by_cases h : reported t < 2 ^ 64
    · rw [if_pos h, if_pos h]
    · rw [if_neg h, if_neg h]; rfl
  · unfold tagsAreEqualM tagsAreEqual
    rw [h1, h2]
    by_cases h : reported t < 2 ^ 64
    · rw [if_pos h, if_neg (Nat.not_le.mpr h)]
      by_cases h' : reported u < 2 ^ 64
      · rw [if_pos h', if_neg (fun hc => absurd hc.1 (Nat.not_le.mpr h'))]
        cases t.toBytes <;> cases u.toBytes <;> rfl
      · rw [if_neg h']
        cases hb : t.toBytes <;> simp [Res.isOk, Nat.not_lt.mp h']
    · rw [if_neg h, if_pos (Nat.not_lt.mp h)]

/-! ### Cases -/

section
attribute [local instance] bigEnv

/-- A sequence of two payloads that report 2^63 bytes each. -/
def twoHalves : Tag Liar :=
  .seq 22 [.atom (.payload 50 ⟨9223372036854775808, [7]⟩), .atom (.payload 50 ⟨9223372036854775808, [8]⟩)]

/-- **C111** With payloads that report huge sizes a release build writes a size field that has wrapped around, here 20 for a
value of 22 bytes; a debug build writes the id and panics. -/
theorem C111_wrapped : twoHalves.toBytes = .ok
      [22, 20, 50, 255, 127, 255, 255, 255, 255, 255, 255, 8, 7, 50, 255, 127, 255, 255, 255, 255, 255, 255, 8, 8] ∧
    twoHalves.toBytesM .checked = .panic ∧
    (match twoHalves.serializeM .checked VecWriter.new with | (.panic, w) => decide (w.vector = [22]) | _ => false) = true ∧
    2 ^ 64 ≤ reportedValue twoHalves := by decide +kernel

example : Addressable twoHalves := by
  intro u hu
  cases hu with
  | refl => decide
  | seq hm hw =>
    simp only [List.mem_cons, List.not_mem_nil, or_false] at hm
    rcases hm with rfl | rfl <;> cases hw <;> decide

end


section
attribute [local instance] bigEnv
example : let t : Tag Empty := .dict 30 [("b", .seq 22 [.atom (.uint8 3 7)]), ("a", .atom (.string 17 "é"))]
    t.toBytesM .checked = t.toBytes ∧ tagsAreEqualM .checked t t = .ok true ∧
    tagCloneWithFactoryM .checked (Engine.std true) t = tagCloneWithFactory (Engine.std true) t := by
  refine ⟨(C111_honest (ω := VecWriter) _ (sample_payloads _) (by decide +kernel)).2.2, ?_,
    (C111_honest_util _ (.atom (.null 0)) _ (sample_payloads _) (by decide +kernel) (sample_payloads _) (by decide +kernel)).2⟩
  rw [(C111_honest_util _ _ (Engine.std true) (sample_payloads _) (by decide +kernel) (sample_payloads _) (by decide +kernel)).1]
  decide +kernel

end

end Verif.Props
