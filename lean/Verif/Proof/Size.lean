import Verif.Model.Size
import Verif.Proof.Ser
/-!
# No overflow in sizes
-/
namespace Verif
open Spec
variable {P : Type}

theorem addU64_ofNat (m : ArithMode) {a b : Nat} (h : a + b < 2 ^ 64) :
    (addU64 m (UInt64.ofNat a) (UInt64.ofNat b) : Res TagErr UInt64) = .ok (UInt64.ofNat (a + b)) := by
  unfold addU64
  have ha : (UInt64.ofNat a).toNat = a := by simp; omega
  have hb : (UInt64.ofNat b).toNat = b := by simp; omega
  rw [ha, hb, if_pos h, UInt64.ofNat_add]

theorem sumM_eq {α : Type} (m : ArithMode) (f : α → Res TagErr UInt64) (g : α → Bytes) (l : List α) (a : Nat)
    (h : ∀ x ∈ l, f x = .ok (UInt64.ofNat (g x).length)) (hl : a + (l.flatMap g).length < 2 ^ 64) :
    sumM m f (UInt64.ofNat a) l = .ok (UInt64.ofNat (a + (l.flatMap g).length)) := by
  induction l generalizing a with
  | nil => simp [sumM]
  | cons x l ih =>
    simp only [List.flatMap_cons, List.length_append] at hl ⊢
    simp only [sumM, h x (by simp), Res.ok_bind]
    rw [addU64_ofNat m (by omega), Res.ok_bind, ih _ (fun y hy => h y (by simp [hy])) (by omega), Nat.add_assoc]

theorem stringTagSizeM_eq (m : ArithMode) {s : String} (h : (stringTag s).length < 2 ^ 64) :
    stringTagSizeM m s = .ok (UInt64.ofNat (stringTag s).length) := by
  have h1 := stringTag_length s
  unfold stringTagSizeM
  rw [utf8_eq, ilSize_len (by omega), show (1 : UInt64) = UInt64.ofNat 1 from rfl, addU64_ofNat m (by omega),
    Res.ok_bind]
  unfold lenU64
  rw [addU64_ofNat m (by omega), h1]

theorem sizeFromM_eq (m : ArithMode) (id : UInt64) {v : Bytes} (h : (wrap id v).length < 2 ^ 64) :
    sizeFromM m id (UInt64.ofNat v.length) = .ok (UInt64.ofNat (wrap id v).length) := by
  have h1 := wrap_length id v
  unfold sizeFromM
  rw [ilSize_eq, show ilSize (UInt64.ofNat v.length) = _ from ilSize_len (n := v.length) (by omega)]
  by_cases hi : id.toNat ≤ 15
  · rw [if_pos hi] at h1
    rw [if_pos ((isImplicit_iff id).mpr hi), addU64_ofNat m (by omega), h1]
    rfl
  · rw [if_neg hi] at h1
    rw [if_neg (fun hc => hi ((isImplicit_iff id).mp hc)), addU64_ofNat m (by omega), Res.ok_bind,
      addU64_ofNat m (by omega), h1]

theorem Atom.valueSizeM_eq [TagPayload P] (m : ArithMode) (a : Atom P) (hp : ∀ id p, a = .payload id p → PayloadOk p)
    (hl : (encAtom a).length < 2 ^ 64) : a.valueSizeM m = .ok (UInt64.ofNat (encAtom a).length) := by
  have h0 := a.valueSize_eq hp hl
  have harr : ∀ v : List UInt64, (encILInts v).length < 2 ^ 64 →
      sumM m (fun x => .ok (ilSize x)) (ilSize (lenU64 v.length)) v = .ok (UInt64.ofNat (encILInts v).length) := by
    intro v hv
    have := encILInts_count v
    rw [ilSize_len (by omega), sumM_eq m _ (fun v => Spec.ilint v.toNat) v _ (fun x _ => by rw [ilSize_eq])]
    · simp [encILInts]
    · simpa [encILInts] using hv
  cases a with
  | bigDec id sc v =>
    simp only [encAtom, List.length_append, be_length] at hl ⊢
    exact addU64_ofNat m hl
  | ilintArray id v => exact harr v hl
  | oid id v => exact harr v hl
  | strDict id es =>
    simp only [encAtom, List.length_append] at hl
    have h1 := encSorted_count (es.map fun e => (e.1, stringTag e.2))
    have h2 := encSorted_length (es.map fun e => (e.1, stringTag e.2))
    simp only [List.length_map, List.flatMap_map] at h1 h2
    simp only [Atom.valueSizeM]
    rw [show (0 : UInt64) = UInt64.ofNat 0 from rfl, sumM_eq m _ (fun e => stringTag e.1 ++ stringTag e.2) es 0,
      Res.ok_bind, ilSize_len (by omega), addU64_ofNat m (by omega)]
    · simp only [encAtom, List.length_append, h2, Nat.zero_add]
    · intro e he
      have h3 := mem_flatMap_length (g := fun e : String × String => stringTag e.1 ++ stringTag e.2) he
      simp only [List.length_append] at h3
      simp only [stringTagSizeM_eq m (s := e.1) (by omega), stringTagSizeM_eq m (s := e.2) (by omega), Res.ok_bind]
      rw [addU64_ofNat m (by omega), List.length_append]
    · omega
  | _ => exact congrArg Res.ok h0

theorem Tag.valueSizeM_eq [TagPayload P] (m : ArithMode) (t : Tag P) : PayloadsOk t → (encValue t).length < 2 ^ 64 →
    t.valueSizeM m = .ok (UInt64.ofNat (encValue t).length) := by
  have hlist : ∀ (ts : List (Tag P)) (a : Nat), (∀ t ∈ ts, PayloadsOk t → (encValue t).length < 2 ^ 64 →
      t.valueSizeM m = .ok (UInt64.ofNat (encValue t).length)) → (∀ t ∈ ts, PayloadsOk t) →
      a + (encTags ts).length < 2 ^ 64 →
      Tag.sizeSumM m (UInt64.ofNat a) ts = .ok (UInt64.ofNat (a + (encTags ts).length)) := by
    intro ts
    induction ts with
    | nil => intro a _ _ _; simp [Tag.sizeSumM, encTags]
    | cons t ts ih' =>
      intro a ih hp hl
      simp only [encTags, List.length_append] at hl ⊢
      have h1 := wrap_value_le t.id (encValue t)
      simp only [Tag.sizeSumM]
      rw [ih t (by simp) (hp t (by simp)) (by omega), Res.ok_bind, sizeFromM_eq m _ (by omega), Res.ok_bind,
        addU64_ofNat m (by omega), Res.ok_bind,
        ih' _ (fun u hu => ih u (by simp [hu])) (fun u hu => hp u (by simp [hu])) (by omega), Nat.add_assoc]
  have hent : ∀ (es : List (String × Tag P)) (a : Nat), (∀ k t, (k, t) ∈ es → PayloadsOk t →
      (encValue t).length < 2 ^ 64 → t.valueSizeM m = .ok (UInt64.ofNat (encValue t).length)) →
      (∀ k t, (k, t) ∈ es → PayloadsOk t) →
      a + (es.flatMap fun e => stringTag e.1 ++ enc e.2).length < 2 ^ 64 →
      Tag.entriesSumM m (UInt64.ofNat a) es
        = .ok (UInt64.ofNat (a + (es.flatMap fun e => stringTag e.1 ++ enc e.2).length)) := by
    intro es
    induction es with
    | nil => intro a _ _ _; simp [Tag.entriesSumM]
    | cons e es ih' =>
      obtain ⟨k, t⟩ := e
      intro a ih hp hl
      simp only [List.flatMap_cons, List.length_append] at hl ⊢
      have h1 := encValue_lt t
      simp only [Tag.entriesSumM]
      rw [stringTagSizeM_eq m (by omega), Res.ok_bind, ih k t (by simp) (hp k t (by simp)) (by omega), Res.ok_bind,
        sizeFromM_eq m _ (v := encValue t) (by unfold enc at hl; omega), Res.ok_bind,
        addU64_ofNat m (by unfold enc at hl; omega), Res.ok_bind,
        addU64_ofNat m (by unfold enc at hl; omega), Res.ok_bind,
        ih' _ (fun k u hu => ih k u (by simp [hu])) (fun k u hu => hp k u (by simp [hu])) (by unfold enc at hl ⊢; omega)]
      unfold enc
      simp only [Nat.add_assoc]
  induction t using Tag.ind with
  | atom a =>
    intro hp hl
    exact Atom.valueSizeM_eq m a (fun id p h => hp id p (by subst h; exact .refl _)) hl
  | seq id ts ih =>
    intro hp hl
    simp only [encValue] at hl
    have := hlist ts 0 ih (fun t ht => hp.of (within_seq ht)) (by omega)
    rw [Nat.zero_add] at this
    exact this
  | array id ts ih =>
    intro hp hl
    have h1 := encTags_count ts
    simp only [Tag.valueSizeM, encValue, List.length_append] at hl ⊢
    rw [show (0 : UInt64) = UInt64.ofNat 0 from rfl, hlist ts 0 ih (fun t ht => hp.of (within_array ht)) (by omega),
      Res.ok_bind, ilSize_len (by omega), addU64_ofNat m (by omega), Nat.zero_add]
  | dict id es ih =>
    intro hp hl
    have h1 := encEntries_count es
    have h2 := encSorted_length (encEntries es)
    simp only [encEntries_eq, List.flatMap_map] at h2
    simp only [Tag.valueSizeM, encValue, List.length_append] at hl ⊢
    rw [encEntries_eq] at h1 hl ⊢
    rw [show (0 : UInt64) = UInt64.ofNat 0 from rfl, hent es 0 ih (fun k t ht => hp.of (within_dict ht)) (by omega),
      Res.ok_bind, ilSize_len (by omega), addU64_ofNat m (by omega), h2, Nat.zero_add]

theorem Tag.sizeM_eq [TagPayload P] (m : ArithMode) (t : Tag P) (hp : PayloadsOk t) (hl : (enc t).length < 2 ^ 64) :
    t.sizeM m = .ok (UInt64.ofNat (enc t).length) := by
  have h1 := encValue_lt t
  unfold Tag.sizeM
  rw [t.valueSizeM_eq m hp (by omega), Res.ok_bind]
  exact sizeFromM_eq m _ hl

end Verif
