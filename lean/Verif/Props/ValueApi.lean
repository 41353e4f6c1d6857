import Verif.Proof.Nested
import Verif.Proof.Header
import Verif.Props.Grammar
import Verif.Props.Readers
/-!
# C82: `deserialize_value` called directly, and C83: limited readers inside limited readers
-/
namespace Verif.Props
open Verif Verif.Spec
variable {P : Type} [TagPayload P]
set_option linter.unusedSectionVars false

/-! ### C82 -/

/-- A tag that is neither of the two ILInt tags nor a custom payload. -/
def Sized (t : Tag P) : Prop := t.kind ≠ .ilint ∧ t.kind ≠ .signedILInt ∧ t.kind ≠ .payload

/-- **C82** A limit of at least the declared size makes no difference to the value: the outcome, the tag and the state of
the underlying reader are the same as without it, whatever the reader and the content. -/
theorem C82_limit [Env] (e : Engine P) (t : Tag P) (ht : Sized t) (size k : Nat) (hs : size ≤ maxValue) (hk : size ≤ k)
    {σ : Type} [Reader σ] (s : σ) :
    ∃ a, t.deserializeValue (Factory.methods e) size (t, (⟨s, k⟩ : Limited σ)) =
        ((t.deserializeValue (Factory.methods e) size (t, s)).1,
          (t.deserializeValue (Factory.methods e) size (t, s)).2.1,
          ⟨(t.deserializeValue (Factory.methods e) size (t, s)).2.2, a⟩) ∧
      k - size ≤ a ∧ ((t.deserializeValue (Factory.methods e) size (t, s)).1 = .ok () → a = k - size) := by
  obtain ⟨a, h1, h2, h3, h4⟩ := Ex.tagValue (A := fun _ _ => True) Adm.true (Rep.methods Adm.true e) hs t ht
    inferInstance σ inferInstance t s k hk
  exact ⟨a, h4, h1, fun h => h3 (by simp only [h, Res.isOk])⟩

/-- **C82** Called directly on a reader, without any limit around it, `deserialize_value` takes no more than the declared
number of bytes from it, whether it succeeds or not, and exactly that many when it succeeds. -/
theorem C82_bytes [Env] (e : Engine P) (t : Tag P) (ht : Sized t) (size : Nat) (hs : size ≤ maxValue)
    {σ : Type} [Reader σ] (w : Watched σ) :
    (t.deserializeValue (Factory.methods e) size (t, w)).2.2.log.length ≤ w.log.length + size ∧
    ((t.deserializeValue (Factory.methods e) size (t, w)).1 = .ok () →
      (t.deserializeValue (Factory.methods e) size (t, w)).2.2.log.length = w.log.length + size) := by
  obtain ⟨a, h1, h2, h3⟩ := C82_limit e t ht size size hs (Nat.le_refl _) w
  obtain ⟨T, -, hT⟩ := RepS.tagValue (A := fun _ _ => True) Adm.true (Rep.methods Adm.true e) hs t
  have h := hT inferInstance (Limited (Watched σ)) inferInstance t ⟨w, size⟩
  have hl := (T t).run_allowance w size
  simp only at h
  rw [← h, h1] at hl
  simp only at hl
  exact ⟨by omega, fun hok => by have := h3 hok; omega⟩

/-- **C82** So reading a tag is reading its header and calling `deserialize_value` of a new tag on the reader itself: the
limit that `deserialize` puts around the value and its check for bytes left over never show. -/
theorem C82_factory [Env] (e : Engine P) {σ : Type} [Reader σ] (s s' : σ) (id : UInt64) (size : Nat)
    (h : Header s id size s') (hs : size ≤ maxValue) (t₀ : Tag P) (hc : e.createTag id = .ok (some t₀)) (ht : Sized t₀) :
    Factory.deserialize e σ s = match t₀.deserializeValue (Factory.methods e) size (t₀, s') with
      | (.ok (), t, s'') => (.ok t, s'')
      | (.err x, _, s'') => (.err x, s'')
      | (.panic, _, s'') => (.panic, s'')
      | (.diverge, _, s'') => (.diverge, s'') := by
  obtain ⟨a, h1, h2, h3⟩ := C82_limit e t₀ ht size size hs (Nat.le_refl _) s'
  rw [deserialize_header e h hs, afterHeader_some _ _ _ hc]
  unfold Factory.deserializeTagValueInto withLimited
  simp only [Act.bind_apply, h1]
  rcases hv : t₀.deserializeValue (Factory.methods e) size (t₀, s') with ⟨r, t, s''⟩
  rw [hv] at h3
  cases r with
  | ok u =>
    have ha : a = 0 := by rw [h3 rfl]; omega
    simp [Factory.checkEmpty, Limited.empty, ha, Res.map]
  | _ => rfl

/-- **C82** With the standard factory, from any reader: a value is accepted exactly if the bytes in the reader begin with
a form of a value of this type, of the declared length (for the two ILInt tags: with an ILInt); the tag keeps its type and
id and gets that value, and exactly the form is consumed. -/
theorem C82_language [Env] (hr : MemoryOk) (strict : Bool) (t₀ : Tag P) (ht : t₀.kind ≠ .payload) (size : Nat)
    (hs : size ≤ maxValue) {σ : Type} [Reader σ] (V : View σ) (s : σ) (bs : Bytes) (h : V.R s bs) :
    (∀ t s', t₀.deserializeValue (Factory.methods (Engine.std strict)) size (t₀, s) = (.ok (), (t, s')) →
      t.kind = t₀.kind ∧ t.id = t₀.id ∧ ∃ x rest, bs = x ++ rest ∧ ValueForm (fun _ => Latest) (Form strict) t x ∧
        (oneILInt t₀.kind ∨ x.length = size) ∧ V.R s' rest) ∧
    (∀ t x rest, bs = x ++ rest → t.kind = t₀.kind → t.id = t₀.id → ValueForm (fun _ => Latest) (Form strict) t x →
      (oneILInt t₀.kind ∨ x.length = size) →
      ∃ t' s', t₀.deserializeValue (Factory.methods (Engine.std strict)) size (t₀, s) = (.ok (), (t', s')) ∧
        Same t' t ∧ V.R s' rest) := by
  have hd := sim_tagValue (V := V) (f := Factory.methods (Engine.std strict : Engine P))
    (pf := Parser.call (Engine.std strict)) (sim_deserializeFuel _ Factory.fuel) size t₀ s bs h
  have htop : Acc (Parser.top (Engine.std strict : Engine P)) fun t x => ∃ k, FormAt Acc.made strict k t x := by
    intro bs t rest
    rw [top_form hr]
    constructor
    · rintro ⟨x, k, h1, h2⟩; exact ⟨x, h1, k, h2⟩
    · rintro ⟨x, h1, k, h2⟩; exact ⟨x, k, h1, h2⟩
  have hpos : ∀ (t : Tag P) x, (∃ k, FormAt Acc.made strict k t x) → 1 ≤ x.length := by
    rintro t x ⟨_ | k, hk⟩
    · exact hk.elim
    · obtain ⟨-, hd, v, h1, -, -, ⟨-, rfl⟩ | ⟨-, l, -, rfl⟩⟩ := hk <;>
        have := Acc.isILInt_length h1 <;> simp <;> omega
  have hacc := Acc.tagValue hr htop hpos (vs := size) hs t₀ ht
  constructor
  · intro t s' hv
    cases hp : Parser.tagValue (Parser.call (Engine.std strict : Engine P)) size t₀ bs with
    | ok t' rest =>
      rw [hp] at hd
      obtain ⟨s1, h1, h2⟩ := hd
      rw [hv] at h1
      cases h1
      obtain ⟨x, h3, h4, h5, h6, h7⟩ := (hacc _ _ _).mp hp
      exact ⟨h4, h5, x, rest, h3, valueForm_mono (fun _ _ _ => latest_made) (fun t x ⟨k, hx⟩ =>
        ⟨k, formAt_mono (fun _ _ _ => latest_made) (fun _ h => h) (Nat.le_refl _) t _ hx⟩) t x h6, h7, h2⟩
    | short => rw [hp] at hd; obtain ⟨e, t', s1, h1, -⟩ := hd; rw [hv] at h1; cases h1
    | fail e => rw [hp] at hd; obtain ⟨t', s1, h1⟩ := hd; rw [hv] at h1; cases h1
    | panic => rw [hp] at hd; obtain ⟨t', s1, h1⟩ := hd; rw [hv] at h1; cases h1
    | diverge => rw [hp] at hd; obtain ⟨t', s1, h1⟩ := hd; rw [hv] at h1; cases h1
  · intro t x rest hb hk hi hx hlen
    obtain ⟨t', h1, h2⟩ := valueForm_made (L' := fun t x => ∃ k, FormAt Acc.made strict k t x)
      (fun t x ⟨k, hx⟩ => by obtain ⟨t', h3, h4⟩ := formAt_made t x hx; exact ⟨t', ⟨k, h3⟩, h4⟩) t x hx
    obtain ⟨hk', hi'⟩ := same_kind_id h2
    rw [(hacc bs t' rest).mpr ⟨x, hb, hk'.trans hk, hi'.trans hi, h1, hlen⟩] at hd
    obtain ⟨s', h3, h4⟩ := hd
    exact ⟨t', s', h3, h2, h4⟩

/-- **C82** What `serialize_value` writes, `deserialize_value` reads back into any tag of the same type and id, whatever it
held before; it stops where the value ends. -/
theorem C82_round_trip [Env] (hr : MemoryOk) (e : Engine P) (t : Tag P) (hm : MapsOk t) (hp : PayloadsOk t)
    (hs : Supported e t) (t₀ : Tag P) (hk : t₀.kind = t.kind) (hi : t₀.id = t.id)
    (hb : ∀ id₀ p₀ id p, t₀ = .atom (.payload id₀ p₀) → t = .atom (.payload id p) → ReadsBack e p₀ p)
    (hl : (enc t).length < 2 ^ 64) :
    ∃ w : VecWriter, t.serializeValue VecWriter.new = (.ok (), w) ∧
      ∀ {σ : Type} [Reader σ] (V : View σ) (s : σ) (rest : Bytes), V.R s (w.vector ++ rest) →
        ∃ s', t₀.deserializeValue (Factory.methods e) w.vector.length (t₀, s) = (.ok (), (canon t, s')) ∧
          Same (canon t) t ∧ V.R s' rest := by
  obtain ⟨ops, h1, h2⟩ := serializeValue_ops hm hp hl
  obtain ⟨w, h3, h4⟩ := vec_runOps ops
  rw [h1] at h4
  refine ⟨w, by rw [h2]; exact h3, fun {σ} _ V s rest hR => ?_⟩
  rw [h4] at hR ⊢
  have hv := value_enc hr e t hm hs t₀ _ hk hi hb (.inl rfl)
  obtain ⟨u, hu, hx⟩ := (Local.tagValue (Local.call e) _ _).ok hv
  rw [List.append_nil] at hu
  subst hu
  have hd := sim_tagValue (V := V) (f := Factory.methods e)
    (pf := Parser.call e) (sim_deserializeFuel _ Factory.fuel) (encValue t).length t₀ s _ hR
  rw [hx rest] at hd
  obtain ⟨s', h5, h6⟩ := hd
  exact ⟨s', h5, (same_canon hm).symm, h6⟩

section
attribute [local instance] bigEnv

/-- Non-vacuity: a value that ends before the declared size is refused by `deserialize_value` itself, and the bytes that
follow are not touched. -/
example : Sized (.atom (.ilintArray 20 []) : Tag Empty) ∧ Sized (.array 21 [] : Tag Empty) := by unfold Sized; decide
def shortArray : Res TagErr Unit × Tag Empty × Watched Script :=
  (Tag.atom (.ilintArray 20 [])).deserializeValue (Factory.methods (Engine.std true)) 3
    (.atom (.ilintArray 20 []), .start ⟨[.ok 1, .ok 0, .ok 9, .ok 7]⟩)
example : (shortArray.1 matches .err .corruptedData) = true ∧ shortArray.2.2.log = [1, 0] := by decide +kernel

/-- An array with a tag in a form that is not the shortest, followed by another byte. -/
example : ∃ t' s', (Tag.array 21 [] : Tag Empty).deserializeValue (Factory.methods (Engine.std false)) 7
    (.array 21 [], (⟨[1, 249, 0, 5, 2, 7, 7, 99], 0⟩ : ByteArrayReader)) = (.ok (), (t', s')) ∧
      Same t' (.array 21 [.atom (.raw 253 [7, 7])]) ∧ ByteArrayReader.view.R s' [99] :=
  (C82_language bigEnv_ok false (.array 21 []) (by decide) 7 (by decide) ByteArrayReader.view.toView _ _
    (show ByteArrayReader.view.R _ [1, 249, 0, 5, 2, 7, 7, 99] from ⟨by decide, rfl⟩)).2 _ [1, 249, 0, 5, 2, 7, 7] [99] rfl rfl rfl
    ⟨[1], _, rfl, ⟨by decide, .inl ⟨1, rfl, by decide, by decide⟩⟩, [249, 0, 5, 2, 7, 7], [], rfl, longId, rfl⟩ (.inr rfl)
end

/-! ### C83 -/

/-- The operation does on a reader limited to `k` bytes and again to `v` bytes what it does with the smaller of the two
limits alone: the same result and the same state of the underlying reader; both allowances shrink by the same amount. -/
def Composes {ε α : Type} (m : ∀ (σ : Type) [Reader σ], Act ε (Limited σ) α) : Prop :=
  ∀ (σ : Type) [Reader σ] (s : σ) (k v : Nat), ∃ r s' used, used ≤ min k v ∧
    m σ ⟨s, min k v⟩ = (r, ⟨s', min k v - used⟩) ∧ m (Limited σ) ⟨⟨s, k⟩, v⟩ = (r, ⟨⟨s', k - used⟩, v - used⟩)

theorem composes_of {α : Type} {m : ∀ (σ : Type) [Reader σ], Act IoErr (Limited σ) α} (h : Nests m) : Composes m := by
  intro σ _ s k v
  obtain ⟨h1, h2⟩ := h σ s k v
  refine ⟨(m σ ⟨s, min k v⟩).1, (m σ ⟨s, min k v⟩).2.source, min k v - (m σ ⟨s, min k v⟩).2.available, by omega, ?_, h2⟩
  rw [show min k v - (min k v - (m σ ⟨s, min k v⟩).2.available) = (m σ ⟨s, min k v⟩).2.available by omega]

/-- **C83** Every operation of a reader, on a limited reader of a limited reader of any reader. -/
theorem C83_operations :
    Composes (fun σ _ => (Reader.read : Act IoErr (Limited σ) Byte)) ∧
    (∀ n, Composes (fun σ _ => (Reader.readAll n : Act IoErr (Limited σ) Bytes))) ∧
    (∀ n, Composes (fun σ _ => (Reader.skip n : Act IoErr (Limited σ) Unit))) ∧
    ∀ n, Composes (fun σ _ => (Reader.skipU64 n : Act IoErr (Limited σ) Unit)) :=
  ⟨composes_of .read, fun n => composes_of (.readAll n), fun n => composes_of (.skip n), fun n => composes_of (.skipU64 n)⟩

/-- **C83** Reading a tag, with any factory. -/
theorem C83_deserialize [Env] (e : Engine P) : Composes (fun σ _ => Factory.deserialize e (Limited σ)) := by
  intro σ _ s k v
  obtain ⟨T, -, hT⟩ := Rep.deserialize (A := fun _ _ => True) Adm.true e
  obtain ⟨h1, h2⟩ := nested_run T s k v
  have h3 := hT inferInstance (Limited σ) inferInstance ⟨s, min k v⟩
  have h4 := hT inferInstance (Limited (Limited σ)) inferInstance ⟨⟨s, k⟩, v⟩
  simp only at h3 h4
  refine ⟨(T.run (⟨s, min k v⟩ : Limited σ)).1, (T.run (⟨s, min k v⟩ : Limited σ)).2.2.source,
    min k v - (T.run (⟨s, min k v⟩ : Limited σ)).2.2.available, by omega, ?_, ?_⟩
  · show Factory.deserialize e (Limited σ) _ = _
    rw [h3, show min k v - (min k v - (T.run (⟨s, min k v⟩ : Limited σ)).2.2.available) =
      (T.run (⟨s, min k v⟩ : Limited σ)).2.2.available by omega]
  · show Factory.deserialize e (Limited (Limited σ)) _ = _
    rw [h4]
    show ((T.run (nestLim s k v)).1, (T.run (nestLim s k v)).2.2) = _
    rw [h2]
    rfl

/-- **C83** A tag is read under a limit exactly if it is read without one and takes no more bytes than the limit; it is the
same tag, and the reader is left in the same state. -/
theorem C83_limit [Env] (e : Engine P) {σ : Type} [Reader σ] (w : Watched σ) (k : Nat) (t : Tag P)
    (l : Limited (Watched σ)) : Factory.deserialize e (Limited (Watched σ)) ⟨w, k⟩ = (.ok t, l) ↔
      Factory.deserialize e (Watched σ) w = (.ok t, l.source) ∧ l.source.log.length + l.available = w.log.length + k := by
  obtain ⟨T, -, hT⟩ := Rep.deserialize (A := fun _ _ => True) Adm.true e
  have h3 := hT inferInstance (Watched σ) inferInstance w
  have h4 := hT inferInstance (Limited (Watched σ)) inferInstance ⟨w, k⟩
  have h5 := T.run_allowance w k
  simp only at h3 h4
  rw [h3, h4]
  rcases l with ⟨w', a⟩
  constructor
  · intro h
    rcases hr : T.run (⟨w, k⟩ : Limited (Watched σ)) with ⟨r, u, l⟩
    rw [hr] at h h5
    simp only [Prod.mk.injEq] at h
    obtain ⟨rfl, rfl⟩ := h
    rw [unlimited_run T w k hr]
    exact ⟨rfl, h5⟩
  · rintro ⟨h, h6⟩
    rcases hr : T.run w with ⟨r, u, s'⟩
    rw [hr] at h
    simp only [Prod.mk.injEq] at h
    obtain ⟨rfl, rfl⟩ := h
    simp only at h6
    rw [limited_run T w hr k (by omega)]
    simp only [Prod.mk.injEq, Limited.mk.injEq, true_and]
    omega

/-- Non-vacuity: limits of 5 and 2 bytes, and a tag of two bytes under limits of 1 and 2. -/
example : (Reader.readAll 2 (⟨⟨(⟨[7, 8, 9], 0⟩ : ByteArrayReader), 5⟩, 2⟩ : Limited (Limited ByteArrayReader))) =
    (.ok [7, 8], ⟨⟨⟨[7, 8, 9], 2⟩, 3⟩, 0⟩) ∧
    (Reader.read (⟨⟨(⟨[7, 8, 9], 2⟩ : ByteArrayReader), 3⟩, 0⟩ : Limited (Limited ByteArrayReader))).1 =
      .err .unableToReadData := by decide +kernel

section
attribute [local instance] bigEnv
def boolUnder (k : Nat) : Res TagErr (Tag Empty) × Limited (Watched Script) :=
  Factory.deserialize (Engine.std true) _ ⟨.start ⟨[.ok 1, .ok 1, .ok 0]⟩, k⟩
example : ((boolUnder 1).1 matches .err (.ioError .unableToReadData)) = true ∧
    ((boolUnder 2).1 matches .ok (.atom (.bool 1 true))) = true ∧ (boolUnder 2).2.source.log = [1, 1] := by
  unfold boolUnder
  rw [deserialize_eq]
  decide +kernel
end

end Verif.Props
