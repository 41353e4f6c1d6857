import Verif.Proof.Types
import Verif.Proof.Deliver
import Verif.Props.Registry
import Verif.Props.RoundTrip
/-!
# C109: at every depth, tags have the types registered for their ids
-/
namespace Verif.Props
open Verif Verif.Spec

section
variable {P : Type} [TagPayload P] [PayloadTypes P]

/-- **C109** Whatever the reader and whatever is read: every tag in the result, at any depth, has the type that the
factory makes for its id. -/
theorem C109_types [Env] {e : Engine P} (he : LibraryEngine e) {σ : Type} [Reader σ] (s s' : σ) (t : Tag P)
    (h : Factory.deserialize e σ s = (.ok t, s')) : ∀ u, Within u t → Makes e u.id (typeOf u) :=
  gives_asMade e (C46_create he) _ σ s s' t h

/-- **C109** The same for `from_bytes`. -/
theorem C109_from_bytes [Env] {e : Engine P} (he : LibraryEngine e) (bs : Bytes) (t : Tag P)
    (h : Factory.fromBytes e bs = .ok t) : ∀ u, Within u t → Makes e u.id (typeOf u) := by
  unfold Factory.fromBytes at h
  rcases hd : Factory.deserialize e ByteArrayReader (ByteArrayReader.new bs) with ⟨r, s'⟩
  rw [hd] at h
  cases r with
  | ok u =>
    simp only at h
    split at h
    · simp only [Res.ok.injEq] at h
      subst h
      exact C109_types he _ _ _ hd
    · simp at h
  | _ => simp at h

/-- **C109** `deserialize_into` never changes the id and the type of its tag, whatever the outcome; if it succeeds, all
that is inside has the types that the factory makes. -/
theorem C109_into [Env] {e : Engine P} (he : LibraryEngine e) {σ : Type} [Reader σ] (s s' : σ) (t t' : Tag P)
    (r : Res TagErr Unit) (h : Factory.deserializeInto e (t, s) = (r, (t', s'))) :
    t'.id = t.id ∧ typeOf t' = typeOf t ∧ (r = .ok () → ∀ u, Within u t' → u = t' ∨ Makes e u.id (typeOf u)) := by
  have hid := (C48_id_and_type_kept e s t).1
  rw [h] at hid
  refine ⟨hid, ?_⟩
  unfold Factory.deserializeInto at h
  rw [Act.bind_apply] at h
  simp only [onReader] at h
  rcases h1 : (Ser.deserializeILInt : Act TagErr σ UInt64) s with ⟨r1, s₁⟩
  rw [h1] at h
  cases r1 with
  | ok id =>
    simp only [Act.bind_apply, Act.get] at h
    split at h
    · simp only [Act.fail, Prod.mk.injEq] at h
      obtain ⟨rfl, rfl, rfl⟩ := h
      exact ⟨rfl, nofun⟩
    · simp only [Act.bind_apply, onReader] at h
      rcases h2 : (Factory.deserializeTagSize id : Act TagErr σ Nat) s₁ with ⟨r2, s₂⟩
      rw [h2] at h
      cases r2 with
      | ok n =>
        simp only at h
        have hty := tagValueInto_type (Factory.methods e) n t s₂
        rw [h] at hty
        refine ⟨hty, ?_⟩
        rintro rfl u hu
        rcases (gives_asMade e (C46_create he) Factory.fuel).inside n t t' s₂ s' h u hu with rfl | ⟨v, hv, hu⟩
        · exact .inl rfl
        · exact .inr (hv u hu)
      | _ =>
        simp only [Prod.mk.injEq] at h
        obtain ⟨rfl, rfl, rfl⟩ := h
        exact ⟨rfl, nofun⟩
  | _ =>
    simp only [Prod.mk.injEq] at h
    obtain ⟨rfl, rfl, rfl⟩ := h
    exact ⟨rfl, nofun⟩

/-- **C109** The downcasts to payload types succeed exactly on payload tags of this type (and this id). -/
theorem C109_downcast (ty : Nat) (id : UInt64) (t : Tag P) (p : P) :
    (downcastPayload ty t = some p ↔ ∃ i, t = .atom (.payload i p) ∧ PayloadTypes.typeOf p = ty) ∧
    (idDowncastPayload ty id t = .ok p ↔ t = .atom (.payload id p) ∧ PayloadTypes.typeOf p = ty) ∧
    ((∀ q, idDowncastPayload ty id t ≠ .ok q) → idDowncastPayload ty id t = .err .unexpectedTagType) := by
  have h1 : downcastPayload ty t = some p ↔ ∃ i, t = .atom (.payload i p) ∧ PayloadTypes.typeOf p = ty := by
    cases t with
    | atom a => cases a with
      | payload i q =>
        simp only [downcastPayload]
        constructor
        · intro h
          split at h
          · simp only [Option.some.injEq] at h; subst h; exact ⟨i, rfl, ‹_›⟩
          · simp at h
        · rintro ⟨j, h, hp⟩
          cases h
          rw [if_pos hp]
      | _ => exact Iff.intro (by simp [downcastPayload]) (by simp)
    | _ => exact Iff.intro (by simp [downcastPayload]) (by simp)
  refine ⟨h1, ?_, ?_⟩
  · unfold idDowncastPayload
    constructor
    · intro h
      split at h
      · simp at h
      · rename_i hid
        cases hd : downcastPayload ty t with
        | none => rw [hd] at h; simp at h
        | some q =>
          rw [hd] at h
          simp only [Res.ok.injEq] at h
          subst h
          obtain ⟨i, rfl, ht⟩ := h1.mp hd
          have : i = id := Decidable.not_not.mp hid
          exact ⟨by rw [this], ht⟩
    · rintro ⟨rfl, ht⟩
      rw [if_neg (by exact fun h => h rfl), h1.mpr ⟨id, rfl, ht⟩]
  · intro h
    unfold idDowncastPayload at h ⊢
    split
    · rfl
    · rename_i hid
      rw [if_neg hid] at h
      cases hd : downcastPayload ty t with
      | none => rfl
      | some q => rw [hd] at h; exact absurd rfl (h q)

/-- **C109** So where a payload type has been registered under an id, every tag with that id in whatever is read is a
payload of this type: the downcast succeeds, and that to any other type fails. -/
theorem C109_registered [Env] {e : Engine P} (he : LibraryEngine e) (id : UInt64) (p₀ : P) {σ : Type} [Reader σ]
    (s s' : σ) (t : Tag P) (h : Factory.deserialize (e.register id (payloadCreator p₀)).2 σ s = (.ok t, s'))
    (u : Tag P) (hu : Within u t) (hid : u.id = id) :
    (∃ p, u = .atom (.payload id p) ∧ idDowncastPayload (PayloadTypes.typeOf p₀) id u = .ok p) ∧
    (∀ ty, ty ≠ PayloadTypes.typeOf p₀ → downcastPayload ty u = none) ∧ ∀ k, k ≠ .payload → downcast k u = none := by
  obtain ⟨v, hc, hv⟩ := C109_types (LibraryEngine.payload id p₀ he) s s' t h u hu
  have : v = .atom (.payload id p₀) := by
    rw [hid] at hc
    unfold Engine.createTag Engine.register at hc
    simp only [HMap.get_insert, if_pos, payloadCreator, Res.map, Res.ok.injEq, Option.some.injEq] at hc
    exact hc.symm
  subst this
  have : ∃ p, u = .atom (.payload id p) ∧ PayloadTypes.typeOf p = PayloadTypes.typeOf p₀ := by
    cases u with
    | atom a => cases a with
      | payload i p =>
        simp only [typeOf, TagType.payload.injEq] at hv
        exact ⟨p, by rw [show i = id from hid], hv.symm⟩
      | _ => simp [typeOf] at hv
    | _ => simp [typeOf] at hv
  obtain ⟨p, rfl, hp⟩ := this
  refine ⟨⟨p, rfl, ((C109_downcast _ _ _ _).2.1).mpr ⟨rfl, hp⟩⟩, ?_, ?_⟩
  · intro ty hty
    simp only [downcastPayload]
    rw [if_neg (fun h => hty (h.symm.trans hp))]
  · intro k hk
    unfold downcast
    exact if_neg fun h => hk h.symm

end

/-! ### A factory with two payload types -/

/-- Two Rust types: a byte, and the bytes of the value. -/
inductive TwoTypes where
  | one (v : Byte)
  | many (vs : Bytes)
  deriving DecidableEq, Repr

instance : TagPayload TwoTypes where
  serializedSize
    | .one _ => 1
    | .many vs => vs.length
  serialize
    | .one v => ([.byte v], .ok ())
    | .many vs => ([.all vs], .ok ())
  deserialize
    | .one v, n => if n = 1 then .read fun b => .done (.ok ()) (.one b) else .done (.err .corruptedData) (.one v)
    | .many _, n => .readAll n fun bs => .done (.ok ()) (.many bs)

instance : PayloadTypes TwoTypes where
  typeOf
    | .one _ => 1
    | .many _ => 2
  keeps p n := by
    cases p with
    | one v =>
      by_cases h : n = 1
      · simp [TagPayload.deserialize, h, RProg.Leaves]
      · simp [TagPayload.deserialize, h, RProg.Leaves]
    | many vs => exact fun _ => rfl

/-- The standard factory with both types registered. -/
def twoTypesEngine : Engine TwoTypes :=
  (((Engine.std true).register 100 (payloadCreator (.one 0))).2.register 101 (payloadCreator (.many []))).2

attribute [local instance] bigEnv

/-- A sequence of a payload of either type and a byte. -/
example : LibraryEngine twoTypesEngine ∧
    (match Factory.fromBytes twoTypesEngine [22, 9, 100, 1, 7, 101, 2, 8, 9, 3, 5] with
      | .ok (.seq 22 [a, b, c]) => decide (downcastPayload 1 a = some (.one 7) ∧ downcastPayload 2 a = none ∧
          downcastPayload 2 b = some (.many [8, 9]) ∧ downcastPayload 1 b = none ∧ c.kind = .uint8)
      | _ => false) = true := by
  constructor
  · refine LibraryEngine.payload _ _ (LibraryEngine.payload _ _ ?_)
    unfold Engine.std
    repeat' first | exact LibraryEngine.new _ | apply LibraryEngine.default
  · unfold Factory.fromBytes
    rw [deserialize_eq]
    decide +kernel


section
attribute [local instance] bigEnv
/-- The registered type is found inside a sequence. -/
example : ∃ t : Tag TwoTypes, Factory.fromBytes twoTypesEngine [22, 3, 100, 1, 7] = .ok t ∧ ∀ u, Within u t → Makes twoTypesEngine u.id (typeOf u) := by
  have hl : LibraryEngine twoTypesEngine := by
    refine LibraryEngine.payload _ _ (LibraryEngine.payload _ _ ?_)
    unfold Engine.std
    repeat' first | exact LibraryEngine.new _ | apply LibraryEngine.default
  have h : (Factory.fromBytes twoTypesEngine [22, 3, 100, 1, 7]).isOk = true := by
    unfold Factory.fromBytes
    rw [deserialize_eq]
    decide +kernel
  cases hr : Factory.fromBytes twoTypesEngine [22, 3, 100, 1, 7] with
  | ok t => exact ⟨t, rfl, C109_from_bytes hl _ t hr⟩
  | _ => rw [hr] at h; cases h

end

end Verif.Props
