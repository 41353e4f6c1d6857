import Verif.Props.RoundTrip
import Verif.Props.Readers
import Verif.Proof.Keeps
import Verif.Proof.Prior
/-!
# The registry of creators and `deserialize_into` (C44, C46, C47, C48)
-/
namespace Verif.Props
open Verif Verif.Spec
variable {P : Type}

/-! ### C44 -/

/-- A change of the registry. -/
inductive Change (P : Type) where
  | register (id : UInt64) (c : Creator P)
  | deregister (id : UInt64)

/-- The id a change is about. -/
def Change.id : Change P → UInt64
  | .register id _ => id
  | .deregister id => id

/-- The creator a change leaves for its id. -/
def Change.leaves : Change P → Option (Creator P)
  | .register _ c => some c
  | .deregister _ => none

/-- Makes one change; the first component is what the method returns. -/
def Change.make (e : Engine P) : Change P → Option (Creator P) × Engine P
  | .register id c => e.register id c
  | .deregister id => e.deregister id

/-- The engine after a history of changes, oldest first. -/
def after (strict : Bool) (h : List (Change P)) : Engine P := h.foldl (fun e c => (c.make e).2) (Engine.new strict)

/-- The creator in force for `id` after a history: the one left by the last change about `id`, if any. -/
def inForce (h : List (Change P)) (id : UInt64) : Option (Creator P) :=
  (h.reverse.find? fun c => c.id = id).bind Change.leaves

theorem inForce_snoc (h : List (Change P)) (c : Change P) (id : UInt64) :
    inForce (h ++ [c]) id = if id = c.id then c.leaves else inForce h id := by
  unfold inForce
  simp only [List.reverse_append, List.reverse_cons, List.reverse_nil, List.nil_append, List.cons_append, List.find?_cons]
  by_cases hc : c.id = id
  · simp [hc]
  · have : id ≠ c.id := fun h => hc h.symm
    simp [hc, this]

theorem after_snoc (strict : Bool) (h : List (Change P)) (c : Change P) :
    after strict (h ++ [c]) = (c.make (after strict h)).2 := by
  unfold after; rw [List.foldl_append]; rfl

theorem after_get (strict : Bool) (h : List (Change P)) :
    (((after strict h).creators.map (·.1)).Nodup ∧ (after strict h).strict = strict) ∧
      ∀ id, HMap.get id (after strict h).creators = inForce h id := by
  generalize hr : h.reverse = r
  induction r generalizing h with
  | nil =>
    have : h = [] := by simpa using hr
    subst this
    exact ⟨⟨List.nodup_nil, rfl⟩, fun _ => rfl⟩
  | cons c r ih =>
    have hh : h = r.reverse ++ [c] := by rw [← List.reverse_reverse h, hr]; simp
    subst hh
    obtain ⟨⟨hn, hs⟩, hg⟩ := ih r.reverse (by simp)
    rw [after_snoc]
    cases c with
    | register id' c' =>
      refine ⟨⟨HMap.nodup_insert hn _ _, hs⟩, fun id => ?_⟩
      rw [inForce_snoc, ← hg]
      exact HMap.get_insert _ _ _ _
    | deregister id' =>
      refine ⟨⟨HMap.nodup_remove hn _, hs⟩, fun id => ?_⟩
      rw [inForce_snoc, ← hg]
      exact HMap.get_remove hn _ _

/-- **C44** After any history `create_tag(id)` calls exactly the creator in force for `id`; without one it answers
with an empty raw tag, if the engine is not strict and `id` is explicit, or with nothing. -/
theorem C44_create (strict : Bool) (h : List (Change P)) (id : UInt64) :
    (after strict h).createTag id = match inForce h id with
      | some c => (c id).map some
      | none => if strict = false ∧ 16 ≤ id.toNat then .ok (some (.atom (.raw id []))) else .ok none := by
  obtain ⟨⟨-, hs⟩, hg⟩ := after_get strict h
  unfold Engine.createTag
  rw [hg id, hs]
  cases inForce h id with
  | some c => rfl
  | none =>
    simp only [newRaw]
    cases strict with
    | true => simp
    | false =>
      by_cases hi : id.toNat ≤ 15
      · rw [isImplicitTag_iff.mpr hi]; simp; omega
      · have : isImplicitTag id = false := by
          rcases Bool.eq_false_or_eq_true (isImplicitTag id) with h | h
          · exact absurd (isImplicitTag_iff.mp h) hi
          · exact h
        rw [this]
        simp [show 16 ≤ id.toNat by omega, Res.map]

/-- **C44** `register` and `deregister` return the creator that was in force. -/
theorem C44_previous (strict : Bool) (h : List (Change P)) (c : Change P) :
    (c.make (after strict h)).1 = inForce h c.id := by
  obtain ⟨-, hg⟩ := after_get strict h
  cases c with
  | register id c => exact hg id
  | deregister id => exact hg id

/-- **C44** A change affects its own id only. -/
theorem C44_others (strict : Bool) (h : List (Change P)) (c : Change P) (id : UInt64) (hid : id ≠ c.id) :
    (after strict (h ++ [c])).createTag id = (after strict h).createTag id := by
  rw [C44_create, C44_create, inForce_snoc, if_neg hid]

/-- The standard engine is the engine after 27 registrations, so all of this applies to it and to every change
of it. -/
theorem C44_standard (strict : Bool) : ∃ h : List (Change P), h.length = 27 ∧ Engine.std strict = after strict h :=
  ⟨[.register 0 (defaultCreatorOf .null), .register 1 (defaultCreatorOf .bool), .register 2 (defaultCreatorOf .int8),
    .register 3 (defaultCreatorOf .uint8), .register 4 (defaultCreatorOf .int16),
    .register 5 (defaultCreatorOf .uint16), .register 6 (defaultCreatorOf .int32),
    .register 7 (defaultCreatorOf .uint32), .register 8 (defaultCreatorOf .int64),
    .register 9 (defaultCreatorOf .uint64), .register 10 (defaultCreatorOf .ilint),
    .register 11 (defaultCreatorOf .bin32), .register 12 (defaultCreatorOf .bin64),
    .register 13 (defaultCreatorOf .bin128), .register 14 (defaultCreatorOf .signedILInt),
    .register 16 (defaultCreatorOf .byteArray), .register 17 (defaultCreatorOf .string),
    .register 18 (defaultCreatorOf .bigInt), .register 19 (defaultCreatorOf .bigDec),
    .register 20 (defaultCreatorOf .ilintArray), .register 21 (defaultCreatorOf .array),
    .register 22 (defaultCreatorOf .seq), .register 23 (defaultCreatorOf .range),
    .register 24 (defaultCreatorOf .version), .register 25 (defaultCreatorOf .oid),
    .register 30 (defaultCreatorOf .dict), .register 31 (defaultCreatorOf .strDict)], rfl, rfl⟩

/-- Registered twice, then another id, then deregistered. -/
example (c d : Creator Empty) :
    inForce [.register 50 c, .register 50 d, .register 51 c] 50 = some d ∧
    inForce [.register 50 c, .register 50 d, .deregister 50] 50 = none ∧
    inForce [.register 50 c, .deregister 50, .register 50 d] 50 = some d ∧
    inForce [.register 50 c, .deregister 51] 50 = some c := ⟨rfl, rfl, rfl, rfl⟩

/-! ### C46 -/

theorem defaultCreatorOf_id {k : Kind} {id : UInt64} {t : Tag P} (h : defaultCreatorOf k id = .ok t) : t.id = id := by
  unfold defaultCreatorOf at h
  cases hk : (k.default : Option (Res TagErr (Tag P))) with
  | none => rw [hk] at h; simp at h
  | some mk =>
    rw [hk] at h
    simp only [defaultCreator] at h
    cases mk with
    | ok u =>
      simp only at h
      by_cases hu : u.id = id
      · rw [if_pos hu] at h; simp only [Res.ok.injEq] at h; subst h; exact hu
      · rw [if_neg hu] at h; simp at h
    | _ => simp at h

theorem withIdCreatorOf_id {k : Kind} {id : UInt64} {t : Tag P} (h : withIdCreatorOf k id = .ok t) : t.id = id := by
  unfold withIdCreatorOf at h
  cases k <;> simp only [Kind.withId, newRaw, Res.ok.injEq, reduceCtorEq] at h <;>
    first
    | (subst h; rfl)
    | (split at h <;> simp only [Res.ok.injEq, reduceCtorEq] at h <;> subst h <;> rfl)

theorem mem_remove {K V : Type} [DecidableEq K] {k : K} {es : List (K × V)} {e : K × V} (h : e ∈ HMap.remove k es) :
    e ∈ es := by
  induction es with
  | nil => simp [HMap.remove] at h
  | cons x xs ih =>
    simp only [HMap.remove] at h
    split at h
    · exact List.mem_cons_of_mem _ h
    · rcases List.mem_cons.mp h with h | h
      · subst h; exact List.mem_cons_self
      · exact List.mem_cons_of_mem _ (ih h)

theorem mem_insert {K V : Type} [DecidableEq K] {k : K} {v : V} {es : List (K × V)} {e : K × V}
    (h : e ∈ HMap.insert k v es) : e = (k, v) ∨ e ∈ es := by
  induction es with
  | nil => simp [HMap.insert] at h; exact .inl h
  | cons x xs ih =>
    simp only [HMap.insert] at h
    split at h
    · rename_i hx
      rcases List.mem_cons.mp h with h | h
      · subst h; exact .inl (by rw [hx])
      · exact .inr (List.mem_cons_of_mem _ h)
    · rcases List.mem_cons.mp h with h | h
      · subst h; exact .inr List.mem_cons_self
      · rcases ih h with h | h
        · exact .inl h
        · exact .inr (List.mem_cons_of_mem _ h)

theorem library_honest {e : Engine P} (h : LibraryEngine e) :
    ∀ x ∈ e.creators, ∀ id t, x.2 id = .ok t → t.id = id := by
  induction h with
  | new strict => intro x hx; simp [Engine.new] at hx
  | default id k _ ih =>
    intro x hx
    rcases mem_insert hx with h | h
    · subst h; exact fun id t h => defaultCreatorOf_id h
    · exact ih x h
  | withId id k _ ih =>
    intro x hx
    rcases mem_insert hx with h | h
    · subst h; exact fun id t h => withIdCreatorOf_id h
    · exact ih x h
  | payload id p _ ih =>
    intro x hx
    rcases mem_insert hx with h | h
    · subst h
      intro id t h
      simp only [payloadCreator, Res.ok.injEq] at h
      subst h; rfl
    · exact ih x h
  | deregister id _ ih => intro x hx; exact ih x (mem_remove hx)

/-- **C46** An engine built from library creators creates, for `id`, only tags with that id. -/
theorem C46_create {e : Engine P} (h : LibraryEngine e) (id : UInt64) (t : Tag P)
    (ht : e.createTag id = .ok (some t)) : t.id = id := by
  unfold Engine.createTag at ht
  cases hg : HMap.get id e.creators with
  | some c =>
    rw [hg] at ht
    simp only at ht
    cases hc : c id with
    | ok u =>
      rw [hc] at ht
      simp only [Res.map, Res.ok.injEq, Option.some.injEq] at ht
      subst ht
      exact library_honest h _ (HMap.mem_of_get hg) id u hc
    | _ => rw [hc] at ht; simp [Res.map] at ht
  | none =>
    rw [hg] at ht
    simp only [newRaw] at ht
    split at ht
    · split at ht
      · simp [Res.map] at ht
      · simp only [Res.map, Res.ok.injEq, Option.some.injEq] at ht
        subst ht; rfl
    · simp at ht

/-- **C46** Whatever the reader, a tag that is returned carries the id that was read from it. -/
theorem C46_deserialize [TagPayload P] [Env] {e : Engine P} (h : LibraryEngine e) {σ : Type} [Reader σ] (s s' : σ)
    (t : Tag P) (ht : Factory.deserialize e σ s = (.ok t, s')) :
    (∃ size s₂, Header s t.id size s₂) ∧ ∀ id size s₂, Header s id size s₂ → t.id = id := by
  obtain ⟨id, size, s₂, hh, hs, ha⟩ := header_of_ok e ht
  obtain ⟨t₀, hc, hv⟩ := afterHeader_ok ha
  have hk := (tagValueInto_keeps (Factory.methods e) size t₀ s₂).1
  rw [hv] at hk
  have hid : t.id = id := by rw [hk]; exact C46_create h id t₀ hc
  refine ⟨⟨size, s₂, by rw [hid]; exact hh⟩, fun id' size' s₂' hh' => ?_⟩
  obtain ⟨s₁, h1, -⟩ := hh
  obtain ⟨s₁', h1', -⟩ := hh'
  rw [h1] at h1'
  simp only [Prod.mk.injEq, Res.ok.injEq] at h1'
  rw [hid, h1'.1]

/-- **C46** `ILDefaultTagCreator<T>` registered under an id other than the one of `T::default()`: creating the tag
panics, and so does reading one whose size is acceptable. -/
theorem C46_wrong_id [TagPayload P] [Env] (e : Engine P) (k : Kind) (t₀ : Tag P) (hk : k.default = some (.ok t₀))
    (id : UInt64) (hid : t₀.id ≠ id) :
    (e.register id (defaultCreatorOf k)).2.createTag id = .panic ∧
    ∀ {σ : Type} [Reader σ] (s s' : σ) (size : Nat), Header s id size s' → size ≤ maxValue →
      Factory.deserialize (e.register id (defaultCreatorOf k)).2 σ s = (.panic, s') := by
  have hc : (e.register id (defaultCreatorOf k)).2.createTag id = .panic := by
    unfold Engine.createTag Engine.register
    simp only [HMap.get_insert, if_pos]
    simp only [defaultCreatorOf, hk, defaultCreator, if_neg hid, Res.map]
  refine ⟨hc, ?_⟩
  intro σ _ s s' size hh hs
  rw [deserialize_header _ hh hs]
  unfold afterHeader
  simp only [Act.bind_apply, Act.lift, hc]

example : (Kind.default .string : Option (Res TagErr (Tag Empty))) = some (.ok (.atom (.string 17 ""))) := rfl
example : LibraryEngine (Engine.std true : Engine Empty) := by
  unfold Engine.std
  repeat' first | exact LibraryEngine.new _ | apply LibraryEngine.default
/-- An arbitrary creator can mislabel: the restriction to library creators matters. -/
example [Env] : (Engine.register (Engine.new true) 50 (fun _ => .ok (.atom (.null 51))) : Option (Creator Empty) × _).2.createTag 50
    = .ok (some (.atom (.null 51))) := rfl

/-! ### C48 -/

/-- **C48** If the id read is not the one of the tag the result is `UnexpectedTagType` and the tag is untouched. -/
theorem C48_mismatch [TagPayload P] [Env] (e : Engine P) {σ : Type} [Reader σ] (s s' : σ) (t : Tag P) (id : UInt64)
    (h : (Ser.deserializeILInt : Act TagErr σ UInt64) s = (.ok id, s')) (hid : id ≠ t.id) :
    Factory.deserializeInto e (t, s) = (.err .unexpectedTagType, (t, s')) := by
  unfold Factory.deserializeInto
  have h1' : (onReader Ser.deserializeILInt : Act TagErr (Tag P × σ) UInt64) (t, s) = (.ok id, (t, s')) := by
    unfold onReader; simp only [h]
  rw [Act.bind_ok h1', Act.bind_apply]
  simp only [Act.get]
  rw [if_pos hid]
  rfl

/-- **C48** Whatever happens, the tag keeps its id and its type. -/
theorem C48_id_and_type_kept [TagPayload P] [Env] (e : Engine P) {σ : Type} [Reader σ] (s : σ) (t : Tag P) :
    (Factory.deserializeInto e (t, s)).2.1.id = t.id ∧ (Factory.deserializeInto e (t, s)).2.1.kind = t.kind := by
  unfold Factory.deserializeInto
  simp only [Act.bind_apply, onReader, Act.get]
  rcases h1 : (Ser.deserializeILInt : Act TagErr σ UInt64) s with ⟨r, s₁⟩
  cases r with
  | ok id =>
    simp only
    by_cases hid : id ≠ t.id
    · rw [if_pos hid]; exact ⟨rfl, rfl⟩
    · rw [if_neg hid]
      simp only [Act.bind_apply, onReader]
      rcases h2 : (Factory.deserializeTagSize id : Act TagErr σ Nat) s₁ with ⟨r2, s₂⟩
      cases r2 with
      | ok n => exact tagValueInto_keeps _ _ _ _
      | _ => exact ⟨rfl, rfl⟩
  | _ => exact ⟨rfl, rfl⟩

/-- **C48** If the header cannot be read, or is refused, the tag is untouched: it is only modified once the value
is being read. -/
theorem C48_untouched [TagPayload P] [Env] (e : Engine P) {σ : Type} [Reader σ] (s : σ) (t : Tag P)
    (h : ∀ size s', Header s t.id size s' → maxValue < size) : (Factory.deserializeInto e (t, s)).2.1 = t := by
  unfold Factory.deserializeInto
  simp only [Act.bind_apply, onReader, Act.get]
  rcases h1 : (Ser.deserializeILInt : Act TagErr σ UInt64) s with ⟨r, s₁⟩
  cases r with
  | ok id =>
    simp only
    by_cases hid : id ≠ t.id
    · rw [if_pos hid]; rfl
    · rw [if_neg hid]
      simp only [ne_eq, Decidable.not_not] at hid
      subst hid
      simp only [Act.bind_apply, onReader]
      rcases h2 : (Factory.deserializeTagSize t.id : Act TagErr σ Nat) s₁ with ⟨r2, s₂⟩
      cases r2 with
      | ok n =>
        exfalso
        have := h n s₂ (header_of_size h1 h2)
        have := (tagSize_le h2).1
        rw [maxValue_eq] at *
        omega
      | _ => rfl
  | _ => rfl

section
attribute [local instance] bigEnv

/-- Whether a tag is the sequence `[null]`. -/
def isSeqOfNull : Tag Empty → Bool
  | .seq 22 [.atom (.null 0)] => true
  | _ => false

/-- **C48** It is not all-or-nothing: the sequence held a `true`; the value read holds a null and then an unknown tag;
the call fails and leaves a sequence holding only the null. -/
theorem C48_partial_overwrite :
    let o := Factory.deserializeInto (Engine.std true : Engine Empty)
      ((.seq 22 [.atom (.bool 1 true)]), ByteArrayReader.new [22, 3, 0, 99, 0])
    o.1 = .err .unknownTag ∧ isSeqOfNull o.2.1 = true := by
  unfold Factory.deserializeInto
  rw [show (Factory.methods (Engine.std true : Engine Empty)) = Factory.deserializeFuel (Engine.std true) (2 + (maxTagSize))
    from rfl]
  decide +kernel
end

example : ((Ser.deserializeILInt : Act TagErr Script UInt64) ⟨[.ok 23, .ok 1]⟩) = (.ok 23, ⟨[.ok 1]⟩) := rfl

/-! ### C47 -/

/-- **C47** Any factory, any reader.  `t` is of the type and id of what the factory creates (and, for a custom payload,
its reading code does not look at the previous content), and the reader holds a tag of that id or nothing readable.
Then `deserialize_into` and `deserialize` have the same outcome, leave the reader in the same state and, when they
succeed, the same tag; whatever `t` held. -/
theorem C47_into_eq_deserialize [TagPayload P] [Env] (e : Engine P) {σ : Type} [Reader σ] (s : σ) (t t₀ : Tag P)
    (hc : e.createTag t.id = .ok (some t₀)) (hk : t.kind = t₀.kind) (hid : t.id = t₀.id)
    (hp : ∀ id p id' p', t = .atom (.payload id p) → t₀ = .atom (.payload id' p') →
      ∀ n, TagPayload.deserialize p n = TagPayload.deserialize p' n)
    (hs : ∀ id s', (Ser.deserializeILInt : Act TagErr σ UInt64) s = (.ok id, s') → id = t.id) :
    (Factory.deserialize e σ s).1 =
      (Factory.deserializeInto e (t, s)).1.map (fun _ => (Factory.deserializeInto e (t, s)).2.1) ∧
    (Factory.deserialize e σ s).2 = (Factory.deserializeInto e (t, s)).2.2 := by
  unfold Factory.deserializeInto
  rw [deserialize_rec]
  simp only [Act.bind_apply, onReader, Act.get]
  rcases h1 : (Ser.deserializeILInt : Act TagErr σ UInt64) s with ⟨r, s₁⟩
  cases r with
  | ok id =>
    have := hs id s₁ h1
    subst this
    simp only [ne_eq, not_true, if_false, Act.bind_apply, onReader]
    rcases h2 : (Factory.deserializeTagSize t.id : Act TagErr σ Nat) s₁ with ⟨r2, s₂⟩
    cases r2 with
    | ok n =>
      simp only [Act.lift, hc]
      obtain ⟨g1, g2, g3⟩ := tagValueInto_prior (Factory.methods e) n hk hid hp s₂
      generalize Factory.deserializeTagValueInto (Factory.methods e) n (t, s₂) = o at g1 g2 g3
      generalize Factory.deserializeTagValueInto (Factory.methods e) n (t₀, s₂) = o' at g1 g2 g3
      obtain ⟨r, u, s₃⟩ := o
      obtain ⟨r', u', s₃'⟩ := o'
      simp only at g1 g2 g3
      subst g1 g2
      cases r with
      | ok a => rw [g3 rfl]; exact ⟨rfl, rfl⟩
      | _ => exact ⟨rfl, rfl⟩
    | _ => exact ⟨rfl, rfl⟩
  | _ => exact ⟨rfl, rfl⟩

/-- The condition is met by a dictionary with any content. -/
example (es : List (String × Tag Empty)) :
    (Engine.std true : Engine Empty).createTag (Tag.dict 30 es).id = .ok (some (.dict 30 [])) := rfl

end Verif.Props
