import Verif.Proof.Prior
import Verif.Proof.Header
import Verif.Proof.Custom
import Verif.Proof.RoundTrip
import Verif.Proof.FromBytes
import Verif.Spec.Shapes
import Verif.Spec.Custom
import Verif.Model.Client
/-!
# Factories with tags of the same types
-/
namespace Verif
open Spec
set_option linter.unusedSectionVars false

section
variable {P : Type} [TagPayload P] [Env]

theorem SameTypes.cases {e e' : Engine P} (h : SameTypes e e') (id : UInt64) :
    (∃ t t', e.createTag id = .ok (some t) ∧ e'.createTag id = .ok (some t') ∧ t.kind = t'.kind ∧ t.id = t'.id ∧
      SamePrograms t t') ∨
    (∀ (f f' : FactoryDeser P) (n : Nat) {σ : Type} [Reader σ] (s : σ),
      afterHeader e f id n s = afterHeader e' f' id n s) := by
  have ht := h.types id
  have hp := h.payloads id
  unfold typeFor at ht
  rcases h1 : e.createTag id with (_ | t) | x | _ | _ <;> rcases h2 : e'.createTag id with (_ | t') | x' | _ | _ <;>
    rw [h1, h2] at ht <;> simp only [reduceCtorEq, Res.ok.injEq, Res.err.injEq, Prod.mk.injEq] at ht
  case ok.some.ok.some =>
    refine .inl ⟨t, t', rfl, rfl, ht.1, ht.2, ?_⟩
    rintro i p i' p' rfl rfl
    exact hp i p i' p' h1 h2
  all_goals
    refine .inr fun f f' n σ _ s => ?_
    unfold afterHeader
    simp only [Act.bind_apply, Act.lift, h1, h2, Act.fail]
    try subst ht
    try rfl

theorem fuel_same {e e' : Engine P} (h : SameTypes e e') (k : Nat) :
    ∀ (σ : Type) [Reader σ] (o : Option (Tag P)) (s : σ),
      Factory.deserializeFuel e k σ o s = Factory.deserializeFuel e' k σ o s := by
  induction k with
  | zero => intro σ _ o s; rfl
  | succ k ih =>
    intro σ _ o s
    have hf : (Factory.deserializeFuel e k : FactoryDeser P) = Factory.deserializeFuel e' k := by
      funext σ inst o s
      exact ih σ o s
    rw [deserializeFuel_succ, deserializeFuel_succ, Act.bind_apply, Act.bind_apply, hf]
    rcases (Ser.deserializeILInt : Act TagErr σ UInt64) s with ⟨r, s₁⟩
    cases r with
    | ok id =>
      simp only
      cases o with
      | some t => rfl
      | none =>
        simp only [afterId, Act.bind_apply]
        rcases (Factory.deserializeTagSize id : Act TagErr σ Nat) s₁ with ⟨r, s₂⟩
        cases r with
        | ok n =>
          simp only
          rcases SameTypes.cases h id with ⟨t, t', h1, h2, hk, hi, hp⟩ | hall
          · rw [afterHeader_some _ _ _ h1, afterHeader_some _ _ _ h2]
            obtain ⟨g1, g2, g3⟩ := tagValueInto_prior (Factory.deserializeFuel e' k) n hk hi hp s₂
            generalize Factory.deserializeTagValueInto (Factory.deserializeFuel e' k) n (t, s₂) = o at g1 g2 g3
            generalize Factory.deserializeTagValueInto (Factory.deserializeFuel e' k) n (t', s₂) = o' at g1 g2 g3
            obtain ⟨r, u, s₃⟩ := o
            obtain ⟨r', u', s₃'⟩ := o'
            simp only at g1 g2 g3
            subst g1 g2
            cases r with
            | ok a => rw [g3 rfl]
            | _ => rfl
          · exact hall _ _ _ _
        | _ => rfl
    | _ => rfl

theorem methods_same {e e' : Engine P} (h : SameTypes e e') : Factory.methods e = Factory.methods e' := by
  funext σ inst o s
  exact fuel_same h _ σ o s

theorem deserialize_same {e e' : Engine P} (h : SameTypes e e') {σ : Type} [Reader σ] :
    Factory.deserialize e σ = Factory.deserialize e' σ := by
  funext s
  exact fuel_same h _ σ none s

theorem into_same {e e' : Engine P} (h : SameTypes e e') {σ : Type} [Reader σ] :
    (Factory.deserializeInto e : Act TagErr (Tag P × σ) Unit) = Factory.deserializeInto e' := by
  unfold Factory.deserializeInto
  rw [methods_same h]

theorem fromBytes_same {e e' : Engine P} (h : SameTypes e e') : Factory.fromBytes e = Factory.fromBytes e' := by
  funext bs
  unfold Factory.fromBytes
  rw [deserialize_same h]

theorem step_same {e e' : Engine P} (h : SameTypes e e') (x : Store P) (c : Call P) : c.step e x = c.step e' x := by
  cases c with
  | clone i j => simp only [Call.step, tagCloneWithFactory, fromBytes_same h]
  | read i bs => simp only [Call.step, fromBytes_same h]
  | into i bs => simp only [Call.step, into_same h]
  | _ => rfl

theorem run_same {e e' : Engine P} (h : SameTypes e e') (prog : Client P) : ∀ x, prog.run e x = prog.run e' x := by
  induction prog with
  | stop => intro x; rfl
  | call c next ih => intro x; simp only [Client.run, step_same h, ih]

/-- A tag of the same type and id with next to nothing in it. -/
def Tag.bare : Tag P → Tag P
  | .atom (.raw id _) => .atom (.raw id [])
  | .atom (.byteArray _) => .atom (.byteArray [])
  | .atom (.string id _) => .atom (.string id "")
  | .atom (.bigInt _) => .atom (.bigInt [])
  | .atom (.bigDec id _ _) => .atom (.bigDec id 0 [])
  | .atom (.ilintArray id _) => .atom (.ilintArray id [])
  | .atom (.oid id _) => .atom (.oid id [])
  | .atom (.strDict id _) => .atom (.strDict id [])
  | .atom a => .atom a
  | .seq id _ => .seq id []
  | .array id _ => .array id []
  | .dict id _ => .dict id []

theorem Tag.bare_kind (t : Tag P) : t.bare.kind = t.kind := by
  cases t with
  | atom a => cases a <;> rfl
  | _ => rfl

theorem Tag.bare_id (t : Tag P) : t.bare.id = t.id := by
  cases t with
  | atom a => cases a <;> rfl
  | _ => rfl

theorem Tag.bare_within {u t : Tag P} (h : Within u t.bare) : u = t.bare := by
  cases t with
  | atom a => cases a <;> cases h <;> rfl
  | _ =>
    cases h with
    | refl => rfl
    | _ h => simp at h

theorem Tag.bare_mapsOk (t : Tag P) : MapsOk t.bare := by
  intro u hu
  rw [Tag.bare_within hu]
  cases t with
  | atom a => cases a <;> simp [Tag.bare, MapOk]
  | _ => simp [Tag.bare, MapOk]

theorem Tag.bare_fits {t : Tag P} (h : t.kind ≠ .payload) : (encValue t.bare).length ≤ 40 := by
  cases t with
  | atom a =>
    cases a <;> simp only [Tag.bare, encValue, encAtom, be_length, List.length_append, List.length_nil, List.length_cons]
    case payload => exact (h rfl).elim
    case ilint id v => have := ilint_le9 v.toNat; omega
    case signedILInt id v => unfold signedILInt; have := ilint_le9 (zigzag v.toInt); omega
    case range id v c => have := ilint_le9 v.toNat; omega
    case bin128 id v => rw [v.2]; omega
    case strDict =>
      have := ilint_le9 0
      have hs : (sortByKey ([] : List (String × Bytes))) = [] := rfl
      simp [encSorted, hs]; omega
    all_goals first | omega | decide | simp [encILInts]
  | _ =>
    have := ilint_le9 0
    have hs : (sortByKey ([] : List (String × Bytes))) = [] := rfl
    simp [Tag.bare, encValue, encTags, encEntries, encSorted, hs]; try omega

theorem Tag.bare_sized {t : Tag P} (hk : standardId t.kind = some t.id.toNat) (h : t.id.toNat ≤ 15) :
    (encValue t.bare).length = implicitLen t.bare.id.toNat ∨ (t.bare.id = 10 ∨ t.bare.id = 14) ∧ oneILInt t.bare.kind := by
  rw [Tag.bare_id, Tag.bare_kind]
  cases t with
  | atom a =>
    cases a <;> simp only [Tag.kind, Atom.kind, standardId, Option.some.injEq, reduceCtorEq] at hk <;> rw [← hk] at h ⊢ <;>
      simp only [Nat.reduceLeDiff] at h
    case ilint id v => exact .inr ⟨.inl (UInt64.toNat_inj.mp hk.symm), trivial⟩
    case signedILInt id v => exact .inr ⟨.inr (UInt64.toNat_inj.mp hk.symm), trivial⟩
    all_goals
      left
      simp only [Tag.bare, encValue, encAtom, be_length, List.length_nil, List.length_cons, implicitLen]
      try rfl
    case bin128 id v => exact v.2
  | _ =>
    simp only [Tag.kind, standardId, Option.some.injEq] at hk
    rw [← hk] at h
    simp at h

/-- What a factory makes for an id, with next to nothing in it, it also reads. -/
theorem bare_read (hr : Roomy) {e : Engine P} (he : Regular e) (hl : LibraryOnly e) {id : UInt64} {t : Tag P}
    (h : e.createTag id = .ok (some t)) : Factory.fromBytes e (enc t.bare) = .ok (canon t.bare) := by
  have hid := he.own id t h
  have hs : Supported e t.bare := by
    intro u hu
    rw [Tag.bare_within hu]
    refine ⟨⟨t, by rw [Tag.bare_id, hid]; exact h, (Tag.bare_kind t).symm, (Tag.bare_id t).symm, ?_⟩, ?_, fun h15 => ?_⟩
    · rintro i p i' p' rfl - 
      exact (hl id _ h rfl).elim
    · have := Tag.bare_fits (hl id t h)
      unfold maxValue; omega
    · rw [Tag.bare_id, hid] at h15
      exact Tag.bare_sized (by rw [hid]; exact he.implicit id t h h15) (by rw [hid]; exact h15)
  exact (fromBytes_ok_iff _ _ _).mpr (by have := top_enc hr e t.bare (Tag.bare_mapsOk t) hs []; rwa [List.append_nil] at this)

/-- There is an input with this id at its start that no factory refuses before it has looked up the id. -/
theorem header_exists (hr : Roomy) (id : UInt64) : ∃ (bs : Bytes) (n : Nat) (s' : ByteArrayReader),
    Header (ByteArrayReader.new bs) id n s' ∧ n ≤ maxValue := by
  let v : Bytes := List.replicate (if id.toNat ≤ 15 then implicitLen id.toNat else 0) 0
  let t : Tag Empty := .atom (.raw id v)
  let e : Engine Empty := ⟨[(id, fun i => .ok (.atom (.raw i [])))], true⟩
  have hc : e.createTag id = .ok (some (.atom (.raw id []))) := by simp [e, Engine.createTag, HMap.get, Res.map]
  have hv : v.length = if id.toNat ≤ 15 then implicitLen id.toNat else 0 := by simp [v]
  have hs : Supported e t := by
    intro u hu
    have hu : u = t := by
      simp only [t] at hu ⊢
      cases hu; rfl
    subst hu
    refine ⟨⟨_, hc, rfl, rfl, ?_⟩, ?_, fun h15 => .inl ?_⟩
    · rintro i p i' p' h -; cases h
    · show v.length ≤ maxValue
      rw [hv]
      by_cases h : id.toNat ≤ 15
      · rw [if_pos h]
        have : ∀ n : Fin 16, implicitLen n.1 ≤ maxValue := by decide
        exact this ⟨id.toNat, by omega⟩
      · rw [if_neg h]; exact Nat.zero_le _
    · show v.length = _
      replace h15 : id.toNat ≤ 15 := h15
      rw [hv, if_pos h15]; rfl
  have hm : MapsOk t := by
    intro u hu
    simp only [t] at hu
    cases hu
    exact trivial
  have hb : Factory.fromBytes e (enc t) = .ok (canon t) :=
    (fromBytes_ok_iff _ _ _).mpr (by have := top_enc hr e t hm hs []; rwa [List.append_nil] at this)
  unfold Factory.fromBytes at hb
  rcases hd : Factory.deserialize e ByteArrayReader (ByteArrayReader.new (enc t)) with ⟨r, s'⟩
  cases r with
  | ok u =>
    obtain ⟨id', n, s₂, h1, h2, h3⟩ := header_of_ok e hd
    obtain ⟨t₀, h4, -⟩ := afterHeader_ok h3
    have : id' = id := by
      by_cases hi : id = id'
      · exact hi.symm
      · simp [e, Engine.createTag, HMap.get, hi] at h4
    subst this
    exact ⟨_, n, s₂, h1, h2⟩
  | _ => rw [hd] at hb; simp at hb

/-- What comes of an input whose id the factory has no tag for. -/
theorem fromBytes_none {e : Engine P} {bs : Bytes} {id : UInt64} {n : Nat} {s' : ByteArrayReader}
    (h : Header (ByteArrayReader.new bs) id n s') (hn : n ≤ maxValue) (hc : ∀ t, e.createTag id ≠ .ok (some t)) :
    (Factory.fromBytes e bs).map (fun t => (t.kind, t.id)) = typeFor e id ∧ ∀ t, Factory.fromBytes e bs ≠ .ok t := by
  unfold Factory.fromBytes
  rw [deserialize_header e h hn]
  unfold afterHeader typeFor
  simp only [Act.bind_apply, Act.lift]
  rcases h1 : e.createTag id with (_ | t) | x | _ | _
  case ok.some => exact (hc t h1).elim
  all_goals exact ⟨rfl, fun t h => by cases h⟩

theorem fromBytes_type {e : Engine P} (he : Regular e) (hr : Roomy) {bs : Bytes} {t : Tag P} (h : Factory.fromBytes e bs = .ok t) :
    typeFor e t.id = .ok (t.kind, t.id) := by
  obtain ⟨x, k, -, hf⟩ := (top_custom hr he _ _ _).mp ((fromBytes_ok_iff _ _ _).mp h)
  cases k with
  | zero => exact hf.elim
  | succ k =>
    obtain ⟨t₀, -, -, h1, h2, -⟩ := hf
    unfold typeFor
    rw [h1]
    simp only [h2, he.own _ _ h1]

theorem canon_kind (t : Tag P) : (canon t).kind = t.kind := by
  cases t with
  | atom a => cases a <;> rfl
  | _ => rfl

theorem types_of_reads (hr : Roomy) {e e' : Engine P} (he : Regular e) (he' : Regular e') (hl : LibraryOnly e)
    (h : ∀ bs, Factory.fromBytes e bs = Factory.fromBytes e' bs) {id : UInt64} {t : Tag P}
    (hc : e.createTag id = .ok (some t)) : typeFor e' id = typeFor e id := by
  have h1 := bare_read hr he hl hc
  have h2 := h1
  rw [h] at h2
  have h3 := fromBytes_type he' hr h2
  rw [canon_id, canon_kind, Tag.bare_id, Tag.bare_kind, he.own _ _ hc] at h3
  rw [h3]
  unfold typeFor
  rw [hc]
  simp only [he.own _ _ hc]

theorem reads_iff_types (hr : Roomy) {e e' : Engine P} (he : Regular e) (he' : Regular e') (hl : LibraryOnly e)
    (hl' : LibraryOnly e') : (∀ bs, Factory.fromBytes e bs = Factory.fromBytes e' bs) ↔ ∀ id, typeFor e id = typeFor e' id := by
  constructor
  · intro h id
    by_cases h1 : ∃ t, e.createTag id = .ok (some t)
    · obtain ⟨t, h1⟩ := h1
      exact (types_of_reads hr he he' hl h h1).symm
    · by_cases h2 : ∃ t, e'.createTag id = .ok (some t)
      · obtain ⟨t, h2⟩ := h2
        exact types_of_reads hr he' he hl' (fun bs => (h bs).symm) h2
      · obtain ⟨bs, n, s', hh, hn⟩ := header_exists hr id
        rw [← (fromBytes_none hh hn fun t ht => h1 ⟨t, ht⟩).1, ← (fromBytes_none hh hn fun t ht => h2 ⟨t, ht⟩).1, h]
  · intro h bs
    rw [fromBytes_same ⟨h, fun id i p _ _ h1 => (hl id _ h1 rfl).elim⟩]

end
end Verif
