import Verif.Proof.Evolve
import Verif.Proof.Types
import Verif.Props.Schema
import Verif.Props.Agree
/-!
# C124: payload types that get more fields
-/
namespace Verif.Props
open Verif Verif.Spec

section
variable [Env]

/-- What a payload tag is after its value has been read. -/
theorem struct_fill (hr : MemoryOk) {σ : Type} [Reader σ] (f : FactoryDeser Struct) (n : Nat) (id : UInt64)
    (hid : 16 ≤ id.toNat) (s : Schema) (hs : BoundedSchema s) (v₀ : s.Val) (x : σ) :
    fill f n (.atom (.payload id ⟨s, v₀⟩)) x =
      match s.read (⟨x, n⟩ : Limited σ) with
      | (.ok v, l) => if l.empty = false then (.err .corruptedData, l.source) else (.ok (.atom (.payload id ⟨s, v⟩)), l.source)
      | (.err e, l) => (.err e, l.source)
      | (.panic, l) => (.panic, l.source)
      | (.diverge, l) => (.diverge, l.source) := by
  have hc := (C123_code (ω := VecWriter) hr f s hs v₀ n (⟨x, n⟩ : Limited σ)).1
  have h1 : id ≠ Id.ilint := by rintro rfl; exact absurd hid (by decide)
  have h2 : id ≠ Id.signedILInt := by rintro rfl; exact absurd hid (by decide)
  have hz : (Tag.deserializeValue f n (.atom (.payload id (⟨s, v₀⟩ : Struct))) : Act TagErr (Tag Struct × Limited σ) Unit)
      (.atom (.payload id ⟨s, v₀⟩), ⟨x, n⟩) =
        (((TagPayload.deserialize (⟨s, v₀⟩ : Struct) n).run f ((⟨s, v₀⟩ : Struct), (⟨x, n⟩ : Limited σ))).1,
          (.atom (.payload id ((TagPayload.deserialize (⟨s, v₀⟩ : Struct) n).run f (⟨s, v₀⟩, (⟨x, n⟩ : Limited σ))).2.1),
            ((TagPayload.deserialize (⟨s, v₀⟩ : Struct) n).run f (⟨s, v₀⟩, (⟨x, n⟩ : Limited σ))).2.2)) := rfl
  unfold fill Factory.deserializeTagValueInto withLimited
  simp only [Act.bind_apply]
  rw [hz, hc]
  rcases s.read (⟨x, n⟩ : Limited σ) with ⟨_ | _ | _ | _, l⟩
  · by_cases he : l.empty = false
    · simp [Factory.checkEmpty, Tag.id, Atom.id, h1, h2, he, Res.map]
    · simp [Factory.checkEmpty, Tag.id, Atom.id, he, Res.map]
  all_goals rfl

/-- Reading a payload tag of either version gives the same, or fails in one of them. -/
theorem versions_fill (hr : MemoryOk) {σ : Type} [Reader σ] (f f' : FactoryDeser Struct) (n : Nat) (id : UInt64)
    (hid : 16 ≤ id.toNat) (p q : Struct) (hp : BoundedSchema p.schema) (hq : BoundedSchema q.schema)
    (h : p.schema = q.schema ∨ Differ p q) :
    Fork (fill (σ := σ) f n (.atom (.payload id p))) (fill f' n (.atom (.payload id q))) := by
  have grown : ∀ (s s' : Schema) (v : s.Val) (v' : s'.Val) (f f' : FactoryDeser Struct) (x : σ), Grown s s' →
      BoundedSchema s → BoundedSchema s' → (∀ a, (fill f n (.atom (.payload id (⟨s, v⟩ : Struct))) x).1 ≠ .ok a) ∨
        ∀ a, (fill f' n (.atom (.payload id (⟨s', v'⟩ : Struct))) x).1 ≠ .ok a := by
    intro s s' v v' f f' x hg hs hs'
    rw [struct_fill hr f n id hid s hs, struct_fill hr f' n id hid s' hs']
    rcases hd : s.read (⟨x, n⟩ : Limited σ) with ⟨r, l⟩
    cases r with
    | ok w =>
      cases he : l.empty with
      | false => left; simp only [he, if_true]; nofun
      | true =>
        right
        have hl : l.available = 0 := by simpa [Limited.empty] using he
        have hn := grown_read hr hg hs' _ _ w hd hl
        rcases hd' : s'.read (⟨x, n⟩ : Limited σ) with ⟨r', l'⟩
        rw [hd'] at hn
        cases r' with
        | ok w' => exact absurd rfl (hn w')
        | _ => nofun
    | _ => exact .inl nofun
  obtain ⟨s, v⟩ := p
  obtain ⟨s', v'⟩ := q
  intro x
  rcases h with h | h | h
  · cases (show s = s' from h)
    left
    rw [struct_fill hr f n id hid s hp, struct_fill hr f' n id hid s hp]
  · exact .inr (grown s s' v v' f f' x h hp hq)
  · exact .inr (grown s' s v' v f' f x h hq hp).symm

theorem versions_forks (hr : MemoryOk) (strict : Bool) {regs regs' : List (UInt64 × Struct)} (hk : RegsOk regs)
    (hk' : RegsOk regs') (h : Versions regs regs') : Forks (structFactory strict regs) (structFactory strict regs') := by
  intro id
  rw [structFactory_create, structFactory_create]
  rcases h id with ⟨h1, h2⟩ | ⟨p, q, h1, h2, h3⟩
  · rw [h1, h2]; exact .inl rfl
  · rw [h1, h2]
    refine .inr ⟨_, _, rfl, rfl, fun σ _ f f' n => ?_⟩
    have m1 := hk _ (lookup_registered h1)
    exact versions_fill hr f f' n id m1.1 p q m1.2 (hk' _ (lookup_registered h2)).2 h3

omit [Env] in
/-- The schema is not changed by reading. -/
theorem code_leaves {P : Type} {Q : P → Prop} (p₀ : P) (h0 : Q p₀) : ∀ (s : Schema) (k : s.Val → RProg P), (∀ v, (k v).Leaves Q) →
    (s.code p₀ k).Leaves Q := by
  have il : ∀ (k : UInt64 → RProg P), (∀ v, (k v).Leaves Q) → (Schema.ilintCode p₀ k).Leaves Q := by
    intro k hk b
    dsimp only
    split
    · exact hk _
    · intro tmp
      dsimp only
      cases ((ILInt.decodeBody tmp).mapErr Data.readILIntErr).mapErr TagErr.ioError with
      | ok v => exact hk v
      | _ => exact h0
  have tx : ∀ e (k : String → RProg P), (∀ v, (k v).Leaves Q) → ∀ tmp, (Schema.textCode p₀ e k tmp).Leaves Q := by
    intro e k hk tmp
    unfold Schema.textCode
    cases fromUtf8 tmp with
    | some s => exact hk s
    | none => exact h0
  have sz : ∀ (k : Nat → RProg P), (∀ v, (k v).Leaves Q) → ∀ len, (Schema.given p₀ k (tagSizeToUsize len)).Leaves Q := by
    intro k hk len
    cases tagSizeToUsize len with
    | ok v => exact hk v
    | _ => exact h0
  have lp : ∀ {α : Type} (x : (α → RProg P) → RProg P), (∀ k, (∀ v, (k v).Leaves Q) → (x k).Leaves Q) →
      ∀ (n : Nat) (k : List α → RProg P), (∀ v, (k v).Leaves Q) → (Schema.loopCode x n k).Leaves Q := by
    intro α x hx n
    induction n with
    | zero => exact fun k hk => hk []
    | succ n ih => exact fun k hk => hx _ fun a => ih _ fun as => hk (a :: as)
  intro s
  induction s with
  | field sh =>
    intro k hk
    cases sh with
    | ilint => exact il _ fun v => hk _
    | signedILInt => exact il _ fun v => hk _
    | str n => exact fun t => tx _ _ (fun v => hk _) t
    | _ => exact fun b => hk _
  | text =>
    intro k hk
    refine il _ fun id => ?_
    split
    · exact h0
    · exact il _ fun len => sz (fun n => .readAll n (Schema.textCode p₀ _ k)) (fun n t => tx _ _ hk t) len
  | blob => exact fun k hk => il _ fun len => sz (fun n => .readAll n k) (fun n => hk) len
  | many s ih => exact fun k hk => il _ fun n => lp _ ih n.toNat k hk
  | both a b iha ihb => exact fun k hk => iha _ fun x => ihb _ fun y => hk (x, y)
  | opt s ih =>
    intro k hk b
    dsimp only
    split
    · exact hk _
    · split
      · exact ih _ fun v => hk _
      · exact h0
  | enum ok c ih =>
    intro k hk b
    dsimp only
    split
    · exact ih b _ fun v => hk _
    · exact h0

omit [Env] in
/-- The struct types as Rust types, as far as they are this one or not. -/
@[instance_reducible] noncomputable def schemaTypes (s : Schema) : PayloadTypes Struct :=
  open Classical in {
    typeOf := fun q => if q.schema = s then 1 else 0
    keeps := fun q n => code_leaves (Q := fun p : Struct => (if p.schema = s then 1 else 0) = if q.schema = s then 1 else 0) q rfl
      q.schema (fun v => .done (.ok ()) ⟨q.schema, v⟩) fun v => rfl }

omit [Env] in
theorem schemaTypes_iff (s : Schema) (q : Struct) : (schemaTypes s).typeOf q = 1 ↔ q.schema = s := by
  by_cases h : q.schema = s
  · exact ⟨fun _ => h, fun _ => if_pos h⟩
  · exact ⟨fun h' => (by cases (show (0 : Nat) = 1 from (if_neg h).symm.trans h')), fun h' => absurd h' h⟩

/-- The tags of a registered id are payloads with the schema registered. -/
theorem struct_types (strict : Bool) (regs : List (UInt64 × Struct)) {σ : Type} [Reader σ] (x x' : σ) (t : Tag Struct)
    (h : Factory.deserialize (structFactory strict regs) σ x = (.ok t, x')) (u : Tag Struct) (hu : Within u t) (p : Struct)
    (hp : regs.lookup u.id = some p) : ∃ v, u = .atom (.payload u.id ⟨p.schema, v⟩) := by
  letI : PayloadTypes Struct := schemaTypes p.schema
  have hid : ∀ id t, (structFactory strict regs).createTag id = .ok (some t) → t.id = id := by
    intro id t h
    rw [structFactory_create] at h
    cases hl : regs.lookup id with
    | some q => rw [hl] at h; cases h; rfl
    | none => rw [hl] at h; exact (std_regular strict).1 id t h
  obtain ⟨w, h1, h2⟩ := gives_asMade _ hid _ σ x x' t h u hu
  rw [structFactory_create, hp] at h1
  cases h1
  have h2 : TagType.payload 1 = typeOf u := by
    rw [← h2]
    exact congrArg TagType.payload ((schemaTypes_iff p.schema p).mpr rfl).symm
  cases u with
  | atom a => cases a with
    | payload i q =>
      simp only [typeOf, TagType.payload.injEq] at h2
      have hq := (schemaTypes_iff p.schema q).mp h2.symm
      obtain ⟨s, v⟩ := q
      simp only at hq
      subst hq
      exact ⟨v, rfl⟩
    | _ => simp [typeOf] at h2
  | _ => simp [typeOf] at h2

omit [Env] in
theorem grown_ne {s s' : Schema} (h : Grown s s') : s ≠ s' := by
  induction h with
  | append s t => intro h; have := congrArg sizeOf h; simp at this; omega
  | inLast a _ ih => intro h; cases h; exact ih rfl

/-- **C124** Two versions of a program that differ in that some payload types have more fields at the end read from every
reader, whatever its content and faults, the same tag and leave the reader in the same state, or one of them fails. -/
theorem C124_agree (hr : MemoryOk) (strict : Bool) {regs regs' : List (UInt64 × Struct)} (hk : RegsOk regs)
    (hk' : RegsOk regs') (h : Versions regs regs') {σ : Type} [Reader σ] (x : σ) :
    Factory.deserialize (structFactory strict regs) σ x = Factory.deserialize (structFactory strict regs') σ x ∨
      (∀ t, (Factory.deserialize (structFactory strict regs) σ x).1 ≠ .ok t) ∨
        ∀ t, (Factory.deserialize (structFactory strict regs') σ x).1 ≠ .ok t :=
  Fork.fuel (versions_forks hr strict hk hk' h) _ σ none x

/-- **C124** What one of them reads and what contains, at any depth, a tag whose type has changed, the other one does not
read: data of another version are always noticed, never misread. -/
theorem C124_noticed (hr : MemoryOk) (strict : Bool) {regs regs' : List (UInt64 × Struct)} (hk : RegsOk regs)
    (hk' : RegsOk regs') (h : Versions regs regs') {σ : Type} [Reader σ] (x x' : σ) (t : Tag Struct)
    (ht : Factory.deserialize (structFactory strict regs) σ x = (.ok t, x')) (u : Tag Struct) (hu : Within u t)
    (hc : Changed regs regs' u.id) (t' : Tag Struct) :
    (Factory.deserialize (structFactory strict regs') σ x).1 ≠ .ok t' := by
  intro h'
  rcases C124_agree hr strict hk hk' h x with h1 | h1 | h1
  · obtain ⟨p, q, hp, hq, hd⟩ := hc
    rw [ht] at h1
    obtain ⟨v, e1⟩ := struct_types strict regs x x' t ht u hu p hp
    obtain ⟨w, e2⟩ := struct_types strict regs' x x' t h1.symm u hu q hq
    have : p.schema = q.schema := by
      rw [e1] at e2
      simp only [Tag.id, Atom.id] at e2
      injection e2 with e2
      injection e2 with _ e2
      exact Struct.mk.inj e2 |>.1
    rcases hd with hd | hd
    · exact grown_ne hd this
    · exact grown_ne hd this.symm
  · exact h1 t (by rw [ht])
  · exact h1 t' h'

omit [Env] in
/-- The versions may be swapped. -/
theorem versions_symm {regs regs' : List (UInt64 × Struct)} (h : Versions regs regs') : Versions regs' regs := by
  intro id
  rcases h id with ⟨h1, h2⟩ | ⟨p, q, h1, h2, h3⟩
  · exact .inl ⟨h2, h1⟩
  · exact .inr ⟨q, p, h2, h1, h3.imp Eq.symm Or.symm⟩

/-- **C124** So `from_bytes` of either version reports an error for bytes that the other one reads as a tag that is, or
contains, a tag whose type has changed; for bytes that it reads as another tag, it gives this tag or an error. -/
theorem C124_from_bytes (hr : MemoryOk) (strict : Bool) {regs regs' : List (UInt64 × Struct)} (hk : RegsOk regs)
    (hk' : RegsOk regs') (h : Versions regs regs') (bs : Bytes) (t : Tag Struct)
    (ht : Factory.fromBytes (structFactory strict regs) bs = .ok t) :
    (∃ x, Factory.fromBytes (structFactory strict regs') bs = .err x) ∨
      (Factory.fromBytes (structFactory strict regs') bs = .ok t ∧ ∀ u, Within u t → ¬ Changed regs regs' u.id) := by
  unfold Factory.fromBytes at ht ⊢
  rcases hd : Factory.deserialize (structFactory strict regs) ByteArrayReader (ByteArrayReader.new bs) with ⟨r, x'⟩
  rw [hd] at ht
  cases r with
  | ok a =>
    simp only at ht
    split at ht
    · rename_i ha
      simp only [Res.ok.injEq] at ht
      subst ht
      rcases hd' : Factory.deserialize (structFactory strict regs') ByteArrayReader (ByteArrayReader.new bs) with ⟨r', x''⟩
      have ht' := C123_total hr strict regs' hk' ByteArrayReader.view.toView (ByteArrayReader.new bs) bs (ByteArrayReader.view_new bs)
      have hn := fun u hu hc => C124_noticed hr strict hk hk' h (ByteArrayReader.new bs) x' a hd u hu hc
      have hg := C124_agree hr strict hk hk' h (ByteArrayReader.new bs)
      rw [hd'] at ht' hn hg
      rw [hd] at hg
      cases r' with
      | ok b =>
        right
        rcases hg with hg | hg | hg
        · cases hg
          exact ⟨by simp only; rw [if_pos ha], fun u hu hc => hn u hu hc _ rfl⟩
        · exact absurd rfl (hg a)
        · exact absurd rfl (hg b)
      | err x => exact .inl ⟨x, rfl⟩
      | _ => simp at ht'
    · simp at ht
  | _ => simp at ht

/-- **C124** So what one version writes, if there is in it, at any depth, a payload whose type has changed, the other
version refuses. -/
theorem C124_written (hr : MemoryOk) (strict : Bool) {regs regs' : List (UInt64 × Struct)} (hk : RegsOk regs)
    (hk' : RegsOk regs') (h : Versions regs regs') (t : Tag Struct) (hm : MapsOk t)
    (ht : ∀ u, Within u t → (encValue u).length ≤ maxValue ∧
      ((∃ id s v v₀, u = .atom (.payload id ⟨s, v⟩) ∧ HasType s v ∧ regs.lookup id = some ⟨s, v₀⟩) ∨
        regs.lookup u.id = none ∧ StdTag strict u))
    (u : Tag Struct) (hu : Within u t) (hc : Changed regs regs' u.id) :
    ∃ bs x, t.toBytes = .ok bs ∧ Factory.fromBytes (structFactory strict regs') bs = .err x := by
  obtain ⟨bs, t', h1, -, h2, h3⟩ := C123_round_trip hr strict regs hk t hm ht
  obtain ⟨w, hw, hs⟩ := h3.within hu
  rcases C124_from_bytes hr strict hk hk' h bs t' h2 with ⟨x, hx⟩ | ⟨-, hx⟩
  · exact ⟨bs, x, h1, hx⟩
  · exact absurd (hs.id_eq ▸ hc) (hx w hw)

end

/-! ### Non-vacuity: the cards of the next version have a byte more -/

def nextSchema : Schema := .both .text (.both (.many (.field .ilint)) (.both (.opt .blob) (.field .u8)))

def nextRegs : List (UInt64 × Struct) :=
  [(5000, ⟨nextSchema, ("", [], none, .u8 0)⟩), (6000, ⟨.both (.field .signedILInt) (.field (.str 2)), (.signedILInt 5, .str "..")⟩)]

theorem nextRegs_ok : RegsOk nextRegs := by
  intro r hr
  simp only [nextRegs, List.mem_cons, List.not_mem_nil, or_false] at hr
  rcases hr with rfl | rfl
  · exact ⟨by decide, trivial, trivial, trivial, trivial⟩
  · exact ⟨by decide, trivial, (by decide : 2 ≤ maxValue)⟩

theorem next_grown : Grown cardSchema nextSchema := by
  refine .inLast _ (.inLast _ (.append _ _ ?_))
  rintro v ⟨h1, h2⟩
  cases v <;> simp [shapeOf] at h1
  cases h2

theorem cards_changed : Changed cardRegs nextRegs 5000 :=
  ⟨_, _, rfl, rfl, .inl next_grown⟩

theorem cards_versions : Versions cardRegs nextRegs := by
  intro id
  by_cases h : id = 5000
  · subst h; exact .inr ⟨_, _, rfl, rfl, .inr (.inl next_grown)⟩
  · by_cases h' : id = 6000
    · subst h'; exact .inr ⟨_, _, rfl, rfl, .inl rfl⟩
    · left
      simp [cardRegs, nextRegs, List.lookup_cons, beq_eq_false_iff_ne.mpr h, beq_eq_false_iff_ne.mpr h']

section
attribute [local instance] bigEnv

/-- A sequence of a number and a card, as the old version writes it: the next version refuses it. -/
example (strict : Bool) : ∃ bs x,
    (.seq 22 [.atom (.ilint 10 7), .atom (.payload 5000 ⟨cardSchema, card⟩)] : Tag Struct).toBytes = .ok bs ∧
      Factory.fromBytes (structFactory strict nextRegs) bs = .err x := by
  have hw : ∀ u, Within u (.seq 22 [.atom (.ilint 10 7), .atom (.payload 5000 ⟨cardSchema, card⟩)] : Tag Struct) →
      u = .seq 22 [.atom (.ilint 10 7), .atom (.payload 5000 ⟨cardSchema, card⟩)] ∨ u = .atom (.ilint 10 7) ∨
        u = .atom (.payload 5000 ⟨cardSchema, card⟩) := by
    intro u hu
    cases hu with
    | refl => exact .inl rfl
    | seq hv hu =>
      simp only [List.mem_cons, List.not_mem_nil, or_false] at hv
      rcases hv with rfl | rfl <;> cases hu
      · exact .inr (.inl rfl)
      · exact .inr (.inr rfl)
  exact C124_written bigEnv_ok strict cardRegs_ok nextRegs_ok cards_versions
    (.seq 22 [.atom (.ilint 10 7), .atom (.payload 5000 ⟨cardSchema, card⟩)])
    (fun u hu => by rcases hw u hu with rfl | rfl | rfl <;> trivial)
    (fun u hu => by
      rcases hw u hu with rfl | rfl | rfl
      · exact ⟨by decide +kernel, .inr ⟨rfl, .inl rfl⟩⟩
      · exact ⟨by decide +kernel, .inr ⟨rfl, .inl rfl⟩⟩
      · exact ⟨by decide +kernel, .inl ⟨5000, _, card, _, rfl, card_typed, rfl⟩⟩)
    (.atom (.payload 5000 ⟨cardSchema, card⟩)) (.seq (by simp) (.refl _)) cards_changed

/-- Other changes of a type are not noticed: two bytes instead of a number of two bytes. -/
example :
    ((Schema.read (.both (.field .u8) (.field .u8)) : Act TagErr ByteArrayReader _) (ByteArrayReader.new [1, 2])).1 =
      .ok (.u8 1, .u8 2) ∧
    ((Schema.read (.field .u16) : Act TagErr ByteArrayReader _) (ByteArrayReader.new [1, 2])).1 = .ok (.u16 258) :=
  ⟨rfl, rfl⟩

end
end Verif.Props
