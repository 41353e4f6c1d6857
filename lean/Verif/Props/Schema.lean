import Verif.Proof.Schema
import Verif.Props.Brief
import Verif.Props.Ledger
/-!
# C123: payloads made of fields
-/
namespace Verif.Props
open Verif Verif.Spec
set_option linter.unusedSectionVars false

section
variable [Env]

/-- **C123** The payload is the code the user writes: reading is what the library calls, made in order, do on any reader,
the payload being replaced when they have all succeeded and left alone otherwise; writing is what the library calls do
on any writer. -/
theorem C123_code (hr : MemoryOk) {σ ω : Type} [Reader σ] [Writer ω] (f : FactoryDeser Struct) (s : Schema)
    (hs : BoundedSchema s) (v₀ : s.Val) (size : Nat) (r : σ) :
    (TagPayload.deserialize (⟨s, v₀⟩ : Struct) size).run f (⟨s, v₀⟩, r) =
      (match s.read r with
        | (.ok v, r') => (.ok (), (⟨s, v⟩, r'))
        | (.err e, r') => (.err e, (⟨s, v₀⟩, r'))
        | (.panic, r') => (.panic, (⟨s, v₀⟩, r'))
        | (.diverge, r') => (.diverge, (⟨s, v₀⟩, r'))) ∧
    (runOps (TagPayload.serialize (⟨s, v₀⟩ : Struct)).1 : Act TagErr ω Unit) = s.write v₀ := by
  refine ⟨?_, runOps_struct s v₀⟩
  have h := Runs.code (σ := σ) (f := f) (p₀ := (⟨s, v₀⟩ : Struct)) hr s hs (fun v => .done (.ok ()) ⟨s, v⟩) r
  rw [onReader_bind] at h
  refine h.trans ?_
  rcases s.read r with ⟨_ | _ | _ | _, r'⟩ <;> rfl

/-- **C123** On every well-behaved reader, reading succeeds with a value exactly if the bytes begin with a form of it, and
takes these. -/
theorem C123_reader (hr : MemoryOk) {σ : Type} [Reader σ] (V : View σ) (s : Schema) (hs : BoundedSchema s) (r : σ)
    (bs : Bytes) (hR : V.R r bs) (v : s.Val) (rest : Bytes) :
    (∃ r', s.read r = (.ok v, r') ∧ V.R r' rest) ↔ ∃ enc, bs = enc ++ rest ∧ StructForm s v enc := by
  constructor
  · rintro ⟨r', h1, h2⟩
    obtain ⟨enc, rest', h3, h4, h5⟩ := (Reads.read hr s hs).2 _ _ _ _ hR h1
    rw [V.unique h2 h5]
    exact ⟨enc, h3, h4⟩
  · rintro ⟨enc, rfl, h⟩
    exact (Reads.read hr s hs).1 _ _ _ _ hR h

/-- The payload reads exactly the forms of its type. -/
theorem struct_reads (hr : MemoryOk) (e : Engine Struct) (p₀ p : Struct) (hs : BoundedSchema p₀.schema) (bs : Bytes) :
    PayloadReads e p₀ p bs ↔ ∃ v, p = ⟨p₀.schema, v⟩ ∧ StructForm p₀.schema v bs := by
  obtain ⟨s, v₀⟩ := p₀
  unfold PayloadReads
  have hR := ByteArrayReader.view_new bs
  have key := (C123_code (ω := VecWriter) hr (Factory.methods e) s hs v₀ bs.length (ByteArrayReader.new bs)).1
  rw [key]
  constructor
  · rintro ⟨r, h1, h2⟩
    rcases hx : s.read (ByteArrayReader.new bs) with ⟨a | _ | _ | _, r'⟩
    · rw [hx] at h1
      cases h1
      obtain ⟨enc, rest, h3, h4, h5⟩ := (Reads.read (V := ByteArrayReader.view.toView) hr s hs).2 _ _ _ _ hR hx
      have : rest = [] := by
        obtain ⟨h6, h7⟩ := h5
        rw [h7, List.drop_eq_nil_iff]
        unfold ByteArrayReader.available ByteArrayReader.len at h2
        omega
      rw [this, List.append_nil] at h3
      exact ⟨a, rfl, h3 ▸ h4⟩
    all_goals (rw [hx] at h1; cases h1)
  · rintro ⟨v, rfl, h⟩
    obtain ⟨r', h1, h2⟩ := (C123_reader hr ByteArrayReader.view.toView s hs _ _ hR v []).mpr ⟨bs, by simp, h⟩
    refine ⟨r', by rw [h1], ?_⟩
    obtain ⟨h3, h4⟩ := h2
    have := List.drop_eq_nil_iff.mp h4.symm
    unfold ByteArrayReader.available ByteArrayReader.len
    omega

theorem struct_bytes (p : Struct) (h : HasType p.schema p.value) : payloadBytes p = structBytes p.schema p.value :=
  ops_bytes _ _ h

theorem struct_ok (p : Struct) (h : HasType p.schema p.value) : PayloadOk p := by
  refine ⟨rfl, ?_⟩
  rw [struct_bytes p h]
  exact size_eq _ _ h

/-- What the factory with the registrations makes. -/
theorem structFactory_create (strict : Bool) (regs : List (UInt64 × Struct)) (id : UInt64) :
    (structFactory strict regs).createTag id =
      match regs.lookup id with
      | some p => .ok (some (.atom (.payload id p)))
      | none => (Engine.std strict).createTag id := by
  induction regs with
  | nil => rfl
  | cons r regs ih =>
    obtain ⟨i, p⟩ := r
    rw [List.lookup_cons]
    by_cases h : id = i
    · subst h
      rw [beq_self_eq_true]
      simp only [structFactory, Engine.register, Engine.createTag, HMap.get_insert, if_pos, payloadCreator, Res.map]
    · rw [beq_false_of_ne h]
      refine Eq.trans ?_ ih
      rw [structFactory]
      generalize structFactory strict regs = e
      simp only [Engine.register, Engine.createTag, HMap.get_insert, if_neg h]
      rfl

theorem lookup_registered {α β : Type} [BEq α] [LawfulBEq α] {l : List (α × β)} {a : α} {b : β} (h : l.lookup a = some b) :
    (a, b) ∈ l := by
  induction l with
  | nil => cases h
  | cons r l ih =>
    obtain ⟨x, y⟩ := r
    rw [List.lookup_cons] at h
    by_cases hx : a == x
    · rw [hx] at h
      cases h
      rw [eq_of_beq hx]
      simp
    · rw [Bool.not_eq_true] at hx
      rw [hx] at h
      exact List.mem_cons_of_mem _ (ih h)

theorem struct_made {strict : Bool} {regs : List (UInt64 × Struct)} (hk : RegsOk regs) {id i : UInt64} {p : Struct}
    (h : (structFactory strict regs).createTag id = .ok (some (.atom (.payload i p)))) :
    i = id ∧ regs.lookup id = some p ∧ BoundedSchema p.schema := by
  rw [structFactory_create] at h
  cases hl : regs.lookup id with
  | some q =>
    rw [hl] at h
    cases h
    exact ⟨rfl, rfl, (hk _ (lookup_registered hl)).2⟩
  | none =>
    rw [hl] at h
    obtain ⟨g1, -⟩ := std_created h
    rcases g1 with g1 | ⟨-, g1, -⟩
    · simp [Tag.kind, Atom.kind, standardId] at g1
    · simp [Tag.kind, Atom.kind] at g1

/-- **C123** Struct types, registered under explicit ids in any number, keep all the conditions under which factories have
the properties proved in general: whatever is read is written with its size, in no more bytes, in one form, and read
back. -/
theorem C123_lawful (hr : MemoryOk) (strict : Bool) (regs : List (UInt64 × Struct)) (hk : RegsOk regs) :
    Regular (structFactory strict regs) ∧ Tidy (structFactory strict regs) ∧ Brief (structFactory strict regs) := by
  refine ⟨?_, ?_, ?_⟩
  · induction regs with
    | nil => exact std_regular strict
    | cons r regs ih =>
      exact C114_register (ih fun x hx => hk x (List.mem_cons_of_mem _ hx)) r.1 (hk r (by simp)).1 _
        fun t₀ => (C114_creators _ t₀).2.2 _
  · intro id p₀ p v hc hv hp
    obtain ⟨-, -, hb⟩ := struct_made hk hc
    obtain ⟨x, rfl, hf⟩ := (struct_reads hr _ p₀ p hb v).mp hp
    have ht := structForm_typed _ _ _ hf
    have hsn := structForm_snug _ _ _ hf
    refine ⟨struct_ok _ ht, ?_, (struct_reads hr _ p₀ _ hb _).mpr ⟨x, rfl, ?_⟩⟩
    · rw [struct_bytes _ ht]; exact hsn.1
    · rw [struct_bytes _ ht]
      have := hsn.1
      exact structBytes_form _ _ ht (by omega)
  · intro id p₀ p v hc hv hp hl
    obtain ⟨-, -, hb⟩ := struct_made hk hc
    obtain ⟨x, rfl, hf⟩ := (struct_reads hr _ p₀ p hb v).mp hp
    have ht := structForm_typed _ _ _ hf
    rw [struct_bytes _ ht] at hl ⊢
    exact ((structForm_snug _ _ _ hf).2 hl).2 trivial

/-- **C123** The bytes of a tag with such a payload, exactly: the id, the length and a form of the value. -/
theorem C123_exactly (hr : MemoryOk) (strict : Bool) (regs : List (UInt64 × Struct)) (hk : RegsOk regs) (id : UInt64)
    (p₀ : Struct) (hl : regs.lookup id = some p₀) (p : Struct) (bs : Bytes) :
    Factory.fromBytes (structFactory strict regs) bs = .ok (.atom (.payload id p)) ↔
      ∃ v h l x, p = ⟨p₀.schema, v⟩ ∧ bs = h ++ l ++ x ∧ IsILInt h id.toNat ∧ IsILInt l x.length ∧ x.length ≤ maxValue ∧
        StructForm p₀.schema v x := by
  have hreg := (C123_lawful hr strict regs hk).1
  have hcr : (structFactory strict regs).createTag id = .ok (some (.atom (.payload id p₀))) := by
    rw [structFactory_create, hl]
  have hid : 16 ≤ id.toNat := (hk _ (lookup_registered hl)).1
  have hb := (hk _ (lookup_registered hl)).2
  have hm : MapsOk (.atom (.payload id p) : Tag Struct) := by
    intro u hu
    cases hu
    trivial
  have key := C114_language hr hreg bs (.atom (.payload id p))
  constructor
  · intro h
    obtain ⟨k, hf⟩ := key.mpr ⟨hm, _, h, .atom _⟩
    cases k with
    | zero => exact hf.elim
    | succ k =>
      obtain ⟨t₀, h, x, h1, h2, h3, h4, h5, h6⟩ := hf
      have h1 : (structFactory strict regs).createTag id = .ok (some t₀) := h1
      rw [hcr] at h1
      cases h1
      rcases h4 with h4 | ⟨_, _, _, h7, h8, h9⟩
      · exact h4.elim
      · cases h7; cases h8
        obtain ⟨v, h10, h11⟩ := (struct_reads hr _ p₀ p hb x).mp h9
        rcases h6 with ⟨h6, -⟩ | ⟨-, l, h6, h7⟩
        · have h6 : id.toNat ≤ 15 := h6
          omega
        · exact ⟨v, h, l, x, h10, h7, h3, h6, h5, h11⟩
  · rintro ⟨v, h, l, x, rfl, rfl, h1, h2, h3, h4⟩
    obtain ⟨-, t', h5, h6⟩ := key.mp ⟨1, _, h, x, hcr, rfl, h1,
      .inr ⟨id, p₀, _, rfl, rfl, (struct_reads hr _ p₀ _ hb x).mpr ⟨v, rfl, h4⟩⟩, h3, .inr ⟨hid, l, h2, rfl⟩⟩
    cases h6
    exact h5

/-- **C123** Round trip: a tree of standard tags and of such payloads, of the registered types, is read back as it was, and
`size()` is the number of bytes. -/
theorem C123_round_trip (hr : MemoryOk) (strict : Bool) (regs : List (UInt64 × Struct)) (hk : RegsOk regs)
    (t : Tag Struct) (hm : MapsOk t)
    (h : ∀ u, Within u t → (encValue u).length ≤ maxValue ∧
      ((∃ id s v v₀, u = .atom (.payload id ⟨s, v⟩) ∧ HasType s v ∧ regs.lookup id = some ⟨s, v₀⟩) ∨
        regs.lookup u.id = none ∧ StdTag strict u)) :
    ∃ bs t', t.toBytes = .ok bs ∧ t.size.toNat = bs.length ∧
      Factory.fromBytes (structFactory strict regs) bs = .ok t' ∧ Same t t' := by
  have hp : PayloadsOk t := by
    intro id' p hu
    rcases (h _ hu).2 with ⟨id, s, v, v₀, he, h1, -⟩ | ⟨-, h1 | ⟨-, h1, -⟩⟩
    · cases he; exact struct_ok _ h1
    · simp [Tag.kind, Atom.kind, standardId] at h1
    · simp [Tag.kind, Atom.kind] at h1
  have hs : Supported (structFactory strict regs) t := by
    intro u hu
    rcases h u hu with ⟨hl, ⟨id, s, v, v₀, rfl, ht, hlk⟩ | ⟨hne, hstd⟩⟩
    · have hid := (hk _ (lookup_registered hlk)).1
      refine ⟨⟨.atom (.payload id ⟨s, v₀⟩), by rw [structFactory_create]; simp only [Tag.id, Atom.id, hlk], rfl, rfl, ?_⟩, hl,
        fun hi => absurd hi (by simp only [Tag.id, Atom.id]; dsimp only at hid; omega)⟩
      intro id₀ q₀ id' q h1 h2
      cases h1; cases h2
      have hb := (hk _ (lookup_registered hlk)).2
      refine (struct_reads hr _ ⟨s, v₀⟩ _ hb _).mpr ⟨v, rfl, ?_⟩
      have e : payloadBytes (⟨s, v⟩ : Struct) = structBytes s v := struct_bytes _ ht
      rw [e]
      refine structBytes_form s v ht ?_
      rw [← e]
      exact hl
    · have hc : (structFactory strict regs).createTag u.id = (Engine.std strict).createTag u.id := by
        rw [structFactory_create, hne]
      rcases hstd with hstd | ⟨rfl, hraw, h16, hn⟩
      · obtain ⟨t₀, h1, h2, h3⟩ := std_create (P := Struct) (strict := strict) hstd
        refine ⟨⟨t₀, by rw [hc]; exact h1, h2, h3, ?_⟩, hl, std_sized hstd⟩
        rintro _ _ _ _ _ rfl
        simp [Tag.kind, Atom.kind, standardId] at hstd
      · refine ⟨⟨.atom (.raw u.id []), ?_, hraw.symm, rfl, ?_⟩, hl, fun hi => by omega⟩
        · rw [hc, std_unknown hn, if_pos ⟨rfl, h16⟩]
        · rintro _ _ _ _ h1
          cases h1
  obtain ⟨bs, t', h1, h2, h3⟩ := C30_round_trip hr _ t hm hp hs
  refine ⟨bs, t', h1, ?_, h2, h3⟩
  have hb := toBytes_eq_enc hr hm hp hs
  have hl := enc_length_le hs
  rw [hb, Res.ok.injEq] at h1
  have h64 : (enc t).length < 2 ^ 64 := by have : maxValue = 536870912 := rfl; omega
  rw [t.size_eq hp h64, ← h1]
  exact lenU64_toNat h64

theorem ilintCode_calm {P : Type} {C : Tag P → Prop} (p₀ : P) {k : UInt64 → RProg P} (hk : ∀ v, (k v).Calm C) :
    (Schema.ilintCode p₀ k).Calm C := by
  intro h
  dsimp only
  split
  · exact hk _
  · intro tmp
    dsimp only
    have := ILInt.decodeBody_ne_panic tmp
    cases hd : ILInt.decodeBody tmp with
    | ok v => exact hk v
    | err e => exact ⟨nofun, nofun⟩
    | panic => exact absurd hd this.1
    | diverge => exact absurd hd this.2

theorem textCode_calm {P : Type} {C : Tag P → Prop} (p₀ : P) (e : TagErr) {k : String → RProg P} (hk : ∀ v, (k v).Calm C)
    (tmp : Bytes) : (Schema.textCode p₀ e k tmp).Calm C := by
  unfold Schema.textCode
  cases fromUtf8 tmp with
  | some s => exact hk s
  | none => exact ⟨nofun, nofun⟩

theorem allCode_calm {P : Type} {C : Tag P → Prop} (n : Nat) {k : Bytes → RProg P} (hk : ∀ v, (k v).Calm C) :
    (RProg.readAll n k).Calm C := hk

theorem sizeCode_calm {P : Type} {C : Tag P → Prop} (p₀ : P) {k : Nat → RProg P} (hk : ∀ v, (k v).Calm C) (len : UInt64) :
    (Schema.given p₀ k (tagSizeToUsize len)).Calm C := by
  have : tagSizeToUsize len ≠ .panic ∧ tagSizeToUsize len ≠ .diverge := by unfold tagSizeToUsize; split <;> simp
  cases hd : tagSizeToUsize len with
  | ok v => exact hk v
  | err e => exact ⟨nofun, nofun⟩
  | panic => exact absurd hd this.1
  | diverge => exact absurd hd this.2

theorem loopCode_calm {P α : Type} {C : Tag P → Prop} {x : (α → RProg P) → RProg P}
    (hx : ∀ k, (∀ v, (k v).Calm C) → (x k).Calm C) : ∀ (n : Nat) (k : List α → RProg P), (∀ v, (k v).Calm C) →
      (Schema.loopCode x n k).Calm C
  | 0, _, hk => hk []
  | n + 1, _, hk => hx _ fun a => loopCode_calm hx n _ fun as => hk (a :: as)

theorem code_calm {P : Type} {C : Tag P → Prop} (p₀ : P) : ∀ (s : Schema) (k : s.Val → RProg P), (∀ v, (k v).Calm C) →
    (s.code p₀ k).Calm C
  | .field sh, k, hk => by
    cases sh with
    | ilint => exact ilintCode_calm p₀ fun v => hk _
    | signedILInt => exact ilintCode_calm p₀ fun v => hk _
    | str n => exact fun t => textCode_calm p₀ _ (fun v => hk _) t
    | _ => exact fun t => hk _
  | .text, k, hk => by
    refine ilintCode_calm p₀ fun id => ?_
    split
    · exact ⟨nofun, nofun⟩
    · exact ilintCode_calm p₀ fun len => sizeCode_calm p₀ (fun n => allCode_calm n (textCode_calm p₀ _ hk)) len
  | .blob, k, hk => ilintCode_calm p₀ fun len => sizeCode_calm p₀ (fun n => allCode_calm n hk) len
  | .many s, k, hk => ilintCode_calm p₀ fun n => loopCode_calm (fun k hk => code_calm p₀ s k hk) _ k hk
  | .both a b, k, hk => code_calm p₀ a _ fun x => code_calm p₀ b _ fun y => hk _
  | .opt s, k, hk => by
    intro b
    dsimp only
    split
    · exact hk _
    · split
      · exact code_calm p₀ s _ fun v => hk _
      · exact ⟨nofun, nofun⟩
  | .enum ok c, k, hk => by
    intro b
    dsimp only
    split
    · exact code_calm p₀ (c b) _ fun v => hk _
    · exact ⟨nofun, nofun⟩

/-- **C123** No panic and no endless loop, on any bytes from any well-behaved reader.  (The sizes of
the types are bounded because the payload, as a program, does not ask for memory; see `C123_code`.) -/
theorem C123_total (hr : MemoryOk) (strict : Bool) (regs : List (UInt64 × Struct)) (_hk : RegsOk regs) {σ : Type}
    [Reader σ] (V : View σ) (s : σ) (bs : Bytes) (hR : V.R s bs) :
    (∃ t, (Factory.deserialize (structFactory strict regs) σ s).1 = .ok t) ∨
      ∃ x, (Factory.deserialize (structFactory strict regs) σ s).1 = .err x := by
  refine C36_streams hr _ (fun id => ?_) V s bs hR
  rw [structFactory_create]
  cases regs.lookup id with
  | some p =>
    refine ⟨nofun, nofun, fun t h => ?_⟩
    cases h
    exact ⟨fun _ => True, trivial, fun id p _ n => code_calm p p.schema _ fun v => ⟨nofun, nofun⟩⟩
  | none => exact std_calm strict id

/-- **C123** Whatever is read is of the types registered: a tag under a registered id, alone or within others, holds a
value of the type registered there. -/
theorem C123_typed (hr : MemoryOk) (strict : Bool) (regs : List (UInt64 × Struct)) (hk : RegsOk regs) (bs : Bytes)
    (t : Tag Struct) (h : Factory.fromBytes (structFactory strict regs) bs = .ok t) (u : Tag Struct) (hu : Within u t)
    (p : Struct) (hp : regs.lookup u.id = some p) :
    ∃ v, u = .atom (.payload u.id ⟨p.schema, v⟩) ∧ HasType p.schema v := by
  obtain ⟨h1, h2, -⟩ := C123_lawful hr strict regs hk
  obtain ⟨x, k, -, h4⟩ := (top_custom hr h1 _ _ _).mp ((fromBytes_ok_iff _ _ _).mp h)
  obtain ⟨-, t₀, h5, h6, h7⟩ := customFormAt_parts h2 k t x
    (customFormAt_mono (fun _ _ _ => latest_made) _ (Nat.le_refl _) t _ h4) u hu
  rw [structFactory_create, hp] at h5
  cases h5
  rcases h7 with ⟨L, v, h7⟩ | ⟨⟨i, q₀, q, g1, g2, g3⟩, -⟩
  · cases u with
    | atom a => cases a <;> first | exact h7.elim | cases h6
    | _ => cases h6
  · cases g1
    obtain ⟨v, rfl, hv⟩ := (struct_reads hr _ p q (hk _ (lookup_registered hp)).2 _).mp g3
    exact ⟨v, g2, structForm_typed _ _ _ hv⟩

/-- **C123** Everything the factory reads is written again in no more bytes, which are read as the same tag and written as
the same bytes; and a change of one byte of such bytes is not read as the same tag by any factory of this kind. -/
theorem C123_normal (hr : MemoryOk) (strict : Bool) (regs : List (UInt64 × Struct)) (hk : RegsOk regs) (bs : Bytes)
    (t : Tag Struct) (h : Factory.fromBytes (structFactory strict regs) bs = .ok t) :
    ∃ bs' t', t.toBytes = .ok bs' ∧ bs'.length ≤ bs.length ∧ Factory.fromBytes (structFactory strict regs) bs' = .ok t' ∧
      Same t t' ∧ t'.toBytes = .ok bs' ∧
      ∀ strict' regs', RegsOk regs' → ∀ i b t'', (hi : i < bs'.length) → bs'[i] ≠ b →
        Factory.fromBytes (structFactory strict' regs') (bs'.set i b) = .ok t'' → ¬ Same t' t'' := by
  obtain ⟨h1, h2, h3⟩ := C123_lawful hr strict regs hk
  obtain ⟨bs', t', g1, g2, g3, g4, g5⟩ := C117_normalise hr h1 h2 bs t h
  refine ⟨bs', t', g1, g2, g3, g4, g5, fun strict' regs' hk' i b t'' hi hb h' => ?_⟩
  obtain ⟨k1, k2, k3⟩ := C123_lawful hr strict' regs' hk'
  exact C120_one_byte hr h1 h2 k1 k2 k3 bs' t' t'' g3 g5 i b hi hb h'

end

/-! ### The hypotheses are met -/
section
attribute [local instance] bigEnv

/-- A name, a list of numbers and perhaps a picture. -/
def cardSchema : Schema := .both .text (.both (.many (.field .ilint)) (.opt .blob))

/-- A card, and a signed number with a fixed text of two bytes. -/
def cardRegs : List (UInt64 × Struct) :=
  [(5000, ⟨cardSchema, ("", [], none)⟩), (6000, ⟨.both (.field .signedILInt) (.field (.str 2)), (.signedILInt 0, .str "--")⟩)]

def card : cardSchema.Val := ("hi", [.ilint 7, .ilint 248], some [9])

theorem cardRegs_ok : RegsOk cardRegs := by
  intro r hr
  simp only [cardRegs, List.mem_cons, List.not_mem_nil, or_false] at hr
  rcases hr with rfl | rfl
  · exact ⟨by decide, trivial, trivial, trivial⟩
  · exact ⟨by decide, trivial, (by decide : 2 ≤ maxValue)⟩

theorem card_typed : HasType cardSchema card := by
  refine ⟨(by decide : (Spec.utf8 "hi").length < 2 ^ 64), ⟨by decide, ?_⟩, (by decide : [(9 : Byte)].length < 2 ^ 64)⟩
  intro v hv
  simp only [List.mem_cons, List.not_mem_nil, or_false] at hv
  rcases hv with rfl | rfl <;> rfl

example : structBytes cardSchema card = [17, 2, 104, 105, 2, 7, 248, 0, 1, 1, 9] := by decide +kernel

/-- A longer form of one of the numbers is read, too. -/
theorem card_form : StructForm cardSchema card [17, 2, 104, 105, 2, 7, 249, 0, 0, 1, 1, 9] := by
  refine ⟨[17, 2, 104, 105], [2, 7, 249, 0, 0, 1, 1, 9], rfl, stringForm_tag (by decide), [2, 7, 249, 0, 0], [1, 1, 9], rfl,
    ⟨[2], [7, 249, 0, 0], rfl, ILInt.isILInt_ilint (v := 2) (by decide), [7], [249, 0, 0], rfl,
      ⟨rfl, ILInt.isILInt_ilint (v := 7) (by decide)⟩, [249, 0, 0], [], rfl, ⟨rfl, by decide, .inr ?_⟩, rfl⟩,
    [1, 9], rfl, by decide, [1], ILInt.isILInt_ilint (v := 1) (by decide), rfl⟩
  exact ⟨249, [0, 0], rfl, by decide, by decide, by decide, by decide⟩

example (strict : Bool) : Factory.fromBytes (structFactory strict cardRegs)
    [249, 18, 144, 12, 17, 2, 104, 105, 2, 7, 249, 0, 0, 1, 1, 9] = .ok (.atom (.payload 5000 ⟨cardSchema, card⟩)) :=
  (C123_exactly bigEnv_ok strict cardRegs cardRegs_ok 5000 _ rfl ⟨cardSchema, card⟩ _).mpr
    ⟨card, [249, 18, 144], [12], [17, 2, 104, 105, 2, 7, 249, 0, 0, 1, 1, 9], rfl, rfl,
      ILInt.isILInt_ilint (v := 5000) (by decide), ILInt.isILInt_ilint (v := 12) (by decide), by decide, card_form⟩

/-- What is not a form is refused: a flag that is neither 0 nor 1. -/
example : ((Schema.read cardSchema : Act TagErr ByteArrayReader _) (ByteArrayReader.new [17, 0, 0, 2])).1.isOk = false ∧
    ((Schema.read cardSchema : Act TagErr ByteArrayReader _) (ByteArrayReader.new [17, 0, 0, 0])).1.isOk = true := by
  decide +kernel

/-- A sequence of a number and the card, which is read back. -/
example (strict : Bool) : ∃ bs t', (.seq 22 [.atom (.ilint 10 7), .atom (.payload 5000 ⟨cardSchema, card⟩)] : Tag Struct).toBytes = .ok bs ∧
    Factory.fromBytes (structFactory strict cardRegs) bs = .ok t' ∧
    Same (.seq 22 [.atom (.ilint 10 7), .atom (.payload 5000 ⟨cardSchema, card⟩)]) t' := by
  have hw : ∀ u, Within u (.seq 22 [.atom (.ilint 10 7), .atom (.payload 5000 ⟨cardSchema, card⟩)] : Tag Struct) →
      u = .seq 22 [.atom (.ilint 10 7), .atom (.payload 5000 ⟨cardSchema, card⟩)] ∨ u = .atom (.ilint 10 7) ∨
        u = .atom (.payload 5000 ⟨cardSchema, card⟩) := by
    intro u hu
    cases hu with
    | refl => exact .inl rfl
    | seq hv hu =>
      simp only [List.mem_cons, List.not_mem_nil, or_false] at hv
      rcases hv with rfl | rfl <;> cases hu
      · exact .inr (.inl rfl)
      · exact .inr (.inr rfl)
  obtain ⟨bs, t', h1, -, h2, h3⟩ := C123_round_trip bigEnv_ok strict cardRegs cardRegs_ok
    (.seq 22 [.atom (.ilint 10 7), .atom (.payload 5000 ⟨cardSchema, card⟩)])
    (fun u hu => by rcases hw u hu with rfl | rfl | rfl <;> trivial)
    (fun u hu => by
      rcases hw u hu with rfl | rfl | rfl
      · exact ⟨by decide +kernel, .inr ⟨rfl, .inl rfl⟩⟩
      · exact ⟨by decide +kernel, .inr ⟨rfl, .inl rfl⟩⟩
      · exact ⟨by decide +kernel, .inl ⟨5000, _, card, _, rfl, card_typed, rfl⟩⟩)
  exact ⟨bs, t', h1, h2, h3⟩

end
end Verif.Props
