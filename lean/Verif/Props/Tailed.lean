import Verif.Proof.Tailed
import Verif.Props.Schema
import Verif.Props.Handler
/-!
# C127: payloads that end with the rest of the bytes
-/
namespace Verif.Props
open Verif Verif.Spec
set_option linter.unusedSectionVars false

section
variable [Env]

/-- The number of bytes taken for the fields is never more than there are: the subtraction does not go below 0. -/
theorem fields_within (hr : MemoryOk) {σ : Type} [Reader σ] (V : View σ) (s : Schema) (hs : BoundedSchema s) (x : σ)
    (bs : Bytes) (hR : V.R x bs) (n : Nat) (v : s.Val) (l : Limited σ)
    (h : s.read (⟨x, n⟩ : Limited σ) = (.ok v, l)) : s.size v ≤ n := by
  have hv : (limView V (n - bs.length) (bs.drop n)).R ⟨x, n⟩ (bs.take n) := by
    refine ⟨?_, by rw [List.take_append_drop]; exact hR, ?_⟩
    · simp only [List.length_take]; omega
    · by_cases hn : n ≤ bs.length
      · exact .inl (by omega)
      · exact .inr (List.drop_eq_nil_iff.mpr (by omega))
  obtain ⟨enc, rest, h1, h2, -⟩ := (Reads.read hr s hs).2 _ _ _ _ hv h
  rw [size_eq _ _ (structForm_typed _ _ _ h2)]
  have h3 := (structForm_snug _ _ _ h2).1
  have h4 := congrArg List.length h1
  simp only [List.length_take, List.length_append] at h4
  omega

/-- **C127** The subtraction never goes below 0, whatever the bytes: what it would do then makes no difference. -/
theorem C127_no_underflow (hr : MemoryOk) {σ : Type} [Reader σ] (V : View σ) (f : FactoryDeser Tailed) (p : Tailed)
    (hp : BoundedSchema p.schema) (n : Nat) (x : σ) (bs : Bytes) (hR : V.R x bs)
    (under under' : Res TagErr (Option Bytes)) :
    valueWith n ((p.code under n).run f) (p, x) = valueWith n ((p.code under' n).run f) (p, x) := by
  have h : (p.code under n).run f (p, (⟨x, n⟩ : Limited σ)) = (p.code under' n).run f (p, (⟨x, n⟩ : Limited σ)) := by
    unfold Tailed.code
    rw [Runs.code hr _ hp, Runs.code hr _ hp, onReader_bind, onReader_bind]
    rcases hx : p.schema.read (⟨x, n⟩ : Limited σ) with ⟨v | _ | _ | _, l⟩
    · dsimp only
      have hle := fields_within hr V _ hp x bs hR n v l hx
      unfold Tailed.restCode
      cases p.rest.isSome with
      | false => rfl
      | true => simp only [if_pos hle]
    all_goals rfl
  unfold valueWith withLimited
  rw [Act.bind_apply, Act.bind_apply, h]

/-- **C127** The payload is the code the user writes: reading is what the library calls, made in order, do on any reader,
the payload being replaced when they have all succeeded and left alone otherwise; writing is what the library calls do
on any writer. -/
theorem C127_code (hr : MemoryOk) {σ ω : Type} [Reader σ] [Writer ω] (f : FactoryDeser Tailed) (p : Tailed)
    (hp : BoundedSchema p.schema) (size : Nat) (hs : size ≤ maxValue) (r : σ) :
    (TagPayload.deserialize p size).run f (p, r) =
      (match Tailed.read (.err .corruptedData) p.schema p.rest.isSome size r with
        | (.ok (v, t), r') => (.ok (), (⟨p.schema, v, t⟩, r'))
        | (.err e, r') => (.err e, (p, r'))
        | (.panic, r') => (.panic, (p, r'))
        | (.diverge, r') => (.diverge, (p, r'))) ∧
    (runOps (TagPayload.serialize p).1 : Act TagErr ω Unit) = p.write := by
  constructor
  · have h := Runs.bind (Runs.code (σ := σ) (f := f) (p₀ := p) hr p.schema hp) (fun v =>
      Runs.bind (Runs.rest hr (.err .corruptedData) (used := p.schema.size v) hs p.rest.isSome)
        fun t => Runs.pure (v, t)) (fun vt => .done (.ok ()) ⟨p.schema, vt.1, vt.2⟩) r
    rw [onReader_bind] at h
    refine h.trans ?_
    unfold Tailed.read
    generalize (p.schema.read >>= fun v => do
      let t ← Tailed.readRest (.err .corruptedData) size (p.schema.size v) p.rest.isSome
      pure (v, t) : Act TagErr σ _) r = y
    rcases y with ⟨_ | _ | _ | _, r'⟩ <;> rfl
  · show runOps (p.schema.ops p.value ++ Tailed.restOps p.rest) = p.write
    rw [runOps_append, runOps_struct]
    unfold Tailed.write
    cases p.rest with
    | none => rfl
    | some t => rw [show Tailed.restOps (some t) = [.all t] from rfl, runOps_one]; rfl

/-- The payload reads exactly the forms of its type. -/
theorem tailed_reads (hr : MemoryOk) (e : Engine Tailed) (p₀ p : Tailed) (hs : BoundedSchema p₀.schema) (bs : Bytes)
    (hl : bs.length ≤ maxValue) :
    PayloadReads e p₀ p bs ↔ SameType p p₀ ∧ TailedForm p bs := by
  unfold PayloadReads
  have hR := ByteArrayReader.view_new bs
  have key := (C127_code (ω := VecWriter) hr (Factory.methods e) p₀ hs bs.length hl (ByteArrayReader.new bs)).1
  rw [key]
  have hread := Reads.tailed (V := ByteArrayReader.view.toView) (under := .err .corruptedData) hr nofun p₀.schema hs
    p₀.rest.isSome hl
  constructor
  · rintro ⟨r, h1, h2⟩
    rcases hx : Tailed.read (.err .corruptedData) p₀.schema p₀.rest.isSome bs.length (ByteArrayReader.new bs) with
      ⟨⟨v, t⟩ | _ | _ | _, r'⟩
    · rw [hx] at h1
      cases h1
      obtain ⟨enc, rest, h3, ⟨u, w, h4, h5, h6⟩, h7⟩ := hread.2 _ _ _ _ hR hx
      have : rest = [] := by
        obtain ⟨h8, h9⟩ := h7
        rw [h9, List.drop_eq_nil_iff]
        unfold ByteArrayReader.available ByteArrayReader.len at h2
        omega
      subst this
      rw [List.append_nil] at h3
      subst h3
      have h5 : StructForm p₀.schema v u := h5
      have ht := structForm_typed _ _ _ h5
      have hsn := structForm_snug _ _ _ h5
      unfold RestForm at h6
      cases hb : p₀.rest.isSome with
      | false =>
        rw [hb] at h6
        obtain ⟨rfl, rfl⟩ := h6
        exact ⟨⟨rfl, by rw [hb]; rfl⟩, by rw [h4, List.append_nil]; exact h5⟩
      | true =>
        rw [hb] at h6
        obtain ⟨h7, h8, rfl⟩ := h6
        refine ⟨⟨rfl, by rw [hb]; rfl⟩, ht, ?_⟩
        have hz := size_eq _ _ ht
        dsimp only at h7 h8 hz ht ⊢
        rw [hz] at h7 h8
        rw [h4, (hsn.2 ?_).2 trivial]
        have := congrArg List.length h4
        rw [List.length_append] at this
        omega
    all_goals (rw [hx] at h1; cases h1)
  · rintro ⟨⟨h1, h2⟩, h3⟩
    obtain ⟨s, v, t⟩ := p
    obtain ⟨s₀, v₀, t₀⟩ := p₀
    cases h1
    have hform : ∃ u w, bs = u ++ w ∧ StructForm s v u ∧ RestForm bs.length (s.size v) t₀.isSome t w := by
      cases t with
      | none => exact ⟨bs, [], by simp, h3, by rw [← h2]; exact ⟨rfl, rfl⟩⟩
      | some t =>
        obtain ⟨h4, h5⟩ := h3
        have h5 : bs = structBytes s v ++ t := h5
        have hlen := congrArg List.length h5
        rw [List.length_append] at hlen
        refine ⟨structBytes s v, t, h5, structBytes_form _ _ h4 (by omega), ?_⟩
        rw [← h2]
        have hz : s.size v = (structBytes s v).length := size_eq _ _ h4
        exact ⟨by omega, by omega, rfl⟩
    obtain ⟨r', g1, g2⟩ := hread.1 (ByteArrayReader.new bs) (v, t) bs [] (by simpa using hR) hform
    refine ⟨r', by rw [g1], ?_⟩
    obtain ⟨h3, h4⟩ := g2
    have := List.drop_eq_nil_iff.mp h4.symm
    unfold ByteArrayReader.available ByteArrayReader.len
    omega

theorem tailed_bytes (p : Tailed) (h : HasType p.schema p.value) : payloadBytes p = tailedBytes p := by
  show opsBytes (p.schema.ops p.value ++ Tailed.restOps p.rest) = structBytes p.schema p.value ++ p.rest.getD []
  rw [opsBytes_append, ops_bytes _ _ h]
  cases p.rest with
  | none => rfl
  | some t => exact congrArg _ (List.append_nil t)

theorem tailed_ok (p : Tailed) (h : HasType p.schema p.value) : PayloadOk p := by
  refine ⟨rfl, ?_⟩
  rw [tailed_bytes p h]
  show p.schema.size p.value + Tailed.restSize p.rest = (structBytes p.schema p.value ++ p.rest.getD []).length
  rw [size_eq _ _ h, List.length_append]
  cases p.rest <;> rfl

theorem tailedForm_typed {p : Tailed} {bs : Bytes} (h : TailedForm p bs) : HasType p.schema p.value := by
  unfold TailedForm at h
  cases hr : p.rest with
  | none => rw [hr] at h; exact structForm_typed _ _ _ h
  | some t => rw [hr] at h; exact h.1

theorem tailedForm_snug {p : Tailed} {bs : Bytes} (h : TailedForm p bs) : Snug True bs (tailedBytes p) := by
  unfold TailedForm at h
  unfold tailedBytes
  cases hr : p.rest with
  | none => rw [hr] at h; rw [Option.getD_none, List.append_nil]; exact structForm_snug _ _ _ h
  | some t => rw [hr] at h; rw [h.2]; exact Snug.refl _

theorem tailedBytes_form {p : Tailed} (h : HasType p.schema p.value) (hl : (tailedBytes p).length ≤ maxValue) :
    TailedForm p (tailedBytes p) := by
  unfold TailedForm
  unfold tailedBytes at hl ⊢
  cases hr : p.rest with
  | none =>
    rw [hr, Option.getD_none, List.append_nil] at hl
    rw [Option.getD_none, List.append_nil]
    exact structBytes_form _ _ h hl
  | some t => exact ⟨h, rfl⟩

/-- What the factory with the registrations makes. -/
theorem tailedFactory_create (strict : Bool) (regs : List (UInt64 × Tailed)) (id : UInt64) :
    (tailedFactory strict regs).createTag id =
      match regs.lookup id with
      | some p => .ok (some (.atom (.payload id p)))
      | none => (Engine.std strict).createTag id := by
  induction regs with
  | nil => rfl
  | cons r regs ih =>
    obtain ⟨i, p⟩ := r
    rw [List.lookup_cons]
    by_cases h : id = i
    · subst h
      rw [beq_self_eq_true]
      simp only [tailedFactory, Engine.register, Engine.createTag, HMap.get_insert, if_pos, payloadCreator, Res.map]
    · rw [beq_false_of_ne h]
      refine Eq.trans ?_ ih
      rw [tailedFactory]
      generalize tailedFactory strict regs = e
      simp only [Engine.register, Engine.createTag, HMap.get_insert, if_neg h]
      rfl

theorem tailed_made {strict : Bool} {regs : List (UInt64 × Tailed)} (hk : TailedOk regs) {id i : UInt64} {p : Tailed}
    (h : (tailedFactory strict regs).createTag id = .ok (some (.atom (.payload i p)))) :
    i = id ∧ regs.lookup id = some p ∧ BoundedSchema p.schema := by
  rw [tailedFactory_create] at h
  cases hl : regs.lookup id with
  | some q =>
    rw [hl] at h
    cases h
    exact ⟨rfl, rfl, (hk _ (lookup_registered hl)).2⟩
  | none =>
    rw [hl] at h
    obtain ⟨g1, -⟩ := std_created h
    rcases g1 with g1 | ⟨-, g1, -⟩
    · simp [Tag.kind, Atom.kind, standardId] at g1
    · simp [Tag.kind, Atom.kind] at g1

/-- **C127** Such types, registered under explicit ids in any number, keep all the conditions under which factories have
the properties proved in general. -/
theorem C127_lawful (hr : MemoryOk) (strict : Bool) (regs : List (UInt64 × Tailed)) (hk : TailedOk regs) :
    Regular (tailedFactory strict regs) ∧ Tidy (tailedFactory strict regs) ∧ Brief (tailedFactory strict regs) := by
  refine ⟨?_, ?_, ?_⟩
  · induction regs with
    | nil => exact std_regular strict
    | cons r regs ih =>
      exact C114_register (ih fun x hx => hk x (List.mem_cons_of_mem _ hx)) r.1 (hk r (by simp)).1 _
        fun t₀ => (C114_creators _ t₀).2.2 _
  · intro id p₀ p v hc hv hp
    obtain ⟨-, -, hb⟩ := tailed_made hk hc
    obtain ⟨hty, hf⟩ := (tailed_reads hr _ p₀ p hb v hv).mp hp
    have ht := tailedForm_typed hf
    have hsn := (tailedForm_snug hf).1
    have hbytes := tailed_bytes p ht
    refine ⟨tailed_ok _ ht, by rw [hbytes]; exact hsn, ?_⟩
    rw [hbytes]
    exact (tailed_reads hr _ p₀ p hb _ (by omega)).mpr ⟨hty, tailedBytes_form ht (by omega)⟩
  · intro id p₀ p v hc hv hp hl
    obtain ⟨-, -, hb⟩ := tailed_made hk hc
    obtain ⟨-, hf⟩ := (tailed_reads hr _ p₀ p hb v hv).mp hp
    rw [tailed_bytes p (tailedForm_typed hf)] at hl ⊢
    exact ((tailedForm_snug hf).2 hl).2 trivial

/-- **C127** The bytes of a tag with such a payload, exactly: the id, the length and the fields, in the shortest form if a
rest follows, and the rest. -/
theorem C127_exactly (hr : MemoryOk) (strict : Bool) (regs : List (UInt64 × Tailed)) (hk : TailedOk regs) (id : UInt64)
    (p₀ : Tailed) (hl : regs.lookup id = some p₀) (p : Tailed) (bs : Bytes) :
    Factory.fromBytes (tailedFactory strict regs) bs = .ok (.atom (.payload id p)) ↔
      SameType p p₀ ∧ ∃ h l x, bs = h ++ l ++ x ∧ IsILInt h id.toNat ∧ IsILInt l x.length ∧ x.length ≤ maxValue ∧
        TailedForm p x := by
  have hreg := (C127_lawful hr strict regs hk).1
  have hcr : (tailedFactory strict regs).createTag id = .ok (some (.atom (.payload id p₀))) := by
    rw [tailedFactory_create, hl]
  have hid : 16 ≤ id.toNat := (hk _ (lookup_registered hl)).1
  have hb := (hk _ (lookup_registered hl)).2
  have hm : MapsOk (.atom (.payload id p) : Tag Tailed) := by
    intro u hu
    cases hu
    trivial
  have key := C114_language hr hreg bs (.atom (.payload id p))
  constructor
  · intro h
    obtain ⟨k, hf⟩ := key.mpr ⟨hm, _, h, .atom _⟩
    cases k with
    | zero => exact hf.elim
    | succ k =>
      obtain ⟨t₀, h, x, h1, h2, h3, h4, h5, h6⟩ := hf
      have h1 : (tailedFactory strict regs).createTag id = .ok (some t₀) := h1
      rw [hcr] at h1
      cases h1
      rcases h4 with h4 | ⟨_, _, _, h7, h8, h9⟩
      · exact h4.elim
      · cases h7; cases h8
        obtain ⟨h10, h11⟩ := (tailed_reads hr _ p₀ p hb x h5).mp h9
        rcases h6 with ⟨h6, -⟩ | ⟨-, l, h6, h7⟩
        · have h6 : id.toNat ≤ 15 := h6
          omega
        · exact ⟨h10, h, l, x, h7, h3, h6, h5, h11⟩
  · rintro ⟨h0, h, l, x, rfl, h1, h2, h3, h4⟩
    obtain ⟨-, t', h5, h6⟩ := key.mp ⟨1, _, h, x, hcr, rfl, h1,
      .inr ⟨id, p₀, _, rfl, rfl, (tailed_reads hr _ p₀ _ hb x h3).mpr ⟨h0, h4⟩⟩, h3, .inr ⟨hid, l, h2, rfl⟩⟩
    cases h6
    exact h5

/-- **C127** Round trip: a tree of standard tags and of such payloads, of the registered types, is read back as it was, and
`size()` is the number of bytes. -/
theorem C127_round_trip (hr : MemoryOk) (strict : Bool) (regs : List (UInt64 × Tailed)) (hk : TailedOk regs)
    (t : Tag Tailed) (hm : MapsOk t)
    (h : ∀ u, Within u t → (encValue u).length ≤ maxValue ∧
      ((∃ id p p₀, u = .atom (.payload id p) ∧ HasType p.schema p.value ∧ regs.lookup id = some p₀ ∧ SameType p p₀) ∨
        regs.lookup u.id = none ∧ StdTag strict u)) :
    ∃ bs t', t.toBytes = .ok bs ∧ t.size.toNat = bs.length ∧
      Factory.fromBytes (tailedFactory strict regs) bs = .ok t' ∧ Same t t' := by
  have hp : PayloadsOk t := by
    intro id' p hu
    rcases (h _ hu).2 with ⟨id, q, p₀, he, h1, -⟩ | ⟨-, h1 | ⟨-, h1, -⟩⟩
    · cases he; exact tailed_ok _ h1
    · simp [Tag.kind, Atom.kind, standardId] at h1
    · simp [Tag.kind, Atom.kind] at h1
  have hs : Supported (tailedFactory strict regs) t := by
    intro u hu
    rcases h u hu with ⟨hl, ⟨id, p, p₀, rfl, ht, hlk, hty⟩ | ⟨hne, hstd⟩⟩
    · have hid := (hk _ (lookup_registered hlk)).1
      refine ⟨⟨.atom (.payload id p₀), by rw [tailedFactory_create]; simp only [Tag.id, Atom.id, hlk], rfl, rfl, ?_⟩, hl,
        fun hi => absurd hi (by simp only [Tag.id, Atom.id]; dsimp only at hid; omega)⟩
      intro id₀ q₀ id' q h1 h2
      cases h1; cases h2
      have hb := (hk _ (lookup_registered hlk)).2
      have hl : (payloadBytes p).length ≤ maxValue := hl
      refine (tailed_reads hr _ p₀ _ hb _ hl).mpr ⟨hty, ?_⟩
      rw [tailed_bytes p ht] at hl ⊢
      exact tailedBytes_form ht hl
    · have hc : (tailedFactory strict regs).createTag u.id = (Engine.std strict).createTag u.id := by
        rw [tailedFactory_create, hne]
      rcases hstd with hstd | ⟨rfl, hraw, h16, hn⟩
      · obtain ⟨t₀, h1, h2, h3⟩ := std_create (P := Tailed) (strict := strict) hstd
        refine ⟨⟨t₀, by rw [hc]; exact h1, h2, h3, ?_⟩, hl, std_sized hstd⟩
        rintro _ _ _ _ _ rfl
        simp [Tag.kind, Atom.kind, standardId] at hstd
      · refine ⟨⟨.atom (.raw u.id []), ?_, hraw.symm, rfl, ?_⟩, hl, fun hi => by omega⟩
        · rw [hc, std_unknown hn, if_pos ⟨rfl, h16⟩]
        · rintro _ _ _ _ h1
          cases h1
  obtain ⟨bs, t', h1, h2, h3⟩ := C30_round_trip hr _ t hm hp hs
  refine ⟨bs, t', h1, ?_, h2, h3⟩
  have hb := toBytes_eq_enc hr hm hp hs
  have hl := enc_length_le hs
  rw [hb, Res.ok.injEq] at h1
  have h64 : (enc t).length < 2 ^ 64 := by have : maxValue = 536870912 := rfl; omega
  rw [t.size_eq hp h64, ← h1]
  exact lenU64_toNat h64

/-- **C127** No panic and no endless loop, on any bytes from any well-behaved reader. -/
theorem C127_total (hr : MemoryOk) (strict : Bool) (regs : List (UInt64 × Tailed)) {σ : Type}
    [Reader σ] (V : View σ) (s : σ) (bs : Bytes) (hR : V.R s bs) :
    (∃ t, (Factory.deserialize (tailedFactory strict regs) σ s).1 = .ok t) ∨
      ∃ x, (Factory.deserialize (tailedFactory strict regs) σ s).1 = .err x := by
  refine C36_streams hr _ (fun id => ?_) V s bs hR
  rw [tailedFactory_create]
  cases regs.lookup id with
  | some p =>
    refine ⟨nofun, nofun, fun t h => ?_⟩
    cases h
    refine ⟨fun _ => True, trivial, fun id p _ n => code_calm p p.schema _ fun v => ?_⟩
    unfold Tailed.restCode
    cases p.rest.isSome with
    | false => exact ⟨nofun, nofun⟩
    | true =>
      dsimp only
      split
      · exact fun t => ⟨nofun, nofun⟩
      · exact ⟨nofun, nofun⟩
  | none => exact std_calm strict id

/-- **C127** Everything the factory reads is written again in no more bytes, which are read as the same tag and written as
the same bytes; and a change of one byte of such bytes is not read as the same tag by any factory of this kind. -/
theorem C127_normal (hr : MemoryOk) (strict : Bool) (regs : List (UInt64 × Tailed)) (hk : TailedOk regs) (bs : Bytes)
    (t : Tag Tailed) (h : Factory.fromBytes (tailedFactory strict regs) bs = .ok t) :
    ∃ bs' t', t.toBytes = .ok bs' ∧ bs'.length ≤ bs.length ∧ Factory.fromBytes (tailedFactory strict regs) bs' = .ok t' ∧
      Same t t' ∧ t'.toBytes = .ok bs' ∧
      ∀ strict' regs', TailedOk regs' → ∀ i b t'', (hi : i < bs'.length) → bs'[i] ≠ b →
        Factory.fromBytes (tailedFactory strict' regs') (bs'.set i b) = .ok t'' → ¬ Same t' t'' := by
  obtain ⟨h1, h2, h3⟩ := C127_lawful hr strict regs hk
  obtain ⟨bs', t', g1, g2, g3, g4, g5⟩ := C117_normalise hr h1 h2 bs t h
  refine ⟨bs', t', g1, g2, g3, g4, g5, fun strict' regs' hk' i b t'' hi hb h' => ?_⟩
  obtain ⟨k1, k2, k3⟩ := C127_lawful hr strict' regs' hk'
  exact C120_one_byte hr h1 h2 k1 k2 k3 bs' t' t'' g3 g5 i b hi hb h'

end

/-! ### The hypotheses are met -/
section
attribute [local instance] bigEnv

/-- A number and the rest. -/
def memoSchema : Schema := .field .ilint

/-- A number and the rest under 5000, a number alone under 6000. -/
def memoRegs : List (UInt64 × Tailed) :=
  [(5000, ⟨memoSchema, .ilint 0, some []⟩), (6000, ⟨memoSchema, .ilint 0, none⟩)]

theorem memoRegs_ok : TailedOk memoRegs := by
  intro r hr
  simp only [memoRegs, List.mem_cons, List.not_mem_nil, or_false] at hr
  rcases hr with rfl | rfl <;> exact ⟨by decide, trivial⟩

/-- The number 248 in its shortest form and three bytes. -/
example (strict : Bool) : Factory.fromBytes (tailedFactory strict memoRegs) [249, 18, 144, 5, 248, 0, 7, 8, 9] =
    .ok (.atom (.payload 5000 ⟨memoSchema, .ilint 248, some [7, 8, 9]⟩)) :=
  (C127_exactly bigEnv_ok strict memoRegs memoRegs_ok 5000 _ rfl _ _).mpr
    ⟨⟨rfl, rfl⟩, [249, 18, 144], [5], [248, 0, 7, 8, 9], rfl, ILInt.isILInt_ilint (v := 5000) (by decide),
      ILInt.isILInt_ilint (v := 5) (by decide), by decide, rfl, by decide +kernel⟩

/-- In a longer form the number is refused if a rest follows, and read if not. -/
example : (match Factory.fromBytes (tailedFactory true memoRegs) [249, 18, 144, 6, 249, 0, 0, 7, 8, 9] with
      | .err _ => true
      | _ => false) = true ∧
    (match Factory.fromBytes (tailedFactory true memoRegs) [249, 22, 120, 3, 249, 0, 0] with
      | .ok (.atom (.payload 6000 ⟨.field .ilint, .ilint v, none⟩)) => v == 248
      | _ => false) = true := by
  constructor <;> (unfold Factory.fromBytes; rw [deserialize_eq]; decide +kernel)

/-- A sequence of both, which is read back. -/
example : ∃ bs t', (.seq 22 [.atom (.payload 6000 ⟨memoSchema, .ilint 7, none⟩),
      .atom (.payload 5000 ⟨memoSchema, .ilint 7, some [1]⟩)] : Tag Tailed).toBytes = .ok bs ∧
    Factory.fromBytes (tailedFactory true memoRegs) bs = .ok t' ∧
    Same (.seq 22 [.atom (.payload 6000 ⟨memoSchema, .ilint 7, none⟩),
      .atom (.payload 5000 ⟨memoSchema, .ilint 7, some [1]⟩)]) t' := by
  have hw : ∀ u, Within u (.seq 22 [.atom (.payload 6000 ⟨memoSchema, .ilint 7, none⟩),
      .atom (.payload 5000 ⟨memoSchema, .ilint 7, some [1]⟩)] : Tag Tailed) →
      u = .seq 22 [.atom (.payload 6000 ⟨memoSchema, .ilint 7, none⟩),
        .atom (.payload 5000 ⟨memoSchema, .ilint 7, some [1]⟩)] ∨ u = .atom (.payload 6000 ⟨memoSchema, .ilint 7, none⟩) ∨
        u = .atom (.payload 5000 ⟨memoSchema, .ilint 7, some [1]⟩) := by
    intro u hu
    cases hu with
    | refl => exact .inl rfl
    | seq hv hu =>
      simp only [List.mem_cons, List.not_mem_nil, or_false] at hv
      rcases hv with rfl | rfl <;> cases hu
      · exact .inr (.inl rfl)
      · exact .inr (.inr rfl)
  obtain ⟨bs, t', h1, -, h2, h3⟩ := C127_round_trip bigEnv_ok true memoRegs memoRegs_ok
    (.seq 22 [.atom (.payload 6000 ⟨memoSchema, .ilint 7, none⟩), .atom (.payload 5000 ⟨memoSchema, .ilint 7, some [1]⟩)])
    (fun u hu => by rcases hw u hu with rfl | rfl | rfl <;> trivial)
    (fun u hu => by
      rcases hw u hu with rfl | rfl | rfl
      · exact ⟨by decide +kernel, .inr ⟨rfl, .inl rfl⟩⟩
      · exact ⟨by decide +kernel, .inl ⟨6000, _, _, rfl, rfl, rfl, rfl, rfl⟩⟩
      · exact ⟨by decide +kernel, .inl ⟨5000, _, _, rfl, rfl, rfl, rfl, rfl⟩⟩)
  exact ⟨bs, t', h1, h2, h3⟩

end
end Verif.Props
