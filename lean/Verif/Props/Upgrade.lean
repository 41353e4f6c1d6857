import Verif.Proof.Upgrade
import Verif.Props.Evolve
/-!
# C125: payload types that get more variants
-/
namespace Verif.Props
open Verif Verif.Spec

section
variable [Env]

theorem upgrade_ups (hr : MemoryOk) {strict : Bool} {regs regs' : List (UInt64 × Struct)} (hk : RegsOk regs)
    (hk' : RegsOk regs') (h : Upgrade strict regs regs') :
    Up.Ups (fun p : Struct => plain p.schema p.value) (structFactory strict regs) (structFactory strict regs') := by
  intro id t ht
  rw [structFactory_create] at ht ⊢
  rcases h id with ⟨h1, h2⟩ | ⟨p, q, h1, h2, h3⟩ | ⟨h1, h2⟩
  · rw [h1] at ht
    rw [h2]
    left
    refine ⟨?_, ht⟩
    simp only at ht
    obtain ⟨g1, -⟩ := std_created ht
    intro hp
    rcases g1 with g1 | ⟨-, g1, -⟩
    · rw [hp] at g1; simp [standardId] at g1
    · rw [hp] at g1; cases g1
  · rw [h1] at ht
    rw [h2]
    simp only at ht
    cases ht
    refine .inr ⟨_, rfl, fun σ _ f f' n x y u hu => ?_⟩
    have m1 := hk _ (lookup_registered h1)
    have m2 := hk' _ (lookup_registered h2)
    obtain ⟨s, v₀⟩ := p
    obtain ⟨s', w₀⟩ := q
    rw [struct_fill hr f n id m1.1 s m1.2] at hu
    rw [struct_fill hr f' n id m1.1 s' m2.2]
    rcases hd : s.read (⟨x, n⟩ : Limited σ) with ⟨r, l⟩
    rw [hd] at hu
    cases r with
    | ok v =>
      simp only at hu
      obtain ⟨v', h4, h5⟩ := read_later h3 _ _ _ hd
      rw [h4]
      split at hu
      · cases hu
      · rename_i he
        cases hu
        simp only [if_neg he]
        refine ⟨_, rfl, ?_⟩
        simp only [mapTag, mapAtom, h5]
    | _ => cases hu
  · rw [h1] at ht
    simp only at ht
    rw [h2] at ht
    cases ht

/-- **C125** Whatever the older program reads, from any reader whatsoever, the newer one reads as a tag of the same
content, and leaves the reader in the same state. -/
theorem C125_reads (hr : MemoryOk) (strict : Bool) {regs regs' : List (UInt64 × Struct)} (hk : RegsOk regs)
    (hk' : RegsOk regs') (h : Upgrade strict regs regs') {σ : Type} [Reader σ] (x y : σ) (t : Tag Struct)
    (ht : Factory.deserialize (structFactory strict regs) σ x = (.ok t, y)) :
    ∃ t', Factory.deserialize (structFactory strict regs') σ x = (.ok t', y) ∧ contentOf t' = contentOf t := by
  obtain ⟨t', h1, h2⟩ := Up.fuel (upgrade_ups hr hk hk' h) Factory.fuel σ x y t ht
  exact ⟨t', h1, h2.symm⟩

/-- **C125** The same for `from_bytes`; so whatever the newer program reads, the older one reads with the same content, or
reports an error. -/
theorem C125_from_bytes (hr : MemoryOk) (strict : Bool) {regs regs' : List (UInt64 × Struct)} (hk : RegsOk regs)
    (hk' : RegsOk regs') (h : Upgrade strict regs regs') (bs : Bytes) :
    (∀ t, Factory.fromBytes (structFactory strict regs) bs = .ok t →
      ∃ t', Factory.fromBytes (structFactory strict regs') bs = .ok t' ∧ contentOf t' = contentOf t) ∧
    ∀ t', Factory.fromBytes (structFactory strict regs') bs = .ok t' →
      (∃ t, Factory.fromBytes (structFactory strict regs) bs = .ok t ∧ contentOf t = contentOf t') ∨
      ∃ x, Factory.fromBytes (structFactory strict regs) bs = .err x := by
  have key : ∀ t, Factory.fromBytes (structFactory strict regs) bs = .ok t →
      ∃ t', Factory.fromBytes (structFactory strict regs') bs = .ok t' ∧ contentOf t' = contentOf t := by
    intro t ht
    unfold Factory.fromBytes at ht ⊢
    rcases hd : Factory.deserialize (structFactory strict regs) ByteArrayReader (ByteArrayReader.new bs) with ⟨r, y⟩
    rw [hd] at ht
    cases r with
    | ok u =>
      simp only at ht
      split at ht
      · rename_i ha
        cases ht
        obtain ⟨t', h1, h2⟩ := C125_reads hr strict hk hk' h _ _ _ hd
        rw [h1]
        exact ⟨t', by simp only [if_pos ha], h2⟩
      · cases ht
    | _ => cases ht
  refine ⟨key, fun t' ht' => ?_⟩
  rcases hd : Factory.fromBytes (structFactory strict regs) bs with t | x | _ | _
  · obtain ⟨u, h1, h2⟩ := key t hd
    rw [ht'] at h1
    cases h1
    exact .inl ⟨t, rfl, h2.symm⟩
  · exact .inr ⟨x, rfl⟩
  all_goals
    exfalso
    have ht := C123_total hr strict regs hk ByteArrayReader.view.toView (ByteArrayReader.new bs) bs (ByteArrayReader.view_new bs)
    unfold Factory.fromBytes at hd
    rcases hx : Factory.deserialize (structFactory strict regs) ByteArrayReader (ByteArrayReader.new bs) with ⟨r, y⟩
    rw [hx] at hd ht
    cases r with
    | ok u => simp only at hd; split at hd <;> cases hd
    | err e => cases hd
    | _ => rcases ht with ⟨_, ht⟩ | ⟨_, ht⟩ <;> cases ht

/-- **C125** Tags of the same content are the same to every writer: the same size, the same calls, the same bytes,
whatever the versions of their types. -/
theorem C125_writes {t t' : Tag Struct} (h : contentOf t = contentOf t') :
    t.size = t'.size ∧ t.toBytes = t'.toBytes ∧
      ∀ {ω : Type} [Writer ω], (t.serialize : Act TagErr ω Unit) = t'.serialize := by
  obtain ⟨h1, h2⟩ := content_writes (ω := VecWriter) h
  refine ⟨h1, ?_, fun {ω} _ => (content_writes (ω := ω) h).2⟩
  unfold Tag.toBytes
  rw [h1, h2]

/-- **C125** So what the newer program writes is read by the older one, as long as it holds only what the older one could
hold, too: where `t` is a tag of the older types and `t'` one of the newer types with this content. -/
theorem C125_back (hr : MemoryOk) (strict : Bool) {regs : List (UInt64 × Struct)} (hk : RegsOk regs)
    (t t' : Tag Struct) (hc : contentOf t' = contentOf t) (hm : MapsOk t)
    (h : ∀ u, Within u t → (encValue u).length ≤ maxValue ∧
      ((∃ id s v v₀, u = .atom (.payload id ⟨s, v⟩) ∧ HasType s v ∧ regs.lookup id = some ⟨s, v₀⟩) ∨
        regs.lookup u.id = none ∧ StdTag strict u)) :
    ∃ bs u, t'.toBytes = .ok bs ∧ t'.size.toNat = bs.length ∧
      Factory.fromBytes (structFactory strict regs) bs = .ok u ∧ Same t u := by
  obtain ⟨bs, u, h1, h2, h3, h4⟩ := C123_round_trip hr strict regs hk t hm h
  obtain ⟨e1, e2, -⟩ := C125_writes hc
  exact ⟨bs, u, by rw [e2, h1], by rw [e1, h2], h3, h4⟩

/-- **C125** Something new is not taken for something else: if the newer program reads a tag that holds a payload of a
contentOf that no value of the older type has, or a payload of a type the older one does not know, then the older one
reports an error. -/
theorem C125_refused (hr : MemoryOk) (strict : Bool) {regs regs' : List (UInt64 × Struct)} (hk : RegsOk regs)
    (hk' : RegsOk regs') (h : Upgrade strict regs regs') (bs : Bytes) (t' : Tag Struct)
    (ht' : Factory.fromBytes (structFactory strict regs') bs = .ok t') (id : UInt64) (q : Struct)
    (hw : Within (.atom (.payload id q)) t')
    (hn : ∀ p, regs.lookup id = some p → ∀ v, HasType p.schema v → plain p.schema v ≠ plain q.schema q.value) :
    ∃ x, Factory.fromBytes (structFactory strict regs) bs = .err x := by
  rcases (C125_from_bytes hr strict hk hk' h bs).2 t' ht' with ⟨t, h1, h2⟩ | h1
  · exfalso
    obtain ⟨u, h3, h4⟩ := mapTag_within (c := fun p : Struct => plain p.schema p.value) hw h2.symm
    have hid : u.id = id := by
      rw [← Up.mapTag_id (c := fun p : Struct => plain p.schema p.value), ← h4]; rfl
    cases hl : regs.lookup u.id with
    | some p =>
      obtain ⟨v, h5, h6⟩ := C123_typed hr strict regs hk bs t h1 u h3 p hl
      rw [h5] at h4
      simp only [mapTag, mapAtom, Tag.atom.injEq, Atom.payload.injEq] at h4
      exact hn p (hid ▸ hl) v h6 h4.2.symm
    | none =>
      have hkind : u.kind = .payload := by
        cases u with
        | atom a => cases a <;> first | rfl | (simp [mapTag, mapAtom] at h4)
        | _ => simp [mapTag] at h4
      obtain ⟨g1, g2, -⟩ := C123_lawful hr strict regs hk
      obtain ⟨x, k, -, g4⟩ := (top_custom hr g1 _ _ _).mp ((fromBytes_ok_iff _ _ _).mp h1)
      obtain ⟨-, t₀, g5, g6, -⟩ := customFormAt_parts g2 k t x
        (customFormAt_mono (fun _ _ _ => latest_made) _ (Nat.le_refl _) t _ g4) u h3
      rw [structFactory_create, hl] at g5
      simp only at g5
      obtain ⟨e1, -⟩ := std_created g5
      rcases e1 with e1 | ⟨-, e1, -⟩
      · rw [g6, hkind] at e1; simp [standardId] at e1
      · rw [g6, hkind] at e1; cases e1
  · exact h1

end

/-! ### The hypotheses are met -/
section
attribute [local instance] bigEnv

/-- A message: a number of the layout in front; layout 1 is a text. -/
def note1 : Schema := .enum (· == 1) fun _ => .text
/-- The next version of the program has a layout 2: a text and numbers. -/
def note2 : Schema := .enum (fun b => b == 1 || b == 2) fun b => if b = 1 then .text else .both .text (.many (.field .ilint))

def noteRegs1 : List (UInt64 × Struct) := [(5000, ⟨note1, ⟨1, ""⟩⟩)]
def noteRegs2 : List (UInt64 × Struct) := [(6000, ⟨.blob, []⟩), (5000, ⟨note2, ⟨1, ""⟩⟩)]

theorem noteRegs1_ok : RegsOk noteRegs1 := by
  intro r hr
  simp only [noteRegs1, List.mem_singleton] at hr
  subst hr
  exact ⟨by decide, fun b _ => trivial⟩

theorem note2_bounded : BoundedSchema note2 := by
  intro b _
  dsimp only
  split
  · trivial
  · exact ⟨trivial, trivial⟩

theorem noteRegs2_ok : RegsOk noteRegs2 := by
  intro r hr
  simp only [noteRegs2, List.mem_cons, List.not_mem_nil, or_false] at hr
  rcases hr with rfl | rfl
  · exact ⟨by decide, trivial⟩
  · exact ⟨by decide, note2_bounded⟩

theorem note_later : Later note1 note2 := by
  refine .enum (fun b h => by simp only [beq_iff_eq] at h; simp [h]) fun b h => ?_
  simp only [beq_iff_eq] at h
  subst h
  exact .refl _

/-- Two versions of a program; the newer one has another layout for one payload, and another payload. -/
theorem note_upgrade : Upgrade true noteRegs1 noteRegs2 := by
  intro id
  by_cases h1 : id = 5000
  · subst h1
    exact .inr (.inl ⟨_, _, rfl, rfl, note_later⟩)
  · by_cases h2 : id = 6000
    · subst h2
      refine .inr (.inr ⟨rfl, ?_⟩)
      rw [std_unknown (fun k => by cases k <;> decide)]
      rfl
    · refine .inl ⟨?_, ?_⟩ <;> simp [noteRegs1, noteRegs2, List.lookup, beq_false_of_ne h1, beq_false_of_ne h2]

/-- A note of the first layout, in a sequence, as the older program has it. -/
def oldNote : Tag Struct := .seq 22 [.atom (.payload 5000 ⟨note1, ⟨1, "hi"⟩⟩)]
/-- The same note, as the newer program has it. -/
def newNote : Tag Struct := .seq 22 [.atom (.payload 5000 ⟨note2, ⟨1, "hi"⟩⟩)]
/-- A note of the second layout. -/
def longNote : Tag Struct := .seq 22 [.atom (.payload 5000 ⟨note2, ⟨2, ("hi", [.ilint 7])⟩⟩)]

theorem notes_same : contentOf newNote = contentOf oldNote := rfl

theorem within_one {P : Type} {id : UInt64} {t u : Tag P} (h : Within u (.seq id [t])) (ha : ∃ a, t = .atom a) :
    u = .seq id [t] ∨ u = t := by
  obtain ⟨a, rfl⟩ := ha
  cases h with
  | refl => exact .inl rfl
  | seq hm h =>
    simp only [List.mem_singleton] at hm
    subst hm
    cases h
    exact .inr rfl

/-- Read by both versions, with the same content. -/
example : ∃ bs t t', Factory.fromBytes (structFactory true noteRegs1) bs = .ok t ∧ Same oldNote t ∧
    Factory.fromBytes (structFactory true noteRegs2) bs = .ok t' ∧ contentOf t' = contentOf t ∧
    newNote.toBytes = .ok bs ∧ oldNote.toBytes = .ok bs := by
  obtain ⟨bs, t, h1, -, h2, h3⟩ := C125_back bigEnv_ok true noteRegs1_ok oldNote newNote notes_same
    (fun u hu => by rcases within_one hu ⟨_, rfl⟩ with rfl | rfl <;> trivial)
    (fun u hu => by
      rcases within_one hu ⟨_, rfl⟩ with rfl | rfl
      · exact ⟨by decide +kernel, .inr ⟨rfl, .inl rfl⟩⟩
      · exact ⟨by decide +kernel, .inl ⟨5000, _, _, _, rfl, ⟨rfl, (by decide : (utf8 "hi").length < 2 ^ 64)⟩, rfl⟩⟩)
  obtain ⟨t', h4, h5⟩ := (C125_from_bytes bigEnv_ok true noteRegs1_ok noteRegs2_ok note_upgrade bs).1 t h2
  exact ⟨bs, t, t', h2, h3, h4, h5, h1, (C125_writes notes_same).2.1 ▸ h1⟩

/-- The second layout is refused by the older program. -/
example : ∃ bs t' x, longNote.toBytes = .ok bs ∧ Factory.fromBytes (structFactory true noteRegs2) bs = .ok t' ∧
    Factory.fromBytes (structFactory true noteRegs1) bs = .err x := by
  obtain ⟨bs, t', h1, -, h2, h3⟩ := C123_round_trip bigEnv_ok true noteRegs2 noteRegs2_ok longNote
    (fun u hu => by rcases within_one hu ⟨_, rfl⟩ with rfl | rfl <;> trivial)
    (fun u hu => by
      rcases within_one hu ⟨_, rfl⟩ with rfl | rfl
      · exact ⟨by decide +kernel, .inr ⟨rfl, .inl rfl⟩⟩
      · refine ⟨by decide +kernel, .inl ⟨5000, _, _, _, rfl, ⟨rfl, ?_⟩, rfl⟩⟩
        refine ⟨(by decide : (utf8 "hi").length < 2 ^ 64), by decide, fun v hv => ?_⟩
        simp only [List.mem_singleton] at hv
        subst hv
        rfl)
  obtain ⟨x, h4⟩ := C125_refused bigEnv_ok true noteRegs1_ok noteRegs2_ok note_upgrade bs t' h2 5000
    ⟨note2, ⟨2, ("hi", [.ilint 7])⟩⟩ (by
      obtain ⟨w, g1, g2⟩ := h3.within (.seq (List.mem_singleton.mpr rfl) (.refl _))
      cases g2
      exact g1) (by
      intro p hp v hv he
      cases hp
      obtain ⟨b, v⟩ := v
      have h1 : b = 1 := by simpa [HasType, note1] using hv.1
      subst h1
      cases he)
  exact ⟨bs, t', x, h1, h2, h4⟩

end
end Verif.Props
