import Verif.Proof.Kin
import Verif.Props.Upgrade
/-!
# C126: programs whose payload types have developed apart
-/
namespace Verif.Props
open Verif Verif.Spec

section
variable [Env]

theorem kin_meets (hr : MemoryOk) {strict : Bool} {regs regs' : List (UInt64 × Struct)} (hk : RegsOk regs)
    (hk' : RegsOk regs') (h : KinRegs strict regs regs') :
    Meet.Meets (fun p : Struct => plain p.schema p.value) (structFactory strict regs) (structFactory strict regs') := by
  intro id t t' ht ht'
  rw [structFactory_create] at ht ht'
  rcases h id with ⟨h1, h2⟩ | ⟨p, q, h1, h2, h3⟩ | ⟨h1, h2⟩
  · rw [h1] at ht
    rw [h2] at ht'
    simp only at ht ht'
    rw [ht'] at ht
    cases ht
    left
    refine ⟨?_, rfl⟩
    obtain ⟨g1, -⟩ := std_created ht'
    intro hp
    rcases g1 with g1 | ⟨-, g1, -⟩
    · rw [hp] at g1; simp [standardId] at g1
    · rw [hp] at g1; cases g1
  · rw [h1] at ht
    rw [h2] at ht'
    simp only at ht ht'
    cases ht
    cases ht'
    refine .inr fun σ _ f f' n x y y' u u' hu hu' => ?_
    have m1 := hk _ (lookup_registered h1)
    have m2 := hk' _ (lookup_registered h2)
    obtain ⟨s, v₀⟩ := p
    obtain ⟨s', w₀⟩ := q
    rw [struct_fill hr f n id m1.1 s m1.2] at hu
    rw [struct_fill hr f' n id m1.1 s' m2.2] at hu'
    rcases hd : s.read (⟨x, n⟩ : Limited σ) with ⟨r, l⟩
    rcases hd' : s'.read (⟨x, n⟩ : Limited σ) with ⟨r', l'⟩
    rw [hd] at hu
    rw [hd'] at hu'
    cases r with
    | ok v =>
      cases r' with
      | ok v' =>
        simp only at hu hu'
        by_cases he : l.empty = false
        · rw [if_pos he] at hu; cases hu
        · by_cases he' : l'.empty = false
          · rw [if_pos he'] at hu'; cases hu'
          · rw [if_neg he] at hu
            rw [if_neg he'] at hu'
            cases hu
            cases hu'
            obtain ⟨h4, rfl⟩ := read_kin hr h3 m1.2 m2.2 _ _ _ _ _ hd hd' (by simpa [Limited.empty] using he)
              (by simpa [Limited.empty] using he')
            exact ⟨by simp only [mapTag, mapAtom, h4], rfl⟩
      | _ => cases hu'
    | _ => cases hu
  · rcases h1 with h1 | h1
    · rw [h1] at ht; simp only at ht; rw [h2] at ht; cases ht
    · rw [h1] at ht'; simp only at ht'; rw [h2] at ht'; cases ht'

/-- **C126** From any reader whatsoever: if both programs read a tag, it has the same content for both, and they leave the
reader in the same state. -/
theorem C126_agree (hr : MemoryOk) (strict : Bool) {regs regs' : List (UInt64 × Struct)} (hk : RegsOk regs)
    (hk' : RegsOk regs') (h : KinRegs strict regs regs') {σ : Type} [Reader σ] (x y y' : σ) (t t' : Tag Struct)
    (ht : Factory.deserialize (structFactory strict regs) σ x = (.ok t, y))
    (ht' : Factory.deserialize (structFactory strict regs') σ x = (.ok t', y')) : contentOf t = contentOf t' ∧ y = y' :=
  Meet.fuel (kin_meets hr hk hk' h) Factory.fuel σ x y y' t t' ht ht'

theorem fromBytes_inv {P : Type} [TagPayload P] {e : Engine P} {bs : Bytes} {t : Tag P} (h : Factory.fromBytes e bs = .ok t) :
    ∃ r, Factory.deserialize e ByteArrayReader (ByteArrayReader.new bs) = (.ok t, r) := by
  unfold Factory.fromBytes at h
  rcases hd : Factory.deserialize e ByteArrayReader (ByteArrayReader.new bs) with ⟨r, y⟩
  rw [hd] at h
  cases r with
  | ok u =>
    simp only at h
    split at h
    · cases h; exact ⟨y, rfl⟩
    · cases h
  | _ => cases h

/-- **C126** The same for `from_bytes`: for any bytes, both read the same content, or one of them reports an error. -/
theorem C126_from_bytes (hr : MemoryOk) (strict : Bool) {regs regs' : List (UInt64 × Struct)} (hk : RegsOk regs)
    (hk' : RegsOk regs') (h : KinRegs strict regs regs') (bs : Bytes) :
    (∃ x, Factory.fromBytes (structFactory strict regs) bs = .err x) ∨
    (∃ x, Factory.fromBytes (structFactory strict regs') bs = .err x) ∨
    ∃ t t', Factory.fromBytes (structFactory strict regs) bs = .ok t ∧
      Factory.fromBytes (structFactory strict regs') bs = .ok t' ∧ contentOf t = contentOf t' := by
  have total : ∀ regs, RegsOk regs → (∃ t, Factory.fromBytes (structFactory strict regs) bs = .ok t) ∨
      ∃ x, Factory.fromBytes (structFactory strict regs) bs = .err x := by
    intro regs hk
    have ht := C123_total hr strict regs hk ByteArrayReader.view.toView (ByteArrayReader.new bs) bs (ByteArrayReader.view_new bs)
    unfold Factory.fromBytes
    rcases hx : Factory.deserialize (structFactory strict regs) ByteArrayReader (ByteArrayReader.new bs) with ⟨r, y⟩
    rw [hx] at ht
    cases r with
    | ok u =>
      simp only
      split
      · exact .inl ⟨u, rfl⟩
      · exact .inr ⟨_, rfl⟩
    | err e => exact .inr ⟨e, rfl⟩
    | _ => rcases ht with ⟨_, ht⟩ | ⟨_, ht⟩ <;> cases ht
  rcases total regs hk with ⟨t, h1⟩ | h1
  · rcases total regs' hk' with ⟨t', h2⟩ | h2
    · obtain ⟨r, g1⟩ := fromBytes_inv h1
      obtain ⟨r', g2⟩ := fromBytes_inv h2
      exact .inr (.inr ⟨t, t', h1, h2, (C126_agree hr strict hk hk' h _ _ _ _ _ g1 g2).1⟩)
    · exact .inr (.inl h2)
  · exact .inl h1

/-- **C126** Data handed on among such programs: one of them reads a tag and writes it; then it goes through any number of
others, in any order and any number of times, each of which reads and writes it.  Whoever has had it, the bytes stay as
the first one wrote them.  The first one can read them still, as the tag it had; and all who can read them read the same
content. -/
theorem C126_fleet (hr : MemoryOk) (strict : Bool) (regs : List (UInt64 × Struct)) (hk : RegsOk regs)
    (fleet : List (List (UInt64 × Struct))) (hf : ∀ r ∈ fleet, RegsOk r ∧ KinRegs strict regs r)
    (bs : Bytes) (t : Tag Struct) (bs₁ bs' : Bytes) (h : Factory.fromBytes (structFactory strict regs) bs = .ok t)
    (ht : t.toBytes = .ok bs₁) (hp : Passed strict fleet bs₁ bs') :
    bs' = bs₁ ∧ ∃ t₁, Factory.fromBytes (structFactory strict regs) bs' = .ok t₁ ∧ Same t t₁ ∧
      ∀ r, RegsOk r → KinRegs strict regs r → ∀ u, Factory.fromBytes (structFactory strict r) bs' = .ok u →
        contentOf u = contentOf t₁ := by
  obtain ⟨bs₂, t₁, g1, -, g2, g3, g4, -⟩ := C123_normal hr strict regs hk bs t h
  rw [ht] at g1
  cases g1
  have key : ∀ r, RegsOk r → KinRegs strict regs r → ∀ u, Factory.fromBytes (structFactory strict r) bs₁ = .ok u →
      contentOf u = contentOf t₁ := by
    intro r hr' hkin u hu
    obtain ⟨x, e1⟩ := fromBytes_inv g2
    obtain ⟨x', e2⟩ := fromBytes_inv hu
    exact (C126_agree hr strict hk hr' hkin _ _ _ _ _ e1 e2).1.symm
  have hb : bs' = bs₁ := by
    induction fleet with
    | nil => exact hp
    | cons r fleet ih =>
      obtain ⟨u, bs₂, h1, h2, h3⟩ := hp
      obtain ⟨k1, k2⟩ := hf r (by simp)
      have e := (C125_writes (key r k1 k2 u h1)).2.1
      rw [h2, g4] at e
      cases e
      exact ih (fun r' hr' => hf r' (List.mem_cons_of_mem _ hr')) h3
  subst hb
  exact ⟨rfl, t₁, g2, g3, key⟩

omit [Env] in
/-- **C126** The changes of C124 and C125 are of this kind, in both directions. -/
theorem C126_covers {strict : Bool} {regs regs' : List (UInt64 × Struct)} (h : Versions regs regs' ∨ Upgrade strict regs regs') :
    KinRegs strict regs regs' ∧ KinRegs strict regs' regs := by
  have later : ∀ {s s' : Schema}, Later s s' → Akin s s' ∧ Akin s' s := by
    intro s s' h
    induction h with
    | refl s => exact ⟨.refl s, .refl s⟩
    | enum ho _ ih => exact ⟨.enum fun b hb _ => (ih b hb).1, .enum fun b _ hb => (ih b hb).2⟩
    | both _ _ iha ihb => exact ⟨.both iha.1 ihb.1, .both iha.2 ihb.2⟩
    | many _ ih => exact ⟨.many ih.1, .many ih.2⟩
    | opt _ ih => exact ⟨.opt ih.1, .opt ih.2⟩
  have grown : ∀ {s s' : Schema}, Grown s s' → Kin s s' ∧ Kin s' s := by
    intro s s' h
    induction h with
    | append s t hn => exact ⟨.more (.refl s) hn, .less (.refl s) hn⟩
    | inLast _ _ ih => exact ⟨.last (.refl _) ih.1, .last (.refl _) ih.2⟩
  rcases h with h | h
  · have : ∀ id, (regs.lookup id = none ∧ regs'.lookup id = none) ∨
        ∃ p q, regs.lookup id = some p ∧ regs'.lookup id = some q ∧ Kin p.schema q.schema ∧ Kin q.schema p.schema := by
      intro id
      rcases h id with h | ⟨p, q, h1, h2, h3 | h3 | h3⟩
      · exact .inl h
      · exact .inr ⟨p, q, h1, h2, h3 ▸ ⟨.akin (.refl _), .akin (.refl _)⟩⟩
      · exact .inr ⟨p, q, h1, h2, grown h3⟩
      · exact .inr ⟨p, q, h1, h2, (grown h3).symm⟩
    constructor <;> intro id <;> rcases this id with h | ⟨p, q, h1, h2, h3, h4⟩
    · exact .inl h
    · exact .inr (.inl ⟨p, q, h1, h2, h3⟩)
    · exact .inl h.symm
    · exact .inr (.inl ⟨q, p, h2, h1, h4⟩)
  · constructor <;> intro id <;> rcases h id with h | ⟨p, q, h1, h2, h3⟩ | ⟨h1, h2⟩
    · exact .inl h
    · exact .inr (.inl ⟨p, q, h1, h2, .akin (later h3).1⟩)
    · exact .inr (.inr ⟨.inl h1, h2⟩)
    · exact .inl h.symm
    · exact .inr (.inl ⟨q, p, h2, h1, .akin (later h3).2⟩)
    · exact .inr (.inr ⟨.inr h1, h2⟩)

end

/-! ### The hypotheses are met -/
section
attribute [local instance] bigEnv

/-- Another branch of the program of C125 has a layout 3: a number and bytes; and it has no layout 2. -/
def note3 : Schema := .enum (fun b => b == 1 || b == 3) fun b => if b = 1 then .text else .both (.field .u64) .blob
def noteRegs3 : List (UInt64 × Struct) := [(5000, ⟨note3, ⟨1, ""⟩⟩)]

theorem noteRegs3_ok : RegsOk noteRegs3 := by
  intro r hr
  simp only [noteRegs3, List.mem_singleton] at hr
  subst hr
  refine ⟨by decide, fun b _ => ?_⟩
  dsimp only
  split
  · trivial
  · exact ⟨trivial, trivial⟩

/-- Neither is a later version of the other, but they mean the same by layout 1. -/
theorem note_kin : KinRegs true noteRegs2 noteRegs3 := by
  intro id
  by_cases h1 : id = 5000
  · subst h1
    refine .inr (.inl ⟨_, _, rfl, rfl, .akin (.enum fun b hb hb' => ?_)⟩)
    simp only [Bool.or_eq_true, beq_iff_eq] at hb hb'
    have : b = 1 := by
      rcases hb with rfl | rfl
      · rfl
      · rcases hb' with h | h <;> cases h
    subst this
    exact .refl _
  · by_cases h2 : id = 6000
    · subst h2
      refine .inr (.inr ⟨.inr rfl, ?_⟩)
      rw [std_unknown (fun k => by cases k <;> decide)]
      rfl
    · refine .inl ⟨?_, ?_⟩ <;> simp [noteRegs2, noteRegs3, List.lookup, beq_false_of_ne h1, beq_false_of_ne h2]

theorem same_note {p : Struct} {u : Tag Struct} (h : Same (.seq 22 [.atom (.payload 5000 p)]) u) :
    u = .seq 22 [.atom (.payload 5000 p)] := by
  cases h with
  | @seq _ _ us hl h =>
    match us, hl, h with
    | [v], _, h =>
      have := h 0 (by simp) (by simp)
      simp only [List.getElem_cons_zero] at this
      cases this
      rfl

/-- What each of them does with the note. -/
theorem note_pass {regs : List (UInt64 × Struct)} {s : Schema} {v v₀ : s.Val} (hk : RegsOk regs)
    (h1 : regs.lookup 5000 = some ⟨s, v₀⟩) (h2 : regs.lookup 22 = none) (ht : HasType s v)
    (hl : (encValue (.seq 22 [.atom (.payload 5000 ⟨s, v⟩)] : Tag Struct)).length ≤ maxValue)
    (hl' : (encValue (.atom (.payload 5000 ⟨s, v⟩) : Tag Struct)).length ≤ maxValue)
    (hc : contentOf newNote = contentOf (.seq 22 [.atom (.payload 5000 ⟨s, v⟩)])) :
    ∃ bs, newNote.toBytes = .ok bs ∧ ∃ u, Factory.fromBytes (structFactory true regs) bs = .ok u ∧ u.toBytes = .ok bs ∧
      Same (.seq 22 [.atom (.payload 5000 ⟨s, v⟩)]) u := by
  obtain ⟨bs, u, g1, -, g2, g3⟩ := C125_back bigEnv_ok true hk _ newNote hc
    (fun u hu => by rcases within_one hu ⟨_, rfl⟩ with rfl | rfl <;> trivial)
    (fun u hu => by
      rcases within_one hu ⟨_, rfl⟩ with rfl | rfl
      · exact ⟨hl, .inr ⟨h2, .inl rfl⟩⟩
      · exact ⟨hl', .inl ⟨5000, _, _, _, rfl, ht, h1⟩⟩)
  refine ⟨bs, g1, u, g2, ?_, g3⟩
  rw [same_note g3, ← (C125_writes hc).2.1]
  exact g1

/-- A note of layout 1 goes from the one to the other and through the older version, and comes back as it was. -/
example : ∃ bs, newNote.toBytes = .ok bs ∧ Passed true [noteRegs3, noteRegs1, noteRegs3] bs bs ∧
    Factory.fromBytes (structFactory true noteRegs2) bs = .ok newNote := by
  have h64 : (utf8 "hi").length < 2 ^ 64 := by decide
  obtain ⟨bs, h1, u2, h2, -, h3⟩ := note_pass (s := note2) (v := ⟨1, "hi"⟩) noteRegs2_ok rfl rfl ⟨rfl, h64⟩
    (by decide +kernel) (by decide +kernel) rfl
  obtain ⟨bs', k1, u3, k2, k3, -⟩ := note_pass (s := note3) (v := ⟨1, "hi"⟩) noteRegs3_ok rfl rfl ⟨rfl, h64⟩
    (by decide +kernel) (by decide +kernel) rfl
  rw [h1] at k1
  cases k1
  obtain ⟨bs', k4, u4, k5, k6, -⟩ := note_pass (s := note1) (v := ⟨1, "hi"⟩) noteRegs1_ok rfl rfl ⟨rfl, h64⟩
    (by decide +kernel) (by decide +kernel) rfl
  rw [h1] at k4
  cases k4
  refine ⟨bs, h1, ⟨u3, bs, k2, k3, u4, bs, k5, k6, u3, bs, k2, k3, rfl⟩, ?_⟩
  rw [h2, same_note h3]
  rfl

end

section
attribute [local instance] bigEnv
example (bs : Bytes) (t t' : Tag Struct) (h : Factory.fromBytes (structFactory true noteRegs2) bs = .ok t)
    (h' : Factory.fromBytes (structFactory true noteRegs3) bs = .ok t') : contentOf t = contentOf t' := by
  rcases C126_from_bytes bigEnv_ok true noteRegs2_ok noteRegs3_ok note_kin bs with ⟨x, hx⟩ | ⟨x, hx⟩ | ⟨u, u', h1, h2, h3⟩
  · rw [h] at hx; cases hx
  · rw [h'] at hx; cases hx
  · rw [h] at h1; rw [h'] at h2; cases h1; cases h2; exact h3

end

end Verif.Props
