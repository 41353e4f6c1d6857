import Verif.Proof.Shapes
import Verif.Proof.Std
import Verif.Props.Factories
/-!
# C129: of what a factory makes only the type matters
-/
namespace Verif.Props
open Verif Verif.Spec
variable {P : Type}
set_option linter.unusedSectionVars false

section
variable [TagPayload P] [Env]

/-- **C129** Factories that have tags of the same types for all ids, with whatever content, do the same on every reader,
whatever its content and faults: same result, same tag, same state of the reader. -/
theorem C129_contents {e e' : Engine P} (h : SameTypes e e') {σ : Type} [Reader σ] :
    Factory.deserialize e σ = Factory.deserialize e' σ ∧ Factory.fromBytes e = Factory.fromBytes e' ∧
    (Factory.deserializeInto e : Act TagErr (Tag P × σ) Unit) = Factory.deserializeInto e' :=
  ⟨deserialize_same h, fromBytes_same h, into_same h⟩

/-- **C129** Every program gets the same answers with the one as with the other and holds the same tags in the end. -/
theorem C129_programs {e e' : Engine P} (h : SameTypes e e') (prog : Client P) (x : Store P) :
    prog.run e x = prog.run e' x := run_same h prog x

theorem create_registered (e : Engine P) (id j : UInt64) (c : Creator P) :
    (e.register id c).2.createTag j = if j = id then (c id).map some else e.createTag j := by
  unfold Engine.createTag Engine.register
  simp only [HMap.get_insert]
  by_cases h : j = id
  · subst h; simp only [if_true]
  · simp only [if_neg h]

/-- **C129** In particular creators may be exchanged for others that make tags of the same type. -/
theorem C129_creators (e : Engine P) (id : UInt64) (c c' : Creator P) (t t' : Tag P) (h : c id = .ok t) (h' : c' id = .ok t')
    (hk : t.kind = t'.kind) (hi : t.id = t'.id)
    (hp : ∀ i p i' p', t = .atom (.payload i p) → t' = .atom (.payload i' p') →
      ∀ n, TagPayload.deserialize p n = TagPayload.deserialize p' n)
    (prog : Client P) (x : Store P) : prog.run (e.register id c).2 x = prog.run (e.register id c').2 x := by
  have hc : ∀ (d : Creator P) (u : Tag P), d id = .ok u → (e.register id d).2.createTag id = .ok (some u) := by
    intro d u hu
    unfold Engine.createTag Engine.register
    simp only [HMap.get_insert, if_true, hu, Res.map]
  have ho : ∀ (d : Creator P) (j : UInt64), j ≠ id → (e.register id d).2.createTag j = e.createTag j := by
    intro d j hj
    unfold Engine.createTag Engine.register
    simp only [HMap.get_insert, if_neg hj]
  refine run_same ⟨fun j => ?_, fun j i p i' p' h1 h2 => ?_⟩ prog x
  · unfold typeFor
    by_cases hj : j = id
    · subst hj; rw [hc c t h, hc c' t' h']; simp only [hk, hi]
    · rw [ho c j hj, ho c' j hj]
  · by_cases hj : j = id
    · subst hj
      rw [hc c t h] at h1
      rw [hc c' t' h'] at h2
      simp only [Res.ok.injEq, Option.some.injEq] at h1 h2
      exact hp i p i' p' h1 h2
    · rw [ho c j hj] at h1
      rw [ho c' j hj, h1] at h2
      simp only [Res.ok.injEq, Option.some.injEq, Tag.atom.injEq, Atom.payload.injEq] at h2
      rw [h2.2]; exact fun _ => rfl

/-- **C129** And nothing but the types matters: factories that make tags of the types of the library, with the ids they were
asked for and under implicit ids the standard types, read all byte strings alike exactly if they have the same type for
every id, and the same reason where they have none. -/
theorem C129_exactly (hr : MemoryOk) {e e' : Engine P} (he : Regular e) (he' : Regular e') (hl : LibraryOnly e)
    (hl' : LibraryOnly e') :
    (∀ bs, Factory.fromBytes e bs = Factory.fromBytes e' bs) ↔ ∀ id, typeFor e id = typeFor e' id :=
  reads_iff_types hr he he' hl hl'

end

section
attribute [local instance] bigEnv

/-- Creators that put something into their tags. -/
def filled : Engine Empty :=
  (((Engine.std true).register 24 (fun i => .ok (.atom (.version i 1 2 3 4)))).2.register 22
    (fun i => .ok (.seq i [.atom (.null 0)]))).2

/-- `filled` makes other tags than the standard factory, of the same types. -/
example : (filled.createTag 24 = .ok (some (.atom (.version 24 1 2 3 4))) ∧
    (Engine.std true : Engine Empty).createTag 24 = .ok (some (.atom (.version 24 0 0 0 0)))) ∧
    filled.createTag 22 = .ok (some (.seq 22 [.atom (.null 0)])) ∧
    (Engine.std true : Engine Empty).createTag 22 = .ok (some (.seq 22 [])) := ⟨⟨rfl, rfl⟩, rfl, rfl⟩

/-- Hence nobody can tell it from the standard factory. -/
example (prog : Client Empty) (x : Store Empty) : prog.run filled x = prog.run (Engine.std true) x := by
  have hv : ∀ id, filled.createTag id = if id = 22 then .ok (some (.seq 22 [.atom (.null 0)])) else
      if id = 24 then .ok (some (.atom (.version 24 1 2 3 4))) else (Engine.std true : Engine Empty).createTag id := by
    intro id
    refine (create_registered _ 22 id _).trans ?_
    by_cases h1 : id = 22
    · subst h1; rfl
    · simp only [if_neg h1]
      exact create_registered _ 24 id _
  refine C129_programs ⟨fun id => ?_, fun id i p => p.elim⟩ prog x
  unfold typeFor
  rw [hv]
  by_cases h1 : id = 22
  · subst h1; rfl
  · by_cases h2 : id = 24
    · subst h2; rfl
    · simp only [if_neg h1, if_neg h2]

/-- Any two versions may be what the creator starts from. -/
example (e : Engine Empty) (a b c d : Int32) (prog : Client Empty) (x : Store Empty) :
    prog.run (e.register 24 (fun i => .ok (.atom (.version i a b c d)))).2 x =
      prog.run (e.register 24 (fun i => .ok (.atom (.version i 0 0 0 0)))).2 x :=
  C129_creators e 24 _ _ (.atom (.version 24 a b c d)) (.atom (.version 24 0 0 0 0)) rfl rfl rfl rfl (fun _ p _ _ _ _ => p.elim) prog x

/-- The strict standard factory and the other one have different types for the id 40, and so some bytes tell them apart. -/
example : ∃ bs, Factory.fromBytes (Engine.std true : Engine Empty) bs ≠ Factory.fromBytes (Engine.std false) bs := by
  have hl : ∀ b, LibraryOnly (Engine.std b : Engine Empty) := by
    intro b id t _ hk
    cases t with
    | atom a =>
      cases a with
      | payload _ p => exact p.elim
      | _ => cases hk
    | _ => cases hk
  refine Classical.not_forall.mp fun h => ?_
  have := (C129_exactly (P := Empty) bigEnv_ok (std_regular true) (std_regular false) (hl true) (hl false)).mp h 40
  cases this

end
end Verif.Props
