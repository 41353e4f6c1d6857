import Verif.Proof.Header
/-!
# The previous content of a tag does not matter

`deserialize_value` on two tags of the same type and id, holding anything, gives the same outcome, leaves the reader in
the same state and, when it succeeds, the same tag.
-/
namespace Verif
set_option linter.unusedSectionVars false

section
variable {τ τ' σ α : Type}

/-- Same outcome, same reader and, on success, same value. -/
def Agrees (o o' : Res TagErr Unit × (τ × σ)) : Prop :=
  o.1 = o'.1 ∧ o.2.2 = o'.2.2 ∧ (o.1 = .ok () → o.2.1 = o'.2.1)

/-- Two actions agree whatever the values they start from. -/
def Indep (m m' : Act TagErr (τ × σ) Unit) : Prop := ∀ t t' s, Agrees (m (t, s)) (m' (t', s))

theorem Agrees.refl (o : Res TagErr Unit × (τ × σ)) : Agrees o o := ⟨rfl, rfl, fun _ => rfl⟩

theorem Indep.set (t : τ) : Indep (setSelf t : Act TagErr (τ × σ) Unit) (setSelf t) := fun _ _ _ => ⟨rfl, rfl, fun _ => rfl⟩
theorem Indep.fail (e : TagErr) : Indep (Act.fail e : Act TagErr (τ × σ) Unit) (Act.fail e) :=
  fun _ _ _ => ⟨rfl, rfl, fun h => by simp [Act.fail] at h⟩
theorem Indep.panic : Indep (Act.panic : Act TagErr (τ × σ) Unit) Act.panic :=
  fun _ _ _ => ⟨rfl, rfl, fun h => by simp [Act.panic] at h⟩

theorem Indep.bind {m m' : Act TagErr (τ × σ) Unit} (h : Indep m m') (k : Act TagErr (τ × σ) Unit) :
    Indep (do m; k) (do m'; k) := by
  intro t t' s
  have h1 := h t t' s
  simp only [Act.bind_apply]
  rcases hm : m (t, s) with ⟨r, u, s₁⟩
  rcases hm' : m' (t', s) with ⟨r', u', s₁'⟩
  rw [hm, hm'] at h1
  obtain ⟨h1, h2, h3⟩ := h1
  simp only at h1 h2 h3
  subst h1 h2
  cases r with
  | ok a =>
    have := h3 rfl
    subst this
    exact Agrees.refl _
  | _ => exact ⟨rfl, rfl, fun h => by simp at h⟩

theorem Indep.onReader {x : Act TagErr σ α} {k k' : α → Act TagErr (τ × σ) Unit} (h : ∀ a, Indep (k a) (k' a)) :
    Indep (do let a ← onReader x; k a) (do let a ← onReader x; k' a) := by
  intro t t' s
  simp only [Act.bind_apply, Verif.onReader]
  rcases hx : x s with ⟨r, s₁⟩
  cases r with
  | ok a => exact h a t t' s₁
  | _ => exact ⟨rfl, rfl, fun h => by simp at h⟩

theorem Indep.lift {r : Res TagErr α} {k k' : α → Act TagErr (τ × σ) Unit} (h : ∀ a, Indep (k a) (k' a)) :
    Indep (do let a ← Act.lift r; k a) (do let a ← Act.lift r; k' a) := by
  intro t t' s
  simp only [Act.bind_apply, Act.lift]
  cases r with
  | ok a => exact h a t t' s
  | _ => exact ⟨rfl, rfl, fun h => by simp at h⟩

theorem Indep.guardE (c : Prop) [Decidable c] (e : TagErr) {k k' : Act TagErr (τ × σ) Unit} (h : Indep k k') :
    Indep (do Act.guardE c e; k) (do Act.guardE c e; k') := by
  intro t t' s
  simp only [Act.bind_apply, Act.guardE]
  by_cases hc : c
  · simp only [if_pos hc]; exact h t t' s
  · simp only [if_neg hc]; exact ⟨rfl, rfl, fun h => by simp at h⟩

theorem Indep.alloc [Env] (u c : Nat) {k k' : Act TagErr (τ × σ) Unit} (h : Indep k k') :
    Indep (do Data.alloc u c; k) (do Data.alloc u c; k') := by
  intro t t' s
  simp only [Act.bind_apply, Data.alloc]
  by_cases hc : u * c ≤ Env.allocMax
  · simp only [if_pos hc]; exact h t t' s
  · simp only [if_neg hc]; exact ⟨rfl, rfl, fun h => by simp [Act.panic] at h⟩

/-- Any replacement of the value by an arbitrary one is harmless before an independent action. -/
theorem Indep.modify (g g' : τ → τ) {k k' : Act TagErr (τ × σ) Unit} (h : Indep k k') :
    Indep (do modifySelf g; k) (do modifySelf g'; k') := fun t t' s => h (g t) (g' t') s
theorem Indep.setThen (u u' : τ) {k k' : Act TagErr (τ × σ) Unit} (h : Indep k k') :
    Indep (do setSelf u; k) (do setSelf u'; k') := fun _ _ s => h u u' s

theorem Indep.ite {c : Prop} [Decidable c] {m m' k k' : Act TagErr (τ × σ) Unit} (h : Indep m m') (hk : Indep k k') :
    Indep (if c then m else k) (if c then m' else k') := by split <;> assumption

theorem Indep.zoom {m m' : Act TagErr (τ × σ) Unit} (h : Indep m m') (wrap : τ → τ') (t t' : τ) :
    Indep (zoom wrap t m) (zoom wrap t' m') := by
  intro _ _ s
  obtain ⟨h1, h2, h3⟩ := h t t' s
  exact ⟨h1, h2, fun hr => congrArg wrap (h3 hr)⟩

theorem Indep.withLimited {m m' : Act TagErr (τ × Limited σ) Unit} (h : Indep m m') (n : Nat) :
    Indep (withLimited n m) (withLimited n m') := by
  intro t t' s
  obtain ⟨h1, h2, h3⟩ := h t t' ⟨s, n⟩
  exact ⟨h1, congrArg Limited.source h2, h3⟩

end

section
variable {P σ : Type} [Reader σ] [Env]

theorem Indep.bytesIntoVec (n : Nat) : Indep (deserializeBytesIntoVec n : Act TagErr (Bytes × σ) Unit)
    (deserializeBytesIntoVec n) :=
  Indep.alloc _ _ (Indep.modify _ _ (Indep.onReader fun _ => Indep.set _))

theorem Indep.ilintArray (n : Nat) : Indep (Atom.deserializeILIntArray n : Act TagErr (List UInt64 × σ) Unit)
    (Atom.deserializeILIntArray n) :=
  Indep.withLimited (Indep.onReader fun _ => Indep.ite (Indep.fail _) (Indep.bind (Indep.set _) _)) n

theorem Indep.strDict (n : Nat) : Indep (Atom.deserializeStrDict n : Act TagErr (List (String × String) × σ) Unit)
    (Atom.deserializeStrDict n) :=
  Indep.withLimited (Indep.onReader fun _ => Indep.bind (Indep.set _) _) n

/-- The start of the range is written first; only its value as read remains. -/
theorem Indep.range (n : Nat) : Indep (Atom.deserializeRange n : Act TagErr ((UInt64 × UInt16) × σ) Unit)
    (Atom.deserializeRange n) := by
  refine Indep.withLimited (Indep.onReader fun a => ?_) n
  intro t t' s
  simp only [Act.bind_apply, modifySelf, Verif.onReader]
  rcases hx : tagIo Data.readU16 s with ⟨r, s₁⟩
  cases r with
  | ok b => exact Agrees.refl _
  | _ => exact ⟨rfl, rfl, fun h => by simp at h⟩

theorem Indep.seq (f : FactoryDeser P) (n : Nat) : Indep (Tag.deserializeSeq f n : Act TagErr (List (Tag P) × σ) Unit)
    (Tag.deserializeSeq f n) :=
  Indep.withLimited (Indep.bind (Indep.set _) _) n

theorem Indep.array (f : FactoryDeser P) (n : Nat) :
    Indep (Tag.deserializeArray f n : Act TagErr (List (Tag P) × σ) Unit) (Tag.deserializeArray f n) :=
  Indep.withLimited (Indep.onReader fun _ => Indep.ite (Indep.fail _) (Indep.bind (Indep.set _) _)) n

theorem Indep.dict (f : FactoryDeser P) (n : Nat) :
    Indep (Tag.deserializeDict f n : Act TagErr (List (String × Tag P) × σ) Unit) (Tag.deserializeDict f n) :=
  Indep.withLimited (Indep.onReader fun _ => Indep.bind (Indep.set _) _) n

/-- The payloads, if these are payload tags, read in the same way. -/
def SamePrograms [TagPayload P] (t t' : Tag P) : Prop :=
  ∀ id p id' p', t = .atom (.payload id p) → t' = .atom (.payload id' p') →
    ∀ n, TagPayload.deserialize p n = TagPayload.deserialize p' n

omit [Env] in
/-- A program sets its result itself. -/
theorem Indep.rprog (f : FactoryDeser P) (r : RProg P) : Indep (RProg.run (σ := σ) f r) (RProg.run f r) := by
  induction r with
  | done r p => intro t t' s; exact ⟨rfl, rfl, fun _ => rfl⟩
  | read k ih => exact Indep.onReader fun b => ih b
  | readAll n k ih => exact Indep.onReader fun b => ih b
  | deser k ih => exact Indep.onReader fun b => ih b
  | into t k ih => exact Indep.onReader fun b => ih b

theorem Atom.value_prior [TagPayload P] (f : FactoryDeser P) (n : Nat) {a a' : Atom P} (hk : a.kind = a'.kind)
    (hid : a.id = a'.id)
    (hp : SamePrograms (.atom a) (.atom a')) (s : σ) :
    Agrees (Atom.deserializeValue f n a (a, s)) (Atom.deserializeValue f n a' (a', s)) := by
  cases a <;> cases a' <;> simp only [Atom.kind, reduceCtorEq] at hk <;> clear hk <;> simp only [Atom.id] at hid <;>
    try subst hid
  case null => exact Agrees.refl _
  case bool => exact Indep.guardE _ _ (Indep.onReader fun _ => Indep.ite (Indep.set _) (Indep.ite (Indep.set _)
    (Indep.fail _))) _ _ _
  case bin128 =>
    refine Indep.guardE _ _ (Indep.onReader fun _ => ?_) _ _ _
    split
    · exact Indep.set _
    · exact Indep.panic
  case ilint => exact Indep.onReader (fun _ => Indep.set _) _ _ _
  case signedILInt => exact Indep.onReader (fun _ => Indep.set _) _ _ _
  case string =>
    refine Indep.onReader (fun _ => ?_) _ _ _
    split
    · exact Indep.set _
    · exact Indep.fail _
  case raw => exact Indep.zoom (Indep.bytesIntoVec n) _ _ _ _ _ _
  case byteArray => exact Indep.zoom (Indep.bytesIntoVec n) _ _ _ _ _ _
  case bigInt => exact Indep.zoom (Indep.bytesIntoVec n) _ _ _ _ _ _
  case bigDec => exact Indep.guardE _ _ (Indep.onReader fun _ => Indep.setThen _ _
    (Indep.zoom (Indep.bytesIntoVec _) _ _ _)) _ _ _
  case ilintArray => exact Indep.zoom (Indep.ilintArray n) _ _ _ _ _ _
  case oid => exact Indep.zoom (Indep.ilintArray n) _ _ _ _ _ _
  case strDict => exact Indep.zoom (Indep.strDict n) _ _ _ _ _ _
  case range => exact Indep.zoom (Indep.range n) _ _ _ _ _ _
  case version => exact Indep.guardE _ _ (Indep.onReader fun _ => Indep.setThen _ _ (Indep.onReader fun _ =>
    Indep.setThen _ _ (Indep.onReader fun _ => Indep.setThen _ _ (Indep.onReader fun _ => Indep.set _)))) _ _ _
  case payload id p p' =>
    simp only [Atom.deserializeValue]
    rw [hp id p id p' rfl rfl]
    exact Indep.zoom (Indep.rprog f _) _ _ _ _ _ _
  all_goals exact Indep.guardE _ _ (Indep.onReader fun _ => Indep.set _) _ _ _

theorem Tag.value_prior [TagPayload P] (f : FactoryDeser P) (n : Nat) {t t' : Tag P} (hk : t.kind = t'.kind)
    (hid : t.id = t'.id) (hp : SamePrograms t t') (s : σ) :
    Agrees (Tag.deserializeValue f n t (t, s)) (Tag.deserializeValue f n t' (t', s)) := by
  cases t with
  | atom a =>
    cases t' with
    | atom a' =>
      obtain ⟨h1, h2, h3⟩ := Atom.value_prior f n hk hid hp s
      exact ⟨h1, h2, fun h => congrArg Tag.atom (h3 h)⟩
    | _ => cases a <;> simp [Tag.kind, Atom.kind] at hk
  | seq id ts =>
    cases t' with
    | seq id' ts' => simp only [Tag.id] at hid; subst hid; exact Indep.zoom (Indep.seq f n) _ _ _ _ _ _
    | atom a => cases a <;> simp [Tag.kind, Atom.kind] at hk
    | _ => simp [Tag.kind] at hk
  | array id ts =>
    cases t' with
    | array id' ts' => simp only [Tag.id] at hid; subst hid; exact Indep.zoom (Indep.array f n) _ _ _ _ _ _
    | atom a => cases a <;> simp [Tag.kind, Atom.kind] at hk
    | _ => simp [Tag.kind] at hk
  | dict id ts =>
    cases t' with
    | dict id' ts' => simp only [Tag.id] at hid; subst hid; exact Indep.zoom (Indep.dict f n) _ _ _ _ _ _
    | atom a => cases a <;> simp [Tag.kind, Atom.kind] at hk
    | _ => simp [Tag.kind] at hk

/-- The same for the value with its limit and final check. -/
theorem tagValueInto_prior [TagPayload P] (f : FactoryDeser P) (n : Nat) {t t' : Tag P} (hk : t.kind = t'.kind)
    (hid : t.id = t'.id) (hp : SamePrograms t t') (s : σ) :
    Agrees (Factory.deserializeTagValueInto f n (t, s)) (Factory.deserializeTagValueInto f n (t', s)) := by
  have h := Tag.value_prior (σ := Limited σ) f n hk hid hp ⟨s, n⟩
  unfold Factory.deserializeTagValueInto withLimited
  simp only [Act.bind_apply]
  rcases hm : Tag.deserializeValue f n t (t, (⟨s, n⟩ : Limited σ)) with ⟨r, u, l⟩
  rcases hm' : Tag.deserializeValue f n t' (t', (⟨s, n⟩ : Limited σ)) with ⟨r', u', l'⟩
  rw [hm, hm'] at h
  obtain ⟨h1, h2, h3⟩ := h
  simp only at h1 h2 h3
  subst h1 h2
  cases r with
  | ok a => have := h3 rfl; subst this; exact Agrees.refl _
  | _ => exact ⟨rfl, rfl, fun h => by simp at h⟩

end
end Verif
