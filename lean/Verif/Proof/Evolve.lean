import Verif.Spec.Evolve
import Verif.Proof.Schema
import Verif.Proof.Recursion
import Verif.Props.Schema
/-!
# Payload types that change from version to version

`Fork m m'`: `m` and `m'` do the same, or one of them does not succeed.
-/
namespace Verif
open Spec
set_option linter.unusedSectionVars false

/-- From every state both do the same, or one of them does not succeed. -/
def Fork {σ α : Type} (m m' : Act TagErr σ α) : Prop :=
  ∀ x, m x = m' x ∨ (∀ a, (m x).1 ≠ .ok a) ∨ ∀ a, (m' x).1 ≠ .ok a

/-- The same for the deserializers of two factories. -/
def ForkF {P : Type} (f f' : FactoryDeser P) : Prop := ∀ (σ : Type) [Reader σ] (o : Option (Tag P)), Fork (f σ o) (f' σ o)

theorem Fork.refl {σ α : Type} (m : Act TagErr σ α) : Fork m m := fun _ => .inl rfl

theorem bind_fails {σ α β : Type} {m : Act TagErr σ α} {x : σ} (k : α → Act TagErr σ β) (h : ∀ a, (m x).1 ≠ .ok a) (b : β) :
    ((m >>= k) x).1 ≠ .ok b := by
  rw [Act.bind_apply]
  rcases hm : m x with ⟨r, x'⟩
  rw [hm] at h
  cases r with
  | ok a => exact absurd rfl (h a)
  | _ => nofun

theorem Fork.bind {σ α β : Type} {m m' : Act TagErr σ α} {k k' : α → Act TagErr σ β} (h : Fork m m') (hk : ∀ a, Fork (k a) (k' a)) :
    Fork (m >>= k) (m' >>= k') := by
  intro x
  rcases h x with h | h | h
  · simp only [Act.bind_apply]
    rw [h]
    rcases m' x with ⟨r, x'⟩
    cases r with
    | ok a => exact hk a x'
    | _ => exact .inl rfl
  · exact .inr (.inl (bind_fails k h))
  · exact .inr (.inr (bind_fails k' h))

theorem Fork.ite {σ α : Type} {c : Prop} [Decidable c] {m m' k k' : Act TagErr σ α} (h : Fork m m') (h' : Fork k k') :
    Fork (if c then m else k) (if c then m' else k') := by split <;> assumption

theorem Fork.onReader {σ τ α : Type} {m m' : Act TagErr σ α} (h : Fork m m') :
    Fork (Verif.onReader (τ := τ) m) (Verif.onReader m') := by
  intro x
  rcases h x.2 with h | h | h
  · exact .inl (by unfold Verif.onReader; simp only; rw [h])
  · exact .inr (.inl h)
  · exact .inr (.inr h)

theorem Fork.zoom {σ τ τ' α : Type} {m m' : Act TagErr (τ × σ) α} (h : Fork m m') (wrap : τ → τ') (t₀ : τ) :
    Fork (Verif.zoom wrap t₀ m) (Verif.zoom wrap t₀ m') := by
  intro x
  rcases h (t₀, x.2) with h | h | h
  · exact .inl (by unfold Verif.zoom; simp only; rw [h])
  · exact .inr (.inl h)
  · exact .inr (.inr h)

theorem Fork.withLimited {σ τ α : Type} {m m' : Act TagErr (τ × Limited σ) α} (h : Fork m m') (n : Nat) :
    Fork (Verif.withLimited n m) (Verif.withLimited n m') := by
  intro x
  rcases h (x.1, ⟨x.2, n⟩) with h | h | h
  · exact .inl (by unfold Verif.withLimited; simp only; rw [h])
  · exact .inr (.inl h)
  · exact .inr (.inr h)

section
variable {P σ : Type} [Reader σ] [E : Env] {f f' : FactoryDeser P}

theorem Fork.rprog (hf : ForkF f f') (r : RProg P) : Fork (RProg.run (σ := σ) f r) (RProg.run f' r) := by
  induction r with
  | done r p => exact Fork.refl _
  | read k ih => exact Fork.bind (Fork.refl _) fun b => ih b
  | readAll n k ih => exact Fork.bind (Fork.refl _) fun b => ih b
  | deser k ih => exact Fork.bind (Fork.onReader (hf σ none)) fun b => ih b
  | into t k ih => exact Fork.bind (Fork.onReader (hf σ (some t))) fun b => ih b

theorem Fork.atomValue [TagPayload P] (hf : ForkF f f') (vs : Nat) (a : Atom P) :
    Fork (Atom.deserializeValue (σ := σ) f vs a) (Atom.deserializeValue f' vs a) := by
  by_cases hp : a.kind = .payload
  · cases a with
    | payload id p => exact Fork.zoom (Fork.rprog hf _) _ _
    | _ => simp [Atom.kind] at hp
  · rw [Atom.factory_free hp f f']
    exact Fork.refl _

theorem Fork.pushWhile (hf : ForkF f f') (n : Nat) :
    Fork (Tag.pushWhileNotEmpty (σ := σ) f n) (Tag.pushWhileNotEmpty f' n) := by
  induction n with
  | zero => exact Fork.refl _
  | succ n ih =>
    intro x
    simp only [Tag.pushWhileNotEmpty]
    split
    · exact .inl rfl
    · exact Fork.bind (Fork.onReader (hf (Limited σ) none)) (fun v => Fork.bind (Fork.refl _) fun _ => ih) x

theorem Fork.pushTags (hf : ForkF f f') (n : Nat) : Fork (Tag.pushTags (σ := σ) f n) (Tag.pushTags f' n) := by
  induction n with
  | zero => exact Fork.refl _
  | succ n ih => exact Fork.bind (Fork.onReader (hf σ none)) fun v => Fork.bind (Fork.refl _) fun _ => ih

theorem Fork.insertEntries (hf : ForkF f f') (n : Nat) :
    Fork (Tag.insertEntries (σ := σ) f n) (Tag.insertEntries f' n) := by
  induction n with
  | zero => exact Fork.refl _
  | succ n ih =>
    exact Fork.bind (Fork.refl _) fun k => Fork.bind (Fork.onReader (hf σ none)) fun v => Fork.bind (Fork.refl _) fun _ => ih

theorem Fork.tagValue [TagPayload P] (hf : ForkF f f') (vs : Nat) (t : Tag P) :
    Fork (Tag.deserializeValue (σ := σ) f vs t) (Tag.deserializeValue f' vs t) := by
  cases t with
  | atom a => exact Fork.zoom (Fork.atomValue hf vs a) _ _
  | seq id ts =>
    exact Fork.zoom (m := Tag.deserializeSeq f vs) (m' := Tag.deserializeSeq f' vs)
      (Fork.withLimited (Fork.bind (Fork.refl _) fun _ => Fork.pushWhile hf _) _) _ _
  | array id ts =>
    refine Fork.zoom (Fork.withLimited (Fork.bind (Fork.refl _) fun c => ?_) _) _ _
    exact Fork.ite (Fork.refl _) (Fork.bind (m := setSelf []) (Fork.refl _) fun _ =>
      Fork.bind (Fork.refl _) fun _ => Fork.bind (Fork.pushTags hf _) fun _ => Fork.refl _)
  | dict id es =>
    refine Fork.zoom (Fork.withLimited (Fork.bind (Fork.refl _) fun c => ?_) _) _ _
    exact Fork.bind (m := setSelf []) (Fork.refl _) fun _ => Fork.bind (Fork.insertEntries hf _) fun _ => Fork.refl _

theorem Fork.tagValueInto [TagPayload P] (hf : ForkF f f') (vs : Nat) :
    Fork (Factory.deserializeTagValueInto (σ := σ) f vs) (Factory.deserializeTagValueInto f' vs) := by
  unfold Factory.deserializeTagValueInto
  refine Fork.withLimited ?_ vs
  intro x
  exact Fork.bind (Fork.tagValue hf vs x.1) (fun _ => Fork.refl _) x

theorem fill_fails [TagPayload P] {vs : Nat} {t : Tag P} {s : σ}
    (h : ∀ a, (Factory.deserializeTagValueInto f vs (t, s)).1 ≠ .ok a) (a : Tag P) : (Verif.fill f vs t s).1 ≠ .ok a := by
  unfold Verif.fill
  rcases hm : Factory.deserializeTagValueInto f vs (t, s) with ⟨r, x'⟩
  rw [hm] at h
  cases r with
  | ok u => exact absurd rfl (h u)
  | _ => nofun

theorem Fork.fill [TagPayload P] (hf : ForkF f f') (vs : Nat) (t : Tag P) :
    Fork (Verif.fill (σ := σ) f vs t) (Verif.fill f' vs t) := by
  intro s
  rcases Fork.tagValueInto (σ := σ) hf vs (t, s) with h | h | h
  · exact .inl (by unfold Verif.fill; simp only; rw [h])
  · exact .inr (.inl (fill_fails h))
  · exact .inr (.inr (fill_fails h))

/-- The factories create the same tag, or tags that fork when they are filled. -/
def Forks [TagPayload P] (e e' : Engine P) : Prop := ∀ id, e.createTag id = e'.createTag id ∨
  ∃ t t', e.createTag id = .ok (some t) ∧ e'.createTag id = .ok (some t') ∧
    ∀ (σ : Type) [Reader σ] (f f' : FactoryDeser P) (n : Nat), Fork (Verif.fill (σ := σ) f n t) (Verif.fill f' n t')

theorem Fork.afterHeader [TagPayload P] {e e' : Engine P} (he : Forks e e') (hf : ForkF f f') (id : UInt64) (vs : Nat) :
    Fork (Verif.afterHeader (σ := σ) e f id vs) (Verif.afterHeader e' f' id vs) := by
  intro s
  unfold Verif.afterHeader
  simp only [Act.bind_apply, Act.lift]
  rcases he id with h | ⟨t, t', h, h', hft⟩
  · rw [h]
    cases e'.createTag id with
    | ok o =>
      cases o with
      | none => exact .inl rfl
      | some t => exact Fork.fill hf vs t s
    | _ => exact .inl rfl
  · rw [h, h']
    exact hft σ f f' vs s

theorem Fork.afterId [TagPayload P] {e e' : Engine P} (he : Forks e e') (hf : ForkF f f')
    (o : Option (Tag P)) (id : UInt64) : Fork (Verif.afterId (σ := σ) e f o id) (Verif.afterId e' f' o id) := by
  cases o with
  | none => exact Fork.bind (Fork.refl _) fun n => Fork.afterHeader he hf id n
  | some t => exact Fork.ite (Fork.refl _) (Fork.bind (Fork.refl _) fun n => Fork.fill hf n t)

theorem Fork.fuel [TagPayload P] {e e' : Engine P} (he : Forks e e') (k : Nat) :
    ForkF (Factory.deserializeFuel e k) (Factory.deserializeFuel e' k) := by
  induction k with
  | zero => exact fun σ _ _ => Fork.refl _
  | succ k ih =>
    intro σ _ o s
    rw [deserializeFuel_succ, deserializeFuel_succ]
    exact Fork.bind (Fork.refl _) (fun id => Fork.afterId he ih o id) s

end

/-! ### Structs that have grown -/

/-- All the parts are strings and byte arrays of no bytes. -/
def Hollow : Schema → Prop
  | .field (.str n) => n = 0
  | .field (.bytes n) => n = 0
  | .both a b => Hollow a ∧ Hollow b
  | _ => False

theorem hollow_form : ∀ (s : Schema), Hollow s → ∃ v, StructForm s v []
  | .field sh, h => by
    cases sh with
    | str n => cases (show n = 0 from h); exact ⟨.str "", rfl, rfl⟩
    | bytes n => cases (show n = 0 from h); exact ⟨.bytes [], rfl, rfl⟩
    | _ => exact h.elim
  | .both a b, ⟨ha, hb⟩ => by
    obtain ⟨x, hx⟩ := hollow_form a ha
    obtain ⟨y, hy⟩ := hollow_form b hb
    exact ⟨(x, y), [], [], rfl, hx, hy⟩
  | .text, h => h.elim
  | .blob, h => h.elim
  | .many _, h => h.elim
  | .opt _, h => h.elim
  | .enum _ _, h => h.elim

section
variable {P σ : Type} [Reader σ] {f : FactoryDeser P}

theorem dry_read {l : Limited σ} (hl : l.available = 0) (k : Byte → RProg P) (p : P) (u : Unit) :
    ((RProg.read k).run f (p, l)).1 ≠ .ok u := by
  refine bind_fails _ (x := (p, l)) ?_ u
  intro a
  show ((tagIo Limited.read l).1) ≠ .ok a
  unfold tagIo Act.mapErr Limited.read Limited.canRead
  simp only [hl]
  nofun

theorem dry_readAll {l : Limited σ} (hl : l.available = 0) {n : Nat} {k : Bytes → RProg P} {p : P}
    (h : n = 0 → ∀ t (l' : Limited σ), l'.available = 0 → ∀ u, ((k t).run f (p, l')).1 ≠ .ok u) (u : Unit) :
    ((RProg.readAll n k).run f (p, l)).1 ≠ .ok u := by
  by_cases hn : n = 0
  · subst hn
    show ((onReader (tagIo (Limited.readAll 0)) >>= fun t => (k t).run f) (p, l)).1 ≠ .ok u
    rw [onReader_bind]
    rcases hr : tagIo (Limited.readAll 0) l with ⟨r, l'⟩
    cases r with
    | ok t =>
      refine h rfl t l' ?_ u
      unfold tagIo Act.mapErr Limited.readAll Limited.canRead at hr
      simp only [hl] at hr
      have := congrArg (·.2.available) hr
      simp at this
      omega
    | _ => nofun
  · refine bind_fails _ (x := (p, l)) ?_ u
    intro a
    show ((tagIo (Limited.readAll n) l).1) ≠ .ok a
    unfold tagIo Act.mapErr Limited.readAll Limited.canRead
    rw [hl]
    simp only [gt_iff_lt, if_pos (Nat.pos_of_ne_zero hn)]
    nofun

theorem dry_ilint {l : Limited σ} (hl : l.available = 0) (p₀ : P) (k : UInt64 → RProg P) (p : P) (u : Unit) :
    ((Schema.ilintCode p₀ k).run f (p, l)).1 ≠ .ok u := dry_read hl _ p u

/-- Nothing can be read of a limited reader with nothing left. -/
theorem code_dry (p₀ p : P) : ∀ (t : Schema) (k : t.Val → RProg P),
    (Hollow t → ∀ v (l : Limited σ), l.available = 0 → ∀ u, ((k v).run f (p, l)).1 ≠ .ok u) →
    ∀ (l : Limited σ), l.available = 0 → ∀ u, ((t.code p₀ k).run f (p, l)).1 ≠ .ok u
  | .field sh, k, h, l, hl, u => by
    cases sh with
    | u8 => exact dry_read hl _ p u
    | i8 => exact dry_read hl _ p u
    | ilint => exact dry_ilint hl _ _ p u
    | signedILInt => exact dry_ilint hl _ _ p u
    | str n =>
      refine dry_readAll hl (fun hn t l' hl' u => ?_) u
      unfold Schema.textCode
      cases fromUtf8 t with
      | some s => exact h hn _ l' hl' u
      | none => nofun
    | bytes n => exact dry_readAll hl (fun hn t l' hl' u => h hn _ l' hl' u) u
    | _ => exact dry_readAll hl (fun hn => by simp at hn) u
  | .text, _, _, l, hl, u => dry_ilint hl _ _ p u
  | .blob, _, _, l, hl, u => dry_ilint hl _ _ p u
  | .many _, _, _, l, hl, u => dry_ilint hl _ _ p u
  | .opt _, _, _, l, hl, u => dry_read hl _ p u
  | .enum _ _, _, _, l, hl, u => dry_read hl _ p u
  | .both a b, k, h, l, hl, u => by
    refine code_dry p₀ p a _ (fun ha x l₁ hl₁ u => ?_) l hl u
    exact code_dry p₀ p b _ (fun hb y l₂ hl₂ u => h ⟨ha, hb⟩ (x, y) l₂ hl₂ u) l₁ hl₁ u

end

section
variable {σ : Type} [Reader σ] [Env]

theorem read_dry (hr : MemoryOk) {t : Schema} (hs : BoundedSchema t) (hn : NeverEmpty t) (l : Limited σ)
    (hl : l.available = 0) (v : t.Val) : (t.read l).1 ≠ .ok v := by
  intro h
  rcases hd : t.read l with ⟨r, l'⟩
  rw [hd] at h
  simp only at h
  subst h
  have hc := Runs.code (σ := Limited σ) (f := fun _ _ _ => Act.diverge) (p₀ := ()) hr t hs (fun _ => .done (.ok ()) ()) l
  rw [onReader_bind, hd] at hc
  refine code_dry (f := fun _ _ _ => Act.diverge) () () t (fun _ => .done (.ok ()) ()) ?_ l hl () (by rw [hc]; rfl)
  intro hh
  obtain ⟨v, hv⟩ := hollow_form t hh
  exact absurd hv (hn v)

/-- Where a struct has been read to the end of a limited reader, one with more fields cannot be read. -/
theorem grown_read (hr : MemoryOk) {s s' : Schema} (hg : Grown s s') (hs : BoundedSchema s') (l l' : Limited σ) (v : s.Val)
    (h : s.read l = (.ok v, l')) (hl : l'.available = 0) (v' : s'.Val) : (s'.read l).1 ≠ .ok v' := by
  induction hg generalizing l l' with
  | append s t hn =>
    intro h'
    rcases hd : (Schema.both s t).read l with ⟨r, l₂⟩
    rw [hd] at h'
    simp only at h'
    subst h'
    obtain ⟨x, l₁, h1, h2⟩ := RawTagScanner.bind_ok_inv hd
    rw [h] at h1
    cases h1
    obtain ⟨y, l₃, h3, -⟩ := RawTagScanner.bind_ok_inv h2
    exact read_dry hr hs.2 hn l' hl y (by rw [h3])
  | @inLast a b b' _ ih =>
    intro h'
    rcases hd : (Schema.both a b').read l with ⟨r, l₂⟩
    rw [hd] at h'
    simp only at h'
    subst h'
    obtain ⟨x, l₁, h1, h2⟩ := RawTagScanner.bind_ok_inv hd
    obtain ⟨y, l₃, h3, -⟩ := RawTagScanner.bind_ok_inv h2
    obtain ⟨x', l₁', h1', h2'⟩ := RawTagScanner.bind_ok_inv h
    rw [h1] at h1'
    cases h1'
    obtain ⟨y', l₃', h3', h4'⟩ := RawTagScanner.bind_ok_inv h2'
    cases h4'
    exact ih hs.2 _ _ y' h3' hl y (by rw [h3])

end
end Verif
