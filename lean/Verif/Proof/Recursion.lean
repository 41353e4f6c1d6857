import Verif.Proof.Prog
/-!
# The recursion of `deserialize`

The model gives `deserialize` a number of nested calls.  Here it is shown, for every reader, that the number never
matters: `deserialize` satisfies the recursive equation of the code.
-/
namespace Verif
set_option linter.unusedSectionVars false

/-- Successful calls lead from the state `s` to the state `s'` and deliver the bytes `D`. -/
inductive Delivers {σ : Type} [Reader σ] : σ → Bytes → σ → Prop where
  | nil (s) : Delivers s [] s
  | read {s s₁ s' b D} : Reader.read s = (.ok b, s₁) → Delivers s₁ D s' → Delivers s (b :: D) s'
  | readAll {s s₁ s' n bs D} : Reader.readAll n s = (.ok bs, s₁) → Delivers s₁ D s' → Delivers s (bs ++ D) s'

theorem Delivers.trans {σ : Type} [Reader σ] {s s₁ s₂ : σ} {D D' : Bytes} (h : Delivers s D s₁) (h' : Delivers s₁ D' s₂) :
    Delivers s (D ++ D') s₂ := by
  induction h with
  | nil s => exact h'
  | read hr _ ih => exact .read hr (ih h')
  | readAll hr _ ih => rw [List.append_assoc]; exact .readAll hr (ih h')

/-- The reader delivers at most `N` bytes. -/
def Cap {σ : Type} [Reader σ] (N : Nat) (s : σ) : Prop := ∀ D s', Delivers s D s' → D.length ≤ N

section
variable {σ : Type} [Reader σ]

theorem Cap.after {N : Nat} {s s' : σ} {D : Bytes} (h : Cap N s) (hd : Delivers s D s') : Cap (N - D.length) s' := by
  intro D' s'' h'
  have := h _ _ (hd.trans h')
  simp at this
  omega

theorem Cap.mono {N M : Nat} {s : σ} (h : Cap N s) (hn : N ≤ M) : Cap M s := fun D s' hd => by
  have := h D s' hd; omega

theorem Delivers.limited {l l' : Limited σ} {D : Bytes} (h : Delivers l D l') :
    Delivers l.source D l'.source ∧ D.length + l'.available = l.available := by
  induction h with
  | nil s => exact ⟨.nil _, by simp⟩
  | @read l l₁ l' b D hr _ ih =>
    simp only [show (Reader.read : Act IoErr (Limited σ) Byte) = Limited.read from rfl, Limited.read,
      Limited.canRead] at hr
    by_cases hn : 1 > l.available
    · rw [if_pos hn] at hr; simp at hr
    · rw [if_neg hn] at hr
      rcases hs : Reader.read l.source with ⟨r, s₁⟩
      rw [hs] at hr
      simp only [Prod.mk.injEq] at hr
      obtain ⟨rfl, rfl⟩ := hr
      simp only [Res.isOk, if_true] at ih
      exact ⟨.read hs ih.1, by simp; omega⟩
  | @readAll l l₁ l' n bs D hr _ ih =>
    simp only [show (Reader.readAll n : Act IoErr (Limited σ) Bytes) = Limited.readAll n from rfl, Limited.readAll,
      Limited.canRead] at hr
    by_cases hn : n > l.available
    · rw [if_pos hn] at hr; simp at hr
    · rw [if_neg hn] at hr
      rcases hs : Reader.readAll n l.source with ⟨r, s₁⟩
      rw [hs] at hr
      simp only [Prod.mk.injEq] at hr
      obtain ⟨rfl, rfl⟩ := hr
      have hl := Reader.readAll_len n _ _ _ hs
      simp only [Res.isOk, if_true] at ih
      exact ⟨.readAll hs ih.1, by simp; omega⟩

theorem Cap.limited (s : σ) (n : Nat) : Cap n (⟨s, n⟩ : Limited σ) := fun D l' h => by
  have := h.limited.2
  simp only at this
  omega

theorem Cap.inner {N : Nat} {s : σ} (h : Cap N s) (n : Nat) : Cap N (⟨s, n⟩ : Limited σ) := fun D l' hd =>
  h _ _ hd.limited.1

theorem Prog.run_delivers {τ α : Type} [Env] (p : Prog τ α) (s : σ) (h : (p.run s).1.isOk = true) :
    ∃ D, Delivers s D (p.run s).2.2 := by
  induction p generalizing s with
  | done r t => exact ⟨[], .nil s⟩
  | read t k ih =>
    simp only [run] at h ⊢
    rcases hr : Reader.read s with ⟨r, s'⟩
    rw [hr] at h
    cases r with
    | ok b => obtain ⟨D, hD⟩ := ih b s' h; exact ⟨_, .read hr hD⟩
    | _ => simp [Res.isOk] at h
  | readAll t n k ih =>
    simp only [run] at h ⊢
    rcases hr : Reader.readAll n s with ⟨r, s'⟩
    rw [hr] at h
    cases r with
    | ok b => obtain ⟨D, hD⟩ := ih b s' h; exact ⟨_, .readAll hr hD⟩
    | _ => simp [Res.isOk] at h
  | alloc t u c k ih =>
    simp only [run] at h ⊢
    split at h
    next hc => rw [if_pos hc]; exact ih s h
    next hc => simp [Res.isOk] at h

end

/-- The actions agree on readers that deliver at most `N` bytes. -/
def Ag {σ α : Type} [Reader σ] (N : Nat) (m m' : Act TagErr σ α) : Prop :=
  ∀ s, Cap N s → m s = m' s ∧ ((m s).1.isOk = true → ∃ D, Delivers s D (m s).2)
/-- The same with a value being filled. -/
def AgS {σ τ α : Type} [Reader σ] (N : Nat) (m m' : Act TagErr (τ × σ) α) : Prop :=
  ∀ t s, Cap N s → m (t, s) = m' (t, s) ∧ ((m (t, s)).1.isOk = true → ∃ D, Delivers s D (m (t, s)).2.2)

abbrev AnyAlloc : Nat → Nat → Prop := fun _ _ => True
theorem AnyAlloc.adm : Adm AnyAlloc := fun _ _ => ⟨trivial, trivial, trivial⟩

section
variable {σ τ τ' α β : Type} [Reader σ] [E : Env] {N M : Nat}

theorem Ag.mono {m m' : Act TagErr σ α} (h : Ag M m m') (hn : N ≤ M) : Ag N m m' := fun s hc => h s (hc.mono hn)
theorem Ag.rep {m : Gen α} (h : Rep AnyAlloc m) : Ag N (m E σ inferInstance) (m E σ inferInstance) := by
  obtain ⟨T, -, hT⟩ := h
  intro s _
  refine ⟨rfl, ?_⟩
  rw [hT]
  exact T.run_delivers s
theorem AgS.rep {m : GenS τ α} (h : RepS AnyAlloc m) : AgS N (m E σ inferInstance) (m E σ inferInstance) := by
  obtain ⟨T, -, hT⟩ := h
  intro t s _
  refine ⟨rfl, ?_⟩
  rw [hT]
  exact (T t).run_delivers s

omit E in
theorem AgS.bind {m m' : Act TagErr (τ × σ) α} {k k' : α → Act TagErr (τ × σ) β} (h : AgS N m m')
    (hk : ∀ a, AgS N (k a) (k' a)) : AgS N (m >>= k) (m' >>= k') := by
  intro t s hc
  obtain ⟨h1, h2⟩ := h t s hc
  simp only [Act.bind_apply]
  rw [← h1]
  rcases hm : m (t, s) with ⟨r, t', s'⟩
  rw [hm] at h2
  cases r with
  | ok a =>
    obtain ⟨D, hD⟩ := h2 rfl
    obtain ⟨h3, h4⟩ := hk a t' s' ((hc.after hD).mono (by omega))
    refine ⟨h3, fun hok => ?_⟩
    obtain ⟨D', hD'⟩ := h4 hok
    exact ⟨_, hD.trans hD'⟩
  | _ => exact ⟨rfl, by simp [Res.isOk]⟩

omit E in
theorem AgS.onReader {m m' : Act TagErr σ α} (h : Ag N m m') : AgS (τ := τ) N (Verif.onReader m) (Verif.onReader m') := by
  intro t s hc
  obtain ⟨h1, h2⟩ := h s hc
  unfold Verif.onReader
  simp only
  rw [← h1]
  exact ⟨rfl, h2⟩

omit E in
theorem AgS.zoom {m m' : Act TagErr (τ × σ) α} (h : AgS N m m') (wrap : τ → τ') (t₀ : τ) :
    AgS N (Verif.zoom wrap t₀ m) (Verif.zoom wrap t₀ m') := by
  intro t s hc
  obtain ⟨h1, h2⟩ := h t₀ s hc
  unfold Verif.zoom
  simp only
  rw [← h1]
  exact ⟨rfl, h2⟩

omit E in
theorem AgS.withLimited {m m' : Act TagErr (τ × Limited σ) α} {n : Nat} (h : AgS M m m') (hn : n ≤ M ∨ N ≤ M) :
    AgS N (Verif.withLimited n m) (Verif.withLimited n m') := by
  intro t s hc
  have hcap : Cap M (⟨s, n⟩ : Limited σ) := by
    rcases hn with hn | hn
    · exact (Cap.limited s n).mono hn
    · exact (hc.inner n).mono hn
  obtain ⟨h1, h2⟩ := h t ⟨s, n⟩ hcap
  unfold Verif.withLimited
  simp only
  rw [← h1]
  refine ⟨rfl, fun hok => ?_⟩
  obtain ⟨D, hD⟩ := h2 hok
  exact ⟨D, hD.limited.1⟩

omit E in
theorem AgS.still {m : Act TagErr (τ × σ) α} (h : ∀ t s, (m (t, s)).2.2 = s) : AgS N m m := fun t s _ =>
  ⟨rfl, fun _ => ⟨[], by rw [h]; exact .nil s⟩⟩

omit E in
theorem AgS.ite {c : Prop} [Decidable c] {m m' k k' : Act TagErr (τ × σ) α} (h : AgS N m m') (h' : AgS N k k') :
    AgS N (if c then m else k) (if c then m' else k') := by split <;> assumption

omit E [Reader σ] in
theorem ensureEmpty_still (t : τ) (s : Limited σ) : (ensureEmpty (t, s)).2.2 = s := by
  unfold ensureEmpty; split <;> rfl

end

section
variable {P σ : Type} [Reader σ] [E : Env] {N : Nat}

/-- The factories agree on every reader that delivers at most `N` bytes. -/
def AgF (N : Nat) (f f' : FactoryDeser P) : Prop := ∀ (σ : Type) [Reader σ] (o : Option (Tag P)), Ag N (f σ o) (f' σ o)

variable {f f' : FactoryDeser P}

theorem AgS.rprog (hf : AgF N f f') (r : RProg P) : AgS N (RProg.run (σ := σ) f r) (RProg.run f' r) := by
  induction r with
  | done r p => exact AgS.still fun _ _ => rfl
  | read k ih => exact AgS.bind (AgS.onReader (Ag.rep Rep.read)) fun b => ih b
  | readAll n k ih => exact AgS.bind (AgS.onReader (Ag.rep (Rep.readAll n))) fun b => ih b
  | deser k ih => exact AgS.bind (AgS.onReader (hf σ none)) fun b => ih b
  | into t k ih => exact AgS.bind (AgS.onReader (hf σ (some t))) fun b => ih b

theorem untouchable_rep : RepF (P := P) AnyAlloc fun _ _ _ _ => Act.panic := fun _ => Rep.panic

/-- Only payloads among the atoms use the factory. -/
theorem Atom.factory_free [TagPayload P] {a : Atom P} (h : a.kind ≠ .payload) (f f' : FactoryDeser P) {vs : Nat} :
    Atom.deserializeValue (σ := σ) f vs a = Atom.deserializeValue f' vs a := by
  cases a with
  | payload id p => simp [Atom.kind] at h
  | _ => rfl

theorem AgS.atomValue [TagPayload P] (hf : AgF N f f') {vs : Nat} (h : vs ≤ maxTagSize) (a : Atom P) :
    AgS N (Atom.deserializeValue (σ := σ) f vs a) (Atom.deserializeValue f' vs a) := by
  by_cases hp : a.kind = .payload
  · cases a with
    | payload id p => exact AgS.zoom (AgS.rprog hf _) _ _
    | _ => simp [Atom.kind] at hp
  · rw [Atom.factory_free hp f fun _ _ _ => Act.panic, Atom.factory_free hp f' fun _ _ _ => Act.panic]
    exact AgS.rep (RepS.atomValue AnyAlloc.adm untouchable_rep h a)

omit E in
theorem AgS.pushWhile (hf : AgF N f f') (n : Nat) :
    AgS N (Tag.pushWhileNotEmpty (σ := σ) f n) (Tag.pushWhileNotEmpty f' n) := by
  induction n with
  | zero => exact AgS.still fun _ _ => rfl
  | succ n ih =>
    intro t s hc
    simp only [Tag.pushWhileNotEmpty]
    by_cases he : s.empty = true
    · simp only [he, if_true]
      exact ⟨trivial, fun _ => ⟨[], .nil s⟩⟩
    · simp only [he]
      exact AgS.bind (AgS.onReader (hf (Limited σ) none)) (fun v => AgS.bind (AgS.still fun _ _ => rfl) fun _ => ih) t s hc

theorem AgS.pushTags (hf : AgF N f f') (n : Nat) :
    AgS N (Tag.pushTags (σ := σ) f n) (Tag.pushTags f' n) := by
  induction n with
  | zero => exact AgS.still fun _ _ => rfl
  | succ n ih =>
    exact AgS.bind (AgS.onReader (hf σ none)) fun v => AgS.bind (AgS.still fun _ _ => rfl) fun _ => ih

theorem AgS.insertEntries (hf : AgF N f f') (n : Nat) :
    AgS N (Tag.insertEntries (σ := σ) f n) (Tag.insertEntries f' n) := by
  induction n with
  | zero => exact AgS.still fun _ _ => rfl
  | succ n ih =>
    exact AgS.bind (AgS.onReader (Ag.rep (Rep.stringTag AnyAlloc.adm))) fun k =>
      AgS.bind (AgS.onReader (hf σ none)) fun v => AgS.bind (AgS.still fun _ _ => rfl) fun _ => ih

theorem AgS.alloc {τ : Type} {u c : Nat} : AgS (τ := τ) (σ := σ) N (Data.alloc u c) (Data.alloc u c) :=
  AgS.still fun t s => by unfold Data.alloc; split <;> rfl

theorem AgS.tagValue [TagPayload P] (hf : AgF N f f') {vs : Nat} (h : vs ≤ maxTagSize) (t : Tag P) :
    AgS N (Tag.deserializeValue (σ := σ) f vs t) (Tag.deserializeValue f' vs t) := by
  cases t with
  | atom a => exact AgS.zoom (AgS.atomValue hf h a) _ _
  | seq id ts =>
    refine AgS.zoom (m := Tag.deserializeSeq f vs) (m' := Tag.deserializeSeq f' vs) ?_ _ _
    unfold Tag.deserializeSeq
    refine AgS.withLimited (M := N) ?_ (.inr (Nat.le_refl _))
    exact AgS.bind (AgS.still fun _ _ => rfl) fun _ => AgS.pushWhile hf _
  | array id ts =>
    refine AgS.zoom (AgS.withLimited (AgS.bind (AgS.onReader (Ag.rep Rep.ilint)) fun c => ?_)
      (.inr (Nat.le_refl _))) _ _
    exact AgS.ite (AgS.still fun _ _ => rfl) (AgS.bind (m := setSelf []) (AgS.still fun _ _ => rfl) fun _ =>
      AgS.bind AgS.alloc fun _ => AgS.bind (AgS.pushTags hf _) fun _ => AgS.still ensureEmpty_still)
  | dict id es =>
    refine AgS.zoom (AgS.withLimited (AgS.bind (AgS.onReader (Ag.rep Rep.ilint)) fun c => ?_)
      (.inr (Nat.le_refl _))) _ _
    exact AgS.bind (m := setSelf []) (AgS.still fun _ _ => rfl) fun _ => AgS.bind (AgS.insertEntries hf _) fun _ =>
      AgS.still ensureEmpty_still

theorem checkEmpty_still [TagPayload P] (t : Tag P) (s : Limited σ) : (Factory.checkEmpty (t, s)).2.2 = s := by
  unfold Factory.checkEmpty; split <;> rfl

/-- On a limited reader only what fits in the limit matters. -/
theorem AgS.tagValueInto [TagPayload P] {M : Nat} (hf : AgF M f f') {vs : Nat} (h : vs ≤ maxTagSize)
    (hn : vs ≤ M ∨ N ≤ M) :
    AgS N (Factory.deserializeTagValueInto (σ := σ) f vs) (Factory.deserializeTagValueInto f' vs) := by
  unfold Factory.deserializeTagValueInto
  refine AgS.withLimited (M := M) ?_ hn
  intro t s hc
  exact AgS.bind (AgS.tagValue hf h t) (fun _ => AgS.still checkEmpty_still) t s hc

omit E in
theorem ilint_delivers {s s' : σ} {v : UInt64} (h : (Ser.deserializeILInt : Act TagErr σ UInt64) s = (.ok v, s')) :
    ∃ D, D ≠ [] ∧ Delivers s D s' := by
  unfold Ser.deserializeILInt Data.readILInt tagIo ILInt.decode at h
  simp only [Act.mapErr_bind, Act.bind_apply, Act.mapErr_apply] at h
  rcases hr : Reader.read s with ⟨r, s₁⟩
  rw [hr] at h
  cases r with
  | ok b =>
    simp only [Res.mapErr] at h
    by_cases hd : ILInt.decodedSize b = 1
    · rw [if_pos hd] at h
      have : s₁ = s' := by
        have := congrArg Prod.snd h
        exact this
      subst this
      exact ⟨[b], by simp, .read hr (.nil _)⟩
    · rw [if_neg hd] at h
      simp only [Act.bind_apply, Act.mapErr_apply] at h
      rcases hr2 : Reader.readAll (ILInt.decodedSize b - 1) s₁ with ⟨r2, s₂⟩
      rw [hr2] at h
      cases r2 with
      | ok bs =>
        simp only [Res.mapErr] at h
        have : s₂ = s' := by
          have := congrArg Prod.snd h
          exact this
        subst this
        exact ⟨b :: (bs ++ []), by simp, .read hr (.readAll hr2 (.nil _))⟩
      | _ => simp [Res.mapErr] at h
  | _ => simp [Res.mapErr] at h

omit E in
theorem tagSize_le {s s' : σ} {id : UInt64} {n : Nat}
    (h : (Factory.deserializeTagSize id : Act TagErr σ Nat) s = (.ok n, s')) :
    n ≤ maxTagSize ∧ ∃ D, Delivers s D s' := by
  unfold Factory.deserializeTagSize at h
  by_cases hi : isImplicitTag id = true
  · simp only [hi, if_true, Act.pure_bind] at h
    have h1 := congrArg Prod.fst h
    have h2 := congrArg Prod.snd h
    simp only [Act.lift] at h1 h2
    exact ⟨tagSizeToUsize_le h1, [], by rw [← h2]; exact .nil s⟩
  · simp only [hi, Bool.false_eq_true, if_false, Act.bind_apply] at h
    rcases hr : (Ser.deserializeILInt : Act TagErr σ UInt64) s with ⟨r, s₁⟩
    rw [hr] at h
    cases r with
    | ok v =>
      have h1 := congrArg Prod.fst h
      have h2 := congrArg Prod.snd h
      simp only [Act.lift] at h1 h2
      obtain ⟨D, -, hD⟩ := ilint_delivers hr
      exact ⟨tagSizeToUsize_le h1, D, by rw [← h2]; exact hD⟩
    | _ => simp at h

/-- Filling a tag and returning it. -/
def fill [TagPayload P] (f : FactoryDeser P) (size : Nat) (t : Tag P) : Act TagErr σ (Tag P) := fun s =>
  match Factory.deserializeTagValueInto f size (t, s) with
  | (r, (t, s')) => (r.map fun _ => t, s')

/-- The part of `deserialize` after the header. -/
def afterHeader [TagPayload P] (e : Engine P) (f : FactoryDeser P) (id : UInt64) (size : Nat) : Act TagErr σ (Tag P) := do
  let tag ← Act.lift (e.createTag id)
  match tag with
  | none => Act.fail .unknownTag
  | some tag => fun s =>
    match Factory.deserializeTagValueInto f size (tag, s) with
    | (r, (t, s')) => (r.map fun _ => t, s')

/-- The part of a call after the id. -/
def afterId [TagPayload P] (e : Engine P) (f : FactoryDeser P) (o : Option (Tag P)) (id : UInt64) :
    Act TagErr σ (Tag P) :=
  match o with
  | none => Factory.deserializeTagSize id >>= fun size => afterHeader e f id size
  | some t =>
    if id ≠ t.id then Act.fail .unexpectedTagType
    else Factory.deserializeTagSize id >>= fun size => fill f size t

theorem Ag.fill [TagPayload P] {M : Nat} (hf : AgF M f f') {vs : Nat} (h : vs ≤ maxTagSize) (hn : vs ≤ M ∨ N ≤ M)
    (t : Tag P) : Ag N (Verif.fill (σ := σ) f vs t) (Verif.fill f' vs t) := by
  intro s hc
  obtain ⟨h1, h2⟩ := AgS.tagValueInto (σ := σ) (N := N) hf h hn t s hc
  unfold Verif.fill
  simp only
  rw [← h1]
  refine ⟨rfl, fun hok => h2 ?_⟩
  revert hok
  rcases Factory.deserializeTagValueInto f vs (t, s) with ⟨r, q⟩
  cases r <;> simp [Res.map, Res.isOk]

theorem Ag.afterHeader [TagPayload P] (e : Engine P) (id : UInt64) {M : Nat} (hf : AgF M f f') {vs : Nat}
    (h : vs ≤ maxTagSize) (hn : vs ≤ M ∨ N ≤ M) :
    Ag N (Verif.afterHeader (σ := σ) e f id vs) (Verif.afterHeader e f' id vs) := by
  intro s hc
  unfold Verif.afterHeader
  simp only [Act.bind_apply, Act.lift]
  cases e.createTag id with
  | ok o =>
    cases o with
    | none => exact ⟨rfl, fun h => by simp [Act.fail, Res.isOk] at h⟩
    | some t => exact Ag.fill hf h hn t s hc
  | _ => exact ⟨rfl, by simp [Res.isOk]⟩

theorem Ag.size {id : UInt64} {m m' : Nat → Act TagErr σ (Tag P)} (h : ∀ n ≤ maxTagSize, Ag N (m n) (m' n)) :
    Ag N (Factory.deserializeTagSize id >>= m) (Factory.deserializeTagSize id >>= m') := by
  intro s hc
  simp only [Act.bind_apply]
  rcases hr2 : (Factory.deserializeTagSize id : Act TagErr σ Nat) s with ⟨r2, s₂⟩
  cases r2 with
  | ok n =>
    simp only
    obtain ⟨hn, D2, hD2⟩ := tagSize_le hr2
    obtain ⟨h3, h4⟩ := h n hn s₂ ((hc.after hD2).mono (by omega))
    refine ⟨h3, fun hok => ?_⟩
    obtain ⟨D3, hD3⟩ := h4 hok
    exact ⟨_, hD2.trans hD3⟩
  | _ => exact ⟨rfl, by simp [Res.isOk]⟩

theorem Ag.afterId [TagPayload P] (e : Engine P) (o : Option (Tag P)) (id : UInt64) {M : Nat} (hf : AgF M f f')
    (hn : maxTagSize ≤ M ∨ N ≤ M) : Ag N (Verif.afterId (σ := σ) e f o id) (Verif.afterId e f' o id) := by
  have hvs : ∀ vs ≤ maxTagSize, vs ≤ M ∨ N ≤ M := fun vs h => hn.imp (fun hn => by omega) fun hn => hn
  cases o with
  | none => exact Ag.size fun n hs => Ag.afterHeader e id hf hs (hvs n hs)
  | some t =>
    unfold Verif.afterId
    simp only
    split
    · exact fun s _ => ⟨rfl, fun h => by simp [Act.fail, Res.isOk] at h⟩
    · exact Ag.size fun n hs => Ag.fill hf hs (hvs n hs) t

theorem deserializeFuel_succ [TagPayload P] (e : Engine P) (k : Nat) (σ : Type) [Reader σ] (o : Option (Tag P)) (s : σ) :
    Factory.deserializeFuel e (k + 1) σ o s =
      (Ser.deserializeILInt >>= afterId e (Factory.deserializeFuel e k) o) s := by
  cases o <;> rfl

theorem Ag.fuel [TagPayload P] (e : Engine P) (N : Nat) : ∀ k, N < k →
    AgF N (Factory.deserializeFuel e k) (Factory.deserializeFuel e (k + 1)) := by
  induction N with
  | zero =>
    intro k hk σ _ o s hc
    obtain ⟨k, rfl⟩ : ∃ k', k = k' + 1 := ⟨k - 1, by omega⟩
    rw [deserializeFuel_succ, deserializeFuel_succ]
    simp only [Act.bind_apply]
    rcases hr : (Ser.deserializeILInt : Act TagErr σ UInt64) s with ⟨r, s₁⟩
    cases r with
    | ok v =>
      obtain ⟨D, hD0, hD⟩ := ilint_delivers hr
      have := hc _ _ hD
      exact absurd (List.length_eq_zero_iff.mp (by omega)) hD0
    | _ => exact ⟨rfl, by simp [Res.isOk]⟩
  | succ N ih =>
    intro k hk σ _ o s hc
    obtain ⟨k, rfl⟩ : ∃ k', k = k' + 1 := ⟨k - 1, by omega⟩
    rw [deserializeFuel_succ, deserializeFuel_succ]
    simp only [Act.bind_apply]
    rcases hr : (Ser.deserializeILInt : Act TagErr σ UInt64) s with ⟨r, s₁⟩
    cases r with
    | ok v =>
      simp only
      obtain ⟨D, hD0, hD⟩ := ilint_delivers hr
      have hlen : 0 < D.length := List.length_pos_iff.mpr hD0
      have hc1 : Cap N s₁ := (hc.after hD).mono (by omega)
      obtain ⟨h3, h4⟩ := Ag.afterId (σ := σ) (N := N) e o v (ih k (by omega)) (.inr (Nat.le_refl _)) s₁ hc1
      refine ⟨h3, fun hok => ?_⟩
      obtain ⟨D3, hD3⟩ := h4 hok
      exact ⟨_, hD.trans hD3⟩
    | _ => exact ⟨rfl, by simp [Res.isOk]⟩

/-- Enough levels for the value at hand. -/
theorem value_fuel [TagPayload P] (e : Engine P) {vs : Nat} (h : vs ≤ maxTagSize) (t : Tag P) (s : σ) :
    Factory.deserializeTagValueInto (Factory.deserializeFuel e (maxTagSize + 1)) vs (t, s) =
      Factory.deserializeTagValueInto (Factory.methods e) vs (t, s) := by
  have hf := Ag.fuel e maxTagSize (maxTagSize + 1) (by omega)
  unfold Factory.deserializeTagValueInto withLimited
  simp only
  have := (AgS.bind (AgS.tagValue (σ := Limited σ) hf h t) (fun _ => AgS.still checkEmpty_still)) t ⟨s, vs⟩
    ((Cap.limited s vs).mono h)
  rw [this.1]
  rfl

theorem tagSize_congr {id : UInt64} {m m' : Nat → Act TagErr σ (Tag P)} (h : ∀ n ≤ maxTagSize, m n = m' n) :
    (Factory.deserializeTagSize id >>= m) = (Factory.deserializeTagSize id >>= m') := by
  funext s
  simp only [Act.bind_apply]
  rcases hr2 : (Factory.deserializeTagSize id : Act TagErr σ Nat) s with ⟨r2, s₂⟩
  cases r2 with
  | ok n => simp only; rw [h n (tagSize_le hr2).1]
  | _ => rfl

/-- The recursive equation of the code for both methods, for every factory and every reader. -/
theorem methods_rec [TagPayload P] (e : Engine P) (σ : Type) [Reader σ] (o : Option (Tag P)) :
    Factory.methods e σ o = (Ser.deserializeILInt >>= afterId e (Factory.methods e) o) := by
  have hfill : ∀ n ≤ maxTagSize, ∀ t : Tag P,
      fill (σ := σ) (Factory.deserializeFuel e (maxTagSize + 1)) n t = fill (Factory.methods e) n t := by
    intro n hn t
    funext s
    unfold fill
    rw [value_fuel e hn]
  have hid : ∀ id, afterId (σ := σ) e (Factory.deserializeFuel e (maxTagSize + 1)) o id = afterId e (Factory.methods e) o id := by
    intro id
    cases o with
    | none =>
      refine tagSize_congr fun n hn => ?_
      show (Act.lift (e.createTag id) >>= fun t => match t with
        | none => Act.fail .unknownTag
        | some t => fill (Factory.deserializeFuel e (maxTagSize + 1)) n t) = (Act.lift (e.createTag id) >>= fun t => match t with
        | none => Act.fail .unknownTag
        | some t => fill (Factory.methods e) n t)
      simp only [hfill n hn]
    | some t =>
      unfold afterId
      simp only
      split
      · rfl
      · exact tagSize_congr fun n hn => hfill n hn t
  funext s
  rw [← funext hid]
  unfold Factory.methods
  rw [show Factory.fuel = (maxTagSize + 1) + 1 from rfl]
  exact deserializeFuel_succ e _ σ o s

/-- The recursive equation of the code, for every factory and every reader. -/
theorem deserialize_rec [TagPayload P] (e : Engine P) (σ : Type) [Reader σ] : Factory.deserialize e σ = (do
    let id ← Ser.deserializeILInt
    let size ← Factory.deserializeTagSize id
    let tag ← Act.lift (e.createTag id)
    match tag with
    | none => Act.fail .unknownTag
    | some tag => fun s =>
      match Factory.deserializeTagValueInto (Factory.methods e) size (tag, s) with
      | (r, (t, s')) => (r.map fun _ => t, s')) := methods_rec e σ none

/-- Filling an existing tag: what a payload sees of a call is what any other caller sees. -/
theorem methods_into [TagPayload P] (e : Engine P) (σ : Type) [Reader σ] (t : Tag P) (s : σ) :
    Factory.methods e σ (some t) s = (match Factory.deserializeInto e (t, s) with
      | (r, (t', s')) => (r.map fun _ => t', s')) := by
  rw [methods_rec]
  unfold Factory.deserializeInto afterId
  simp only [Act.bind_apply, onReader]
  rcases (Ser.deserializeILInt : Act TagErr σ UInt64) s with ⟨r, s₁⟩
  cases r with
  | ok id =>
    simp only [Act.get]
    split
    · rfl
    · simp only [Act.bind_apply, onReader]
      rcases (Factory.deserializeTagSize id : Act TagErr σ Nat) s₁ with ⟨r2, s₂⟩
      cases r2 <;> rfl
  | _ => rfl

end
end Verif
