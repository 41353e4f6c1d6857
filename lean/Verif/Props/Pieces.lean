import Verif.Props.Patch
import Verif.Props.ValueApi
import Verif.Spec.Pieces
/-!
# C101: containers can be read and written piece by piece
-/
namespace Verif.Props
open Verif Verif.Spec
variable {P : Type} [TagPayload P]
set_option linter.unusedSectionVars false

section
variable [Env] {σ : Type} [Reader σ]

theorem deserialize_takes (e : Engine P) {l l' : Limited σ} {t : Tag P}
    (h : Factory.deserialize e (Limited σ) l = (.ok t, l')) : l'.available < l.available := by
  have hf : AgF l.available (Factory.methods e) (Factory.methods e) := fun σ _ o =>
    Ag.rep (m := fun _ σ _ => Factory.methods e σ o) (Rep.methods AnyAlloc.adm e o)
  rw [show Factory.deserialize e (Limited σ) = Factory.methods e (Limited σ) none from rfl, methods_rec] at h
  rcases hr : (Ser.deserializeILInt : Act TagErr (Limited σ) UInt64) l with ⟨r, l₁⟩
  cases r with
  | ok v =>
    rw [Act.bind_ok hr] at h
    obtain ⟨D, hD0, hD⟩ := ilint_delivers hr
    have hlen : 0 < D.length := List.length_pos_iff.mpr hD0
    have h1 := hD.limited.2
    have hc : Cap l.available l₁ := (Cap.limited l₁.source l₁.available).mono (by omega)
    obtain ⟨-, h4⟩ := Ag.afterId (σ := Limited σ) (N := l.available) e none v hf (.inr (Nat.le_refl _)) l₁ hc
    rw [h] at h4
    obtain ⟨D', hD'⟩ := h4 rfl
    have := hD'.limited.2
    simp only at this
    omega
  | err x => rw [Act.bind_err hr] at h; cases h
  | panic => rw [Act.bind_panic hr] at h; cases h
  | diverge => rw [Act.bind_diverge hr] at h; cases h

/-- What the loop of a sequence does. -/
theorem pushWhile_pieces (e : Engine P) : ∀ (fuel : Nat) (ts₀ : List (Tag P)) (l : Limited σ), l.available < fuel →
    ∃ ts l', Pieces e l ts l' ∧
      (l'.empty = true ∧ Tag.pushWhileNotEmpty (Factory.methods e) fuel (ts₀, l) = (.ok (), ts₀ ++ ts, l') ∨
       l'.empty = false ∧ ∃ r l'', Factory.deserialize e (Limited σ) l' = (r, l'') ∧ r.isOk = false ∧
         (Tag.pushWhileNotEmpty (Factory.methods e) fuel (ts₀, l)).1.isOk = false ∧
         (Tag.pushWhileNotEmpty (Factory.methods e) fuel (ts₀, l)).2.2 = l'' ∧
         ∀ t, (Tag.pushWhileNotEmpty (Factory.methods e) fuel (ts₀, l)).1.map (fun _ => t) = r)
  | 0, _, _, h => absurd h (Nat.not_lt_zero _)
  | fuel + 1, ts₀, l, h => by
    have hstep : Tag.pushWhileNotEmpty (Factory.methods e) (fuel + 1) (ts₀, l) = if l.empty then (.ok (), ts₀, l) else
        (do let t ← onReader (Factory.deserialize e (Limited σ)); modifySelf (· ++ [t])
            Tag.pushWhileNotEmpty (Factory.methods e) fuel) (ts₀, l) := rfl
    rcases Bool.eq_false_or_eq_true l.empty with hl | hl
    · refine ⟨[], l, .nil l, .inl ⟨hl, ?_⟩⟩
      rw [hstep, if_pos hl, List.append_nil]
    · rw [hstep, if_neg (by simp [hl])]
      rcases hd : Factory.deserialize e (Limited σ) l with ⟨r, l₁⟩
      have ho : onReader (τ := List (Tag P)) (Factory.deserialize e (Limited σ)) (ts₀, l) = (r, ts₀, l₁) := by
        unfold onReader; rw [hd]
      cases r with
      | ok t =>
        have := deserialize_takes e hd
        obtain ⟨ts, l', hp, hc⟩ := pushWhile_pieces e fuel (ts₀ ++ [t]) l₁ (by omega)
        refine ⟨t :: ts, l', .cons hl hd hp, ?_⟩
        rw [Act.bind_ok ho, show ts₀ ++ t :: ts = ts₀ ++ [t] ++ ts by simp]
        exact hc
      | err x => exact ⟨[], l, .nil l, .inr ⟨hl, _, _, hd, rfl, by rw [Act.bind_err ho]; exact ⟨rfl, rfl, fun _ => rfl⟩⟩⟩
      | panic => exact ⟨[], l, .nil l, .inr ⟨hl, _, _, hd, rfl, by rw [Act.bind_panic ho]; exact ⟨rfl, rfl, fun _ => rfl⟩⟩⟩
      | diverge => exact ⟨[], l, .nil l, .inr ⟨hl, _, _, hd, rfl, by rw [Act.bind_diverge ho]; exact ⟨rfl, rfl, fun _ => rfl⟩⟩⟩

/-- Reading a sequence is reading its header and then tags through a limited reader until that is empty. -/
theorem seq_pieces (e : Engine P) {s s' : σ} {id : UInt64} {size : Nat} (h : Header s id size s') (hs : size ≤ maxValue)
    {id' : UInt64} {ts₀ : List (Tag P)} (hc : e.createTag id = .ok (some (.seq id' ts₀))) :
    ∃ ts l, Pieces e ⟨s', size⟩ ts l ∧
      (l.empty = true ∧ Factory.deserialize e σ s = (.ok (.seq id' ts), l.source) ∨
       l.empty = false ∧ ∃ r l', Factory.deserialize e (Limited σ) l = (r, l') ∧ r.isOk = false ∧
         Factory.deserialize e σ s = (r, l'.source)) := by
  obtain ⟨ts, l, hp, h1⟩ := pushWhile_pieces e (size + 1) [] (⟨s', size⟩ : Limited σ) (Nat.lt_succ_self _)
  refine ⟨ts, l, hp, ?_⟩
  have hd := C82_factory e s s' id size h hs _ hc ⟨by simp [Tag.kind], by simp [Tag.kind], by simp [Tag.kind]⟩
  have hv : Tag.deserializeValue (Factory.methods e) size (Tag.seq id' ts₀) (Tag.seq id' ts₀, s') =
      match Tag.pushWhileNotEmpty (Factory.methods e) (size + 1) ([], (⟨s', size⟩ : Limited σ)) with
      | (r, (t, l)) => (r, (.seq id' t, l.source)) := rfl
  rw [hv] at hd
  rcases h1 with ⟨h1, h2⟩ | ⟨h1, r, l', h2, h3, h4, h5, h6⟩
  · rw [h2] at hd
    exact .inl ⟨h1, by simpa using hd⟩
  · refine .inr ⟨h1, r, l', h2, h3, ?_⟩
    generalize Tag.pushWhileNotEmpty (Factory.methods e) (size + 1) ([], (⟨s', size⟩ : Limited σ)) = q at *
    obtain ⟨r', t', l''⟩ := q
    simp only at h4 h5 h6 hd
    subst h5
    rw [hd, ← h6 (.seq id' [])]
    cases r' <;> simp_all [Res.isOk, Res.map]

/-- The loop cannot stop at two places. -/
theorem pieces_unique (e : Engine P) {l l₁ l₂ : Limited σ} {ts₁ ts₂ : List (Tag P)} (h₁ : Pieces e l ts₁ l₁)
    (h₂ : Pieces e l ts₂ l₂) (s₁ : l₁.empty = true ∨ (Factory.deserialize e (Limited σ) l₁).1.isOk = false)
    (s₂ : l₂.empty = true ∨ (Factory.deserialize e (Limited σ) l₂).1.isOk = false) : ts₁ = ts₂ ∧ l₁ = l₂ := by
  induction h₁ generalizing ts₂ with
  | nil l =>
    cases h₂ with
    | nil => exact ⟨rfl, rfl⟩
    | cons hl hd _ => rw [hl, hd] at s₁; simp [Res.isOk] at s₁
  | cons hl hd _ ih =>
    cases h₂ with
    | nil => rw [hl, hd] at s₂; simp [Res.isOk] at s₂
    | cons hl' hd' hp' =>
      rw [hd] at hd'
      simp only [Prod.mk.injEq, Res.ok.injEq] at hd'
      obtain ⟨rfl, rfl⟩ := hd'
      obtain ⟨rfl, rfl⟩ := ih hp' s₁
      exact ⟨rfl, rfl⟩

/-- **C101** A sequence can be read piece by piece, on every reader whatever its faults: reading its header, putting a
limited reader of the declared size around the reader and reading tags until it is empty gives the tags inside the tag that
`deserialize` of the whole gives, in order, and leaves the reader in the same state; and `deserialize` of the whole fails
exactly when one of these calls fails, with the same error and the reader in the same state. -/
theorem C101_read (e : Engine P) (s s' : σ) (id : UInt64) (size : Nat) (h : Header s id size s') (hs : size ≤ maxValue)
    (id' : UInt64) (ts₀ : List (Tag P)) (hc : e.createTag id = .ok (some (.seq id' ts₀))) :
    (∀ t s'', Factory.deserialize e σ s = (.ok t, s'') ↔
      ∃ ts l, Pieces e ⟨s', size⟩ ts l ∧ l.empty = true ∧ t = .seq id' ts ∧ s'' = l.source) ∧
    (∀ r s'', r.isOk = false → (Factory.deserialize e σ s = (r, s'') ↔
      ∃ ts l l', Pieces e ⟨s', size⟩ ts l ∧ l.empty = false ∧ Factory.deserialize e (Limited σ) l = (r, l') ∧
        s'' = l'.source)) := by
  obtain ⟨ts, l, hp, h1⟩ := seq_pieces e h hs hc
  refine ⟨fun t s'' => ⟨fun ht => ?_, ?_⟩, fun r s'' hr => ⟨fun ht => ?_, ?_⟩⟩
  · rcases h1 with ⟨h1, h2⟩ | ⟨h1, r, l', h2, h3, h4⟩
    · rw [h2] at ht
      simp only [Prod.mk.injEq, Res.ok.injEq] at ht
      exact ⟨ts, l, hp, h1, ht.1.symm, ht.2.symm⟩
    · rw [h4] at ht
      simp only [Prod.mk.injEq] at ht
      rw [ht.1] at h3
      simp [Res.isOk] at h3
  · rintro ⟨ts', l', hp', he, rfl, rfl⟩
    rcases h1 with ⟨h1, h2⟩ | ⟨h1, r, l'', h2, h3, h4⟩
    · obtain ⟨rfl, rfl⟩ := pieces_unique e hp hp' (.inl h1) (.inl he)
      exact h2
    · obtain ⟨rfl, rfl⟩ := pieces_unique e hp hp' (.inr (by rw [h2]; exact h3)) (.inl he)
      rw [he] at h1; cases h1
  · rcases h1 with ⟨h1, h2⟩ | ⟨h1, r', l', h2, h3, h4⟩
    · rw [h2] at ht
      simp only [Prod.mk.injEq] at ht
      rw [← ht.1] at hr
      simp [Res.isOk] at hr
    · rw [h4] at ht
      simp only [Prod.mk.injEq] at ht
      obtain ⟨rfl, rfl⟩ := ht
      exact ⟨ts, l, l', hp, h1, h2, rfl⟩
  · rintro ⟨ts', l', l'', hp', he, hd, rfl⟩
    rcases h1 with ⟨h1, h2⟩ | ⟨h1, r', l₂, h2, h3, h4⟩
    · obtain ⟨rfl, rfl⟩ := pieces_unique e hp hp' (.inl h1) (.inr (by rw [hd]; exact hr))
      rw [he] at h1; cases h1
    · obtain ⟨rfl, rfl⟩ := pieces_unique e hp hp' (.inr (by rw [h2]; exact h3)) (.inr (by rw [hd]; exact hr))
      rw [h2] at hd
      simp only [Prod.mk.injEq] at hd
      obtain ⟨rfl, rfl⟩ := hd
      exact h4

/-! ### Arrays -/

/-- What the loop of an array does. -/
theorem pushTags_counted (e : Engine P) : ∀ (n : Nat) (ts₀ : List (Tag P)) (s : σ),
    (∃ ts s', CountedPieces e n s ts s' ∧ Tag.pushTags (Factory.methods e) n (ts₀, s) = (.ok (), ts₀ ++ ts, s')) ∨
    ∃ k ts s' r s'', k < n ∧ CountedPieces e k s ts s' ∧ Factory.deserialize e σ s' = (r, s'') ∧ r.isOk = false ∧
      (Tag.pushTags (Factory.methods e) n (ts₀, s)).1.isOk = false ∧
      (Tag.pushTags (Factory.methods e) n (ts₀, s)).2.2 = s'' ∧
      ∀ t, (Tag.pushTags (Factory.methods e) n (ts₀, s)).1.map (fun _ => t) = r
  | 0, ts₀, s => .inl ⟨[], s, .zero s, by rw [List.append_nil]; rfl⟩
  | n + 1, ts₀, s => by
    have hstep : Tag.pushTags (Factory.methods e) (n + 1) = ((do
        let t ← onReader (Factory.deserialize e σ); modifySelf (· ++ [t])
        Tag.pushTags (Factory.methods e) n) : Act TagErr (List (Tag P) × σ) Unit) := rfl
    rcases hd : Factory.deserialize e σ s with ⟨r, s₁⟩
    have ho : onReader (τ := List (Tag P)) (Factory.deserialize e σ) (ts₀, s) = (r, ts₀, s₁) := by
      unfold onReader; rw [hd]
    rw [hstep]
    cases r with
    | ok t =>
      rw [Act.bind_ok ho]
      rcases pushTags_counted e n (ts₀ ++ [t]) s₁ with ⟨ts, s', hp, hc⟩ | ⟨k, ts, s', r, s'', hk, hp, hc⟩
      · refine .inl ⟨t :: ts, s', .succ hd hp, ?_⟩
        rw [show ts₀ ++ t :: ts = ts₀ ++ [t] ++ ts by simp]
        exact hc
      · exact .inr ⟨k + 1, t :: ts, s', r, s'', by omega, .succ hd hp, hc⟩
    | err x =>
      exact .inr ⟨0, [], s, _, _, by omega, .zero s, hd, rfl, by rw [Act.bind_err ho]; exact ⟨rfl, rfl, fun _ => rfl⟩⟩
    | panic =>
      exact .inr ⟨0, [], s, _, _, by omega, .zero s, hd, rfl, by rw [Act.bind_panic ho]; exact ⟨rfl, rfl, fun _ => rfl⟩⟩
    | diverge =>
      exact .inr ⟨0, [], s, _, _, by omega, .zero s, hd, rfl, by rw [Act.bind_diverge ho]; exact ⟨rfl, rfl, fun _ => rfl⟩⟩

theorem counted_unique (e : Engine P) {n m : Nat} {s s₁ s₂ : σ} {ts₁ ts₂ : List (Tag P)} (h₁ : CountedPieces e n s ts₁ s₁)
    (h₂ : CountedPieces e m s ts₂ s₂) : n ≤ m → (n = m → ts₁ = ts₂ ∧ s₁ = s₂) ∧
      (n < m → (Factory.deserialize e σ s₁).1.isOk = true) := by
  induction h₁ generalizing m ts₂ with
  | zero s =>
    intro _
    cases h₂ with
    | zero => exact ⟨fun _ => ⟨rfl, rfl⟩, fun h => by omega⟩
    | succ hd _ => exact ⟨fun h => by omega, fun _ => by rw [hd]; rfl⟩
  | succ hd _ ih =>
    intro hle
    cases h₂ with
    | zero => omega
    | succ hd' hp' =>
      rw [hd] at hd'
      simp only [Prod.mk.injEq, Res.ok.injEq] at hd'
      obtain ⟨rfl, rfl⟩ := hd'
      have := ih hp' (by omega)
      refine ⟨fun h => ?_, fun h => this.2 (by omega)⟩
      obtain ⟨rfl, rfl⟩ := this.1 (by omega)
      exact ⟨rfl, rfl⟩

/-- **C101** An array can be read piece by piece in the same way: after the header and the number of elements the caller
makes that many calls through a limited reader of the declared size, which must then be empty. -/
theorem C101_array (hr : MemoryOk) (e : Engine P) (s s' : σ) (id : UInt64) (size : Nat) (h : Header s id size s')
    (hs : size ≤ maxValue) (id' : UInt64) (ts₀ : List (Tag P)) (hc : e.createTag id = .ok (some (.array id' ts₀)))
    (count : UInt64) (l : Limited σ)
    (hn : (Ser.deserializeILInt : Act TagErr (Limited σ) UInt64) ⟨s', size⟩ = (.ok count, l)) (hle : count.toNat ≤ size) :
    (∀ t s'', Factory.deserialize e σ s = (.ok t, s'') ↔
      ∃ ts l', CountedPieces e count.toNat l ts l' ∧ l'.empty = true ∧ t = .array id' ts ∧ s'' = l'.source) ∧
    (∀ k ts l' r l'', k < count.toNat → CountedPieces e k l ts l' → Factory.deserialize e (Limited σ) l' = (r, l'') →
      r.isOk = false → Factory.deserialize e σ s = (r, l''.source)) ∧
    (∀ ts l', CountedPieces e count.toNat l ts l' → l'.empty = false →
      Factory.deserialize e σ s = (.err .corruptedData, l'.source)) := by
  have hd := C82_factory e s s' id size h hs _ hc ⟨by simp [Tag.kind], by simp [Tag.kind], by simp [Tag.kind]⟩
  have hv : Tag.deserializeValue (Factory.methods e) size (Tag.array id' ts₀) (Tag.array id' ts₀, s') =
      match (Tag.pushTags (Factory.methods e) count.toNat >>= fun _ => ensureEmpty) ([], l) with
      | (r, (t, l)) => (r, (.array id' t, l.source)) := by
    show zoom (Tag.array id') ts₀ (Tag.deserializeArray (Factory.methods e) size) (Tag.array id' ts₀, s') = _
    unfold zoom Tag.deserializeArray withLimited
    have ho : onReader (τ := List (Tag P)) Ser.deserializeILInt (ts₀, (⟨s', size⟩ : Limited σ)) = (.ok count, ts₀, l) := by
      unfold onReader; rw [hn]
    simp only [Act.bind_ok ho, if_neg (Nat.not_lt.mpr hle)]
    have ha : ∀ q : List (Tag P) × Limited σ, (Data.alloc 16 count.toNat : Act TagErr _ Unit) q = (.ok (), q) := fun q => by
      unfold Data.alloc
      rw [if_pos]
      · rfl
      · have := Nat.mul_le_mul_left 16 (Nat.le_trans hle hs)
        exact Nat.le_trans this hr
    have hset : (setSelf [] : Act TagErr (List (Tag P) × Limited σ) Unit) (ts₀, l) = (.ok (), [], l) := rfl
    rw [Act.bind_ok hset, Act.bind_ok (ha _)]
  rw [hv] at hd
  clear hv
  rcases pushTags_counted e count.toNat [] l with ⟨ts, l', hp, hq⟩ | ⟨k, ts, l', r, l'', hk, hp, h1, h2, h3, h4, h5⟩
  · rw [Act.bind_ok hq, List.nil_append] at hd
    refine ⟨fun t s'' => ⟨fun ht => ?_, ?_⟩, ?_, ?_⟩
    · refine ⟨ts, l', hp, ?_⟩
      rw [hd] at ht
      unfold ensureEmpty at ht
      rcases Bool.eq_false_or_eq_true l'.empty with he | he
      · rw [if_pos he] at ht
        simp only [Prod.mk.injEq, Res.ok.injEq] at ht
        exact ⟨he, ht.1.symm, ht.2.symm⟩
      · rw [if_neg (by simp [he])] at ht; simp at ht
    · rintro ⟨ts', l₂, hp', he, rfl, rfl⟩
      obtain ⟨rfl, rfl⟩ := (counted_unique e hp hp' (Nat.le_refl _)).1 rfl
      rw [hd]; unfold ensureEmpty; rw [if_pos he]
    · intro k ts' l₂ r l'' hk hp' hd' hr'
      have := (counted_unique e hp' hp (Nat.le_of_lt hk)).2 hk
      rw [hd'] at this
      rw [hr'] at this; cases this
    · intro ts' l₂ hp' he
      obtain ⟨rfl, rfl⟩ := (counted_unique e hp hp' (Nat.le_refl _)).1 rfl
      rw [hd]; unfold ensureEmpty; rw [if_neg (by simp [he])]
  · have hwhole : Factory.deserialize e σ s = (r, l''.source) := by
      rw [hd]
      rcases hw : Tag.pushTags (Factory.methods e) count.toNat ([], l) with ⟨r', t', l₃⟩
      rw [hw] at h3 h4 h5
      simp only at h3 h4 h5
      subst h4
      rw [← h5 (.array id' [])]
      cases r' with
      | ok u => simp [Res.isOk] at h3
      | err x => rw [Act.bind_err hw]; rfl
      | panic => rw [Act.bind_panic hw]; rfl
      | diverge => rw [Act.bind_diverge hw]; rfl
    have hno : ∀ ts' l₂, ¬ CountedPieces e count.toNat l ts' l₂ := fun ts' l₂ hp' => by
      have := (counted_unique e hp hp' (Nat.le_of_lt hk)).2 hk
      rw [h1] at this
      rw [h2] at this; cases this
    refine ⟨fun t s'' => ⟨fun ht => ?_, fun ⟨ts', l₂, hp', _⟩ => (hno _ _ hp').elim⟩, ?_, fun ts' l₂ hp' => (hno _ _ hp').elim⟩
    · rw [hwhole] at ht
      simp only [Prod.mk.injEq] at ht
      rw [ht.1] at h2; simp [Res.isOk] at h2
    · intro k' ts' l₂ r' l₄ hk' hp' hd' hr'
      have hkk : k' = k := by
        rcases Nat.lt_trichotomy k' k with hlt | heq | hlt
        · have := (counted_unique e hp' hp (Nat.le_of_lt hlt)).2 hlt
          rw [hd'] at this; rw [hr'] at this; cases this
        · exact heq
        · have := (counted_unique e hp hp' (Nat.le_of_lt hlt)).2 hlt
          rw [h1] at this; rw [h2] at this; cases this
      subst hkk
      obtain ⟨rfl, rfl⟩ := (counted_unique e hp hp' (Nat.le_refl _)).1 rfl
      rw [h1] at hd'
      simp only [Prod.mk.injEq] at hd'
      obtain ⟨rfl, rfl⟩ := hd'
      exact hwhole
end

/-! ### Writing -/

theorem serializeSeq_writeAll {ω : Type} [Writer ω] (ts : List (Tag P)) :
    (Tag.serializeSeq ts : Act TagErr ω Unit) = writeAll ts := by
  induction ts with
  | nil => rfl
  | cons t ts ih =>
    show (Tag.serializeWith t.id t.valueSize t.serializeValue >>= fun _ => Tag.serializeSeq ts) = _
    rw [ih]; rfl

/-- **C101** A sequence can be written piece by piece, on every writer whatever its faults: writing its id, the number of
bytes its elements take and the elements one after another is writing the sequence, with the same outcome and the same
state of the writer; for an array the number of elements comes first and is counted. -/
theorem C101_write {ω : Type} [Writer ω] (w : ω) (id : UInt64) (hid : 16 ≤ id.toNat) (ts : List (Tag P))
    (hp : ∀ t ∈ ts, PayloadsOk t) (n : UInt64) :
    (n.toNat = (ts.map fun t => (enc t).length).sum →
      (Tag.serialize (.seq id ts) : Act TagErr ω Unit) w = (do
        Ser.serializeILInt id; Ser.serializeILInt n; writeAll ts) w) ∧
    (∀ c : UInt64, c.toNat = ts.length → n.toNat = (Spec.ilint c.toNat).length + (ts.map fun t => (enc t).length).sum →
      (Tag.serialize (.array id ts) : Act TagErr ω Unit) w = (do
        Ser.serializeILInt id; Ser.serializeILInt n; Ser.serializeILInt c; writeAll ts) w) := by
  have himp : isImplicitTag id = false := by
    unfold isImplicitTag
    rw [decide_eq_false_iff_not, UInt64.le_iff_toNat_le]
    show ¬ id.toNat ≤ 15
    omega
  have hlen : (encTags ts).length = (ts.map fun t => (enc t).length).sum := by
    rw [encTags_eq, List.length_flatMap]
  have hw : ∀ (v : UInt64) (m : Act TagErr ω Unit), Tag.serializeWith id v m =
      (do Ser.serializeILInt id; Ser.serializeILInt v; m) := fun v m => by
    unfold Tag.serializeWith
    rw [himp]; rfl
  have hlt := n.toNat_lt
  refine ⟨fun hn => ?_, fun c hc hn => ?_⟩
  · have hv : (Tag.seq id ts).valueSize = n := by
      rw [Tag.valueSize_eq _ (fun i p hu => by cases hu with | seq hm hu => exact hp _ hm _ _ hu) ?_]
      · show UInt64.ofNat (encTags ts).length = n
        rw [hlen, ← hn, UInt64.ofNat_toNat]
      · show (encTags ts).length < _
        omega
    show Tag.serializeWith id (Tag.seq id ts).valueSize (Tag.serializeSeq ts) w = _
    rw [hw, hv, serializeSeq_writeAll]
  · have hcl : lenU64 ts.length = c := by
      unfold lenU64; rw [← hc, UInt64.ofNat_toNat]
    have he : encValue (.array id ts) = Spec.ilint ts.length ++ encTags ts := rfl
    have hv : (Tag.array id ts).valueSize = n := by
      rw [Tag.valueSize_eq _ (fun i p hu => by cases hu with | array hm hu => exact hp _ hm _ _ hu) ?_]
      · rw [he, List.length_append, hlen, ← hc, ← hn, UInt64.ofNat_toNat]
      · rw [he, List.length_append, hlen, ← hc, ← hn]; exact hlt
    show Tag.serializeWith id (Tag.array id ts).valueSize (do Ser.serializeILInt (lenU64 ts.length); Tag.serializeSeq ts) w = _
    rw [hw, hv, hcl, serializeSeq_writeAll]

/-! ### Examples -/
section
attribute [local instance] bigEnv
theorem creates_seq : (Engine.std true : Engine Empty).createTag 22 = .ok (some (.seq 22 [])) := rfl
theorem creates_array : (Engine.std true : Engine Empty).createTag 21 = .ok (some (.array 21 [])) := rfl

/-- A sequence of two tags of which the reader fails while the second is read. -/
def brokenSeq : Script := ⟨[.ok 22, .ok 4, .ok 1, .ok 1, .ok 2, .err .unableToReadData, .ok 9]⟩
def brokenValue : Script := ⟨[.ok 1, .ok 1, .ok 2, .err .unableToReadData, .ok 9]⟩
theorem brokenSeq_header : Header brokenSeq 22 4 brokenValue := ⟨_, rfl, .inr ⟨by decide, 4, rfl, rfl⟩⟩
theorem first_piece : Factory.deserialize (Engine.std true : Engine Empty) (Limited Script) ⟨brokenValue, 4⟩ =
    (.ok (.atom (.bool 1 true)), ⟨⟨[.ok 2, .err .unableToReadData, .ok 9]⟩, 2⟩) := by rw [deserialize_eq]; rfl
theorem second_piece : Factory.deserialize (Engine.std true : Engine Empty) (Limited Script)
    ⟨⟨[.ok 2, .err .unableToReadData, .ok 9]⟩, 2⟩ =
    (.err (.ioError .unableToReadData), ⟨⟨[.ok 9]⟩, 1⟩) := by rw [deserialize_eq]; rfl
/-- The first call gives a tag, the second fails, and so does `deserialize` of the whole. -/
example : Factory.deserialize (Engine.std true : Engine Empty) Script brokenSeq =
    (.err (.ioError .unableToReadData), ⟨[.ok 9]⟩) :=
  ((C101_read _ _ _ 22 4 brokenSeq_header (by decide) 22 [] creates_seq).2 _ _ rfl).2
    ⟨_, _, _, .cons rfl first_piece (.nil _), rfl, second_piece, rfl⟩

/-- An array that says it has one element and has a byte left over after it. -/
def longArray : Script := ⟨[.ok 21, .ok 4, .ok 1, .ok 1, .ok 1, .ok 0]⟩
example : Factory.deserialize (Engine.std true : Engine Empty) Script longArray = (.err .corruptedData, ⟨[.ok 0]⟩) :=
  (C101_array bigEnv_ok _ longArray ⟨[.ok 1, .ok 1, .ok 1, .ok 0]⟩ 21 4 ⟨_, rfl, .inr ⟨by decide, 4, rfl, rfl⟩⟩ (by decide)
    21 [] creates_array 1 ⟨⟨[.ok 1, .ok 1, .ok 0]⟩, 3⟩ rfl (by decide)).2.2 [.atom (.bool 1 true)] ⟨⟨[.ok 0]⟩, 1⟩
    (.succ (s₁ := (⟨⟨[.ok 0]⟩, 1⟩ : Limited Script)) (by rw [deserialize_eq]; rfl) (.zero _)) rfl

/-- Two tags of three bytes in all. -/
def boolAndNull : List (Tag Empty) := [.atom (.bool 1 true), .atom (.null 0)]
example : (Tag.serialize (.seq 22 boolAndNull) : Act TagErr VecWriter Unit) VecWriter.new =
    (do Ser.serializeILInt 22; Ser.serializeILInt 3; writeAll boolAndNull : Act TagErr VecWriter Unit) VecWriter.new :=
  (C101_write VecWriter.new 22 (by decide) boolAndNull (fun _ _ => payloadsOk_empty _) 3).1 (by decide +kernel)
end
end Verif.Props
