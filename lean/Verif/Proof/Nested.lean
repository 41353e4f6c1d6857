import Verif.Proof.Deliver
/-!
# Limited readers inside limited readers, and values that stay within their size

`Ex n m`: a limit of at least `n` bytes makes no difference to `m`, which uses at most `n` bytes and, when it succeeds,
exactly `n`.  `ExL m`: the same for an action on a limited reader, whose limit is the number.
-/
namespace Verif
set_option linter.unusedSectionVars false
open Spec

section
variable {σ : Type} [Reader σ]

/-- A limited reader of a limited reader. -/
def nestLim (s : σ) (k v : Nat) : Limited (Limited σ) := ⟨⟨s, k⟩, v⟩

/-- The state of two limited readers in terms of the state of one with the smaller limit. -/
def unnest (k v : Nat) (l : Limited σ) : Limited (Limited σ) :=
  nestLim l.source (k - (min k v - l.available)) (v - (min k v - l.available))

theorem limited_read_over {l : Limited σ} (h : l.available < 1) : Limited.read l = (.err .unableToReadData, l) := by
  unfold Limited.read Limited.canRead; rw [if_pos h]

theorem limited_read_within {l : Limited σ} (h : 1 ≤ l.available) : Limited.read l = ((Reader.read l.source).1,
    ⟨(Reader.read l.source).2, if (Reader.read l.source).1.isOk then l.available - 1 else l.available⟩) := by
  unfold Limited.read Limited.canRead; rw [if_neg (by omega)]

theorem limited_readAll_over {n : Nat} {l : Limited σ} (h : l.available < n) :
    Limited.readAll n l = (.err .unableToReadData, l) := by
  unfold Limited.readAll Limited.canRead; rw [if_pos h]

theorem limited_readAll_within {n : Nat} {l : Limited σ} (h : n ≤ l.available) :
    Limited.readAll n l = ((Reader.readAll n l.source).1,
      ⟨(Reader.readAll n l.source).2, if (Reader.readAll n l.source).1.isOk then l.available - n else l.available⟩) := by
  unfold Limited.readAll Limited.canRead; rw [if_neg (by omega)]

theorem nested_read (s : σ) (k v : Nat) :
    (Limited.read (⟨s, min k v⟩ : Limited σ)).2.available ≤ min k v ∧
    Limited.read (nestLim s k v) = ((Limited.read (⟨s, min k v⟩ : Limited σ)).1,
      unnest k v (Limited.read (⟨s, min k v⟩ : Limited σ)).2) := by
  by_cases hv : v < 1
  · rw [limited_read_over (l := ⟨s, min k v⟩) (by show min k v < 1; omega), limited_read_over (l := nestLim s k v) hv]
    simp [unnest]
  · rw [limited_read_within (l := nestLim s k v) (by show 1 ≤ v; omega)]
    simp only [nestLim, show (Reader.read : Act IoErr (Limited σ) Byte) = Limited.read from rfl]
    by_cases hk : k < 1
    · rw [limited_read_over (l := ⟨s, min k v⟩) (by show min k v < 1; omega), limited_read_over (l := ⟨s, k⟩) hk]
      simp [unnest, nestLim, Res.isOk]
    · rw [limited_read_within (l := ⟨s, min k v⟩) (by show 1 ≤ min k v; omega),
        limited_read_within (l := ⟨s, k⟩) (by show 1 ≤ k; omega)]
      simp only [unnest, nestLim]
      rcases Reader.read s with ⟨r, s'⟩
      have h1 : k - (min k v - (min k v - 1)) = k - 1 := by omega
      have h2 : v - (min k v - (min k v - 1)) = v - 1 := by omega
      cases r <;> simp [Res.isOk, h1, h2]

theorem nested_readAll (n : Nat) (s : σ) (k v : Nat) :
    (Limited.readAll n (⟨s, min k v⟩ : Limited σ)).2.available ≤ min k v ∧
    Limited.readAll n (nestLim s k v) = ((Limited.readAll n (⟨s, min k v⟩ : Limited σ)).1,
      unnest k v (Limited.readAll n (⟨s, min k v⟩ : Limited σ)).2) := by
  by_cases hv : v < n
  · rw [limited_readAll_over (l := ⟨s, min k v⟩) (by show min k v < n; omega), limited_readAll_over (l := nestLim s k v) hv]
    simp [unnest]
  · rw [limited_readAll_within (l := nestLim s k v) (by show n ≤ v; omega)]
    simp only [nestLim, show (Reader.readAll n : Act IoErr (Limited σ) Bytes) = Limited.readAll n from rfl]
    by_cases hk : k < n
    · rw [limited_readAll_over (l := ⟨s, min k v⟩) (by show min k v < n; omega), limited_readAll_over (l := ⟨s, k⟩) hk]
      simp [unnest, nestLim, Res.isOk]
    · rw [limited_readAll_within (l := ⟨s, min k v⟩) (by show n ≤ min k v; omega),
        limited_readAll_within (l := ⟨s, k⟩) (by show n ≤ k; omega)]
      simp only [unnest, nestLim]
      rcases Reader.readAll n s with ⟨r, s'⟩
      have h1 : k - (min k v - (min k v - n)) = k - n := by omega
      have h2 : v - (min k v - (min k v - n)) = v - n := by omega
      cases r <;> simp [Res.isOk, h1, h2]

/-- The new state again is one of two limited readers. -/
theorem unnest_step {k v : Nat} {l : Limited σ} (h : l.available ≤ min k v) :
    min (k - (min k v - l.available)) (v - (min k v - l.available)) = l.available := by omega

theorem unnest_unnest {k v : Nat} {l l' : Limited σ} (h : l.available ≤ min k v) (h' : l'.available ≤ l.available) :
    unnest (k - (min k v - l.available)) (v - (min k v - l.available)) l' = unnest k v l' := by
  have h1 := unnest_step h
  unfold unnest
  rw [h1]
  congr 1 <;> omega

/-- An operation on two limited readers does what it does on one with the smaller limit. -/
def Nests {α : Type} (m : ∀ (σ : Type) [Reader σ], Act IoErr (Limited σ) α) : Prop :=
  ∀ (σ : Type) [Reader σ] (s : σ) (k v : Nat),
    (m σ ⟨s, min k v⟩).2.available ≤ min k v ∧
    m (Limited σ) (nestLim s k v) = ((m σ ⟨s, min k v⟩).1, unnest k v (m σ ⟨s, min k v⟩).2)

theorem Nests.pure {α : Type} (a : α) : Nests fun _ _ => Pure.pure a := by
  intro σ _ s k v
  exact ⟨Nat.le_refl _, by simp [unnest, nestLim]⟩

theorem Nests.bind {α β : Type} {m : ∀ (σ : Type) [Reader σ], Act IoErr (Limited σ) α}
    {c : α → ∀ (σ : Type) [Reader σ], Act IoErr (Limited σ) β} (h : Nests m) (hc : ∀ a, Nests (c a)) :
    Nests fun σ _ => m σ >>= fun a => c a σ := by
  intro σ _ s k v
  obtain ⟨h1, h2⟩ := h σ s k v
  simp only [Act.bind_apply]
  rw [h2]
  rcases hr : m σ ⟨s, min k v⟩ with ⟨r, l⟩
  rw [hr] at h1
  cases r with
  | ok a =>
    obtain ⟨h3, h4⟩ := hc a σ l.source (k - (min k v - l.available)) (v - (min k v - l.available))
    rw [unnest_step h1] at h3 h4
    exact ⟨Nat.le_trans h3 h1, h4.trans (by rw [unnest_unnest h1 h3])⟩
  | _ => exact ⟨h1, rfl⟩

theorem Nests.read : Nests fun σ _ => (Reader.read : Act IoErr (Limited σ) Byte) := fun _ _ s k v => nested_read s k v
theorem Nests.readAll (n : Nat) : Nests fun σ _ => (Reader.readAll n : Act IoErr (Limited σ) Bytes) :=
  fun _ _ s k v => nested_readAll n s k v

theorem Nests.congr {α : Type} {m m' : ∀ (σ : Type) [Reader σ], Act IoErr (Limited σ) α} (h : Nests m)
    (e : ∀ (σ : Type) [Reader σ], m' σ = m σ) : Nests m' := by
  intro σ _ s k v
  rw [e σ, e (Limited σ)]
  exact h σ s k v

theorem Nests.skip (n : Nat) : Nests fun σ _ => (Reader.skip n : Act IoErr (Limited σ) Unit) := by
  show Nests fun σ _ => defaultSkip (Limited.readAll (σ := σ)) n
  induction n using Nat.strongRecOn with
  | ind n ih =>
    by_cases h : n = 0
    · exact (Nests.pure ()).congr fun σ _ => by rw [defaultSkip]; simp only [h, dite_true]
    · exact (Nests.bind (Nests.readAll (min n 512)) fun _ => ih (n - min n 512) (by omega)).congr fun σ _ => by
        rw [defaultSkip]; simp only [h, dite_false]; rfl

theorem Nests.skipU64 (n : UInt64) : Nests fun σ _ => (Reader.skipU64 n : Act IoErr (Limited σ) Unit) := by
  show Nests fun σ _ => defaultSkipU64Loop usizeMax64 (defaultSkip (Limited.readAll (σ := σ))) n.toNat
  generalize n.toNat = n
  generalize usizeMax64 = u
  induction n using Nat.strongRecOn with
  | ind n ih =>
    by_cases h : n = 0
    · exact (Nests.pure ()).congr fun σ _ => by rw [defaultSkipU64Loop]; simp only [h, dite_true]
    · exact (Nests.bind (Nests.skip (min n (max u 1))) fun _ => ih (n - min n (max u 1)) (by omega)).congr fun σ _ => by
        rw [defaultSkipU64Loop]; simp only [h, dite_false]; rfl

theorem nested_run [Env] {τ α : Type} (p : Prog τ α) (s : σ) (k v : Nat) :
    (p.run (⟨s, min k v⟩ : Limited σ)).2.2.available ≤ min k v ∧
    p.run (nestLim s k v) = ((p.run (⟨s, min k v⟩ : Limited σ)).1, ((p.run (⟨s, min k v⟩ : Limited σ)).2.1,
      unnest k v (p.run (⟨s, min k v⟩ : Limited σ)).2.2)) := by
  induction p generalizing s k v with
  | done r t => simp [Prog.run, unnest]
  | read t c ih =>
    obtain ⟨h1, h2⟩ := nested_read s k v
    simp only [Prog.run, show ∀ σ [Reader σ], (Reader.read : Act IoErr (Limited σ) Byte) = Limited.read from fun _ _ => rfl]
    rw [h2]
    rcases hr : Limited.read (⟨s, min k v⟩ : Limited σ) with ⟨r, l⟩
    rw [hr] at h1
    cases r with
    | ok b =>
      obtain ⟨h3, h4⟩ := ih b l.source (k - (min k v - l.available)) (v - (min k v - l.available))
      rw [unnest_step h1] at h3 h4
      refine ⟨Nat.le_trans h3 h1, ?_⟩
      show Prog.run (c b) (nestLim _ _ _) = _
      rw [h4, unnest_unnest h1 h3]
    | _ => exact ⟨h1, rfl⟩
  | readAll t n c ih =>
    obtain ⟨h1, h2⟩ := nested_readAll n s k v
    simp only [Prog.run, show ∀ σ [Reader σ], (Reader.readAll n : Act IoErr (Limited σ) Bytes) = Limited.readAll n from fun _ _ => rfl]
    rw [h2]
    rcases hr : Limited.readAll n (⟨s, min k v⟩ : Limited σ) with ⟨r, l⟩
    rw [hr] at h1
    cases r with
    | ok b =>
      obtain ⟨h3, h4⟩ := ih b l.source (k - (min k v - l.available)) (v - (min k v - l.available))
      rw [unnest_step h1] at h3 h4
      refine ⟨Nat.le_trans h3 h1, ?_⟩
      show Prog.run (c b) (nestLim _ _ _) = _
      rw [h4, unnest_unnest h1 h3]
    | _ => exact ⟨h1, rfl⟩
  | alloc t u c p ih =>
    simp only [Prog.run]
    split
    · exact ih s k v
    · simp [unnest]

theorem run_log_le [Env] {τ α : Type} (p : Prog τ α) (w : Watched σ) : w.log.length ≤ (p.run w).2.2.log.length := by
  induction p generalizing w with
  | done r t => exact Nat.le_refl _
  | read t c ih =>
    simp only [Prog.run]
    rcases hr : Reader.read w with ⟨r, w'⟩
    have hl := Watched.read_log hr
    cases r with
    | ok b => have := ih b w'; simp only [Res.isOk, if_true] at hl ⊢; omega
    | _ => simp [Res.isOk] at hl ⊢; omega
  | readAll t n c ih =>
    simp only [Prog.run]
    rcases hr : Reader.readAll n w with ⟨r, w'⟩
    have hl := Watched.readAll_log hr
    cases r with
    | ok b => have := ih b w'; simp only [Res.isOk, if_true] at hl ⊢; omega
    | _ => simp [Res.isOk] at hl ⊢; omega
  | alloc t u c p ih =>
    simp only [Prog.run]
    split
    · exact ih w
    · exact Nat.le_refl _

/-- A limit that a successful run keeps to makes no difference. -/
theorem limited_run [Env] {τ α : Type} (p : Prog τ α) (w : Watched σ) {a : α} {t : τ} {w' : Watched σ}
    (h : p.run w = (.ok a, (t, w'))) (k : Nat) (hk : w'.log.length ≤ w.log.length + k) :
    p.run (⟨w, k⟩ : Limited (Watched σ)) = (.ok a, (t, ⟨w', w.log.length + k - w'.log.length⟩)) := by
  induction p generalizing w k with
  | done r t => cases h; simp [Prog.run]
  | read t c ih =>
    simp only [Prog.run] at h ⊢
    simp only [show (Reader.read : Act IoErr (Limited (Watched σ)) Byte) = Limited.read from rfl]
    rcases hr : Reader.read w with ⟨r, w1⟩
    have hl := Watched.read_log hr
    rw [hr] at h
    cases r with
    | ok b =>
      have h1 := run_log_le (c b) w1
      simp only at h
      rw [h] at h1
      simp only [Res.isOk, if_true] at hl h1
      rw [limited_read_within (l := ⟨w, k⟩) (by show 1 ≤ k; omega)]
      simp only [hr, Res.isOk, if_true]
      rw [ih b w1 h (k - 1) (by omega)]
      simp only [Prod.mk.injEq, Limited.mk.injEq, true_and]
      omega
    | _ => cases h
  | readAll t n c ih =>
    simp only [Prog.run] at h ⊢
    simp only [show (Reader.readAll n : Act IoErr (Limited (Watched σ)) Bytes) = Limited.readAll n from rfl]
    rcases hr : Reader.readAll n w with ⟨r, w1⟩
    have hl := Watched.readAll_log hr
    rw [hr] at h
    cases r with
    | ok b =>
      have h1 := run_log_le (c b) w1
      simp only at h
      rw [h] at h1
      simp only [Res.isOk, if_true] at hl h1
      rw [limited_readAll_within (l := ⟨w, k⟩) (by show n ≤ k; omega)]
      simp only [hr, Res.isOk, if_true]
      rw [ih b w1 h (k - n) (by omega)]
      simp only [Prod.mk.injEq, Limited.mk.injEq, true_and]
      omega
    | _ => cases h
  | alloc t u c p ih =>
    simp only [Prog.run] at h ⊢
    split at h
    · next hc => rw [if_pos hc]; exact ih w h k hk
    · cases h

/-- What succeeds with a limit succeeds without it. -/
theorem unlimited_run [Env] {τ α : Type} (p : Prog τ α) (s : σ) (k : Nat) {a : α} {t : τ} {l : Limited σ}
    (h : p.run (⟨s, k⟩ : Limited σ) = (.ok a, (t, l))) : p.run s = (.ok a, (t, l.source)) := by
  induction p generalizing s k with
  | done r t => cases h; rfl
  | read t c ih =>
    simp only [Prog.run] at h ⊢
    simp only [show (Reader.read : Act IoErr (Limited σ) Byte) = Limited.read from rfl] at h
    by_cases hk : k < 1
    · rw [limited_read_over (l := ⟨s, k⟩) hk] at h; cases h
    · rw [limited_read_within (l := ⟨s, k⟩) (by show 1 ≤ k; omega)] at h
      simp only at h
      rcases hr : Reader.read s with ⟨r, s'⟩
      rw [hr] at h
      cases r with
      | ok b => exact ih b s' _ h
      | _ => cases h
  | readAll t n c ih =>
    simp only [Prog.run] at h ⊢
    simp only [show (Reader.readAll n : Act IoErr (Limited σ) Bytes) = Limited.readAll n from rfl] at h
    by_cases hk : k < n
    · rw [limited_readAll_over (l := ⟨s, k⟩) hk] at h; cases h
    · rw [limited_readAll_within (l := ⟨s, k⟩) (by show n ≤ k; omega)] at h
      simp only at h
      rcases hr : Reader.readAll n s with ⟨r, s'⟩
      rw [hr] at h
      cases r with
      | ok b => exact ih b s' _ h
      | _ => cases h
  | alloc t u c p ih =>
    simp only [Prog.run] at h ⊢
    split at h
    · next hc => rw [if_pos hc]; exact ih s k h
    · cases h
end

/-! ### Values that stay within their size -/

section
variable {τ τ' α β : Type}

def ExL (m : GenL τ α) : Prop := ∀ (E : Env) (σ : Type) (i : Reader σ) (t : τ) (s : σ) (k v : Nat), v ≤ k →
  (m E σ i (t, ⟨s, v⟩)).2.2.available ≤ v ∧
  m E (Limited σ) inferInstance (t, ⟨⟨s, k⟩, v⟩) = ((m E σ i (t, ⟨s, v⟩)).1, ((m E σ i (t, ⟨s, v⟩)).2.1,
    ⟨⟨(m E σ i (t, ⟨s, v⟩)).2.2.source, k - (v - (m E σ i (t, ⟨s, v⟩)).2.2.available)⟩,
      (m E σ i (t, ⟨s, v⟩)).2.2.available⟩))

def Ex (n : Nat) (m : GenS τ α) : Prop := ∀ (E : Env) (σ : Type) (i : Reader σ) (t : τ) (s : σ) (k : Nat), n ≤ k →
  ∃ a, k - n ≤ a ∧ a ≤ k ∧ ((m E σ i (t, s)).1.isOk = true → a = k - n) ∧
    m E (Limited σ) inferInstance (t, ⟨s, k⟩) = ((m E σ i (t, s)).1, ((m E σ i (t, s)).2.1, ⟨(m E σ i (t, s)).2.2, a⟩))

theorem ExL.ofS {A : Nat → Nat → Prop} {m : GenS τ α} (h : RepS A m) : ExL fun E σ _ => m E (Limited σ) inferInstance := by
  obtain ⟨T, -, hT⟩ := h
  intro E σ i t s k v hv
  have h1 := hT E (Limited σ) inferInstance t ⟨s, v⟩
  have h2 := hT E (Limited (Limited σ)) inferInstance t ⟨⟨s, k⟩, v⟩
  have h3 := nested_run (T t) s k v
  have hm : min k v = v := by omega
  simp only
  rw [h1, h2]
  rw [hm] at h3
  refine ⟨h3.1, h3.2.trans ?_⟩
  have h4 := h3.1
  unfold unnest nestLim
  rw [hm]
  simp only [Prod.mk.injEq, Limited.mk.injEq, true_and]
  omega

theorem ExL.bind {m : GenL τ α} {k : α → GenL τ β} (h : ExL m) (hk : ∀ a, ExL (k a)) :
    ExL fun E σ i => m E σ i >>= fun a => k a E σ i := by
  intro E σ i t s n v hv
  obtain ⟨h1, h2⟩ := h E σ i t s n v hv
  simp only [Act.bind_apply]
  rw [h2]
  rcases hm : m E σ i (t, ⟨s, v⟩) with ⟨r, t', s', v'⟩
  rw [hm] at h1
  simp only at h1
  cases r with
  | ok a =>
    obtain ⟨h3, h4⟩ := hk a E σ i t' s' (n - (v - v')) v' (by omega)
    simp only
    rw [h4]
    refine ⟨Nat.le_trans h3 h1, ?_⟩
    simp only [Prod.mk.injEq, Limited.mk.injEq, true_and, and_true]
    omega
  | _ => exact ⟨h1, rfl⟩

theorem ExL.iteLe {c : Prop} [Decidable c] {m m' : GenL τ α} (h : ExL m) (h' : ¬ c → ExL m') :
    ExL fun E σ i => if c then m E σ i else m' E σ i := by
  by_cases hc : c
  · simp only [hc, if_true]; exact h
  · simp only [hc, if_false]; exact h' hc

theorem ExL.cond {c : τ → Nat → Prop} [∀ t n, Decidable (c t n)] {m m' : GenL τ α} (h : ExL m) (h' : ExL m') :
    ExL fun E σ i p => if c p.1 p.2.available then m E σ i p else m' E σ i p := by
  intro E σ i t s k v hv
  by_cases hc : c t v
  · simp only [hc, if_true]; exact h E σ i t s k v hv
  · simp only [hc, if_false]; exact h' E σ i t s k v hv

theorem ExL.lift (r : Res TagErr α) : ExL (τ := τ) fun _ _ _ => Act.lift r := by
  intro E σ i t s k v hv
  simp [Act.lift]

theorem ExL.ensureEmpty : ExL (τ := τ) fun _ _ _ => Verif.ensureEmpty := by
  intro E σ i t s k v hv
  unfold Verif.ensureEmpty Limited.empty
  by_cases h : v = 0 <;> simp [h]

/-- It succeeds only if all available bytes have been used. -/
def Drains (m : GenL τ α) : Prop := ∀ (E : Env) (σ : Type) (i : Reader σ) (p : τ × Limited σ),
  (m E σ i p).1.isOk = true → (m E σ i p).2.2.available = 0

theorem Drains.bind {m : GenL τ α} {k : α → GenL τ β} (hk : ∀ a, Drains (k a)) :
    Drains fun E σ i => m E σ i >>= fun a => k a E σ i := by
  intro E σ i p
  simp only [Act.bind_apply]
  rcases m E σ i p with ⟨_ | _ | _ | _, q⟩
  · exact hk _ E σ i q
  all_goals intro h; cases h

theorem Drains.ensureEmpty : Drains (τ := τ) fun _ _ _ => Verif.ensureEmpty := by
  intro E σ i p
  simp only [Verif.ensureEmpty, Limited.empty]
  by_cases h : p.2.available = 0
  · simp [h]
  · simp [h, Res.isOk]

theorem Drains.iteLe {c : Prop} [Decidable c] {m m' : GenL τ α} (h : Drains m) (h' : ¬ c → Drains m') :
    Drains fun E σ i => if c then m E σ i else m' E σ i := by
  by_cases hc : c
  · simp only [hc, if_true]; exact h
  · simp only [hc, if_false]; exact h' hc

theorem Drains.fail (e : TagErr) : Drains (τ := τ) (α := α) fun _ _ _ => Act.fail e := by
  intro E σ i p h; cases h

theorem Ex.withLimited {m : GenL τ α} (n : Nat) (h : ExL m) (hd : Drains m) :
    Ex n fun E σ i => Verif.withLimited n (m E σ i) := by
  intro E σ i t s k hk
  obtain ⟨h1, h2⟩ := h E σ i t s k n hk
  have h3 := hd E σ i (t, ⟨s, n⟩)
  refine ⟨k - (n - (m E σ i (t, ⟨s, n⟩)).2.2.available), by omega, by omega, fun hok => ?_, ?_⟩
  · rw [h3 hok]; rfl
  · simp only [Verif.withLimited]
    rw [h2]

theorem Ex.lift (r : Res TagErr α) (n : Nat) (h : r.isOk = true → n = 0) : Ex (τ := τ) n fun _ _ _ => Act.lift r := by
  intro E σ i t s k hk
  exact ⟨k, by omega, Nat.le_refl _, fun hok => by rw [h hok]; rfl, rfl⟩

theorem Ex.fail (e : TagErr) (n : Nat) : Ex (τ := τ) (α := α) n fun _ _ _ => Act.fail e :=
  Ex.lift (.err e) n (by simp [Res.isOk])
theorem Ex.pure (a : α) : Ex (τ := τ) 0 fun _ _ _ => Pure.pure a := Ex.lift (.ok a) 0 fun _ => rfl

theorem Ex.bind {m : GenS τ α} {c : α → GenS τ β} {n n' : Nat} (h : Ex n m) (hk : ∀ a, Ex n' (c a)) :
    Ex (n + n') fun E σ i => m E σ i >>= fun a => c a E σ i := by
  intro E σ i t s k hle
  obtain ⟨a, h1, h2, h3, h4⟩ := h E σ i t s k (by omega)
  simp only [Act.bind_apply]
  rw [h4]
  rcases hm : m E σ i (t, s) with ⟨r, t', s'⟩
  rw [hm] at h3
  cases r with
  | ok b =>
    obtain ⟨a', h5, h6, h7, h8⟩ := hk b E σ i t' s' a (by have := h3 rfl; omega)
    have := h3 rfl
    exact ⟨a', by omega, by omega, fun hok => by have := h7 hok; omega, h8⟩
  | _ => exact ⟨a, by omega, h2, fun hok => (by cases hok), rfl⟩

theorem Ex.guard (c : Prop) [Decidable c] (e : TagErr) {n : Nat} {m : GenS τ α} (h : c → Ex n m) :
    Ex n fun E σ i => Act.guardE c e >>= fun _ => m E σ i := by
  by_cases hc : c
  · have := h hc
    simp only [Act.guardE, hc, if_true]
    have h2 := Ex.bind (Ex.pure (τ := τ) ()) (fun _ => this)
    rw [Nat.zero_add] at h2
    exact h2
  · simp only [Act.guardE, hc, if_false]
    intro E σ i t s k hk
    exact ⟨k, by omega, Nat.le_refl _, fun hok => (by cases hok), rfl⟩

theorem Ex.after {m : GenS τ α} {c : α → GenS τ β} {n : Nat} (h : Ex n m) (hk : ∀ a, Ex 0 (c a)) :
    Ex n fun E σ i => m E σ i >>= fun a => c a E σ i := Ex.bind h hk

theorem Ex.before {m : GenS τ α} {c : α → GenS τ β} {n : Nat} (h : Ex 0 m) (hk : ∀ a, Ex n (c a)) :
    Ex n fun E σ i => m E σ i >>= fun a => c a E σ i := by
  have := Ex.bind h hk
  rwa [Nat.zero_add] at this

theorem Ex.ite {m m' : GenS τ α} {n : Nat} {c : Prop} [Decidable c] (h : Ex n m) (h' : Ex n m') :
    Ex n fun E σ i => if c then m E σ i else m' E σ i := by
  by_cases hc : c
  · simp only [hc, if_true]; exact h
  · simp only [hc, if_false]; exact h'

theorem Ex.set (t : τ) : Ex 0 fun _ _ _ => setSelf t := fun _ _ _ _ _ k _ => ⟨k, Nat.sub_le _ _, Nat.le_refl _, fun _ => rfl, rfl⟩
theorem Ex.modify (g : τ → τ) : Ex 0 fun _ _ _ => modifySelf g :=
  fun _ _ _ _ _ k _ => ⟨k, Nat.sub_le _ _, Nat.le_refl _, fun _ => rfl, rfl⟩

theorem Ex.alloc (u c : Nat) : Ex (τ := τ) 0 fun _ _ _ => Data.alloc u c := by
  intro E σ i t s k hk
  refine ⟨k, Nat.sub_le _ _, Nat.le_refl _, fun _ => rfl, ?_⟩
  simp only [Data.alloc]
  by_cases h : u * c ≤ Env.allocMax
  · simp only [h, if_true]; rfl
  · simp only [h, if_false]; rfl

theorem Ex.zoom {m : GenS τ α} {n : Nat} (wrap : τ → τ') (t₀ : τ) (h : Ex n m) :
    Ex n fun E σ i => Verif.zoom wrap t₀ (m E σ i) := by
  intro E σ i t s k hk
  obtain ⟨a, h1, h2, h3, h4⟩ := h E σ i t₀ s k hk
  refine ⟨a, h1, h2, h3, ?_⟩
  simp only [Verif.zoom]
  rw [h4]

/-- An action on the reader alone. -/
def Ex1 (n : Nat) (m : Gen α) : Prop := Ex (τ := Unit) n fun E σ i => Verif.onReader (m E σ i)

theorem Ex.onReader {m : Gen α} {n : Nat} (h : Ex1 n m) : Ex (τ := τ) n fun E σ i => Verif.onReader (m E σ i) := by
  intro E σ i t s k hk
  obtain ⟨a, h1, h2, h3, h4⟩ := h E σ i () s k hk
  refine ⟨a, h1, h2, h3, ?_⟩
  simp only [Verif.onReader] at h4 ⊢
  simp only [Prod.mk.injEq, true_and] at h4
  rcases hm : m E (Limited σ) inferInstance ⟨s, k⟩ with ⟨r, l⟩
  rw [hm] at h4
  simp only at h4 ⊢
  rw [h4.1, h4.2]

theorem Ex1.read : Ex1 1 fun _ _ _ => tagIo Reader.read := by
  intro E σ i t s k hk
  have h : (Reader.read (⟨s, k⟩ : Limited σ)) = _ := limited_read_within (l := ⟨s, k⟩) hk
  simp only [Verif.onReader, tagIo, Act.mapErr_apply]
  rw [h]
  rcases Reader.read s with ⟨r, s'⟩
  cases r <;> simp only [Res.mapErr, Res.isOk, if_true, Bool.false_eq_true, if_false]
  · exact ⟨k - 1, Nat.le_refl _, by omega, fun _ => rfl, rfl⟩
  all_goals exact ⟨k, by omega, by omega, fun h => (by cases h), rfl⟩

theorem Ex1.readAll (n : Nat) : Ex1 n fun _ _ _ => tagIo (Reader.readAll n) := by
  intro E σ i t s k hk
  have h : (Reader.readAll n (⟨s, k⟩ : Limited σ)) = _ := limited_readAll_within (l := ⟨s, k⟩) hk
  simp only [Verif.onReader, tagIo, Act.mapErr_apply]
  rw [h]
  rcases Reader.readAll n s with ⟨r, s'⟩
  cases r <;> simp only [Res.mapErr, Res.isOk, if_true, Bool.false_eq_true, if_false]
  · exact ⟨k - n, Nat.le_refl _, by omega, fun _ => rfl, rfl⟩
  all_goals exact ⟨k, by omega, by omega, fun h => (by cases h), rfl⟩

theorem Ex1.map {m : Gen α} {n : Nat} (h : Ex1 n m) (g : α → β) :
    Ex1 n fun E σ i => m E σ i >>= fun a => (Pure.pure (g a) : Act TagErr σ β) := by
  intro E σ i t s k hk
  obtain ⟨a, h1, h2, h3, h4⟩ := h E σ i t s k hk
  simp only [Verif.onReader, Act.bind_apply] at h3 h4 ⊢
  simp only [Prod.mk.injEq, true_and] at h4
  rcases hm : m E (Limited σ) inferInstance ⟨s, k⟩ with ⟨r, l⟩
  rcases hm' : m E σ i s with ⟨r', s'⟩
  rw [hm, hm'] at h4
  rw [hm'] at h3
  simp only at h3 h4
  obtain ⟨rfl, rfl⟩ := h4
  cases r with
  | ok b => exact ⟨a, h1, h2, fun _ => h3 rfl, rfl⟩
  | _ => exact ⟨a, h1, h2, fun h => (by cases h), rfl⟩

theorem Ex1.u8 : Ex1 1 fun _ _ _ => tagIo Data.readU8 := Ex1.read
theorem Ex1.i8 : Ex1 1 fun _ _ _ => tagIo Data.readI8 := by
  simp only [Data.readI8, tagIo, Act.mapErr_bind, Act.mapErr_pure]; exact Ex1.map Ex1.read _
theorem Ex1.u16 : Ex1 2 fun _ _ _ => tagIo Data.readU16 := by
  simp only [Data.readU16, tagIo, Act.mapErr_bind, Act.mapErr_pure]; exact Ex1.map (Ex1.readAll 2) _
theorem Ex1.i16 : Ex1 2 fun _ _ _ => tagIo Data.readI16 := by
  simp only [Data.readI16, tagIo, Act.mapErr_bind, Act.mapErr_pure]; exact Ex1.map (Ex1.readAll 2) _
theorem Ex1.u32 : Ex1 4 fun _ _ _ => tagIo Data.readU32 := by
  simp only [Data.readU32, tagIo, Act.mapErr_bind, Act.mapErr_pure]; exact Ex1.map (Ex1.readAll 4) _
theorem Ex1.i32 : Ex1 4 fun _ _ _ => tagIo Data.readI32 := by
  simp only [Data.readI32, tagIo, Act.mapErr_bind, Act.mapErr_pure]; exact Ex1.map (Ex1.readAll 4) _
theorem Ex1.u64 : Ex1 8 fun _ _ _ => tagIo Data.readU64 := by
  simp only [Data.readU64, tagIo, Act.mapErr_bind, Act.mapErr_pure]; exact Ex1.map (Ex1.readAll 8) _
theorem Ex1.i64 : Ex1 8 fun _ _ _ => tagIo Data.readI64 := by
  simp only [Data.readI64, tagIo, Act.mapErr_bind, Act.mapErr_pure]; exact Ex1.map (Ex1.readAll 8) _

theorem Ex1.bytes (n : Nat) : Ex1 n fun _ _ _ => Ser.deserializeBytes n := by
  intro E σ i t s k hk
  unfold Ser.deserializeBytes
  simp only [Verif.onReader, Act.bind_apply, Data.alloc]
  by_cases h : 1 * n ≤ Env.allocMax
  · simp only [h, if_true]
    exact Ex1.readAll n E σ i t s k hk
  · simp only [h, if_false]
    exact ⟨k, by omega, Nat.le_refl _, fun h => (by cases h), rfl⟩

theorem Ex.bytesIntoVec (n : Nat) : Ex n fun _ _ _ => deserializeBytesIntoVec n :=
  Ex.before (Ex.alloc 1 n) fun _ => Ex.before (Ex.modify _) fun _ =>
    Ex.after (Ex.onReader (Ex1.readAll n)) fun bs => Ex.set bs

theorem Ex.fixed {m : Gen α} {vs n : Nat} (h : Ex1 n m) (e : TagErr) (g : α → τ) :
    Ex vs fun E σ i => Act.guardE (vs = n) e >>= fun _ => Verif.onReader (m E σ i) >>= fun v => setSelf (g v) :=
  Ex.guard (vs = n) e fun hc => hc ▸ Ex.after (Ex.onReader h) fun _ => Ex.set _

theorem Ex.cast {m : GenS τ α} {n n' : Nat} (h : Ex n m) (hn : n = n') : Ex n' m := hn ▸ h
end

section
variable {P : Type} {A : Nat → Nat → Prop}

theorem Ex.ilintArray (hA : Adm A) {vs : Nat} (h : vs ≤ maxTagSize) : Ex vs fun _ _ _ => Atom.deserializeILIntArray vs := by
  unfold Atom.deserializeILIntArray
  refine Ex.withLimited vs (ExL.bind (ExL.ofS (A := A) (RepS.onReader Rep.ilint)) fun count =>
    ExL.iteLe (ExL.lift (.err _)) fun hc => ExL.bind (ExL.ofS (A := A) (RepS.set _)) fun _ =>
      ExL.bind (ExL.ofS (A := A) (RepS.alloc ((hA _ (by omega)).2.1))) fun _ =>
        ExL.bind (ExL.ofS (A := A) (RepS.pushILInts _)) fun _ => ExL.ensureEmpty) ?_
  exact Drains.bind fun count => Drains.iteLe (Drains.fail _) fun _ => Drains.bind fun _ => Drains.bind fun _ =>
    Drains.bind fun _ => Drains.ensureEmpty

theorem Ex.strDict (hA : Adm A) {vs : Nat} : Ex vs fun _ _ _ => Atom.deserializeStrDict vs := by
  unfold Atom.deserializeStrDict
  refine Ex.withLimited vs (ExL.bind (ExL.ofS (A := A) (RepS.onReader Rep.ilint)) fun count =>
    ExL.bind (ExL.ofS (A := A) (RepS.set _)) fun _ =>
      ExL.bind (ExL.ofS (A := A) (RepS.insertStrEntries hA _)) fun _ => ExL.ensureEmpty) ?_
  exact Drains.bind fun count => Drains.bind fun _ => Drains.bind fun _ => Drains.ensureEmpty

theorem Ex.range {A : Nat → Nat → Prop} (_hA : Adm A) {vs : Nat} : Ex vs fun _ _ _ => Atom.deserializeRange vs := by
  unfold Atom.deserializeRange
  refine Ex.withLimited vs (ExL.bind (ExL.ofS (A := A) (RepS.onReader Rep.ilint)) fun count =>
    ExL.bind (ExL.ofS (A := A) (RepS.modify _)) fun _ =>
      ExL.bind (ExL.ofS (A := A) (RepS.onReader Rep.u16)) fun _ =>
        ExL.bind (ExL.ofS (A := A) (RepS.modify _)) fun _ => ExL.ensureEmpty) ?_
  exact Drains.bind fun count => Drains.bind fun _ => Drains.bind fun _ => Drains.bind fun _ => Drains.ensureEmpty

theorem Ex.atomValue [TagPayload P] (hA : Adm A) {f : GenF P} {vs : Nat} (h : vs ≤ maxTagSize)
    (a : Atom P) (hk : a.kind ≠ .ilint ∧ a.kind ≠ .signedILInt ∧ a.kind ≠ .payload) :
    Ex vs fun E _ _ => Atom.deserializeValue (f E) vs a := by
  cases a with
  | null id =>
    intro E σ i t s k hle
    simp only [Atom.deserializeValue, Act.guardE]
    by_cases h0 : vs = 0
    · simp only [h0, if_true]; exact ⟨k, by omega, by omega, fun _ => rfl, rfl⟩
    · simp only [h0, if_false]; exact ⟨k, by omega, by omega, fun h => (by cases h), rfl⟩
  | bool id b =>
    exact Ex.guard _ _ fun hc => Ex.cast (Ex.after (Ex.onReader Ex1.u8) fun v =>
      Ex.ite (Ex.set _) (Ex.ite (Ex.set _) (Ex.fail _ _))) hc.symm
  | int8 id v => exact Ex.fixed Ex1.i8 _ _
  | uint8 id v => exact Ex.fixed Ex1.u8 _ _
  | int16 id v => exact Ex.fixed Ex1.i16 _ _
  | uint16 id v => exact Ex.fixed Ex1.u16 _ _
  | int32 id v => exact Ex.fixed Ex1.i32 _ _
  | uint32 id v => exact Ex.fixed Ex1.u32 _ _
  | int64 id v => exact Ex.fixed Ex1.i64 _ _
  | uint64 id v => exact Ex.fixed Ex1.u64 _ _
  | bin32 id v => exact Ex.fixed (m := fun _ _ _ => tagIo Data.readF32) Ex1.u32 _ _
  | bin64 id v => exact Ex.fixed (m := fun _ _ _ => tagIo Data.readF64) Ex1.u64 _ _
  | bin128 id v =>
    refine Ex.guard _ _ fun hc => Ex.cast (Ex.after (Ex.onReader (Ex1.readAll 16)) fun v => ?_) hc.symm
    by_cases hv : v.length = 16
    · simp only [hv, dite_true]; exact Ex.set _
    · simp only [hv, dite_false]; exact Ex.lift .panic 0 fun _ => rfl
  | ilint id v => exact absurd rfl hk.1
  | signedILInt id v => exact absurd rfl hk.2.1
  | raw id v => exact Ex.zoom _ _ (Ex.bytesIntoVec vs)
  | byteArray v => exact Ex.zoom _ _ (Ex.bytesIntoVec vs)
  | string id v =>
    refine Ex.after (Ex.onReader (Ex1.bytes vs)) fun tmp => ?_
    cases fromUtf8 tmp with
    | none => exact Ex.fail _ _
    | some s => exact Ex.set _
  | bigInt v => exact Ex.zoom _ _ (Ex.bytesIntoVec vs)
  | bigDec id s v =>
    refine Ex.guard _ _ fun hc => Ex.cast (Ex.bind (Ex.onReader Ex1.i32) fun v => Ex.before (Ex.set _) fun _ =>
      Ex.zoom _ _ (Ex.bytesIntoVec (vs - 4))) (by omega)
  | ilintArray id v => exact Ex.zoom _ _ (Ex.ilintArray hA h)
  | range id a b => exact Ex.zoom (fun p => Atom.range id p.1 p.2) (a, b) (Ex.range hA)
  | version id a b c d =>
    exact Ex.guard _ _ fun hc => Ex.cast (
      Ex.bind (Ex.onReader Ex1.i32) fun _ => Ex.before (Ex.set _) fun _ =>
      Ex.bind (Ex.onReader Ex1.i32) fun _ => Ex.before (Ex.set _) fun _ =>
      Ex.bind (Ex.onReader Ex1.i32) fun _ => Ex.before (Ex.set _) fun _ =>
      Ex.after (Ex.onReader Ex1.i32) fun _ => Ex.set _) hc.symm
  | oid id v => exact Ex.zoom _ _ (Ex.ilintArray hA h)
  | strDict id es => exact Ex.zoom _ _ (Ex.strDict hA)
  | payload id p => exact absurd rfl hk.2.2

theorem ExL.pushWhile {f : GenF P} (hf : RepF A f) (n : Nat) : ExL fun E _ _ => Tag.pushWhileNotEmpty (f E) n := by
  induction n with
  | zero => exact ExL.lift .diverge
  | succ n ih =>
    have h := ExL.cond (τ := List (Tag P)) (c := fun _ n => (n == 0) = true) (ExL.lift (.ok ()))
      (ExL.bind (ExL.ofS (RepS.onReader (hf none))) fun t => ExL.bind (ExL.ofS (A := A) (RepS.modify (· ++ [t]))) fun _ => ih)
    exact h

theorem Drains.pushWhile (f : GenF P) (n : Nat) : Drains fun E _ _ => Tag.pushWhileNotEmpty (f E) n := by
  induction n with
  | zero => intro E σ i p h; cases h
  | succ n ih =>
    intro E σ i p
    simp only [Tag.pushWhileNotEmpty, Limited.empty]
    by_cases h : p.2.available = 0
    · simp [h]
    · have h' : (p.2.available == 0) = false := by simpa using h
      simp only [h', Bool.false_eq_true, if_false]
      exact Drains.bind (m := fun E σ i => onReader (@f E (Limited σ) inferInstance none)) (fun t => Drains.bind
        (m := fun _ _ _ => modifySelf (· ++ [t])) fun _ => ih) E σ i p

/-- The value of every tag but the two ILInt tags and the payloads stays within its size. -/
theorem Ex.tagValue [TagPayload P] (hA : Adm A) {f : GenF P} (hf : RepF A f) {vs : Nat} (h : vs ≤ maxTagSize)
    (t : Tag P) (hk : t.kind ≠ .ilint ∧ t.kind ≠ .signedILInt ∧ t.kind ≠ .payload) :
    Ex vs fun E _ _ => Tag.deserializeValue (f E) vs t := by
  cases t with
  | atom a => exact Ex.zoom _ _ (Ex.atomValue hA h a hk)
  | seq id ts =>
    refine Ex.zoom _ _ (m := fun E _ _ => Tag.deserializeSeq (f E) vs) ?_
    unfold Tag.deserializeSeq
    exact Ex.withLimited vs (ExL.bind (ExL.ofS (A := A) (RepS.set _)) fun _ => ExL.pushWhile hf _)
      (Drains.bind fun _ => Drains.pushWhile f _)
  | array id ts =>
    refine Ex.zoom _ _ (m := fun E _ _ => Tag.deserializeArray (f E) vs) ?_
    unfold Tag.deserializeArray
    refine Ex.withLimited vs (ExL.bind (ExL.ofS (A := A) (RepS.onReader Rep.ilint)) fun count =>
      ExL.iteLe (ExL.lift (.err _)) fun hc => ExL.bind (ExL.ofS (A := A) (RepS.set _)) fun _ =>
        ExL.bind (ExL.ofS (A := A) (RepS.alloc ((hA _ (by omega)).2.2))) fun _ =>
          ExL.bind (ExL.ofS (A := A) (RepS.pushTags hf _)) fun _ => ExL.ensureEmpty) ?_
    exact Drains.bind fun count => Drains.iteLe (Drains.fail _) fun _ => Drains.bind fun _ => Drains.bind fun _ =>
      Drains.bind fun _ => Drains.ensureEmpty
  | dict id es =>
    refine Ex.zoom _ _ (m := fun E _ _ => Tag.deserializeDict (f E) vs) ?_
    unfold Tag.deserializeDict
    refine Ex.withLimited vs (ExL.bind (ExL.ofS (A := A) (RepS.onReader Rep.ilint)) fun count =>
      ExL.bind (ExL.ofS (A := A) (RepS.set _)) fun _ =>
        ExL.bind (ExL.ofS (A := A) (RepS.insertEntries hA hf _)) fun _ => ExL.ensureEmpty) ?_
    exact Drains.bind fun count => Drains.bind fun _ => Drains.bind fun _ => Drains.ensureEmpty
end
end Verif
