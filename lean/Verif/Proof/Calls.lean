import Verif.Model.Factory
import Verif.Proof.ILInt
import Verif.Spec.Calls
/-!
# A potential for the calls of the deserializers

`φ` stands for the calls made minus twice the bytes delivered; `Gain φ c m` says that `m` lowers it by `c` when it
succeeds and raises it by at most 1 when it does not.
-/
namespace Verif
set_option linter.unusedSectionVars false

section
variable {ε σ τ τ' α β : Type}

def Gain (φ : σ → Int) (c : Int) (m : Act ε σ α) : Prop := ∀ s, match m s with
  | (.ok _, s') => φ s' ≤ φ s - c
  | (_, s') => φ s' ≤ φ s + 1

/-- The action leaves the potential as it is. -/
def Still (φ : σ → Int) (m : Act ε σ α) : Prop := ∀ s, φ (m s).2 = φ s

variable {φ : σ → Int} {c d : Int}

theorem Gain.mono {m : Act ε σ α} (h : Gain φ c m) (hd : d ≤ c) : Gain φ d m := by
  intro s
  have := h s
  revert this
  rcases m s with ⟨r, s'⟩
  cases r <;> intro h <;> simp only at h ⊢ <;> omega

theorem Still.gain {m : Act ε σ α} (h : Still φ m) (hd : d ≤ 0 := by omega) : Gain φ d m := by
  intro s
  have := h s
  revert this
  rcases m s with ⟨r, s'⟩
  cases r <;> intro h <;> simp only at h ⊢ <;> omega

theorem Gain.bind {m : Act ε σ α} {k : α → Act ε σ β} (h : Gain φ c m) (hk : ∀ a, Gain φ d (k a)) (hc : 0 ≤ c := by omega) :
    Gain φ (c + d) (m >>= k) := by
  intro s
  have h1 := h s
  rw [Act.bind_apply]
  rcases hm : m s with ⟨r, s'⟩
  rw [hm] at h1
  cases r with
  | ok a =>
    have h2 := hk a s'
    simp only at h1 ⊢
    revert h2
    rcases k a s' with ⟨r, s''⟩
    cases r <;> intro h <;> simp only at h ⊢ <;> omega
  | err e => exact h1
  | panic => exact h1
  | diverge => exact h1

/-- The second part does not call. -/
theorem Gain.still {m : Act ε σ α} {k : α → Act ε σ β} (h : Gain φ c m) (hk : ∀ a, Still φ (k a)) (hc : -1 ≤ c := by omega) :
    Gain φ c (m >>= k) := by
  intro s
  have h1 := h s
  rw [Act.bind_apply]
  rcases hm : m s with ⟨r, s'⟩
  rw [hm] at h1
  cases r with
  | ok a =>
    have h2 := hk a s'
    simp only at h1 ⊢
    revert h2
    rcases k a s' with ⟨r, s''⟩
    cases r <;> intro h <;> simp only at h ⊢ <;> omega
  | err e => exact h1
  | panic => exact h1
  | diverge => exact h1

theorem Still.bind {m : Act ε σ α} {k : α → Act ε σ β} (h : Still φ m) (hk : ∀ a, Still φ (k a)) : Still φ (m >>= k) := by
  intro s
  have h1 := h s
  rw [Act.bind_apply]
  rcases hm : m s with ⟨r, s'⟩
  rw [hm] at h1
  cases r with
  | ok a => exact (hk a s').trans h1
  | err e => exact h1
  | panic => exact h1
  | diverge => exact h1

/-- The first part does not call. -/
theorem Gain.after {m : Act ε σ α} {k : α → Act ε σ β} (h : Still φ m) (hk : ∀ a, Gain φ c (k a)) : Gain φ c (m >>= k) := by
  have := Gain.bind (c := 0) h.gain hk
  rwa [Int.zero_add] at this

theorem Still.lift (r : Res ε α) : Still φ (Act.lift r) := fun _ => rfl
theorem Still.pure (a : α) : Still φ (Pure.pure a : Act ε σ α) := fun _ => rfl
theorem Still.fail (e : ε) : Still φ (Act.fail e : Act ε σ α) := fun _ => rfl
theorem Still.panic : Still φ (Act.panic : Act ε σ α) := fun _ => rfl
theorem Still.diverge : Still φ (Act.diverge : Act ε σ α) := fun _ => rfl
theorem Still.get : Still φ (Act.get : Act ε σ σ) := fun _ => rfl
theorem Still.guardE (p : Prop) [Decidable p] (e : ε) : Still φ (Act.guardE p e : Act ε σ Unit) := by
  intro s; unfold Act.guardE; split <;> rfl
theorem Still.alloc [Env] (u n : Nat) : Still φ (Data.alloc u n : Act ε σ Unit) := by
  intro s; unfold Data.alloc; split <;> rfl
theorem Still.ite {p : Prop} [Decidable p] {m m' : Act ε σ α} (h : Still φ m) (h' : Still φ m') :
    Still φ (if p then m else m') := by split <;> assumption
theorem Gain.ite {p : Prop} [Decidable p] {m m' : Act ε σ α} (h : Gain φ c m) (h' : Gain φ c m') :
    Gain φ c (if p then m else m') := by split <;> assumption

/-- A failure that does not call gains anything. -/
theorem Gain.never {m : Act ε σ α} (h : Still φ m) (hn : ∀ s a, (m s).1 ≠ .ok a) : Gain φ c m := by
  intro s
  have h1 := h s
  have h2 := hn s
  revert h1 h2
  rcases m s with ⟨r, s'⟩
  cases r with
  | ok a => intro _ h; exact absurd rfl (h a)
  | _ => intro h _; simp only at h ⊢; omega
theorem Gain.fail (e : ε) : Gain φ c (Act.fail e : Act ε σ α) := Gain.never (Still.fail e) nofun
theorem Gain.diverge : Gain φ c (Act.diverge : Act ε σ α) := Gain.never Still.diverge nofun

theorem Gain.mapErr {ε' : Type} {m : Act ε σ α} (g : ε → ε') (h : Gain φ c m) : Gain φ c (m.mapErr g) := by
  intro s
  have := h s
  rw [Act.mapErr_apply]
  revert this
  rcases m s with ⟨r, s'⟩
  cases r <;> exact fun h => h

theorem Gain.onReader {m : Act ε σ α} (h : Gain φ c m) : Gain (fun p : τ × σ => φ p.2) c (Verif.onReader m) := by
  intro s
  have := h s.2
  unfold Verif.onReader
  revert this
  rcases m s.2 with ⟨r, s'⟩
  cases r <;> exact fun h => h

theorem Still.set (t : τ) : Still (fun p : τ × σ => φ p.2) (setSelf t : Act ε (τ × σ) Unit) := fun _ => rfl
theorem Still.modify (f : τ → τ) : Still (fun p : τ × σ => φ p.2) (modifySelf f : Act ε (τ × σ) Unit) := fun _ => rfl

theorem Gain.zoom {wrap : τ → τ'} {t : τ} {m : Act ε (τ × σ) α} (h : Gain (fun p : τ × σ => φ p.2) c m) :
    Gain (fun p : τ' × σ => φ p.2) c (Verif.zoom wrap t m) := by
  intro s
  have := h (t, s.2)
  unfold Verif.zoom
  revert this
  rcases m (t, s.2) with ⟨r, t', s'⟩
  cases r <;> exact fun h => h

theorem Gain.withLimited {n : Nat} {m : Act ε (τ × Limited σ) α} (h : Gain (fun p : τ × Limited σ => φ p.2.source) c m) :
    Gain (fun p : τ × σ => φ p.2) c (Verif.withLimited n m) := by
  intro s
  have := h (s.1, ⟨s.2, n⟩)
  unfold Verif.withLimited
  revert this
  rcases m (s.1, ⟨s.2, n⟩) with ⟨r, t', s'⟩
  cases r <;> exact fun h => h

theorem Still.ensureEmpty : Still (fun p : τ × Limited σ => φ p.2.source) Verif.ensureEmpty := by
  intro s; unfold Verif.ensureEmpty; split <;> rfl

end

/-- `φ` counts the calls of the reader. -/
class Meter {σ : Type} [Reader σ] (φ : σ → Int) : Prop where
  read : Gain φ 1 (Reader.read : Act IoErr σ Byte)
  readAll : ∀ n : Nat, Gain φ (2 * n - 1) (Reader.readAll n : Act IoErr σ Bytes)

instance {σ : Type} [Reader σ] : Meter (fun w : Spec.Counted σ => (w.calls : Int) - 2 * w.bytes) where
  read := by
    intro s
    simp only [Reader.read, Spec.Counted.count]
    rcases Reader.read s.source with ⟨r, s'⟩
    cases r <;> simp only <;> omega
  readAll n := by
    intro s
    simp only [Reader.readAll, Spec.Counted.count]
    rcases h : Reader.readAll n s.source with ⟨r, s'⟩
    cases r with
    | ok bs => simp only [Reader.readAll_len n _ _ _ h]; omega
    | _ => simp only; omega

section
variable {σ : Type} [Reader σ] {φ : σ → Int} [Meter φ]

/-- A limited reader calls its source at most once per call. -/
instance : Meter (fun l : Limited σ => φ l.source) where
  read := by
    intro l
    have h := Meter.read (φ := φ) l.source
    simp only [Reader.read, Limited.read, Limited.canRead]
    by_cases h1 : 1 > l.available
    · simp only [h1, if_true]; omega
    · simp only [h1, if_false]
      revert h
      rcases Reader.read l.source with ⟨r, s'⟩
      cases r <;> exact fun h => h
  readAll n := by
    intro l
    have h := Meter.readAll (φ := φ) n l.source
    simp only [Reader.readAll, Limited.readAll, Limited.canRead]
    by_cases h1 : n > l.available
    · simp only [h1, if_true]; omega
    · simp only [h1, if_false]
      revert h
      rcases Reader.readAll n l.source with ⟨r, s'⟩
      cases r <;> exact fun h => h

theorem Gain.read : Gain φ 1 (tagIo Reader.read : Act TagErr σ Byte) := Gain.mapErr _ Meter.read
theorem Gain.readAll (n : Nat) : Gain φ (2 * n - 1) (tagIo (Reader.readAll n) : Act TagErr σ Bytes) :=
  Gain.mapErr _ (Meter.readAll n)

theorem Gain.decode : Gain φ 1 (ILInt.decode : Act ILIntErr σ UInt64) := by
  unfold ILInt.decode
  refine Gain.mono (Gain.bind (d := 0) (Gain.mapErr _ Meter.read) fun h => ?_) (by omega)
  simp only
  by_cases hs : ILInt.decodedSize h = 1
  · rw [if_pos hs]; exact (Still.pure _).gain
  · rw [if_neg hs]
    have h2 : 2 ≤ ILInt.decodedSize h := by
      rw [ILInt.decodedSize_eq] at hs ⊢
      split at hs <;> split <;> omega
    exact Gain.mono (Gain.still (Gain.mapErr _ (Meter.readAll _)) fun _ => Still.lift _) (by omega)

theorem Gain.ilint : Gain φ 1 (Ser.deserializeILInt : Act TagErr σ UInt64) := Gain.mapErr _ (Gain.mapErr _ Gain.decode)
theorem Gain.signedILInt : Gain φ 1 (Ser.deserializeSignedILInt : Act TagErr σ Int64) :=
  Gain.mapErr _ (Gain.mapErr _ (Gain.still Gain.decode fun _ => Still.pure _))

theorem Gain.u8 : Gain φ 1 (tagIo Data.readU8 : Act TagErr σ _) := Gain.read
theorem Gain.i8 : Gain φ 1 (tagIo Data.readI8 : Act TagErr σ _) := Gain.mapErr _ (Gain.still Meter.read fun _ => Still.pure _)
theorem Gain.u16 : Gain φ 3 (tagIo Data.readU16 : Act TagErr σ _) := Gain.mapErr _ (Gain.still (Meter.readAll 2) fun _ => Still.pure _)
theorem Gain.i16 : Gain φ 3 (tagIo Data.readI16 : Act TagErr σ _) := Gain.mapErr _ (Gain.still (Meter.readAll 2) fun _ => Still.pure _)
theorem Gain.u32 : Gain φ 7 (tagIo Data.readU32 : Act TagErr σ _) := Gain.mapErr _ (Gain.still (Meter.readAll 4) fun _ => Still.pure _)
theorem Gain.i32 : Gain φ 7 (tagIo Data.readI32 : Act TagErr σ _) := Gain.mapErr _ (Gain.still (Meter.readAll 4) fun _ => Still.pure _)
theorem Gain.u64 : Gain φ 15 (tagIo Data.readU64 : Act TagErr σ _) := Gain.mapErr _ (Gain.still (Meter.readAll 8) fun _ => Still.pure _)
theorem Gain.i64 : Gain φ 15 (tagIo Data.readI64 : Act TagErr σ _) := Gain.mapErr _ (Gain.still (Meter.readAll 8) fun _ => Still.pure _)

variable [Env]

theorem Gain.bytes (n : Nat) : Gain φ (-1) (Ser.deserializeBytes n : Act TagErr σ Bytes) :=
  Gain.after (Still.alloc _ _) fun _ => Gain.mono (Gain.readAll n) (by omega)

theorem Gain.bytesIntoVec (n : Nat) : Gain (fun p : Bytes × σ => φ p.2) (-1) (deserializeBytesIntoVec n) :=
  Gain.after (Still.alloc _ _) fun _ => Gain.after (Still.modify _) fun _ =>
    Gain.still (Gain.mono (Gain.onReader (Gain.readAll n)) (by omega)) fun _ => Still.set _

theorem Gain.stringTag : Gain φ 1 (deserializeStringTag : Act TagErr σ String) := by
  unfold deserializeStringTag
  refine Gain.mono (Gain.bind (d := 0) Gain.ilint fun id => Gain.ite (Gain.fail _) ?_) (by omega)
  refine Gain.mono (Gain.bind (d := -1) Gain.ilint fun len => Gain.after (Still.lift _) fun n => ?_) (by omega)
  refine Gain.still (Gain.bytes n) fun tmp => ?_
  cases fromUtf8 tmp
  · exact Still.fail _
  · exact Still.pure _

/-! ### The deserializers -/

variable {P : Type}

/-- The factory does not lose. -/
def GainF (f : FactoryDeser P) : Prop := ∀ (σ : Type) [Reader σ] (φ : σ → Int) [Meter φ], ∀ o : Option (Tag P), Gain φ 0 (f σ o)

/-- At most one call more than twice the bytes, and one more if it fails. -/
def Loss {ε σ α : Type} (φ : σ → Int) (m : Act ε σ α) : Prop := ∀ s, match m s with
  | (.ok _, s') => φ s' ≤ φ s + 1
  | (_, s') => φ s' ≤ φ s + 2

omit [Reader σ] [Meter φ] [Env] in
theorem Loss.still {ε α β : Type} {m : Act ε σ α} {k : α → Act ε σ β} (h : Loss φ m) (hk : ∀ a, Still φ (k a)) :
    Loss φ (m >>= k) := by
  intro s
  have h1 := h s
  rw [Act.bind_apply]
  rcases hm : m s with ⟨r, s'⟩
  rw [hm] at h1
  cases r with
  | ok a =>
    have h2 := hk a s'
    simp only at h1 ⊢
    revert h2
    rcases k a s' with ⟨r, s''⟩
    cases r <;> intro h <;> simp only at h ⊢ <;> omega
  | err e => exact h1
  | panic => exact h1
  | diverge => exact h1

omit [Reader σ] [Meter φ] [Env] in
theorem Gain.loss {ε α : Type} {m : Act ε σ α} {c : Int} (h : Gain φ c m) (hc : -1 ≤ c := by omega) : Loss φ m := by
  intro s
  have := h s
  revert this
  rcases m s with ⟨r, s'⟩
  cases r <;> intro h <;> simp only at h ⊢ <;> omega

omit [Reader σ] [Meter φ] [Env] in
theorem Loss.zoom {ε τ τ' α : Type} {wrap : τ → τ'} {t : τ} {m : Act ε (τ × σ) α} (h : Loss (fun p : τ × σ => φ p.2) m) :
    Loss (fun p : τ' × σ => φ p.2) (Verif.zoom wrap t m) := by
  intro s
  have := h (t, s.2)
  unfold Verif.zoom
  revert this
  rcases m (t, s.2) with ⟨r, t', s'⟩
  cases r <;> exact fun h => h

omit [Reader σ] [Meter φ] [Env] in
theorem Loss.withLimited {ε τ α : Type} {n : Nat} {m : Act ε (τ × Limited σ) α}
    (h : Loss (fun p : τ × Limited σ => φ p.2.source) m) :
    Loss (fun p : τ × σ => φ p.2) (Verif.withLimited n m) := by
  intro s
  have := h (s.1, ⟨s.2, n⟩)
  unfold Verif.withLimited
  revert this
  rcases m (s.1, ⟨s.2, n⟩) with ⟨r, t', s'⟩
  cases r <;> exact fun h => h

omit [Env] in
theorem rprog_calls {f : FactoryDeser P} (hf : GainF f) (r : RProg P) (n : Nat) (h : Spec.Frugal n r) (q : P × σ) :
    match RProg.run f r q with
    | (.ok _, q') => φ q'.2 ≤ φ q.2 + n
    | (_, q') => φ q'.2 ≤ φ q.2 + n + 1 := by
  induction r generalizing n q with
  | done r p => cases r <;> simp only [RProg.run] <;> omega
  | read k ih =>
    simp only [RProg.run, Act.bind_apply]
    have h1 := Gain.onReader (τ := P) (Gain.read (φ := φ)) q
    rcases hm : (onReader (tagIo Reader.read) : Act TagErr (P × σ) Byte) q with ⟨r, q'⟩
    rw [hm] at h1
    cases r with
    | ok b =>
      have h2 := ih b (n + 1) (h b) q'
      simp only at h1 ⊢
      revert h2
      rcases RProg.run f (k b) q' with ⟨r, q''⟩
      cases r <;> intro h <;> simp only at h ⊢ <;> omega
    | _ => simp only at h1 ⊢; omega
  | readAll c k ih =>
    simp only [RProg.run, Act.bind_apply]
    have h1 := Gain.onReader (τ := P) (Gain.readAll (φ := φ) c) q
    rcases hm : (onReader (tagIo (Reader.readAll c)) : Act TagErr (P × σ) Bytes) q with ⟨r, q'⟩
    rw [hm] at h1
    cases r with
    | ok b =>
      have h0 := h.1
      have h2 := ih b _ (h.2 b) q'
      simp only at h1 ⊢
      revert h2
      rcases RProg.run f (k b) q' with ⟨r, q''⟩
      cases r <;> intro h <;> simp only at h ⊢ <;> omega
    | _ => simp only at h1 ⊢; omega
  | deser k ih =>
    simp only [RProg.run, Act.bind_apply]
    have h1 := Gain.onReader (τ := P) (hf σ φ none) q
    rcases hm : (onReader (f σ none) : Act TagErr (P × σ) (Tag P)) q with ⟨r, q'⟩
    rw [hm] at h1
    cases r with
    | ok b =>
      have h2 := ih b n (h b) q'
      simp only at h1 ⊢
      revert h2
      rcases RProg.run f (k b) q' with ⟨r, q''⟩
      cases r <;> intro h <;> simp only at h ⊢ <;> omega
    | _ => simp only at h1 ⊢; omega
  | into t k ih =>
    simp only [RProg.run, Act.bind_apply]
    have h1 := Gain.onReader (τ := P) (hf σ φ (some t)) q
    rcases hm : (onReader (f σ (some t)) : Act TagErr (P × σ) (Tag P)) q with ⟨r, q'⟩
    rw [hm] at h1
    cases r with
    | ok b =>
      have h2 := ih b n (h b) q'
      simp only at h1 ⊢
      revert h2
      rcases RProg.run f (k b) q' with ⟨r, q''⟩
      cases r <;> intro h <;> simp only at h ⊢ <;> omega
    | _ => simp only at h1 ⊢; omega

theorem Gain.pushILInts (n : Nat) : Gain (fun p : List UInt64 × σ => φ p.2) 0 (Atom.pushILInts n) := by
  induction n with
  | zero => exact (Still.pure ()).gain
  | succ n ih =>
    exact Gain.mono (Gain.bind (Gain.onReader Gain.ilint) fun v => Gain.after (Still.modify _) fun _ => ih) (by omega)

theorem Gain.ilintArray (n : Nat) : Gain (fun p : List UInt64 × σ => φ p.2) 0 (Atom.deserializeILIntArray n) := by
  unfold Atom.deserializeILIntArray
  refine Gain.withLimited ?_
  refine Gain.mono (Gain.bind (d := 0) (Gain.onReader (φ := fun l : Limited σ => φ l.source) Gain.ilint) fun count =>
    Gain.ite (Gain.fail _) (Gain.after (Still.set (φ := fun l : Limited σ => φ l.source) _) fun _ =>
      Gain.after (Still.alloc _ _) fun _ =>
      Gain.still (Gain.pushILInts (φ := fun l : Limited σ => φ l.source) _) fun _ => Still.ensureEmpty)) (by omega)

theorem Gain.insertStrEntries (n : Nat) : Gain (fun p : List (String × String) × σ => φ p.2) 0 (Atom.insertStrEntries n) := by
  induction n with
  | zero => exact (Still.pure ()).gain
  | succ n ih =>
    exact Gain.mono (Gain.bind (Gain.onReader Gain.stringTag) fun k => Gain.bind (Gain.onReader Gain.stringTag) fun v =>
      Gain.after (Still.modify _) fun _ => ih) (by omega)

theorem Gain.strDict (n : Nat) : Gain (fun p : List (String × String) × σ => φ p.2) 0 (Atom.deserializeStrDict n) := by
  unfold Atom.deserializeStrDict
  refine Gain.withLimited ?_
  exact Gain.mono (Gain.bind (d := 0) (Gain.onReader (φ := fun l : Limited σ => φ l.source) Gain.ilint) fun count =>
    Gain.after (Still.set (φ := fun l : Limited σ => φ l.source) _) fun _ =>
      Gain.still (Gain.insertStrEntries (φ := fun l : Limited σ => φ l.source) _) fun _ => Still.ensureEmpty) (by omega)

theorem Gain.range (n : Nat) : Gain (fun p : (UInt64 × UInt16) × σ => φ p.2) 0 (Atom.deserializeRange n) := by
  unfold Atom.deserializeRange
  refine Gain.withLimited ?_
  exact Gain.mono (Gain.bind (d := 3) (Gain.onReader (φ := fun l : Limited σ => φ l.source) Gain.ilint) fun start =>
    Gain.after (Still.modify (φ := fun l : Limited σ => φ l.source) _) fun _ =>
      Gain.still (Gain.onReader (φ := fun l : Limited σ => φ l.source) Gain.u16) fun _ =>
        Still.bind (Still.modify (φ := fun l : Limited σ => φ l.source) _) fun _ => Still.ensureEmpty) (by omega)

/-- A fixed-size value: check, read, store. -/
theorem Gain.fixed {τ α : Type} {m : Act TagErr σ α} {d : Int} (h : Gain φ d m) (p : Prop) [Decidable p] (e : TagErr) (g : α → τ)
    (hd : 0 ≤ d := by omega) :
    Gain (fun p : τ × σ => φ p.2) 0 (Act.guardE p e >>= fun _ => Verif.onReader m >>= fun v => setSelf (g v)) :=
  Gain.after (Still.guardE _ _) fun _ => Gain.mono (Gain.still (Gain.onReader h) fun _ => Still.set _) hd

theorem Loss.atomValue [TagPayload P] (hp : Spec.FrugalPayloads P) {f : FactoryDeser P} (hf : GainF f) (vs : Nat) (a : Atom P) :
    Loss (fun p : Atom P × σ => φ p.2) (Atom.deserializeValue f vs a) := by
  cases a with
  | null id => exact (Still.guardE _ _).gain (d := 0) |>.loss
  | bool id b =>
    exact Gain.loss (Gain.after (Still.guardE _ _) fun _ => Gain.still (Gain.onReader Gain.u8) fun v =>
      Still.ite (Still.set _) (Still.ite (Still.set _) (Still.fail _)))
  | int8 id v => exact (Gain.fixed Gain.i8 _ _ _).loss
  | uint8 id v => exact (Gain.fixed Gain.u8 _ _ _).loss
  | int16 id v => exact (Gain.fixed Gain.i16 _ _ _).loss
  | uint16 id v => exact (Gain.fixed Gain.u16 _ _ _).loss
  | int32 id v => exact (Gain.fixed Gain.i32 _ _ _).loss
  | uint32 id v => exact (Gain.fixed Gain.u32 _ _ _).loss
  | int64 id v => exact (Gain.fixed Gain.i64 _ _ _).loss
  | uint64 id v => exact (Gain.fixed Gain.u64 _ _ _).loss
  | bin32 id v => exact (Gain.fixed Gain.u32 _ _ _).loss
  | bin64 id v => exact (Gain.fixed Gain.u64 _ _ _).loss
  | bin128 id v =>
    refine Gain.loss (Gain.after (Still.guardE _ _) fun _ => Gain.still (Gain.onReader (Gain.readAll 16)) fun v => ?_)
    by_cases hv : v.length = 16
    · simp only [hv, dite_true]; exact Still.set _
    · simp only [hv, dite_false]; exact Still.panic
  | ilint id v => exact (Gain.still (Gain.onReader Gain.ilint) fun v => Still.set _).loss
  | signedILInt id v => exact (Gain.still (Gain.onReader Gain.signedILInt) fun v => Still.set _).loss
  | raw id v => exact (Gain.zoom (Gain.bytesIntoVec vs)).loss
  | byteArray v => exact (Gain.zoom (Gain.bytesIntoVec vs)).loss
  | string id v =>
    refine Gain.loss (Gain.still (Gain.onReader (Gain.bytes vs)) fun tmp => ?_)
    cases fromUtf8 tmp with
    | none => exact Still.fail _
    | some s => exact Still.set _
  | bigInt v => exact (Gain.zoom (Gain.bytesIntoVec vs)).loss
  | bigDec id s v =>
    exact (Gain.after (Still.guardE _ _) fun _ => Gain.bind (Gain.onReader Gain.i32) fun v => Gain.after (Still.set _) fun _ =>
      Gain.zoom (Gain.bytesIntoVec _)).loss
  | ilintArray id v => exact (Gain.zoom (Gain.ilintArray vs)).loss
  | range id a b =>
    exact Gain.loss (Gain.zoom (φ := φ) (wrap := fun p => Atom.range id p.1 p.2) (t := (a, b)) (Gain.range (φ := φ) vs))
  | version id a b c d =>
    exact (Gain.after (Still.guardE _ _) fun _ =>
      Gain.bind (Gain.onReader Gain.i32) fun _ => Gain.after (Still.set _) fun _ =>
      Gain.bind (Gain.onReader Gain.i32) fun _ => Gain.after (Still.set _) fun _ =>
      Gain.bind (Gain.onReader Gain.i32) fun _ => Gain.after (Still.set _) fun _ =>
      Gain.still (Gain.onReader Gain.i32) fun _ => Still.set _).loss
  | oid id v => exact (Gain.zoom (Gain.ilintArray vs)).loss
  | strDict id es => exact (Gain.zoom (Gain.strDict vs)).loss
  | payload id p =>
    refine Loss.zoom fun q => ?_
    have := rprog_calls (φ := φ) hf _ 1 (hp p vs) q
    revert this
    rcases RProg.run f (TagPayload.deserialize p vs) q with ⟨r, q'⟩
    cases r <;> intro h <;> simp only at h ⊢ <;> omega

theorem Gain.pushTags {f : FactoryDeser P} (hf : GainF f) (n : Nat) :
    Gain (fun p : List (Tag P) × σ => φ p.2) 0 (Tag.pushTags f n) := by
  induction n with
  | zero => exact (Still.pure ()).gain
  | succ n ih => exact Gain.bind (Gain.onReader (hf σ φ none)) fun v => Gain.after (Still.modify _) fun _ => ih

theorem Gain.pushWhile {f : FactoryDeser P} (hf : GainF f) (n : Nat) :
    Gain (fun p : List (Tag P) × Limited σ => φ p.2.source) 0 (Tag.pushWhileNotEmpty f n) := by
  induction n with
  | zero => exact Gain.diverge
  | succ n ih =>
    intro q
    have h := Gain.bind (Gain.onReader (τ := List (Tag P)) (hf (Limited σ) (fun l => φ l.source) none)) (fun t =>
      Gain.after (Still.modify (φ := fun l : Limited σ => φ l.source) (· ++ [t])) fun _ => ih) (by omega) q
    simp only [Tag.pushWhileNotEmpty]
    by_cases he : q.2.empty = true
    · simp only [he, if_true]; omega
    · simp only [he]; exact h

theorem Gain.insertEntries {f : FactoryDeser P} (hf : GainF f) (n : Nat) :
    Gain (fun p : List (String × Tag P) × σ => φ p.2) 0 (Tag.insertEntries f n) := by
  induction n with
  | zero => exact (Still.pure ()).gain
  | succ n ih =>
    exact Gain.mono (Gain.bind (Gain.onReader Gain.stringTag) fun k => Gain.bind (Gain.onReader (hf σ φ none)) fun v =>
      Gain.after (Still.modify _) fun _ => ih) (by omega)

theorem Loss.tagValue [TagPayload P] (hp : Spec.FrugalPayloads P) {f : FactoryDeser P} (hf : GainF f) (vs : Nat) (t : Tag P) :
    Loss (fun p : Tag P × σ => φ p.2) (Tag.deserializeValue f vs t) := by
  cases t with
  | atom a => exact Loss.zoom (Loss.atomValue hp hf vs a)
  | seq id ts =>
    rw [Tag.deserializeValue]
    refine Gain.loss (c := 0) (Gain.zoom (φ := φ) ?_)
    unfold Tag.deserializeSeq
    exact Gain.withLimited (Gain.after (Still.set (φ := fun l : Limited σ => φ l.source) _) fun _ => Gain.pushWhile hf _)
  | array id ts =>
    rw [Tag.deserializeValue]
    refine Gain.loss (c := 0) (Gain.zoom (φ := φ) ?_)
    unfold Tag.deserializeArray
    refine Gain.withLimited ?_
    exact Gain.mono (Gain.bind (d := 0) (Gain.onReader (φ := fun l : Limited σ => φ l.source) Gain.ilint) fun count =>
      Gain.ite (Gain.fail _) (Gain.after (Still.set (φ := fun l : Limited σ => φ l.source) _) fun _ =>
        Gain.after (Still.alloc _ _) fun _ =>
        Gain.still (Gain.pushTags (φ := fun l : Limited σ => φ l.source) hf _) fun _ => Still.ensureEmpty)) (by omega)
  | dict id es =>
    rw [Tag.deserializeValue]
    refine Gain.loss (c := 0) (Gain.zoom (φ := φ) ?_)
    unfold Tag.deserializeDict
    refine Gain.withLimited ?_
    exact Gain.mono (Gain.bind (d := 0) (Gain.onReader (φ := fun l : Limited σ => φ l.source) Gain.ilint) fun count =>
      Gain.after (Still.set (φ := fun l : Limited σ => φ l.source) _) fun _ =>
        Gain.still (Gain.insertEntries (φ := fun l : Limited σ => φ l.source) hf _) fun _ => Still.ensureEmpty) (by omega)

theorem Loss.tagValueInto [TagPayload P] (hp : Spec.FrugalPayloads P) {f : FactoryDeser P} (hf : GainF f) (vs : Nat) :
    Loss (fun p : Tag P × σ => φ p.2) (Factory.deserializeTagValueInto f vs) := by
  unfold Factory.deserializeTagValueInto
  refine Loss.withLimited fun q => ?_
  refine Loss.still (Loss.tagValue (φ := fun l : Limited σ => φ l.source) hp hf vs q.1) (fun _ q => ?_) q
  unfold Factory.checkEmpty
  split <;> rfl

omit [Reader σ] [Meter φ] [Env] in
/-- Something that gains at least one, then something that loses at most one. -/
theorem Gain.bindLoss {ε α β : Type} {m : Act ε σ α} {k : α → Act ε σ β} (h : Gain φ 1 m) (hk : ∀ a, Loss φ (k a)) :
    Gain φ 0 (m >>= k) := by
  intro s
  have h1 := h s
  rw [Act.bind_apply]
  rcases hm : m s with ⟨r, s'⟩
  rw [hm] at h1
  cases r with
  | ok a =>
    have h2 := hk a s'
    simp only at h1 ⊢
    revert h2
    rcases k a s' with ⟨r, s''⟩
    cases r <;> intro h <;> simp only at h ⊢ <;> omega
  | err e => exact h1
  | panic => exact h1
  | diverge => exact h1

theorem Gain.tagSize (id : UInt64) : Gain φ 0 (Factory.deserializeTagSize id : Act TagErr σ Nat) := by
  unfold Factory.deserializeTagSize
  split
  · exact ((Still.pure _).bind fun _ => Still.lift _).gain
  · exact Gain.mono (Gain.still Gain.ilint fun _ => Still.lift _) (by omega)

omit [Env] in
theorem Loss.fill {f : Act TagErr (Tag P × σ) Unit} (h : Loss (fun p : Tag P × σ => φ p.2) f) (t : Tag P) :
    Loss φ fun s => match f (t, s) with
      | (r, (t, s')) => (r.map fun _ => t, s') := by
  intro s
  have h := h (t, s)
  dsimp only
  revert h
  rcases f (t, s) with ⟨r, t', s'⟩
  cases r <;> exact fun h => h

/-- The size field, then something that loses at most one. -/
theorem Loss.afterSize {α : Type} (id : UInt64) {k : Nat → Act TagErr σ α} (hk : ∀ n, Loss φ (k n)) :
    Loss φ (Factory.deserializeTagSize id >>= k) := by
  intro s
  have h1 := Gain.tagSize (φ := φ) id s
  rw [Act.bind_apply]
  rcases hm : (Factory.deserializeTagSize id : Act TagErr σ Nat) s with ⟨r, s'⟩
  rw [hm] at h1
  cases r with
  | ok a =>
    have h2 := hk a s'
    simp only at h1 ⊢
    revert h2
    rcases k a s' with ⟨r, s''⟩
    cases r <;> intro h <;> simp only at h ⊢ <;> omega
  | _ => simp only at h1 ⊢; omega

theorem Gain.deserializeFuel [TagPayload P] (hp : Spec.FrugalPayloads P) (e : Engine P) (n : Nat) :
    GainF (Factory.deserializeFuel e n) := by
  induction n with
  | zero => intro σ _ φ _ o; exact Gain.diverge
  | succ n ih =>
    intro σ _ φ _ o
    simp only [Factory.deserializeFuel]
    cases o with
    | none =>
      refine Gain.bindLoss Gain.ilint fun id => Loss.afterSize id fun size s => ?_
      rw [Act.bind_apply]
      cases e.createTag id with
      | ok t =>
        cases t with
        | none => simp only [Act.lift, Act.fail]; omega
        | some t => exact Loss.fill (φ := φ) (Loss.tagValueInto (φ := φ) hp ih size) t s
      | _ => simp only [Act.lift]; omega
    | some t =>
      refine Gain.bindLoss Gain.ilint fun id => ?_
      split
      · exact (Gain.fail (φ := φ) (c := 0) _).loss
      · exact Loss.afterSize id fun size => Loss.fill (φ := φ) (Loss.tagValueInto (φ := φ) hp ih size) t

theorem Gain.deserialize [TagPayload P] (hp : Spec.FrugalPayloads P) (e : Engine P) (σ : Type) [Reader σ] (φ : σ → Int)
    [Meter φ] : Gain φ 0 (Factory.deserialize e σ) :=
  Gain.deserializeFuel hp e _ σ φ none

end
end Verif
