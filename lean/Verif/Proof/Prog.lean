import Verif.Model.Factory
import Verif.Spec.Prog
/-!
# Deserialization as a tree of reader calls

Everything the deserializers do with a reader, whatever the reader, is one finite tree of `read` and `read_all` calls
and allocation requests in which a failing call ends the work.  `Rep` says that an action is such a tree.
-/
namespace Verif
set_option linter.unusedSectionVars false

namespace Prog
variable {τ τ' α β : Type}

section
variable {A : Nat → Nat → Prop}

theorem allocs_bind {p : Prog τ α} {f : α → τ → Prog τ β} (h : p.allocs A) (hf : ∀ a t, (f a t).allocs A) :
    (p.bind f).allocs A := by
  induction p with
  | done r t => cases r <;> first | exact hf _ _ | trivial
  | read t k ih => exact fun b => ih b (h b)
  | readAll t n k ih => exact fun b => ih b (h b)
  | alloc t u c k ih => exact ⟨h.1, ih h.2⟩

theorem allocs_mapT {p : Prog τ α} {g : τ → τ'} (h : p.allocs A) : (p.mapT g).allocs A := by
  induction p with
  | done r t => trivial
  | read t k ih => exact fun b => ih b (h b)
  | readAll t n k ih => exact fun b => ih b (h b)
  | alloc t u c k ih => exact ⟨h.1, ih h.2⟩

theorem allocs_limit {p : Prog τ α} (n : Nat) (h : p.allocs A) : (p.limit n).allocs A := by
  induction p generalizing n with
  | done r t => trivial
  | read t k ih =>
    simp only [limit]
    split
    · trivial
    · exact fun b => ih b _ (h b)
  | readAll t c k ih =>
    simp only [limit]
    split
    · trivial
    · exact fun b => ih b _ (h b)
  | alloc t u c k ih => exact ⟨h.1, ih n h.2⟩

end

variable [Env] {σ : Type} [Reader σ]

theorem run_bind (p : Prog τ α) (f : α → τ → Prog τ β) (s : σ) :
    (p.bind f).run s = match p.run s with
      | (.ok a, (t, s')) => (f a t).run s'
      | (.err e, q) => (.err e, q)
      | (.panic, q) => (.panic, q)
      | (.diverge, q) => (.diverge, q) := by
  induction p generalizing s with
  | done r t => cases r <;> rfl
  | read t k ih =>
    simp only [bind, run]
    rcases Reader.read s with ⟨r, s'⟩
    cases r <;> simp [ih]
  | readAll t n k ih =>
    simp only [bind, run]
    rcases Reader.readAll n s with ⟨r, s'⟩
    cases r <;> simp [ih]
  | alloc t u c k ih =>
    simp only [bind, run]
    split
    · exact ih s
    · rfl

theorem run_mapT (g : τ → τ') (p : Prog τ α) (s : σ) :
    (p.mapT g).run s = ((p.run s).1, (g (p.run s).2.1, (p.run s).2.2)) := by
  induction p generalizing s with
  | done r t => rfl
  | read t k ih =>
    simp only [mapT, run]
    rcases Reader.read s with ⟨r, s'⟩
    cases r <;> simp [ih]
  | readAll t n k ih =>
    simp only [mapT, run]
    rcases Reader.readAll n s with ⟨r, s'⟩
    cases r <;> simp [ih]
  | alloc t u c k ih =>
    simp only [mapT, run]
    split
    · exact ih s
    · rfl

theorem run_limit (n : Nat) (p : Prog τ α) (s : σ) :
    p.run (⟨s, n⟩ : Limited σ) = (((limit n p).run s).1,
      (((limit n p).run s).2.1.1, ⟨((limit n p).run s).2.2, ((limit n p).run s).2.1.2⟩)) := by
  induction p generalizing n s with
  | done r t => rfl
  | read t k ih =>
    simp only [limit, run]
    simp only [show (Reader.read : Act IoErr (Limited σ) Byte) = Limited.read from rfl, Limited.read, Limited.canRead]
    by_cases h : 1 > n
    · rw [if_pos h, if_pos h]; rfl
    · rw [if_neg h, if_neg h]
      simp only [run]
      rcases Reader.read s with ⟨r, s'⟩
      cases r <;> simp [ih, Res.isOk]
  | readAll t c k ih =>
    simp only [limit, run]
    simp only [show (Reader.readAll c : Act IoErr (Limited σ) Bytes) = Limited.readAll c from rfl, Limited.readAll,
      Limited.canRead]
    by_cases h : c > n
    · rw [if_pos h, if_pos h]; rfl
    · rw [if_neg h, if_neg h]
      simp only [run]
      rcases Reader.readAll c s with ⟨r, s'⟩
      cases r <;> simp [ih, Res.isOk]
  | alloc t u c k ih =>
    simp only [limit, run]
    split
    · exact ih n s
    · rfl

end Prog

section
variable {τ τ' α β : Type} {A : Nat → Nat → Prop}

/-- An action on a reader. -/
abbrev Gen (α : Type) : Type 1 := ∀ (_ : Env) (σ : Type) (_ : Reader σ), Act TagErr σ α
/-- An action on a reader and a value being filled. -/
abbrev GenS (τ α : Type) : Type 1 := ∀ (_ : Env) (σ : Type) (_ : Reader σ), Act TagErr (τ × σ) α
/-- An action on a limited reader and a value being filled. -/
abbrev GenL (τ α : Type) : Type 1 := ∀ (_ : Env) (σ : Type) (_ : Reader σ), Act TagErr (τ × Limited σ) α

def Rep (A : Nat → Nat → Prop) (m : Gen α) : Prop := ∃ T : Prog Unit α, T.allocs A ∧
  ∀ (E : Env) (σ : Type) (i : Reader σ) (s : σ), m E σ i s = ((T.run s).1, (T.run s).2.2)
def RepS (A : Nat → Nat → Prop) (m : GenS τ α) : Prop := ∃ T : τ → Prog τ α, (∀ t, (T t).allocs A) ∧
  ∀ (E : Env) (σ : Type) (i : Reader σ) (t : τ) (s : σ), m E σ i (t, s) = (T t).run s
def RepL (A : Nat → Nat → Prop) (m : GenL τ α) : Prop := ∃ T : τ → Nat → Prog (τ × Nat) α,
  (∀ t n, (T t n).allocs A) ∧
  ∀ (E : Env) (σ : Type) (i : Reader σ) (t : τ) (s : σ) (n : Nat), m E σ i (t, ⟨s, n⟩) =
    (((T t n).run s).1, (((T t n).run s).2.1.1, ⟨((T t n).run s).2.2, ((T t n).run s).2.1.2⟩))

theorem Rep.lift (r : Res TagErr α) : Rep A fun _ _ _ => Act.lift r := ⟨.done r (), trivial, fun _ _ _ _ => rfl⟩
theorem Rep.pure (a : α) : Rep A fun _ _ _ => Pure.pure a := Rep.lift (.ok a)
theorem Rep.fail (e : TagErr) : Rep A fun _ _ _ => (Act.fail e : Act TagErr _ α) := Rep.lift (.err e)
theorem Rep.panic : Rep A fun _ _ _ => (Act.panic : Act TagErr _ α) := Rep.lift .panic
theorem Rep.diverge : Rep A fun _ _ _ => (Act.diverge : Act TagErr _ α) := Rep.lift .diverge

theorem Rep.bind {m : Gen α} {k : α → Gen β} (h : Rep A m) (hk : ∀ a, Rep A (k a)) :
    Rep A fun E σ i => m E σ i >>= fun a => k a E σ i := by
  obtain ⟨T, hA, hT⟩ := h
  refine ⟨T.bind fun a _ => (hk a).choose, Prog.allocs_bind hA fun a _ => (hk a).choose_spec.1, fun E σ i s => ?_⟩
  show (m E σ i >>= fun a => k a E σ i) s = _
  rw [Prog.run_bind]
  have hm := hT E σ i s
  rcases hr : T.run s with ⟨r, ⟨u, s'⟩⟩
  rw [hr] at hm
  cases r with
  | ok a => rw [Act.bind_ok hm]; exact (hk a).choose_spec.2 E σ i s'
  | err e => rw [Act.bind_err hm]
  | panic => rw [Act.bind_panic hm]
  | diverge => rw [Act.bind_diverge hm]

theorem Rep.ite {m m' : Gen α} {c : Prop} [Decidable c] (h : Rep A m) (h' : Rep A m') :
    Rep A fun E σ i => if c then m E σ i else m' E σ i := by
  by_cases hc : c
  · simp only [hc, if_true]; exact h
  · simp only [hc, if_false]; exact h'

theorem Rep.read : Rep A fun _ _ _ => tagIo Reader.read := by
  refine ⟨.read () fun b => .done (.ok b) (), fun _ => trivial, fun E σ i s => ?_⟩
  simp only [Prog.run, tagIo, Act.mapErr_apply]
  rcases Reader.read s with ⟨r, s'⟩
  cases r <;> rfl

theorem Rep.readAll (n : Nat) : Rep A fun _ _ _ => tagIo (Reader.readAll n) := by
  refine ⟨.readAll () n fun b => .done (.ok b) (), fun _ => trivial, fun E σ i s => ?_⟩
  simp only [Prog.run, tagIo, Act.mapErr_apply]
  rcases Reader.readAll n s with ⟨r, s'⟩
  cases r <;> rfl

theorem Rep.alloc {unit count : Nat} (h : A unit count) : Rep A fun _ _ _ => Data.alloc unit count := by
  refine ⟨.alloc () unit count (.done (.ok ()) ()), ⟨h, trivial⟩, fun E σ i s => ?_⟩
  simp only [Prog.run, Data.alloc]
  split <;> rfl

/-! ### With a value being filled -/

theorem RepS.lift (r : Res TagErr α) : RepS (τ := τ) A fun _ _ _ => Act.lift r := ⟨fun t => .done r t, fun _ => trivial, fun _ _ _ _ _ => rfl⟩
theorem RepS.pure (a : α) : RepS (τ := τ) A fun _ _ _ => Pure.pure a := RepS.lift (.ok a)
theorem RepS.fail (e : TagErr) : RepS (τ := τ) A fun _ _ _ => (Act.fail e : Act TagErr _ α) := RepS.lift (.err e)
theorem RepS.panic : RepS (τ := τ) A fun _ _ _ => (Act.panic : Act TagErr _ α) := RepS.lift .panic
theorem RepS.diverge : RepS (τ := τ) A fun _ _ _ => (Act.diverge : Act TagErr _ α) := RepS.lift .diverge
theorem RepS.set (t : τ) : RepS A fun _ _ _ => setSelf t := ⟨fun _ => .done (.ok ()) t, fun _ => trivial, fun _ _ _ _ _ => rfl⟩
theorem RepS.modify (g : τ → τ) : RepS A fun _ _ _ => modifySelf g := ⟨fun t => .done (.ok ()) (g t), fun _ => trivial, fun _ _ _ _ _ => rfl⟩

theorem RepS.bind {m : GenS τ α} {k : α → GenS τ β} (h : RepS A m) (hk : ∀ a, RepS A (k a)) :
    RepS A fun E σ i => m E σ i >>= fun a => k a E σ i := by
  obtain ⟨T, hA, hT⟩ := h
  refine ⟨fun t => (T t).bind fun a => (hk a).choose, fun t => Prog.allocs_bind (hA t) fun a => (hk a).choose_spec.1,
    fun E σ i t s => ?_⟩
  show (m E σ i >>= fun a => k a E σ i) (t, s) = _
  rw [Prog.run_bind]
  have hm := hT E σ i t s
  rcases hr : (T t).run s with ⟨r, ⟨u, s'⟩⟩
  rw [hr] at hm
  cases r with
  | ok a => rw [Act.bind_ok hm]; exact (hk a).choose_spec.2 E σ i u s'
  | err e => rw [Act.bind_err hm]
  | panic => rw [Act.bind_panic hm]
  | diverge => rw [Act.bind_diverge hm]

theorem RepS.ite {m m' : GenS τ α} {c : Prop} [Decidable c] (h : RepS A m) (h' : RepS A m') :
    RepS A fun E σ i => if c then m E σ i else m' E σ i := by
  by_cases hc : c
  · simp only [hc, if_true]; exact h
  · simp only [hc, if_false]; exact h'

theorem RepS.guard (c : Prop) [Decidable c] (e : TagErr) : RepS (τ := τ) A fun _ _ _ => Act.guardE c e := by
  by_cases hc : c
  · simp only [Act.guardE, hc, if_true]; exact RepS.lift (.ok ())
  · simp only [Act.guardE, hc, if_false]; exact RepS.lift (.err e)

theorem RepS.alloc {unit count : Nat} (h : A unit count) : RepS (τ := τ) A fun _ _ _ => Data.alloc unit count := by
  refine ⟨fun t => .alloc t unit count (.done (.ok ()) t), fun _ => ⟨h, trivial⟩, fun E σ i t s => ?_⟩
  simp only [Prog.run, Data.alloc]
  split <;> rfl

theorem RepS.onReader {m : Gen α} (h : Rep A m) : RepS (τ := τ) A fun E σ i => Verif.onReader (m E σ i) := by
  obtain ⟨T, hA, hT⟩ := h
  refine ⟨fun t => T.mapT fun _ => t, fun _ => Prog.allocs_mapT hA, fun E σ i t s => ?_⟩
  rw [Prog.run_mapT]
  simp only [Verif.onReader, hT]

theorem RepS.zoom {m : GenS τ α} (wrap : τ → τ') (t₀ : τ) (h : RepS A m) :
    RepS A fun E σ i => Verif.zoom wrap t₀ (m E σ i) := by
  obtain ⟨T, hA, hT⟩ := h
  refine ⟨fun _ => (T t₀).mapT wrap, fun _ => Prog.allocs_mapT (hA _), fun E σ i t s => ?_⟩
  rw [Prog.run_mapT]
  simp only [Verif.zoom, hT]

/-! ### On a limited reader -/

theorem RepL.ofS {m : GenS τ α} (h : RepS A m) : RepL A fun E σ _ => m E (Limited σ) inferInstance := by
  obtain ⟨T, hA, hT⟩ := h
  refine ⟨fun t n => (T t).limit n, fun t n => Prog.allocs_limit n (hA t), fun E σ i t s n => ?_⟩
  show m E (Limited σ) _ (t, ⟨s, n⟩) = _
  rw [hT, Prog.run_limit]

theorem RepL.bind {m : GenL τ α} {k : α → GenL τ β} (h : RepL A m) (hk : ∀ a, RepL A (k a)) :
    RepL A fun E σ i => m E σ i >>= fun a => k a E σ i := by
  obtain ⟨T, hA, hT⟩ := h
  refine ⟨fun t n => (T t n).bind fun a q => (hk a).choose q.1 q.2,
    fun t n => Prog.allocs_bind (hA t n) fun a q => (hk a).choose_spec.1 q.1 q.2, fun E σ i t s n => ?_⟩
  show (m E σ i >>= fun a => k a E σ i) (t, ⟨s, n⟩) = _
  rw [Prog.run_bind]
  have hm := hT E σ i t s n
  rcases hr : (T t n).run s with ⟨r, ⟨u, s'⟩⟩
  rw [hr] at hm
  cases r with
  | ok a => rw [Act.bind_ok hm]; exact (hk a).choose_spec.2 E σ i u.1 s' u.2
  | err e => rw [Act.bind_err hm]
  | panic => rw [Act.bind_panic hm]
  | diverge => rw [Act.bind_diverge hm]

theorem RepL.ite {m m' : GenL τ α} {c : Prop} [Decidable c] (h : RepL A m) (h' : RepL A m') :
    RepL A fun E σ i => if c then m E σ i else m' E σ i := by
  by_cases hc : c
  · simp only [hc, if_true]; exact h
  · simp only [hc, if_false]; exact h'

/-- A decision on the value being filled and the available bytes. -/
theorem RepL.cond {c : τ → Nat → Prop} [∀ t n, Decidable (c t n)] {m m' : GenL τ α} (h : RepL A m) (h' : RepL A m') :
    RepL A fun E σ i p => if c p.1 p.2.available then m E σ i p else m' E σ i p := by
  obtain ⟨T, hA, hT⟩ := h
  obtain ⟨T', hA', hT'⟩ := h'
  refine ⟨fun t n => if c t n then T t n else T' t n, fun t n => by
    show (if c t n then T t n else T' t n).allocs A; split; exact hA t n; exact hA' t n, fun E σ i t s n => ?_⟩
  by_cases hc : c t n
  · simp only [hc, if_true]; exact hT E σ i t s n
  · simp only [hc, if_false]; exact hT' E σ i t s n

theorem RepL.at {m : τ → GenL τ α} (h : ∀ t, RepL A (m t)) : RepL A fun E σ i p => m p.1 E σ i p :=
  ⟨fun t => (h t).choose t, fun t n => (h t).choose_spec.1 t n, fun E σ i t s n => (h t).choose_spec.2 E σ i t s n⟩

theorem RepL.lift (r : Res TagErr α) : RepL (τ := τ) A fun _ _ _ => Act.lift r :=
  ⟨fun t n => .done r (t, n), fun _ _ => trivial, fun _ _ _ _ _ _ => rfl⟩

theorem RepL.ensureEmpty : RepL (τ := τ) A fun _ _ _ => Verif.ensureEmpty := by
  refine ⟨fun t n => if n = 0 then .done (.ok ()) (t, n) else .done (.err .corruptedData) (t, n),
    fun t n => by
    show Prog.allocs A (if n = 0 then _ else _); split <;> trivial, fun E σ i t s n => ?_⟩
  simp only [Verif.ensureEmpty, Limited.empty]
  by_cases h : n = 0 <;> simp [h, Prog.run]

theorem RepS.withLimited {m : GenL τ α} (n : Nat) (h : RepL A m) : RepS A fun E σ i => Verif.withLimited n (m E σ i) := by
  obtain ⟨T, hA, hT⟩ := h
  refine ⟨fun t => (T t n).mapT Prod.fst, fun t => Prog.allocs_mapT (hA t n), fun E σ i t s => ?_⟩
  rw [Prog.run_mapT]
  simp only [Verif.withLimited, hT]

end

/-! ### The deserializers -/

variable {A : Nat → Nat → Prop}

theorem deserializeILInt_steps (σ : Type) (i : Reader σ) : (Ser.deserializeILInt : Act TagErr σ UInt64) =
      (tagIo Reader.read >>= fun h => if ILInt.decodedSize h = 1 then Pure.pure h.toUInt64
        else tagIo (Reader.readAll (ILInt.decodedSize h - 1)) >>= fun tmp =>
          Act.lift ((ILInt.decodeBody tmp).mapErr fun x => .ioError (Data.readILIntErr x))) := by
  funext s
  simp only [Ser.deserializeILInt, Data.readILInt, ILInt.decode, tagIo, Act.mapErr_apply]
  rcases h : Reader.read s with ⟨r, s'⟩
  cases r with
  | ok b =>
    rw [Act.bind_ok (a := b) (s' := s') (by simp [Act.mapErr_apply, h, Res.mapErr]),
      Act.bind_ok (a := b) (s' := s') (by simp [Act.mapErr_apply, h, Res.mapErr])]
    split
    · rfl
    · rcases h' : Reader.readAll (ILInt.decodedSize b - 1) s' with ⟨r, s''⟩
      cases r with
      | ok bs =>
        rw [Act.bind_ok (a := bs) (s' := s'') (by simp [Act.mapErr_apply, h', Res.mapErr]),
          Act.bind_ok (a := bs) (s' := s'') (by simp [Act.mapErr_apply, h', Res.mapErr])]
        simp only [Act.lift]
        cases ILInt.decodeBody bs <;> rfl
      | err e =>
        rw [Act.bind_err (e := .ioError e) (s' := s'') (by simp [Act.mapErr_apply, h', Res.mapErr]),
          Act.bind_err (e := .ioError e) (s' := s'') (by simp [Act.mapErr_apply, h', Res.mapErr])]
        rfl
      | panic =>
        rw [Act.bind_panic (s' := s'') (by simp [Act.mapErr_apply, h', Res.mapErr]),
          Act.bind_panic (s' := s'') (by simp [Act.mapErr_apply, h', Res.mapErr])]
        rfl
      | diverge =>
        rw [Act.bind_diverge (s' := s'') (by simp [Act.mapErr_apply, h', Res.mapErr]),
          Act.bind_diverge (s' := s'') (by simp [Act.mapErr_apply, h', Res.mapErr])]
        rfl
  | err e =>
    rw [Act.bind_err (e := .ioError e) (s' := s') (by simp [Act.mapErr_apply, h, Res.mapErr]),
      Act.bind_err (e := .ioError e) (s' := s') (by simp [Act.mapErr_apply, h, Res.mapErr])]
    rfl
  | panic =>
    rw [Act.bind_panic (s' := s') (by simp [Act.mapErr_apply, h, Res.mapErr]),
      Act.bind_panic (s' := s') (by simp [Act.mapErr_apply, h, Res.mapErr])]
    rfl
  | diverge =>
    rw [Act.bind_diverge (s' := s') (by simp [Act.mapErr_apply, h, Res.mapErr]),
      Act.bind_diverge (s' := s') (by simp [Act.mapErr_apply, h, Res.mapErr])]
    rfl

theorem Rep.ilint : Rep A fun _ _ _ => Ser.deserializeILInt := by
  simp only [deserializeILInt_steps]
  exact Rep.bind Rep.read fun h => Rep.ite (Rep.pure _) (Rep.bind (Rep.readAll _) fun tmp => Rep.lift _)

theorem Rep.map {α β : Type} {m : Gen α} (h : Rep A m) (g : α → β) :
    Rep A fun E σ i => m E σ i >>= fun a => (Pure.pure (g a) : Act TagErr σ β) := Rep.bind h fun _ => Rep.pure _

theorem Rep.signedILInt : Rep A fun _ _ _ => Ser.deserializeSignedILInt := by
  have : ∀ (σ : Type) (i : Reader σ), (Ser.deserializeSignedILInt : Act TagErr σ Int64) =
      (Ser.deserializeILInt >>= fun v => Pure.pure (ILInt.decodeSign v)) := by
    intro σ i
    simp only [Ser.deserializeSignedILInt, Ser.deserializeILInt, Data.readSignedILInt, Data.readILInt, ILInt.signedDecode,
      tagIo, Act.mapErr_bind, Act.mapErr_pure]
  simp only [this]
  exact Rep.map Rep.ilint _

theorem Rep.u8 : Rep A fun _ _ _ => tagIo Data.readU8 := Rep.read
theorem Rep.i8 : Rep A fun _ _ _ => tagIo Data.readI8 := by
  simp only [Data.readI8, tagIo, Act.mapErr_bind, Act.mapErr_pure]; exact Rep.map Rep.read _
theorem Rep.u16 : Rep A fun _ _ _ => tagIo Data.readU16 := by
  simp only [Data.readU16, tagIo, Act.mapErr_bind, Act.mapErr_pure]; exact Rep.map (Rep.readAll 2) _
theorem Rep.i16 : Rep A fun _ _ _ => tagIo Data.readI16 := by
  simp only [Data.readI16, tagIo, Act.mapErr_bind, Act.mapErr_pure]; exact Rep.map (Rep.readAll 2) _
theorem Rep.u32 : Rep A fun _ _ _ => tagIo Data.readU32 := by
  simp only [Data.readU32, tagIo, Act.mapErr_bind, Act.mapErr_pure]; exact Rep.map (Rep.readAll 4) _
theorem Rep.i32 : Rep A fun _ _ _ => tagIo Data.readI32 := by
  simp only [Data.readI32, tagIo, Act.mapErr_bind, Act.mapErr_pure]; exact Rep.map (Rep.readAll 4) _
theorem Rep.u64 : Rep A fun _ _ _ => tagIo Data.readU64 := by
  simp only [Data.readU64, tagIo, Act.mapErr_bind, Act.mapErr_pure]; exact Rep.map (Rep.readAll 8) _
theorem Rep.i64 : Rep A fun _ _ _ => tagIo Data.readI64 := by
  simp only [Data.readI64, tagIo, Act.mapErr_bind, Act.mapErr_pure]; exact Rep.map (Rep.readAll 8) _
theorem Rep.f32 : Rep A fun _ _ _ => tagIo Data.readF32 := Rep.u32
theorem Rep.f64 : Rep A fun _ _ _ => tagIo Data.readF64 := Rep.u64

/-- `A` allows every buffer of at most `maxTagSize` elements of the sizes the library uses. -/
def Adm (A : Nat → Nat → Prop) : Prop := ∀ n ≤ maxTagSize, A 1 n ∧ A 8 n ∧ A 16 n

theorem Rep.bytes (hA : Adm A) {n : Nat} (h : n ≤ maxTagSize) : Rep A fun _ _ _ => Ser.deserializeBytes n :=
  Rep.bind (Rep.alloc (hA n h).1) fun _ => Rep.readAll n

theorem tagSizeToUsize_le {v : UInt64} {n : Nat} (h : tagSizeToUsize v = .ok n) : n ≤ maxTagSize := by
  unfold tagSizeToUsize at h
  split at h
  · simp at h
  · simp only [Res.ok.injEq] at h; subst h; omega

/-- `Act.lift r` followed by something that only matters on success. -/
theorem Rep.liftBind {α β : Type} {r : Res TagErr α} {k : α → Gen β} (h : ∀ a, r = .ok a → Rep A (k a)) :
    Rep A fun E σ i => Act.lift r >>= fun a => k a E σ i := by
  cases r with
  | ok a => exact h a rfl
  | err e => exact Rep.lift (.err e)
  | panic => exact Rep.lift .panic
  | diverge => exact Rep.lift .diverge

theorem Rep.option {α β : Type} {o : Option α} {k : α → Gen β} {k' : Gen β} (h : ∀ a, Rep A (k a)) (h' : Rep A k') :
    Rep A fun E σ i => match o with
      | some a => k a E σ i
      | none => k' E σ i := by
  cases o with
  | none => exact h'
  | some a => exact h a

theorem RepS.option {τ α β : Type} {o : Option α} {k : α → GenS τ β} {k' : GenS τ β} (h : ∀ a, RepS A (k a))
    (h' : RepS A k') : RepS A fun E σ i => match o with
      | some a => k a E σ i
      | none => k' E σ i := by
  cases o with
  | none => exact h'
  | some a => exact h a

theorem Rep.stringTag (hA : Adm A) : Rep A fun _ _ _ => deserializeStringTag := by
  unfold deserializeStringTag
  refine Rep.bind Rep.ilint fun id => Rep.ite (Rep.fail _) (Rep.bind Rep.ilint fun len => Rep.liftBind fun n hn =>
    Rep.bind (Rep.bytes hA (tagSizeToUsize_le hn)) fun tmp => ?_)
  cases fromUtf8 tmp with
  | none => exact Rep.fail _
  | some s => exact Rep.pure s

theorem RepS.bytesIntoVec (hA : Adm A) {n : Nat} (h : n ≤ maxTagSize) : RepS A fun _ _ _ => deserializeBytesIntoVec n :=
  RepS.bind (RepS.alloc (hA n h).1) fun _ => RepS.bind (RepS.modify _) fun _ =>
    RepS.bind (RepS.onReader (Rep.readAll n)) fun bs => RepS.set bs

section
variable {P : Type}

/-- The factory call, in every environment. -/
abbrev GenF (P : Type) : Type 1 := Env → FactoryDeser P
/-- The factory call is a tree of reader calls. -/
def RepF (A : Nat → Nat → Prop) (f : GenF P) : Prop := ∀ o : Option (Tag P), Rep A fun E σ i => @f E σ i o

theorem RepS.rprog {f : GenF P} (hf : RepF A f) (r : RProg P) : RepS A fun E _ _ => RProg.run (f E) r := by
  induction r with
  | done r p => exact ⟨fun _ => .done r p, fun _ => trivial, fun _ _ _ _ _ => rfl⟩
  | read k ih => exact RepS.bind (RepS.onReader Rep.read) fun b => ih b
  | readAll n k ih => exact RepS.bind (RepS.onReader (Rep.readAll n)) fun b => ih b
  | deser k ih => exact RepS.bind (RepS.onReader (hf none)) fun t => ih t
  | into t k ih => exact RepS.bind (RepS.onReader (hf (some t))) fun t => ih t

theorem RepS.pushILInts (n : Nat) : RepS A fun _ _ _ => Atom.pushILInts n := by
  induction n with
  | zero => exact RepS.pure ()
  | succ n ih => exact RepS.bind (RepS.onReader Rep.ilint) fun v => RepS.bind (RepS.modify _) fun _ => ih

theorem RepL.fail {τ α : Type} (e : TagErr) : RepL A (τ := τ) fun _ _ _ => (Act.fail e : Act TagErr _ α) :=
  RepL.lift (.err e)

theorem RepL.set {τ : Type} (t : τ) : RepL A fun _ _ _ => setSelf t := RepL.ofS (RepS.set t)
theorem RepL.modify {τ : Type} (g : τ → τ) : RepL A fun _ _ _ => modifySelf g := RepL.ofS (RepS.modify g)
theorem RepL.alloc {τ : Type} {u c : Nat} (h : A u c) : RepL A (τ := τ) fun _ _ _ => Data.alloc u c :=
  RepL.ofS (RepS.alloc h)
theorem RepL.onReader {τ α : Type} {m : Gen α} (h : Rep A m) :
    RepL A (τ := τ) fun E σ _ => Verif.onReader (m E (Limited σ) inferInstance) := RepL.ofS (RepS.onReader h)

theorem RepL.iteLe {τ α : Type} {c : Prop} [Decidable c] {m m' : GenL τ α} (h : RepL A m) (h' : ¬ c → RepL A m') :
    RepL A fun E σ i => if c then m E σ i else m' E σ i := by
  by_cases hc : c
  · simp only [hc, if_true]; exact h
  · simp only [hc, if_false]; exact h' hc

theorem RepS.ilintArray (hA : Adm A) {vs : Nat} (h : vs ≤ maxTagSize) :
    RepS A fun _ _ _ => Atom.deserializeILIntArray vs := by
  unfold Atom.deserializeILIntArray
  refine RepS.withLimited vs (RepL.bind (RepL.onReader Rep.ilint) fun count => RepL.iteLe (RepL.fail _) fun hc =>
    RepL.bind (RepL.set _) fun _ => RepL.bind (RepL.alloc ((hA _ (by omega)).2.1)) fun _ =>
      RepL.bind (RepL.ofS (RepS.pushILInts _)) fun _ => RepL.ensureEmpty)

theorem RepS.insertStrEntries (hA : Adm A) (n : Nat) : RepS A fun _ _ _ => Atom.insertStrEntries n := by
  induction n with
  | zero => exact RepS.pure ()
  | succ n ih =>
    exact RepS.bind (RepS.onReader (Rep.stringTag hA)) fun k =>
      RepS.bind (RepS.onReader (Rep.stringTag hA)) fun v => RepS.bind (RepS.modify _) fun _ => ih

theorem RepS.strDict (hA : Adm A) {vs : Nat} : RepS A fun _ _ _ => Atom.deserializeStrDict vs := by
  unfold Atom.deserializeStrDict
  exact RepS.withLimited vs (RepL.bind (RepL.onReader Rep.ilint) fun count => RepL.bind (RepL.set _) fun _ =>
    RepL.bind (RepL.ofS (RepS.insertStrEntries hA _)) fun _ => RepL.ensureEmpty)

theorem RepS.range {vs : Nat} : RepS A fun _ _ _ => Atom.deserializeRange vs := by
  unfold Atom.deserializeRange
  exact RepS.withLimited vs (RepL.bind (RepL.onReader Rep.ilint) fun start => RepL.bind (RepL.modify _) fun _ =>
    RepL.bind (RepL.onReader Rep.u16) fun count => RepL.bind (RepL.modify _) fun _ => RepL.ensureEmpty)

/-- A fixed-size value: check, read, store. -/
theorem RepS.fixed {τ α : Type} {m : Gen α} (h : Rep A m) (c : Prop) [Decidable c] (e : TagErr) (g : α → τ) :
    RepS A fun E σ i => Act.guardE c e >>= fun _ => Verif.onReader (m E σ i) >>= fun v => setSelf (g v) :=
  RepS.bind (RepS.guard c e) fun _ => RepS.bind (RepS.onReader h) fun v => RepS.set _

theorem RepS.atomValue [TagPayload P] (hA : Adm A) {f : GenF P} (hf : RepF A f) {vs : Nat} (h : vs ≤ maxTagSize)
    (a : Atom P) : RepS A fun E _ _ => Atom.deserializeValue (f E) vs a := by
  cases a with
  | null id => exact RepS.guard _ _
  | bool id b =>
    exact RepS.bind (RepS.guard _ _) fun _ => RepS.bind (RepS.onReader Rep.u8) fun v =>
      RepS.ite (RepS.set _) (RepS.ite (RepS.set _) (RepS.fail _))
  | int8 id v => exact RepS.fixed Rep.i8 _ _ _
  | uint8 id v => exact RepS.fixed Rep.u8 _ _ _
  | int16 id v => exact RepS.fixed Rep.i16 _ _ _
  | uint16 id v => exact RepS.fixed Rep.u16 _ _ _
  | int32 id v => exact RepS.fixed Rep.i32 _ _ _
  | uint32 id v => exact RepS.fixed Rep.u32 _ _ _
  | int64 id v => exact RepS.fixed Rep.i64 _ _ _
  | uint64 id v => exact RepS.fixed Rep.u64 _ _ _
  | bin32 id v => exact RepS.fixed Rep.f32 _ _ _
  | bin64 id v => exact RepS.fixed Rep.f64 _ _ _
  | bin128 id v =>
    refine RepS.bind (RepS.guard _ _) fun _ => RepS.bind (RepS.onReader (Rep.readAll 16)) fun v => ?_
    by_cases hv : v.length = 16
    · simp only [hv, dite_true]; exact RepS.set _
    · simp only [hv, dite_false]; exact RepS.panic
  | ilint id v => exact RepS.bind (RepS.onReader Rep.ilint) fun v => RepS.set _
  | signedILInt id v => exact RepS.bind (RepS.onReader Rep.signedILInt) fun v => RepS.set _
  | raw id v => exact RepS.zoom _ _ (RepS.bytesIntoVec hA h)
  | byteArray v => exact RepS.zoom _ _ (RepS.bytesIntoVec hA h)
  | string id v =>
    refine RepS.bind (RepS.onReader (Rep.bytes hA h)) fun tmp => ?_
    cases fromUtf8 tmp with
    | none => exact RepS.fail _
    | some s => exact RepS.set _
  | bigInt v => exact RepS.zoom _ _ (RepS.bytesIntoVec hA h)
  | bigDec id s v =>
    exact RepS.bind (RepS.guard _ _) fun _ => RepS.bind (RepS.onReader Rep.i32) fun v => RepS.bind (RepS.set _) fun _ =>
      RepS.zoom _ _ (RepS.bytesIntoVec hA (by omega))
  | ilintArray id v => exact RepS.zoom _ _ (RepS.ilintArray hA h)
  | range id a b => exact RepS.zoom (fun p => Atom.range id p.1 p.2) (a, b) RepS.range
  | version id a b c d =>
    exact RepS.bind (RepS.guard _ _) fun _ =>
      RepS.bind (RepS.onReader Rep.i32) fun _ => RepS.bind (RepS.set _) fun _ =>
      RepS.bind (RepS.onReader Rep.i32) fun _ => RepS.bind (RepS.set _) fun _ =>
      RepS.bind (RepS.onReader Rep.i32) fun _ => RepS.bind (RepS.set _) fun _ =>
      RepS.bind (RepS.onReader Rep.i32) fun _ => RepS.set _
  | oid id v => exact RepS.zoom _ _ (RepS.ilintArray hA h)
  | strDict id es => exact RepS.zoom _ _ (RepS.strDict hA)
  | payload id p => exact RepS.zoom _ _ (RepS.rprog hf _)

theorem RepL.pushWhile {f : GenF P} (hf : RepF A f) (n : Nat) :
    RepL A fun E _ _ => Tag.pushWhileNotEmpty (f E) n := by
  induction n with
  | zero => exact RepL.lift .diverge
  | succ n ih =>
    have h := RepL.cond (A := A) (τ := List (Tag P)) (c := fun _ n => (n == 0) = true) (RepL.lift (.ok ()))
      (RepL.bind (RepL.onReader (hf none)) fun t => RepL.bind (RepL.modify (· ++ [t])) fun _ => ih)
    exact h

theorem RepS.pushTags {f : GenF P} (hf : RepF A f) (n : Nat) : RepS A fun E _ _ => Tag.pushTags (f E) n := by
  induction n with
  | zero => exact RepS.pure ()
  | succ n ih => exact RepS.bind (RepS.onReader (hf none)) fun v => RepS.bind (RepS.modify _) fun _ => ih

theorem RepS.insertEntries (hA : Adm A) {f : GenF P} (hf : RepF A f) (n : Nat) :
    RepS A fun E _ _ => Tag.insertEntries (f E) n := by
  induction n with
  | zero => exact RepS.pure ()
  | succ n ih =>
    exact RepS.bind (RepS.onReader (Rep.stringTag hA)) fun k =>
      RepS.bind (RepS.onReader (hf none)) fun v => RepS.bind (RepS.modify _) fun _ => ih

theorem RepS.seq {f : GenF P} (hf : RepF A f) {vs : Nat} : RepS A fun E _ _ => Tag.deserializeSeq (f E) vs := by
  unfold Tag.deserializeSeq
  exact RepS.withLimited vs (RepL.bind (RepL.set _) fun _ => RepL.pushWhile hf _)

theorem RepS.array (hA : Adm A) {f : GenF P} (hf : RepF A f) {vs : Nat} (h : vs ≤ maxTagSize) :
    RepS A fun E _ _ => Tag.deserializeArray (f E) vs := by
  unfold Tag.deserializeArray
  exact RepS.withLimited vs (RepL.bind (RepL.onReader Rep.ilint) fun count =>
    RepL.iteLe (RepL.fail _) fun hc => RepL.bind (RepL.set _) fun _ =>
      RepL.bind (RepL.alloc ((hA _ (by omega)).2.2)) fun _ => RepL.bind (RepL.ofS (RepS.pushTags hf _)) fun _ =>
        RepL.ensureEmpty)

theorem RepS.dict (hA : Adm A) {f : GenF P} (hf : RepF A f) {vs : Nat} :
    RepS A fun E _ _ => Tag.deserializeDict (f E) vs := by
  unfold Tag.deserializeDict
  exact RepS.withLimited vs (RepL.bind (RepL.onReader Rep.ilint) fun count =>
    RepL.bind (RepL.set _) fun _ => RepL.bind (RepL.ofS (RepS.insertEntries hA hf _)) fun _ => RepL.ensureEmpty)

theorem RepS.tagValue [TagPayload P] (hA : Adm A) {f : GenF P} (hf : RepF A f) {vs : Nat} (h : vs ≤ maxTagSize)
    (t : Tag P) : RepS A fun E _ _ => Tag.deserializeValue (f E) vs t := by
  cases t with
  | atom a => exact RepS.zoom _ _ (RepS.atomValue hA hf h a)
  | seq id ts => exact RepS.zoom _ _ (RepS.seq hf)
  | array id ts => exact RepS.zoom _ _ (RepS.array hA hf h)
  | dict id es => exact RepS.zoom _ _ (RepS.dict hA hf)

theorem RepL.checkEmpty [TagPayload P] : RepL A fun _ _ _ => (Factory.checkEmpty (P := P)) := by
  have h := RepL.cond (A := A) (τ := Tag P)
    (c := fun t n => t.id ≠ Id.ilint ∧ t.id ≠ Id.signedILInt ∧ (n == 0) = false)
    (RepL.lift (.err .corruptedData)) (RepL.lift (.ok ()))
  exact h

theorem RepS.tagValueInto [TagPayload P] (hA : Adm A) {f : GenF P} (hf : RepF A f) {vs : Nat} (h : vs ≤ maxTagSize) :
    RepS A fun E _ _ => Factory.deserializeTagValueInto (f E) vs :=
  RepS.withLimited vs (RepL.at fun t => RepL.bind (RepL.ofS (RepS.tagValue hA hf h t)) fun _ => RepL.checkEmpty)

theorem Rep.tagSize {id : UInt64} : Rep A fun _ _ _ => Factory.deserializeTagSize id := by
  unfold Factory.deserializeTagSize
  by_cases h : isImplicitTag id = true
  · simp only [h, if_true]; exact Rep.bind (Rep.pure _) fun _ => Rep.lift _
  · simp only [h, if_false]; exact Rep.bind Rep.ilint fun _ => Rep.lift _

theorem Prog.run_toVal {τ : Type} [Env] {σ : Type} [Reader σ] (p : Prog τ Unit) (s : σ) :
    p.toVal.run s = ((p.run s).1.map fun _ => (p.run s).2.1, ((), (p.run s).2.2)) := by
  induction p generalizing s with
  | done r t => rfl
  | read t k ih =>
    simp only [toVal, run]
    rcases Reader.read s with ⟨r, s'⟩
    cases r <;> simp [ih, Res.map]
  | readAll t n k ih =>
    simp only [toVal, run]
    rcases Reader.readAll n s with ⟨r, s'⟩
    cases r <;> simp [ih, Res.map]
  | alloc t u c k ih =>
    simp only [toVal, run]
    split
    · exact ih s
    · rfl

theorem Prog.allocs_toVal {τ : Type} {p : Prog τ Unit} (h : p.allocs A) : p.toVal.allocs A := by
  induction p with
  | done r t => trivial
  | read t k ih => exact fun b => ih b (h b)
  | readAll t n k ih => exact fun b => ih b (h b)
  | alloc t u c k ih => exact ⟨h.1, ih h.2⟩

/-- Runs an action that fills a value, starting with `t`, and returns the value. -/
theorem Rep.fill {τ : Type} {m : GenS τ Unit} (t : τ) (h : RepS A m) : Rep A fun E σ i s =>
    match m E σ i (t, s) with
    | (r, (t', s')) => (r.map fun _ => t', s') := by
  obtain ⟨T, hA, hT⟩ := h
  refine ⟨(T t).toVal, Prog.allocs_toVal (hA t), fun E σ i s => ?_⟩
  simp only [hT, Prog.run_toVal]

theorem Rep.bindSize {β : Type} {id : UInt64} {k : Nat → Gen β} (h : ∀ n ≤ maxTagSize, Rep A (k n)) :
    Rep A fun E σ i => Factory.deserializeTagSize id >>= fun n => k n E σ i := by
  have hk : ∀ size, Rep A fun E σ i => Act.lift (tagSizeToUsize size) >>= fun n => k n E σ i :=
    fun size => Rep.liftBind fun n hn => h n (tagSizeToUsize_le hn)
  unfold Factory.deserializeTagSize
  by_cases h : isImplicitTag id = true
  · simp only [h, if_true, Act.bind_assoc]; exact Rep.bind (Rep.pure _) fun _ => hk _
  · simp only [h, Bool.false_eq_true, if_false, Act.bind_assoc]; exact Rep.bind Rep.ilint fun _ => hk _

theorem Rep.deserializeFuel [TagPayload P] (hA : Adm A) (e : Engine P) (n : Nat) :
    RepF A fun _ => Factory.deserializeFuel e n := by
  induction n with
  | zero => exact fun _ => Rep.diverge
  | succ n ih =>
    intro o
    simp only [Factory.deserializeFuel]
    cases o with
    | none =>
      refine Rep.bind Rep.ilint fun id => Rep.bindSize fun size hs => Rep.bind (Rep.lift _) fun t => ?_
      cases t with
      | none => exact Rep.fail _
      | some t => exact Rep.fill t (RepS.tagValueInto hA ih hs)
    | some t =>
      refine Rep.bind Rep.ilint fun id => Rep.ite (Rep.fail _) (Rep.bindSize fun size hs => ?_)
      exact Rep.fill t (RepS.tagValueInto hA ih hs)

theorem Rep.methods [TagPayload P] (hA : Adm A) (e : Engine P) : RepF A fun _ => Factory.methods e :=
  Rep.deserializeFuel hA e _

/-- `deserialize` is, for every factory, one tree of reader calls. -/
theorem Rep.deserialize [TagPayload P] (hA : Adm A) (e : Engine P) : Rep A fun _ σ _ => Factory.deserialize e σ :=
  Rep.deserializeFuel hA e _ none

end
end Verif
