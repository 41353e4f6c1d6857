import Verif.Model.Requests
import Verif.Proof.Prog
/-!
# The trees of `Verif.Model.Requests` are the deserializers
-/
namespace Verif
set_option linter.unusedSectionVars false

section
variable {τ τ' α β : Type}

/-- The tree does the same as the action. -/
def IsR (T : PS Unit α) (m : Gen α) : Prop :=
  ∀ (E : Env) (σ : Type) (i : Reader σ) (s : σ), m E σ i s = (((T ()).run s).1, ((T ()).run s).2.2)
def IsS (T : PS τ α) (m : GenS τ α) : Prop :=
  ∀ (E : Env) (σ : Type) (i : Reader σ) (t : τ) (s : σ), m E σ i (t, s) = (T t).run s
def IsL (T : PS (τ × Nat) α) (m : GenL τ α) : Prop :=
  ∀ (E : Env) (σ : Type) (i : Reader σ) (t : τ) (s : σ) (n : Nat), m E σ i (t, ⟨s, n⟩) =
    (((T (t, n)).run s).1, (((T (t, n)).run s).2.1.1, ⟨((T (t, n)).run s).2.2, ((T (t, n)).run s).2.1.2⟩))

theorem PS.run_bind [Env] {σ : Type} [Reader σ] (T : PS τ α) (K : α → PS τ β) (t : τ) (s : σ) :
    ((T >>= K) t).run s = match (T t).run s with
      | (.ok a, (t, s')) => (K a t).run s'
      | (.err e, q) => (.err e, q)
      | (.panic, q) => (.panic, q)
      | (.diverge, q) => (.diverge, q) := Prog.run_bind (T t) (fun a t => K a t) s

namespace IsR

theorem lift (r : Res TagErr α) : IsR (PS.lift r) fun _ _ _ => Act.lift r := fun _ _ _ _ => rfl
theorem pure (a : α) : IsR (Pure.pure a) fun _ _ _ => Pure.pure a := fun _ _ _ _ => rfl
theorem fail (e : TagErr) : IsR (PS.fail e) fun _ _ _ => (Act.fail e : Act TagErr _ α) := fun _ _ _ _ => rfl
theorem diverge : IsR PS.diverge fun _ _ _ => (Act.diverge : Act TagErr _ α) := fun _ _ _ _ => rfl

theorem bind {T : PS Unit α} {K : α → PS Unit β} {m : Gen α} {k : α → Gen β} (h : IsR T m) (hk : ∀ a, IsR (K a) (k a)) :
    IsR (T >>= K) fun E σ i => m E σ i >>= fun a => k a E σ i := by
  intro E σ i s
  show (m E σ i >>= fun a => k a E σ i) s = _
  rw [PS.run_bind]
  have hm := h E σ i s
  rcases hr : (T ()).run s with ⟨r, ⟨u, s'⟩⟩
  rw [hr] at hm
  cases r with
  | ok a => rw [Act.bind_ok hm]; exact hk a E σ i s'
  | err e => rw [Act.bind_err hm]
  | panic => rw [Act.bind_panic hm]
  | diverge => rw [Act.bind_diverge hm]

theorem ite {T T' : PS Unit α} {m m' : Gen α} {c : Prop} [Decidable c] (h : IsR T m) (h' : IsR T' m') :
    IsR (if c then T else T') fun E σ i => if c then m E σ i else m' E σ i := by
  by_cases hc : c
  · simp only [hc, if_true]; exact h
  · simp only [hc, if_false]; exact h'

theorem read : IsR PS.read fun _ _ _ => tagIo Reader.read := by
  intro E σ i s
  simp only [PS.read, Prog.run, tagIo, Act.mapErr_apply]
  rcases Reader.read s with ⟨r, s'⟩
  cases r <;> rfl

theorem readAll (n : Nat) : IsR (PS.readAll n) fun _ _ _ => tagIo (Reader.readAll n) := by
  intro E σ i s
  simp only [PS.readAll, Prog.run, tagIo, Act.mapErr_apply]
  rcases Reader.readAll n s with ⟨r, s'⟩
  cases r <;> rfl

theorem alloc (u n : Nat) : IsR (PS.alloc u n) fun _ _ _ => Data.alloc u n := by
  intro E σ i s
  simp only [PS.alloc, Prog.run, Data.alloc]
  split <;> rfl

end IsR

namespace IsS

theorem lift (r : Res TagErr α) : IsS (τ := τ) (PS.lift r) fun _ _ _ => Act.lift r := fun _ _ _ _ _ => rfl
theorem pure (a : α) : IsS (τ := τ) (Pure.pure a) fun _ _ _ => Pure.pure a := fun _ _ _ _ _ => rfl
theorem fail (e : TagErr) : IsS (τ := τ) (PS.fail e) fun _ _ _ => (Act.fail e : Act TagErr _ α) := fun _ _ _ _ _ => rfl
theorem panic : IsS (τ := τ) PS.panic fun _ _ _ => (Act.panic : Act TagErr _ α) := fun _ _ _ _ _ => rfl
theorem set (t : τ) : IsS (PS.set t) fun _ _ _ => setSelf t := fun _ _ _ _ _ => rfl
theorem modify (g : τ → τ) : IsS (PS.modify g) fun _ _ _ => modifySelf g := fun _ _ _ _ _ => rfl

theorem bind {T : PS τ α} {K : α → PS τ β} {m : GenS τ α} {k : α → GenS τ β} (h : IsS T m) (hk : ∀ a, IsS (K a) (k a)) :
    IsS (T >>= K) fun E σ i => m E σ i >>= fun a => k a E σ i := by
  intro E σ i t s
  show (m E σ i >>= fun a => k a E σ i) (t, s) = _
  rw [PS.run_bind]
  have hm := h E σ i t s
  rcases hr : (T t).run s with ⟨r, ⟨u, s'⟩⟩
  rw [hr] at hm
  cases r with
  | ok a => rw [Act.bind_ok hm]; exact hk a E σ i u s'
  | err e => rw [Act.bind_err hm]
  | panic => rw [Act.bind_panic hm]
  | diverge => rw [Act.bind_diverge hm]

theorem ite {T T' : PS τ α} {m m' : GenS τ α} {c : Prop} [Decidable c] (h : IsS T m) (h' : IsS T' m') :
    IsS (if c then T else T') fun E σ i => if c then m E σ i else m' E σ i := by
  by_cases hc : c
  · simp only [hc, if_true]; exact h
  · simp only [hc, if_false]; exact h'

theorem guard (c : Prop) [Decidable c] (e : TagErr) : IsS (τ := τ) (PS.guardE c e) fun _ _ _ => Act.guardE c e := by
  by_cases hc : c
  · simp only [PS.guardE, Act.guardE, hc, if_true]; exact IsS.lift (.ok ())
  · simp only [PS.guardE, Act.guardE, hc, if_false]; exact IsS.lift (.err e)

theorem alloc (u n : Nat) : IsS (τ := τ) (PS.alloc u n) fun _ _ _ => Data.alloc u n := by
  intro E σ i t s
  simp only [PS.alloc, Prog.run, Data.alloc]
  split <;> rfl

theorem onReader {T : PS Unit α} {m : Gen α} (h : IsR T m) :
    IsS (τ := τ) (PS.onReader T) fun E σ i => Verif.onReader (m E σ i) := by
  intro E σ i t s
  simp only [PS.onReader, Prog.run_mapT, Verif.onReader, h E σ i]

theorem zoom {T : PS τ α} {m : GenS τ α} (wrap : τ → τ') (t₀ : τ) (h : IsS T m) :
    IsS (PS.zoom wrap t₀ T) fun E σ i => Verif.zoom wrap t₀ (m E σ i) := by
  intro E σ i t s
  simp only [PS.zoom, Prog.run_mapT, Verif.zoom, h E σ i]

theorem withLimited {T : PS (τ × Nat) α} {m : GenL τ α} (n : Nat) (h : IsL T m) :
    IsS (PS.withLimited n T) fun E σ i => Verif.withLimited n (m E σ i) := by
  intro E σ i t s
  simp only [PS.withLimited, Prog.run_mapT, Verif.withLimited, h E σ i]

end IsS

namespace IsL

theorem ofS {T : PS τ α} {m : GenS τ α} (h : IsS T m) : IsL (PS.limited T) fun E σ _ => m E (Limited σ) inferInstance := by
  intro E σ i t s n
  show m E (Limited σ) _ (t, ⟨s, n⟩) = _
  rw [h, Prog.run_limit]
  rfl

theorem lift (r : Res TagErr α) : IsL (τ := τ) (PS.lift r) fun _ _ _ => Act.lift r := fun _ _ _ _ _ _ => rfl
theorem fail (e : TagErr) : IsL (τ := τ) (PS.fail e) fun _ _ _ => (Act.fail e : Act TagErr _ α) := fun _ _ _ _ _ _ => rfl

theorem bind {T : PS (τ × Nat) α} {K : α → PS (τ × Nat) β} {m : GenL τ α} {k : α → GenL τ β} (h : IsL T m)
    (hk : ∀ a, IsL (K a) (k a)) : IsL (T >>= K) fun E σ i => m E σ i >>= fun a => k a E σ i := by
  intro E σ i t s n
  show (m E σ i >>= fun a => k a E σ i) (t, ⟨s, n⟩) = _
  rw [PS.run_bind]
  have hm := h E σ i t s n
  rcases hr : (T (t, n)).run s with ⟨r, ⟨u, s'⟩⟩
  rw [hr] at hm
  cases r with
  | ok a => rw [Act.bind_ok hm]; exact hk a E σ i u.1 s' u.2
  | err e => rw [Act.bind_err hm]
  | panic => rw [Act.bind_panic hm]
  | diverge => rw [Act.bind_diverge hm]

theorem ite {T T' : PS (τ × Nat) α} {m m' : GenL τ α} {c : Prop} [Decidable c] (h : IsL T m) (h' : IsL T' m') :
    IsL (if c then T else T') fun E σ i => if c then m E σ i else m' E σ i := by
  by_cases hc : c
  · simp only [hc, if_true]; exact h
  · simp only [hc, if_false]; exact h'

/-- A decision on the value being filled and the available bytes. -/
theorem cond {c : τ → Nat → Prop} [∀ t n, Decidable (c t n)] {T T' : PS (τ × Nat) α} {m m' : GenL τ α}
    (h : IsL T m) (h' : IsL T' m') :
    IsL (fun q => if c q.1 q.2 then T q else T' q) fun E σ i p => if c p.1 p.2.available then m E σ i p else m' E σ i p := by
  intro E σ i t s n
  by_cases hc : c t n
  · simp only [hc, if_true]; exact h E σ i t s n
  · simp only [hc, if_false]; exact h' E σ i t s n

theorem ensureEmpty : IsL (τ := τ) PS.ensureEmpty fun _ _ _ => Verif.ensureEmpty := by
  intro E σ i t s n
  simp only [PS.ensureEmpty, Verif.ensureEmpty, Limited.empty]
  by_cases h : n = 0 <;> simp [h, Prog.run]

theorem at' {T : τ → PS (τ × Nat) α} {m : τ → GenL τ α} (h : ∀ t, IsL (T t) (m t)) :
    IsL (fun q => T q.1 q) fun E σ i p => m p.1 E σ i p := fun E σ i t s n => h t E σ i t s n

end IsL
end

/-! ### The deserializers -/

theorem IsR.ilint : IsR PS.ilint fun _ _ _ => Ser.deserializeILInt := by
  simp only [deserializeILInt_steps]
  exact IsR.bind IsR.read fun h => IsR.ite (IsR.pure _) (IsR.bind (IsR.readAll _) fun tmp => IsR.lift _)

theorem IsR.signedILInt : IsR PS.signedILInt fun _ _ _ => Ser.deserializeSignedILInt := by
  have : ∀ (σ : Type) (i : Reader σ), (Ser.deserializeSignedILInt : Act TagErr σ Int64) =
      (Ser.deserializeILInt >>= fun v => Pure.pure (ILInt.decodeSign v)) := by
    intro σ i
    simp only [Ser.deserializeSignedILInt, Ser.deserializeILInt, Data.readSignedILInt, Data.readILInt, ILInt.signedDecode,
      tagIo, Act.mapErr_bind, Act.mapErr_pure]
  simp only [this]
  exact IsR.bind IsR.ilint fun _ => IsR.pure _

theorem IsR.i8 : IsR PS.i8 fun _ _ _ => tagIo Data.readI8 := by
  simp only [Data.readI8, tagIo, Act.mapErr_bind, Act.mapErr_pure]; exact IsR.bind IsR.read fun _ => IsR.pure _
theorem IsR.u16 : IsR PS.u16 fun _ _ _ => tagIo Data.readU16 := by
  simp only [Data.readU16, tagIo, Act.mapErr_bind, Act.mapErr_pure]; exact IsR.bind (IsR.readAll 2) fun _ => IsR.pure _
theorem IsR.i16 : IsR PS.i16 fun _ _ _ => tagIo Data.readI16 := by
  simp only [Data.readI16, tagIo, Act.mapErr_bind, Act.mapErr_pure]; exact IsR.bind (IsR.readAll 2) fun _ => IsR.pure _
theorem IsR.u32 : IsR PS.u32 fun _ _ _ => tagIo Data.readU32 := by
  simp only [Data.readU32, tagIo, Act.mapErr_bind, Act.mapErr_pure]; exact IsR.bind (IsR.readAll 4) fun _ => IsR.pure _
theorem IsR.i32 : IsR PS.i32 fun _ _ _ => tagIo Data.readI32 := by
  simp only [Data.readI32, tagIo, Act.mapErr_bind, Act.mapErr_pure]; exact IsR.bind (IsR.readAll 4) fun _ => IsR.pure _
theorem IsR.u64 : IsR PS.u64 fun _ _ _ => tagIo Data.readU64 := by
  simp only [Data.readU64, tagIo, Act.mapErr_bind, Act.mapErr_pure]; exact IsR.bind (IsR.readAll 8) fun _ => IsR.pure _
theorem IsR.i64 : IsR PS.i64 fun _ _ _ => tagIo Data.readI64 := by
  simp only [Data.readI64, tagIo, Act.mapErr_bind, Act.mapErr_pure]; exact IsR.bind (IsR.readAll 8) fun _ => IsR.pure _

theorem IsR.bytes (n : Nat) : IsR (PS.bytes n) fun _ _ _ => Ser.deserializeBytes n :=
  IsR.bind (IsR.alloc _ _) fun _ => IsR.readAll n

theorem IsR.stringTag : IsR PS.stringTag fun _ _ _ => deserializeStringTag := by
  unfold deserializeStringTag PS.stringTag
  refine IsR.bind IsR.ilint fun id => IsR.ite (IsR.fail _) (IsR.bind IsR.ilint fun len => IsR.bind (IsR.lift _) fun n =>
    IsR.bind (IsR.bytes _) fun tmp => ?_)
  cases fromUtf8 tmp with
  | none => exact IsR.fail _
  | some s => exact IsR.pure s

theorem IsS.bytesIntoVec (n : Nat) : IsS (PS.bytesIntoVec n) fun _ _ _ => deserializeBytesIntoVec n :=
  IsS.bind (IsS.alloc _ _) fun _ => IsS.bind (IsS.modify _) fun _ =>
    IsS.bind (IsS.onReader (IsR.readAll n)) fun bs => IsS.set bs

section
variable {P : Type}

/-- The factory call is that tree. -/
def IsF (T : Option (Tag P) → PS Unit (Tag P)) (f : GenF P) : Prop := ∀ o, IsR (T o) fun E σ i => @f E σ i o

theorem IsS.rprog {T : Option (Tag P) → PS Unit (Tag P)} {f : GenF P} (hf : IsF T f) (r : RProg P) :
    IsS (PS.rprog T r) fun E _ _ => RProg.run (f E) r := by
  induction r with
  | done r p => exact fun _ _ _ _ _ => rfl
  | read k ih => exact IsS.bind (IsS.onReader IsR.read) fun b => ih b
  | readAll n k ih => exact IsS.bind (IsS.onReader (IsR.readAll n)) fun b => ih b
  | deser k ih => exact IsS.bind (IsS.onReader (hf none)) fun t => ih t
  | into t k ih => exact IsS.bind (IsS.onReader (hf (some t))) fun t' => ih t'

theorem IsS.pushILInts (n : Nat) : IsS (PS.pushILInts n) fun _ _ _ => Atom.pushILInts n := by
  induction n with
  | zero => exact IsS.pure ()
  | succ n ih => exact IsS.bind (IsS.onReader IsR.ilint) fun v => IsS.bind (IsS.modify _) fun _ => ih

theorem IsL.set {τ : Type} (t : τ) : IsL (PS.limited (PS.set t)) fun _ _ _ => setSelf t := IsL.ofS (IsS.set t)
theorem IsL.modify {τ : Type} (g : τ → τ) : IsL (PS.limited (PS.modify g)) fun _ _ _ => modifySelf g :=
  IsL.ofS (IsS.modify g)
theorem IsL.alloc {τ : Type} (u c : Nat) : IsL (τ := τ) (PS.limited (PS.alloc u c)) fun _ _ _ => Data.alloc u c :=
  IsL.ofS (IsS.alloc u c)
theorem IsL.onReader {τ α : Type} {T : PS Unit α} {m : Gen α} (h : IsR T m) :
    IsL (τ := τ) (PS.limited (PS.onReader T)) fun E σ _ => Verif.onReader (m E (Limited σ) inferInstance) :=
  IsL.ofS (IsS.onReader h)

theorem IsS.ilintArray (vs : Nat) : IsS (PS.ilintArray vs) fun _ _ _ => Atom.deserializeILIntArray vs := by
  unfold Atom.deserializeILIntArray PS.ilintArray
  exact IsS.withLimited vs (IsL.bind (IsL.onReader IsR.ilint) fun count => IsL.ite (IsL.fail _)
    (IsL.bind (IsL.set _) fun _ => IsL.bind (IsL.alloc _ _) fun _ =>
      IsL.bind (IsL.ofS (IsS.pushILInts _)) fun _ => IsL.ensureEmpty))

theorem IsS.insertStrEntries (n : Nat) : IsS (PS.insertStrEntries n) fun _ _ _ => Atom.insertStrEntries n := by
  induction n with
  | zero => exact IsS.pure ()
  | succ n ih =>
    exact IsS.bind (IsS.onReader IsR.stringTag) fun k =>
      IsS.bind (IsS.onReader IsR.stringTag) fun v => IsS.bind (IsS.modify _) fun _ => ih

theorem IsS.strDict (vs : Nat) : IsS (PS.strDict vs) fun _ _ _ => Atom.deserializeStrDict vs := by
  unfold Atom.deserializeStrDict PS.strDict
  exact IsS.withLimited vs (IsL.bind (IsL.onReader IsR.ilint) fun count => IsL.bind (IsL.set _) fun _ =>
    IsL.bind (IsL.ofS (IsS.insertStrEntries _)) fun _ => IsL.ensureEmpty)

theorem IsS.range (vs : Nat) : IsS (PS.range vs) fun _ _ _ => Atom.deserializeRange vs := by
  unfold Atom.deserializeRange PS.range
  exact IsS.withLimited vs (IsL.bind (IsL.onReader IsR.ilint) fun start => IsL.bind (IsL.modify _) fun _ =>
    IsL.bind (IsL.onReader IsR.u16) fun count => IsL.bind (IsL.modify _) fun _ => IsL.ensureEmpty)

theorem IsS.fixed {τ α : Type} {T : PS Unit α} {m : Gen α} (h : IsR T m) (vs size : Nat) (g : α → τ) :
    IsS (PS.fixed vs size T g) fun E σ i => Act.guardE (vs = size) .corruptedData >>= fun _ =>
      Verif.onReader (m E σ i) >>= fun v => setSelf (g v) :=
  IsS.bind (IsS.guard _ _) fun _ => IsS.bind (IsS.onReader h) fun v => IsS.set _

theorem IsS.atomValue [TagPayload P] {T : Option (Tag P) → PS Unit (Tag P)} {f : GenF P} (hf : IsF T f) (vs : Nat) (a : Atom P) :
    IsS (PS.atomValue T vs a) fun E _ _ => Atom.deserializeValue (f E) vs a := by
  cases a with
  | null id => exact IsS.guard _ _
  | bool id b =>
    exact IsS.bind (IsS.guard _ _) fun _ => IsS.bind (IsS.onReader IsR.read) fun v =>
      IsS.ite (IsS.set _) (IsS.ite (IsS.set _) (IsS.fail _))
  | int8 id v => exact IsS.fixed IsR.i8 _ _ _
  | uint8 id v => exact IsS.fixed IsR.read _ _ _
  | int16 id v => exact IsS.fixed IsR.i16 _ _ _
  | uint16 id v => exact IsS.fixed IsR.u16 _ _ _
  | int32 id v => exact IsS.fixed IsR.i32 _ _ _
  | uint32 id v => exact IsS.fixed IsR.u32 _ _ _
  | int64 id v => exact IsS.fixed IsR.i64 _ _ _
  | uint64 id v => exact IsS.fixed IsR.u64 _ _ _
  | bin32 id v => exact IsS.fixed IsR.u32 _ _ _
  | bin64 id v => exact IsS.fixed IsR.u64 _ _ _
  | bin128 id v =>
    refine IsS.bind (IsS.guard _ _) fun _ => IsS.bind (IsS.onReader (IsR.readAll 16)) fun v => ?_
    by_cases hv : v.length = 16
    · simp only [hv, dite_true]; exact IsS.set _
    · simp only [hv, dite_false]; exact IsS.panic
  | ilint id v => exact IsS.bind (IsS.onReader IsR.ilint) fun v => IsS.set _
  | signedILInt id v => exact IsS.bind (IsS.onReader IsR.signedILInt) fun v => IsS.set _
  | raw id v => exact IsS.zoom _ _ (IsS.bytesIntoVec _)
  | byteArray v => exact IsS.zoom _ _ (IsS.bytesIntoVec _)
  | string id v =>
    refine IsS.bind (IsS.onReader (IsR.bytes _)) fun tmp => ?_
    cases fromUtf8 tmp with
    | none => exact IsS.fail _
    | some s => exact IsS.set _
  | bigInt v => exact IsS.zoom _ _ (IsS.bytesIntoVec _)
  | bigDec id s v =>
    exact IsS.bind (IsS.guard _ _) fun _ => IsS.bind (IsS.onReader IsR.i32) fun v => IsS.bind (IsS.set _) fun _ =>
      IsS.zoom _ _ (IsS.bytesIntoVec _)
  | ilintArray id v => exact IsS.zoom _ _ (IsS.ilintArray _)
  | range id a b => exact IsS.zoom (fun p => Atom.range id p.1 p.2) (a, b) (IsS.range _)
  | version id a b c d =>
    exact IsS.bind (IsS.guard _ _) fun _ =>
      IsS.bind (IsS.onReader IsR.i32) fun _ => IsS.bind (IsS.set _) fun _ =>
      IsS.bind (IsS.onReader IsR.i32) fun _ => IsS.bind (IsS.set _) fun _ =>
      IsS.bind (IsS.onReader IsR.i32) fun _ => IsS.bind (IsS.set _) fun _ =>
      IsS.bind (IsS.onReader IsR.i32) fun _ => IsS.set _
  | oid id v => exact IsS.zoom _ _ (IsS.ilintArray _)
  | strDict id es => exact IsS.zoom _ _ (IsS.strDict _)
  | payload id p => exact IsS.zoom _ _ (IsS.rprog hf _)

theorem IsL.pushWhile {T : Option (Tag P) → PS Unit (Tag P)} {f : GenF P} (hf : IsF T f) (n : Nat) :
    IsL (PS.pushWhileNotEmpty (T none) n) fun E _ _ => Tag.pushWhileNotEmpty (f E) n := by
  induction n with
  | zero => exact IsL.lift .diverge
  | succ n ih =>
    have h := IsL.cond (τ := List (Tag P)) (c := fun _ n => (n == 0) = true) (IsL.lift (.ok ()))
      (IsL.bind (IsL.onReader (hf none)) fun t => IsL.bind (IsL.modify (· ++ [t])) fun _ => ih)
    exact h

theorem IsS.pushTags {T : Option (Tag P) → PS Unit (Tag P)} {f : GenF P} (hf : IsF T f) (n : Nat) :
    IsS (PS.pushTags (T none) n) fun E _ _ => Tag.pushTags (f E) n := by
  induction n with
  | zero => exact IsS.pure ()
  | succ n ih => exact IsS.bind (IsS.onReader (hf none)) fun v => IsS.bind (IsS.modify _) fun _ => ih

theorem IsS.insertEntries {T : Option (Tag P) → PS Unit (Tag P)} {f : GenF P} (hf : IsF T f) (n : Nat) :
    IsS (PS.insertEntries (T none) n) fun E _ _ => Tag.insertEntries (f E) n := by
  induction n with
  | zero => exact IsS.pure ()
  | succ n ih =>
    exact IsS.bind (IsS.onReader IsR.stringTag) fun k =>
      IsS.bind (IsS.onReader (hf none)) fun v => IsS.bind (IsS.modify _) fun _ => ih

theorem IsS.seq {T : Option (Tag P) → PS Unit (Tag P)} {f : GenF P} (hf : IsF T f) (vs : Nat) :
    IsS (PS.seq (T none) vs) fun E _ _ => Tag.deserializeSeq (f E) vs := by
  unfold Tag.deserializeSeq PS.seq
  exact IsS.withLimited vs (IsL.bind (IsL.set _) fun _ => IsL.pushWhile hf _)

theorem IsS.array {T : Option (Tag P) → PS Unit (Tag P)} {f : GenF P} (hf : IsF T f) (vs : Nat) :
    IsS (PS.array (T none) vs) fun E _ _ => Tag.deserializeArray (f E) vs := by
  unfold Tag.deserializeArray PS.array
  exact IsS.withLimited vs (IsL.bind (IsL.onReader IsR.ilint) fun count =>
    IsL.ite (IsL.fail _) (IsL.bind (IsL.set _) fun _ => IsL.bind (IsL.alloc _ _) fun _ =>
      IsL.bind (IsL.ofS (IsS.pushTags hf _)) fun _ => IsL.ensureEmpty))

theorem IsS.dict {T : Option (Tag P) → PS Unit (Tag P)} {f : GenF P} (hf : IsF T f) (vs : Nat) :
    IsS (PS.dict (T none) vs) fun E _ _ => Tag.deserializeDict (f E) vs := by
  unfold Tag.deserializeDict PS.dict
  exact IsS.withLimited vs (IsL.bind (IsL.onReader IsR.ilint) fun count =>
    IsL.bind (IsL.set _) fun _ => IsL.bind (IsL.ofS (IsS.insertEntries hf _)) fun _ => IsL.ensureEmpty)

theorem IsS.tagValue [TagPayload P] {T : Option (Tag P) → PS Unit (Tag P)} {f : GenF P} (hf : IsF T f) (vs : Nat) (t : Tag P) :
    IsS (PS.tagValue T vs t) fun E _ _ => Tag.deserializeValue (f E) vs t := by
  cases t with
  | atom a => exact IsS.zoom _ _ (IsS.atomValue hf vs a)
  | seq id ts => exact IsS.zoom _ _ (IsS.seq hf vs)
  | array id ts => exact IsS.zoom _ _ (IsS.array hf vs)
  | dict id es => exact IsS.zoom _ _ (IsS.dict hf vs)

theorem IsL.checkEmpty [TagPayload P] : IsL (PS.checkEmpty (P := P)) fun _ _ _ => (Factory.checkEmpty (P := P)) := by
  have h := IsL.cond (τ := Tag P)
    (c := fun t n => t.id ≠ Id.ilint ∧ t.id ≠ Id.signedILInt ∧ (n == 0) = false)
    (IsL.lift (.err .corruptedData)) (IsL.lift (.ok ()))
  exact h

theorem IsS.tagValueInto [TagPayload P] {T : Option (Tag P) → PS Unit (Tag P)} {f : GenF P} (hf : IsF T f) (vs : Nat) :
    IsS (PS.tagValueInto T vs) fun E _ _ => Factory.deserializeTagValueInto (f E) vs :=
  IsS.withLimited vs (IsL.at' fun t => IsL.bind (IsL.ofS (IsS.tagValue hf vs t)) fun _ => IsL.checkEmpty)

theorem IsR.tagSize (id : UInt64) : IsR (PS.tagSize id) fun _ _ _ => Factory.deserializeTagSize id := by
  unfold Factory.deserializeTagSize PS.tagSize
  by_cases h : isImplicitTag id = true
  · simp only [h, if_true]; exact IsR.bind (IsR.pure _) fun _ => IsR.lift _
  · simp only [h, Bool.false_eq_true, if_false]; exact IsR.bind IsR.ilint fun _ => IsR.lift _

theorem IsR.fill {τ : Type} {T : PS τ Unit} {m : GenS τ Unit} (t : τ) (h : IsS T m) :
    IsR (fun _ => (T t).toVal) fun E σ i s =>
      match m E σ i (t, s) with
      | (r, (t', s')) => (r.map fun _ => t', s') := by
  intro E σ i s
  simp only [h E σ i, Prog.run_toVal]

theorem IsF.deserializeFuel [TagPayload P] (e : Engine P) (n : Nat) :
    IsF (PS.deserializeFuel e n) fun _ => Factory.deserializeFuel e n := by
  induction n with
  | zero => exact fun _ => IsR.diverge
  | succ n ih =>
    intro o
    cases o with
    | none =>
      simp only [Factory.deserializeFuel, PS.deserializeFuel]
      refine IsR.bind IsR.ilint fun id => IsR.bind (IsR.tagSize _) fun size => IsR.bind (IsR.lift _) fun t => ?_
      cases t with
      | none => exact IsR.fail _
      | some t => exact IsR.fill t (IsS.tagValueInto ih size)
    | some t =>
      simp only [Factory.deserializeFuel, PS.deserializeFuel]
      exact IsR.bind IsR.ilint fun id => IsR.ite (IsR.fail _) (IsR.bind (IsR.tagSize _) fun size =>
        IsR.fill t (IsS.tagValueInto ih size))

end
end Verif
