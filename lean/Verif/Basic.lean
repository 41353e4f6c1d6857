/-!
# Outcomes, error enums and state-passing actions

Common vocabulary of the model.  A Rust function returning `Result<T>` and taking `&mut` arguments is
modelled by a function returning the outcome *and* the new value of the mutated arguments.
-/
namespace Verif

/-- One byte (`u8`). -/
abbrev Byte := UInt8
/-- A byte slice / vector of bytes. -/
abbrev Bytes := List UInt8

/-- Outcome of a Rust call: `Ok`, `Err`, a panic (assertion, arithmetic overflow in a checked build,
capacity overflow), or `diverge`: the fuel of a modelled loop/recursion ran out. -/
inductive Res (ε α : Type) where
  | ok (a : α)
  | err (e : ε)
  | panic
  | diverge
  deriving Repr, DecidableEq

namespace Res
variable {ε ε' α β : Type}

/-- `true` exactly on `ok`, models `Result::is_ok`. -/
def isOk : Res ε α → Bool
  | .ok _ => true
  | _ => false

/-- `Result::map_err` / the `From` conversion performed by the `?` operator. -/
def mapErr (f : ε → ε') : Res ε α → Res ε' α
  | .ok a => .ok a
  | .err e => .err (f e)
  | .panic => .panic
  | .diverge => .diverge

def map (f : α → β) : Res ε α → Res ε β
  | .ok a => .ok (f a)
  | .err e => .err e
  | .panic => .panic
  | .diverge => .diverge

/-- Sequencing of outcomes (the `?` operator). -/
def bind (x : Res ε α) (f : α → Res ε β) : Res ε β :=
  match x with
  | .ok a => f a
  | .err e => .err e
  | .panic => .panic
  | .diverge => .diverge

instance : Monad (Res ε) where
  pure := .ok
  bind := Res.bind

@[simp] theorem pure_eq (a : α) : (pure a : Res ε α) = .ok a := rfl
@[simp] theorem ok_bind (a : α) (f : α → Res ε β) : (Res.ok a >>= f) = f a := rfl
@[simp] theorem err_bind (e : ε) (f : α → Res ε β) : ((Res.err e : Res ε α) >>= f) = .err e := rfl
@[simp] theorem panic_bind (f : α → Res ε β) : ((Res.panic : Res ε α) >>= f) = .panic := rfl
@[simp] theorem diverge_bind (f : α → Res ε β) : ((Res.diverge : Res ε α) >>= f) = .diverge := rfl

end Res

/-- The values of `std::io::ErrorKind` the crate distinguishes; every other kind is `other`. -/
inductive StdErr where
  | unexpectedEof
  | interrupted
  | writeZero
  | other (code : Nat)
  deriving Repr, DecidableEq

/-- `io::ErrorKind`, /repo/src/io/mod.rs:46-60. -/
inductive IoErr where
  | unableToReadData
  | unableToWriteData
  | corruptedData
  | endOfData
  | ioError (e : StdErr)
  | boxedError (e : StdErr)
  deriving Repr, DecidableEq

/-- `ilint::ErrorKind`, /repo/src/ilint/mod.rs:46-53. -/
inductive ILIntErr where
  | valueOverflow
  | invalidFormat
  | ioError (e : IoErr)
  deriving Repr, DecidableEq

/-- `tags::ErrorKind`, /repo/src/tags/mod.rs:88-105.  The payload of `Boxed` is reduced to a code. -/
inductive TagErr where
  | unknownTag
  | unsupportedTag
  | corruptedData
  | tagTooLarge
  | unexpectedTagType
  | unableToSerialize
  | ioError (e : IoErr)
  | boxed (code : Nat)
  deriving Repr, DecidableEq

/-- A function with one `&mut σ` argument returning `Result<α, ε>`. -/
def Act (ε σ α : Type) : Type := σ → Res ε α × σ

namespace Act
variable {ε ε' σ τ α β : Type}

@[inline] def run (x : Act ε σ α) (s : σ) : Res ε α × σ := x s

protected def pure (a : α) : Act ε σ α := fun s => (.ok a, s)

/-- The `?` operator: go on with the value, or return the failure and the state reached so far. -/
protected def bind (x : Act ε σ α) (f : α → Act ε σ β) : Act ε σ β := fun s =>
  match x s with
  | (.ok a, s') => f a s'
  | (.err e, s') => (.err e, s')
  | (.panic, s') => (.panic, s')
  | (.diverge, s') => (.diverge, s')

instance : Monad (Act ε σ) where
  pure := Act.pure
  bind := Act.bind

/-- `return Err(e)`. -/
def fail (e : ε) : Act ε σ α := fun s => (.err e, s)
/-- A panic. -/
def panic : Act ε σ α := fun s => (.panic, s)
/-- Fuel exhausted. -/
def diverge : Act ε σ α := fun s => (.diverge, s)
/-- An outcome that does not touch the state. -/
def lift (r : Res ε α) : Act ε σ α := fun s => (r, s)
/-- Error conversion (`?` through `From`, or `map_err`). -/
def mapErr (f : ε → ε') (x : Act ε σ α) : Act ε' σ α := fun s =>
  match x s with
  | (r, s') => (r.mapErr f, s')
/-- The current state. -/
def get : Act ε σ σ := fun s => (.ok s, s)
/-- Replace the state. -/
def set (s : σ) : Act ε σ Unit := fun _ => (.ok (), s)
/-- Fail with `e` unless `c` holds. -/
def guardE (c : Prop) [Decidable c] (e : ε) : Act ε σ Unit :=
  if c then Act.pure () else fail e

theorem bind_apply (x : Act ε σ α) (f : α → Act ε σ β) (s : σ) :
    (x >>= f) s = match x s with
      | (.ok a, s') => f a s'
      | (.err e, s') => (.err e, s')
      | (.panic, s') => (.panic, s')
      | (.diverge, s') => (.diverge, s') := rfl

@[simp] theorem pure_apply (a : α) (s : σ) : (pure a : Act ε σ α) s = (.ok a, s) := rfl
@[simp] theorem pure_apply' (a : α) (s : σ) : (Act.pure a : Act ε σ α) s = (.ok a, s) := rfl
@[simp] theorem fail_apply (e : ε) (s : σ) : (fail e : Act ε σ α) s = (.err e, s) := rfl
@[simp] theorem panic_apply (s : σ) : (panic : Act ε σ α) s = (.panic, s) := rfl
@[simp] theorem diverge_apply (s : σ) : (diverge : Act ε σ α) s = (.diverge, s) := rfl
@[simp] theorem lift_apply (r : Res ε α) (s : σ) : (lift r : Act ε σ α) s = (r, s) := rfl
@[simp] theorem get_apply (s : σ) : (get : Act ε σ σ) s = (.ok s, s) := rfl
@[simp] theorem set_apply (s t : σ) : (set t : Act ε σ Unit) s = (.ok (), t) := rfl
theorem mapErr_apply (f : ε → ε') (x : Act ε σ α) (s : σ) :
    mapErr f x s = ((x s).1.mapErr f, (x s).2) := rfl

theorem bind_ok {x : Act ε σ α} {f : α → Act ε σ β} {s s' : σ} {a : α} (h : x s = (.ok a, s')) :
    (x >>= f) s = f a s' := by rw [bind_apply, h]
theorem bind_err {x : Act ε σ α} {f : α → Act ε σ β} {s s' : σ} {e : ε} (h : x s = (.err e, s')) :
    (x >>= f) s = (.err e, s') := by rw [bind_apply, h]
theorem bind_panic {x : Act ε σ α} {f : α → Act ε σ β} {s s' : σ} (h : x s = (.panic, s')) :
    (x >>= f) s = (.panic, s') := by rw [bind_apply, h]
theorem bind_diverge {x : Act ε σ α} {f : α → Act ε σ β} {s s' : σ} (h : x s = (.diverge, s')) :
    (x >>= f) s = (.diverge, s') := by rw [bind_apply, h]

@[simp] theorem pure_bind (a : α) (f : α → Act ε σ β) : ((pure a : Act ε σ α) >>= f) = f a := rfl
@[simp] theorem bind_assoc {γ : Type} (x : Act ε σ α) (f : α → Act ε σ β) (g : β → Act ε σ γ) :
    ((x >>= f) >>= g) = x >>= fun a => f a >>= g := by
  funext s
  simp only [bind_apply]
  rcases x s with ⟨r, s'⟩
  cases r <;> rfl
@[simp] theorem bind_pure (x : Act ε σ α) : (x >>= fun a => (pure a : Act ε σ α)) = x := by
  funext s
  simp only [bind_apply]
  rcases x s with ⟨r, s'⟩
  cases r <;> rfl

theorem mapErr_bind (f : ε → ε') (x : Act ε σ α) (k : α → Act ε σ β) :
    mapErr f (x >>= k) = mapErr f x >>= fun a => mapErr f (k a) := by
  funext s
  simp only [bind_apply, mapErr_apply]
  rcases x s with ⟨r, s'⟩
  cases r <;> rfl
@[simp] theorem mapErr_pure (f : ε → ε') (a : α) : mapErr f (pure a : Act ε σ α) = pure a := rfl
@[simp] theorem mapErr_fail (f : ε → ε') (e : ε) : mapErr f (fail e : Act ε σ α) = fail (f e) := rfl
@[simp] theorem mapErr_panic (f : ε → ε') : mapErr f (panic : Act ε σ α) = panic := rfl
@[simp] theorem mapErr_lift (f : ε → ε') (r : Res ε α) : mapErr f (lift r : Act ε σ α) = lift (r.mapErr f) := rfl
@[simp] theorem mapErr_mapErr {ε'' : Type} (f : ε → ε') (g : ε' → ε'') (x : Act ε σ α) :
    mapErr g (mapErr f x) = mapErr (fun e => g (f e)) x := by
  funext s
  simp only [mapErr_apply]
  cases (x s).1 <;> rfl
theorem mapErr_ite (f : ε → ε') (c : Prop) [Decidable c] (x y : Act ε σ α) :
    mapErr f (if c then x else y) = if c then mapErr f x else mapErr f y := by
  split <;> rfl

end Act

/-- Arithmetic mode of the build: `checked` panics on overflow (debug builds), `wrapping` wraps around
(release builds). -/
inductive ArithMode where
  | checked
  | wrapping
  deriving Repr, DecidableEq

/-- `a + b` on `u64` under the given build mode. -/
def addU64 {ε : Type} (m : ArithMode) (a b : UInt64) : Res ε UInt64 :=
  if a.toNat + b.toNat < 2 ^ 64 then .ok (a + b)
  else match m with
    | .checked => .panic
    | .wrapping => .ok (a + b)

end Verif
