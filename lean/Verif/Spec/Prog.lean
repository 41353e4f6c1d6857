import Verif.Model.Data
/-!
# Specification: a program of reader calls and memory requests

The only things a `Prog` can do are to call `read` and `read_all` on its reader, to request memory, and to finish; a
failing call ends it.  A function that equals a `Prog` for every reader and every amount of memory can do nothing else.
-/
namespace Verif

/-- Calls on a reader and requests of memory; `t` is the value being filled at that moment, which is what remains if
the call fails. -/
inductive Prog (τ α : Type) where
  | done (r : Res TagErr α) (t : τ)
  | read (t : τ) (k : Byte → Prog τ α)
  | readAll (t : τ) (n : Nat) (k : Bytes → Prog τ α)
  | alloc (t : τ) (unit count : Nat) (k : Prog τ α)

namespace Prog
variable {τ α : Type}

/-- What the calls do on a reader. -/
def run [Env] {σ : Type} [Reader σ] : Prog τ α → σ → Res TagErr α × (τ × σ)
  | done r t, s => (r, (t, s))
  | read t k, s =>
    match Reader.read s with
    | (.ok b, s') => (k b).run s'
    | (.err e, s') => (.err (.ioError e), (t, s'))
    | (.panic, s') => (.panic, (t, s'))
    | (.diverge, s') => (.diverge, (t, s'))
  | readAll t n k, s =>
    match Reader.readAll n s with
    | (.ok bs, s') => (k bs).run s'
    | (.err e, s') => (.err (.ioError e), (t, s'))
    | (.panic, s') => (.panic, (t, s'))
    | (.diverge, s') => (.diverge, (t, s'))
  | alloc t unit count k, s => if unit * count ≤ Env.allocMax then k.run s else (.panic, (t, s))

/-- Every request of memory satisfies `A`. -/
def allocs (A : Nat → Nat → Prop) : Prog τ α → Prop
  | done _ _ => True
  | read _ k => ∀ b, (k b).allocs A
  | readAll _ _ k => ∀ bs, (k bs).allocs A
  | alloc _ u c k => A u c ∧ k.allocs A

variable {τ' β : Type}

/-- The memory requested in all while it runs on a reader, if no request is refused. -/
def requested {σ : Type} [Reader σ] : Prog τ α → σ → Nat
  | done _ _, _ => 0
  | read _ k, s =>
    match Reader.read s with
    | (.ok b, s') => (k b).requested s'
    | _ => 0
  | readAll _ n k, s =>
    match Reader.readAll n s with
    | (.ok bs, s') => (k bs).requested s'
    | _ => 0
  | alloc _ unit count k, s => unit * count + k.requested s

/-- One after the other. -/
def bind : Prog τ α → (α → τ → Prog τ β) → Prog τ β
  | done (.ok a) t, f => f a t
  | done (.err e) t, _ => done (.err e) t
  | done .panic t, _ => done .panic t
  | done .diverge t, _ => done .diverge t
  | read t k, f => read t fun b => (k b).bind f
  | readAll t n k, f => readAll t n fun bs => (k bs).bind f
  | alloc t u c k, f => alloc t u c (k.bind f)

/-- Changes the value being filled. -/
def mapT (g : τ → τ') : Prog τ α → Prog τ' α
  | done r t => done r (g t)
  | read t k => read (g t) fun b => (k b).mapT g
  | readAll t n k => readAll (g t) n fun bs => (k bs).mapT g
  | alloc t u c k => alloc (g t) u c (k.mapT g)

/-- The same calls through a limited reader; the available bytes join the value being filled. -/
def limit : Nat → Prog τ α → Prog (τ × Nat) α
  | n, done r t => done r (t, n)
  | n, read t k => if 1 > n then done (.err (.ioError .unableToReadData)) (t, n)
      else read (t, n) fun b => limit (n - 1) (k b)
  | n, readAll t c k => if c > n then done (.err (.ioError .unableToReadData)) (t, n)
      else readAll (t, n) c fun bs => limit (n - c) (k bs)
  | n, alloc t u c k => alloc (t, n) u c (limit n k)

/-- Returns the value being filled. -/
def toVal : Prog τ Unit → Prog Unit τ
  | done r t => done (r.map fun _ => t) ()
  | read _ k => read () fun b => (k b).toVal
  | readAll _ n k => readAll () n fun b => (k b).toVal
  | alloc _ u c k => alloc () u c k.toVal

end Prog
end Verif
