import Verif.Model.SkipCode
/-!
# Code that handles the errors of what it calls
-/
namespace Verif

/-- Code over a reader that calls code of the kind `SkipCode` and goes on from its result, be it a value or an error, on
the reader as the call left it. -/
inductive TryCode (P : Type) : Type → Type 1 where
  /-- Returns, or fails with an error of its own. -/
  | done {α : Type} (r : Res TagErr α) : TryCode P α
  /-- `match reading_code(reader) { Ok(b) => …, Err(e) => … }`. -/
  | attempt {α β : Type} (c : SkipCode P β) (k : Except TagErr β → TryCode P α) : TryCode P α
  /-- Other code of this kind on `LimitedReader::new(reader, n)`, /repo/src/io/mod.rs:218-223; goes on with its result and
  `available()`, /repo/src/io/mod.rs:246-248. -/
  | within {α β : Type} (n : UInt64) (body : TryCode P β) (k : Except TagErr β → Nat → TryCode P α) : TryCode P α

/-- `match x { Ok(b) => k(Ok(b)), Err(e) => k(Err(e)) }`; a panic is not caught. -/
def catching {σ α β : Type} (x : Act TagErr σ β) (k : Except TagErr β → Act TagErr σ α) : Act TagErr σ α := fun s =>
  match x s with
  | (.ok b, s') => k (.ok b) s'
  | (.err e, s') => k (.error e) s'
  | (.panic, s') => (.panic, s')
  | (.diverge, s') => (.diverge, s')

/-- Runs the code on a reader, in a debug or a release build. -/
def TryCode.run {P : Type} [TagPayload P] [Env] (m : ArithMode) :
    {α : Type} → TryCode P α → (σ : Type) → [Reader σ] → Act TagErr σ α
  | _, .done r, _, _ => Act.lift r
  | _, .attempt c k, σ, _ => catching (c.run m σ) fun r => (k r).run m σ
  | _, .within n body k, σ, _ => fun s =>
    match body.run m (Limited σ) ⟨s, n.toNat⟩ with
    | (.ok b, l) => (k (.ok b) l.available).run m σ l.source
    | (.err e, l) => (k (.error e) l.available).run m σ l.source
    | (.panic, l) => (.panic, l.source)
    | (.diverge, l) => (.diverge, l.source)

end Verif
