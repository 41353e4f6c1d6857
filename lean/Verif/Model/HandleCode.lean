import Verif.Model.TryCode
import Verif.Model.ConvCode
/-!
# Code that converts and handles errors
-/
namespace Verif

/-- Code over a reader and a writer that goes on from the result of every call, be it a value or an error, on both as the
call left them. -/
inductive HandleCode (P : Type) (α : Type) : Type 1 where
  /-- Returns, or fails with an error of its own. -/
  | done (r : Res TagErr α) : HandleCode P α
  /-- `match reading_code(reader) { Ok(b) => …, Err(e) => … }`. -/
  | get {β : Type} (c : TryCode P β) (k : Except TagErr β → HandleCode P α) : HandleCode P α
  /-- `match writing_call(writer) { Ok(()) => …, Err(e) => … }`. -/
  | put (x : Out P) (k : Except TagErr Unit → HandleCode P α) : HandleCode P α

/-- Runs the code on a writer and a reader, in a debug or a release build. -/
def HandleCode.run {P : Type} [TagPayload P] [Env] {α : Type} (m : ArithMode) (ω σ : Type) [Writer ω] [Reader σ] :
    HandleCode P α → Act TagErr (ω × σ) α
  | .done r => Act.lift r
  | .get c k => catching (onReader (c.run m σ)) fun r => (k r).run m ω σ
  | .put x k => catching (onWriter x.run) fun r => (k r).run m ω σ

end Verif
