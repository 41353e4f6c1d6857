import Verif.Model.Tag
import Verif.Model.Array
/-!
# Specification: filling a buffer of fixed size with tags

The program calls the model's API; `packed` says which tags it gets in.
-/
namespace Verif.Spec
variable {P : Type}

/-- The first tags first: each one is taken if it fits in what room is left. -/
def packed (size : Tag P → Nat) (room : Nat) : List (Tag P) → List (Tag P)
  | [] => []
  | t :: ts => if size t ≤ room then t :: packed size (room - size t) ts else packed size room ts

/-- Serializes the tags into the buffer one after another.  When one fails the writer is set back to where that tag was
to start, and the next one is tried.  Returns the tags that were written. -/
def fill [TagPayload P] : List (Tag P) → ByteArrayWriter → List (Tag P) × ByteArrayWriter
  | [], w => ([], w)
  | t :: ts, w =>
    match t.serialize w with
    | (.ok (), w') => (t :: (fill ts w').1, (fill ts w').2)
    | (_, w') => fill ts (w'.setOffset w.offset)

end Verif.Spec
