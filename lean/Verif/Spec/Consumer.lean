import Verif.Spec.Factory
/-!
# Specification: a program that receives its data in pieces

The loop a program runs on a connection: it keeps the bytes that are not used yet; when a piece arrives it takes as
many tags as it can from the front of what it keeps; an i/o error means that more data is needed; anything else ends it.
-/
namespace Verif.Spec
variable {P : Type}

structure Consumer (P : Type) where
  /-- What was received and not used. -/
  buffer : Bytes
  /-- The tags delivered so far. -/
  tags : List (Tag P)
  /-- What ended the loop. -/
  ended : Option (Res TagErr Unit)

namespace Consumer

/-- Nothing was received yet. -/
def start : Consumer P := ⟨[], [], none⟩

variable [TagPayload P] [Env]

/-- At most `n` tags are taken from the front of the buffer. -/
def drain (e : Engine P) : Nat → Consumer P → Consumer P
  | 0, c => c
  | n + 1, c =>
    match Factory.deserialize e ByteArrayReader (ByteArrayReader.new c.buffer) with
    | (.ok t, r) => drain e n { c with buffer := c.buffer.drop r.offset, tags := c.tags ++ [t] }
    | (.err (.ioError _), _) => c
    | (.err x, _) => { c with ended := some (.err x) }
    | (.panic, _) => { c with ended := some .panic }
    | (.diverge, _) => { c with ended := some .diverge }

/-- A piece arrives. -/
def feed (e : Engine P) (c : Consumer P) (piece : Bytes) : Consumer P :=
  match c.ended with
  | some _ => { c with buffer := c.buffer ++ piece }
  | none => drain e (c.buffer ++ piece).length { c with buffer := c.buffer ++ piece }

end Consumer
end Verif.Spec
