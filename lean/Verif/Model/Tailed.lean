import Verif.Model.Schema
/-!
# Payloads that end with the rest of the bytes

`ILTagPayload::deserialize` is told the number of bytes of the payload (/repo/src/tags/payload/mod.rs:80-87).  The usual
use: some fields are read, then everything that is left, the number of bytes left being `value_size` less the sizes of
the fields, as `serialized_size` computes them.
-/
namespace Verif

/-- A value of a struct type; with `rest` a type whose last field takes the rest of the bytes, without one that has no
such field. -/
structure Tailed where
  schema : Schema
  value : schema.Val
  rest : Option Bytes

namespace Tailed

/-! ### The code the user writes, with calls of the library -/
section
variable {σ ω : Type} [Reader σ] [Writer ω] [Env]

/-- `reader.deserialize_bytes(value_size - used)`; `under` is what a subtraction does that goes below 0: a panic, or an
error if the user checks it. -/
def readRest (under : Res TagErr (Option Bytes)) (size used : Nat) : Bool → Act TagErr σ (Option Bytes)
  | false => pure none
  | true =>
    if used ≤ size then do
      let t ← Ser.deserializeBytes (size - used)
      pure (some t)
    else Act.lift under

/-- `ILTagPayload::deserialize`. -/
def read (under : Res TagErr (Option Bytes)) (s : Schema) (tail : Bool) (size : Nat) :
    Act TagErr σ (s.Val × Option Bytes) := do
  let v ← s.read
  let t ← readRest under size (s.size v) tail
  pure (v, t)

/-- `writer.serialize_bytes(&self.rest)`. -/
def writeRest : Option Bytes → Act TagErr ω Unit
  | none => pure ()
  | some t => Ser.serializeBytes t

/-- `ILTagPayload::serialize`. -/
def write (p : Tailed) : Act TagErr ω Unit := do
  p.schema.write p.value
  writeRest p.rest

end

/-! ### The same as programs of calls on the reader and the writer -/

/-- The calls of `readRest`. -/
def restCode {P : Type} (p₀ : P) (under : Res TagErr (Option Bytes)) (size used : Nat) (tail : Bool)
    (k : Option Bytes → RProg P) : RProg P :=
  match tail with
  | false => k none
  | true =>
    if used ≤ size then .readAll (size - used) fun t => k (some t)
    else Schema.given p₀ k under

/-- The calls of `read`. -/
def code (under : Res TagErr (Option Bytes)) (p : Tailed) (size : Nat) : RProg Tailed :=
  p.schema.code p fun v =>
    restCode p under size (p.schema.size v) p.rest.isSome fun t => .done (.ok ()) ⟨p.schema, v, t⟩

/-- The calls of `writeRest`. -/
def restOps : Option Bytes → List WOp
  | none => []
  | some t => [.all t]

/-- The number of bytes of the rest. -/
def restSize : Option Bytes → Nat
  | none => 0
  | some t => t.length

end Tailed

/-- The subtraction is checked; C127 tells that the check never fails. -/
instance : TagPayload Tailed where
  serializedSize p := p.schema.size p.value + Tailed.restSize p.rest
  serialize p := (p.schema.ops p.value ++ Tailed.restOps p.rest, .ok ())
  deserialize p size := p.code (.err .corruptedData) size

end Verif
