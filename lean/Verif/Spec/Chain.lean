import Verif.Model.Tag
/-!
# Specification: records that carry the hash of the one before

A ledger as a list of tags, the oldest first.  A record is a sequence of two tags, the body and a byte array; the byte
array holds the hash of the serialization (`to_bytes`) of the record before, that of the first record a fixed value.
-/
namespace Verif.Spec
variable {P : Type}

/-- The hash a record carries. -/
def carried : Tag P → Option Bytes
  | .seq _ [_, .atom (.byteArray h)] => some h
  | _ => none

variable [TagPayload P] [Env]

/-- Goes along the records, starting with the hash `h` of what was before: the hash of the last one, if every record
carries the hash of the one before. -/
def followChain (H : Bytes → Bytes) : Bytes → List (Tag P) → Option Bytes
  | h, [] => some h
  | h, t :: ts =>
    if carried t = some h then
      match t.toBytes with
      | .ok bs => followChain H (H bs) ts
      | _ => none
    else none

/-- The records for these bodies. -/
def chainOf (H : Bytes → Bytes) : Bytes → List (Tag P) → List (Tag P)
  | _, [] => []
  | h, body :: bodies =>
    let t : Tag P := .seq 22 [body, .atom (.byteArray h)]
    t :: match t.toBytes with
      | .ok bs => chainOf H (H bs) bodies
      | _ => []

end Verif.Spec
