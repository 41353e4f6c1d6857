import Verif.Spec.Raw
/-!
# Specification: what one call of the tag scanner makes of a byte string
-/
namespace Verif.Spec

/-- What the head of a byte string is when read as an ILInt: a number below 2^64, a number that is too big, or cut
short. -/
inductive NumberRead where
  | ok (value : Nat) (rest : Bytes)
  | tooBig
  | short

/-- The ILInt at the head of a byte string. -/
def headILInt : Bytes → NumberRead
  | [] => .short
  | h :: r =>
    if r.length < ilintTail h then .short
    else if ilintTail h = 0 then .ok h.toNat r
    else if 248 + beVal (r.take (ilintTail h)) < 2 ^ 64 then
      .ok (248 + beVal (r.take (ilintTail h))) (r.drop (ilintTail h))
    else .tooBig

/-- What follows an identifier: the length of the shortest size field, the length of the value, and the bytes from the
value on. -/
inductive SizeRead where
  | ok (field length : Nat) (rest : Bytes)
  | tooBig
  | undefinedId
  | short

/-- The size of a tag with identifier `id`, from the bytes after the identifier. -/
def headSize (id : Nat) (r : Bytes) : SizeRead :=
  if 16 ≤ id then
    match headILInt r with
    | .ok n r' => .ok (ilint n).length n r'
    | .tooBig => .tooBig
    | .short => .short
  else if id = 10 ∨ id = 14 then
    match r with
    | [] => .short
    | h :: _ => .ok 0 (1 + ilintTail h) r
  else if id = 15 then .undefinedId
  else .ok 0 (implicitLen id) r

/-- The outcomes of a scan. -/
inductive ScanVerdict where
  /-- A tag: its identifier, the length of its (shortest) header, the length of its value, and the bytes after it. -/
  | tag (id header length : Nat) (rest : Bytes)
  /-- The end of the tag lies past 2^64. -/
  | tooFar
  /-- An identifier or size of 2^64 or more. -/
  | tooBig
  /-- The implicit tag 15. -/
  | undefinedId
  /-- The bytes end within the tag. -/
  | short

/-- One scan of the bytes `bs`, `off` bytes having been counted before. -/
def scanHead (m : ArithMode) (off : Nat) (bs : Bytes) : ScanVerdict :=
  match headILInt bs with
  | .short => .short
  | .tooBig => .tooBig
  | .ok id r =>
    match headSize id r with
    | .short => .short
    | .tooBig => .tooBig
    | .undefinedId => .undefinedId
    | .ok field n r' =>
      if m = .checked ∧ 2 ^ 64 ≤ off + ((ilint id).length + field + n) then .tooFar
      else if r'.length < n then .short
      else .tag id ((ilint id).length + field) n (r'.drop n)

end Verif.Spec
