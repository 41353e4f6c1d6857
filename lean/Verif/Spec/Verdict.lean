import Verif.Spec.Scan
import Verif.Spec.Utf8
/-!
# Specification: the verdict on a byte string

A validator of the language of the standard factory, written from the tables of the standard: it goes through the bytes
of a tag and says where the tag ends or which fault comes first.  It builds no tags.
-/
namespace Verif.Spec

/-- What can be wrong. -/
inductive Fault where
  /-- Bytes are missing: the data, or the tag around, ends too early. -/
  | short
  /-- An ILInt of 2^64 or more. -/
  | badNumber
  /-- The value of a tag is not one of its type. -/
  | corrupted
  /-- No type for the identifier. -/
  | unknown
  /-- A value of more than 512 MiB. -/
  | tooLarge
deriving DecidableEq

/-- A check of the first bytes: what was found there and the bytes after it, or the fault. -/
abbrev Check : Type → Type := StateT Bytes (Except Fault)

namespace Check

def fault {α : Type} (f : Fault) : Check α := fun _ => .error f

/-- An ILInt. -/
def number : Check Nat := fun bs =>
  match headILInt bs with
  | .ok v rest => .ok (v, rest)
  | .tooBig => .error .badNumber
  | .short => .error .short

/-- `n` bytes. -/
def bytes (n : Nat) : Check Bytes := fun bs =>
  if n ≤ bs.length then .ok (bs.take n, bs.drop n) else .error .short

/-- The bytes that must follow the first byte of a character, as ranges (Table 3-7 of the Unicode standard). -/
def followers (b : Nat) : Option (List (Nat × Nat)) :=
  if b ≤ 0x7F then some []
  else if 0xC2 ≤ b ∧ b ≤ 0xDF then some [(0x80, 0xBF)]
  else if b = 0xE0 then some [(0xA0, 0xBF), (0x80, 0xBF)]
  else if 0xE1 ≤ b ∧ b ≤ 0xEC then some [(0x80, 0xBF), (0x80, 0xBF)]
  else if b = 0xED then some [(0x80, 0x9F), (0x80, 0xBF)]
  else if 0xEE ≤ b ∧ b ≤ 0xEF then some [(0x80, 0xBF), (0x80, 0xBF)]
  else if b = 0xF0 then some [(0x90, 0xBF), (0x80, 0xBF), (0x80, 0xBF)]
  else if 0xF1 ≤ b ∧ b ≤ 0xF3 then some [(0x80, 0xBF), (0x80, 0xBF), (0x80, 0xBF)]
  else if b = 0xF4 then some [(0x80, 0x8F), (0x80, 0xBF), (0x80, 0xBF)]
  else none

/-- The bytes start with one byte in each range and go on as well-formed text. -/
def textFrom : List (Nat × Nat) → Bytes → Bool
  | [], [] => true
  | _ :: _, [] => false
  | r :: rs, b :: bs => decide (r.1 ≤ b.toNat ∧ b.toNat ≤ r.2) && textFrom rs bs
  | [], b :: bs =>
    match followers b.toNat with
    | some rs => textFrom rs bs
    | none => false

/-- `n` bytes of text. -/
def text (n : Nat) : Check Unit := do
  let v ← bytes n
  if textFrom [] v then pure () else fault .corrupted

/-- A string as it stands in a dictionary: a string tag. -/
def textTag : Check Unit := do
  let id ← number
  if id ≠ 17 then fault .corrupted
  else do
    let n ← number
    if maxValue < n then fault .tooLarge else text n

/-- The same check `n` times. -/
def times (c : Check Unit) : Nat → Check Unit
  | 0 => pure ()
  | n + 1 => do
    c
    times c n

/-- The check as often as there is anything left of a region of which `missing` bytes lie behind the end of the data.
The number only bounds the recursion: the number of bytes present is enough. -/
def untilEnd (c : Check Unit) (missing : Nat) : Nat → Check Unit
  | 0 => fun bs => if bs.length + missing = 0 then .ok ((), bs) else .error .short
  | n + 1 => fun bs =>
    if bs.length + missing = 0 then .ok ((), bs)
    else (do
      c
      untilEnd c missing n) bs

/-- A value of a fixed length `k`, in a tag of length `n`. -/
def fixed (n k : Nat) : Check Unit :=
  if n = k then do
    let _ ← bytes k
    pure ()
  else fault .corrupted

/-- A count that must not exceed the length of the value, and so many elements. -/
def counted (n : Nat) (c : Check Unit) : Check Unit := do
  let count ← number
  if n < count then fault .corrupted else times c count

/-- Any count and so many elements. -/
def countedFreely (c : Check Unit) : Check Unit := do
  let count ← number
  times c count

/-- The value of a tag: its identifier, its length, how much of it is behind the end of the data, how much is not, and
the check for nested tags. -/
def value (nested : Check Unit) (id n missing present : Nat) : Check Unit :=
  if id = 0 then fixed n 0
  else if id = 1 then
    if n = 1 then do
      let v ← bytes 1
      if v = [0] ∨ v = [1] then pure () else fault .corrupted
    else fault .corrupted
  else if id = 2 ∨ id = 3 then fixed n 1
  else if id = 4 ∨ id = 5 then fixed n 2
  else if id = 6 ∨ id = 7 ∨ id = 11 then fixed n 4
  else if id = 8 ∨ id = 9 ∨ id = 12 then fixed n 8
  else if id = 13 ∨ id = 24 then fixed n 16
  else if id = 10 ∨ id = 14 then do
    let _ ← number
    pure ()
  else if id = 17 then text n
  else if id = 19 ∧ n < 4 then fault .corrupted
  else if id = 20 ∨ id = 25 then counted n (do let _ ← number; pure ())
  else if id = 21 then counted n nested
  else if id = 22 then untilEnd nested missing present
  else if id = 23 then do
    let _ ← number
    let _ ← bytes 2
    pure ()
  else if id = 30 then countedFreely (do textTag; nested)
  else if id = 31 then countedFreely (do textTag; textTag)
  else do  -- byte arrays, big integers, big decimals and raw tags
    let _ ← bytes n
    pure ()

/-- The standard has a type for the identifier. -/
def known (id : Nat) : Bool := id ≤ 14 || 16 ≤ id && id ≤ 25 || id = 30 || id = 31

/-- The check inside a region of `n` bytes: it sees nothing behind it, and is told how much of it is missing. -/
def region (n : Nat) (c : Nat → Check Unit) : Check Unit := fun bs =>
  match c (n - bs.length) (bs.take n) with
  | .ok ((), rest) => .ok ((), rest ++ bs.drop n)
  | .error f => .error f

/-- Nothing of the region is left. -/
def finished (missing : Nat) : Check Unit := fun bs =>
  if bs.length + missing = 0 then .ok ((), bs) else .error .corrupted

/-- The length of the value of a tag: fixed for the identifiers up to 15, written out for the others. -/
def length (id : Nat) : Check Nat := if id ≤ 15 then pure (implicitLen id) else number

/-- A tag.  The number bounds the depth of nesting: the number of bytes is enough. -/
def tag (strict : Bool) : Nat → Check Unit
  | 0 => fault .short
  | depth + 1 => do
    let id ← number
    let n ← length id
    if maxValue < n then fault .tooLarge
    else if known id = false ∧ (strict = true ∨ id ≤ 15) then fault .unknown
    else region n fun missing => fun bs => (do
      value (tag strict depth) id n missing bs.length
      if id = 10 ∨ id = 14 then pure () else finished missing) bs

end Check

/-- The verdict on the first tag in a byte string: the bytes after it, or the fault. -/
def verdict (strict : Bool) (bs : Bytes) : Except Fault Bytes :=
  match Check.tag strict (bs.length + 1) bs with
  | .ok ((), rest) => .ok rest
  | .error f => .error f

/-- The error by which a fault is reported; `E` are the errors by which the reader reports the end of the data. -/
def Reported (E : IoErr → Prop) : Fault → TagErr → Prop
  | .short, x => ∃ i, x = .ioError i ∧ (E i ∨ i = .unableToReadData)
  | .badNumber, x => x = .ioError .corruptedData
  | .corrupted, x => x = .corruptedData
  | .unknown, x => x = .unknownTag
  | .tooLarge, x => x = .tagTooLarge

end Verif.Spec
