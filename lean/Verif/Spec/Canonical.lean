import Verif.Spec.Scan
/-!
# Specification: canonical bytes

Of the byte strings that stand for a tag one is what `to_bytes` gives.  It is told from the others by two things only:
every ILInt in it is as short as can be, and the keys of every dictionary come in ascending order, each once.  The check
below looks at these and at nothing else; it is meant for bytes that the factory accepts.
-/
namespace Verif.Spec

/-- A look at the first bytes: what was found there and the bytes after it, or nothing if it is not canonical. -/
abbrev Look : Type → Type := StateT Bytes Option

namespace Look

/-- An ILInt that is as short as can be. -/
def number : Look Nat := fun bs =>
  match headILInt bs with
  | .ok v rest => if bs = ilint v ++ rest then some (v, rest) else none
  | _ => none

/-- `n` bytes. -/
def bytes (n : Nat) : Look Bytes := fun bs => if n ≤ bs.length then some (bs.take n, bs.drop n) else none

/-- One number, whatever it is. -/
def someNumber : Look Unit := do
  let _ ← number
  pure ()

/-- A string in a dictionary: identifier, length and the text. -/
def string : Look Bytes := do
  let _ ← number
  let n ← number
  bytes n

/-- The same `n` times. -/
def times (c : Look Unit) : Nat → Look Unit
  | 0 => pure ()
  | n + 1 => do
    c
    times c n

/-- The same until nothing is left.  The number only bounds the recursion: the number of bytes is enough. -/
def untilEnd (c : Look Unit) : Nat → Look Unit
  | 0 => pure ()
  | n + 1 => fun bs =>
    if bs = [] then some ((), bs)
    else (do
      c
      untilEnd c n) bs

/-- `n` entries whose keys ascend, all behind the key `last` if there is one.  The order is that of the bytes. -/
def entries (c : Look Unit) : Option Bytes → Nat → Look Unit
  | _, 0 => pure ()
  | last, n + 1 => do
    let key ← string
    if last.all (fun l => decide (l < key)) then do
      c
      entries c (some key) n
    else fun _ => none

/-- The value of a tag of that identifier, `n` bytes. -/
def value (nested : Look Unit) (id n : Nat) : Look Unit :=
  if id = 20 ∨ id = 25 then do
    let count ← number
    times someNumber count
  else if id = 21 then do
    let count ← number
    times nested count
  else if id = 22 then untilEnd nested n
  else if id = 23 then someNumber
  else if id = 30 then do
    let count ← number
    entries nested none count
  else if id = 31 then do
    let count ← number
    entries (do let _ ← string; pure ()) none count
  else pure ()

/-- The next `n` bytes are canonical by themselves. -/
def region (n : Nat) (c : Look Unit) : Look Unit := fun bs =>
  if n ≤ bs.length ∧ (c (bs.take n)).isSome then some ((), bs.drop n) else none

/-- The length of the value of a tag: fixed for the identifiers up to 15, written out for the others. -/
def length (id : Nat) : Look Nat := if id ≤ 15 then pure (implicitLen id) else number

/-- A tag.  The number bounds the depth of nesting: the number of bytes is enough. -/
def tag : Nat → Look Unit
  | 0 => fun _ => none
  | depth + 1 => do
    let id ← number
    if id = 10 ∨ id = 14 then someNumber
    else do
      let n ← length id
      region n (value (tag depth) id n)

end Look

/-- Nothing in the tag at the head of the bytes is written otherwise than `to_bytes` would. -/
def canonical (bs : Bytes) : Bool := (Look.tag (bs.length + 1) bs).isSome

end Verif.Spec
