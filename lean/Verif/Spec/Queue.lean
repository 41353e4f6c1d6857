import Verif.Spec.Log
/-!
# Specification: a queue of tags kept in a file

Producers append whole tags, made with `to_bytes`, with one write each.  Consumers take tags from a common position with
`deserialize`, and the position is saved now and then.  A write may be cut short anywhere; nobody writes after that
until the program is started again, which drops what is behind the last whole tag and goes back to the position saved.
`PlainQueue` is what all this is meant to be: a list in memory and an index.
-/
namespace Verif.Spec
variable {P : Type}

/-- One thing that happens, in the order in which the file is locked. -/
inductive QueueAct (P : Type) where
  /-- A producer writes the tag. -/
  | put (t : Tag P)
  /-- A producer writes the tag, but only the first `k` bytes arrive (all of them, if there are fewer). -/
  | tear (t : Tag P) (k : Nat)
  /-- Consumer `j` takes a tag, if there is one. -/
  | take (j : Nat)
  /-- The position is saved. -/
  | save
  /-- The program ends, anywhere, and is started again. -/
  | restart

/-- The tag an action writes. -/
def QueueAct.tag? : QueueAct P → Option (Tag P)
  | .put t | .tear t _ => some t
  | _ => none

/-- The queue as it should be. -/
structure PlainQueue (P : Type) where
  /-- The tags written, in order. -/
  log : List (Tag P)
  /-- A write was cut short and the program was not started again yet. -/
  torn : Bool
  /-- How many tags were taken. -/
  next : Nat
  /-- How many tags were taken when the position was saved. -/
  saved : Nat
  /-- Who got what, in order. -/
  delivered : List (Nat × Tag P)

namespace PlainQueue
def start : PlainQueue P := ⟨[], false, 0, 0, []⟩

def step [TagPayload P] (q : PlainQueue P) : QueueAct P → PlainQueue P
  | .put t => if q.torn then q else { q with log := q.log ++ [t] }
  | .tear t k => if q.torn then q else { q with log := if t.size.toNat ≤ k then q.log ++ [t] else q.log, torn := true }
  | .take j =>
    match q.log[q.next]? with
    | some t => { q with next := q.next + 1, delivered := q.delivered ++ [(j, t)] }
    | none => q
  | .save => { q with saved := q.next }
  | .restart => { q with torn := false, next := q.saved }

def run [TagPayload P] (acts : List (QueueAct P)) : PlainQueue P := acts.foldl step start
end PlainQueue

/-- The queue in the file. -/
structure FileQueue (P : Type) where
  file : Bytes
  torn : Bool
  /-- The position in the file. -/
  cursor : Nat
  /-- The position saved. -/
  saved : Nat
  delivered : List (Nat × Tag P)
  /-- What is in the file could not be read, other than for want of data. -/
  broken : Bool

namespace FileQueue
def start : FileQueue P := ⟨[], false, 0, 0, [], false⟩
variable [TagPayload P] [Env]

/-- The part `arrived` of the bytes of the tag arrives. -/
def write (q : FileQueue P) (t : Tag P) (arrived : Bytes → Bytes) : FileQueue P :=
  match t.toBytes with
  | .ok bs => { q with file := q.file ++ arrived bs }
  | _ => { q with broken := true }

def step (e : Engine P) (q : FileQueue P) : QueueAct P → FileQueue P
  | .put t => if q.torn then q else q.write t fun bs => bs
  | .tear t k => if q.torn then q else { q.write t (fun bs => bs.take k) with torn := true }
  | .take j =>
    match Factory.deserialize e ByteArrayReader (ByteArrayReader.new (q.file.drop q.cursor)) with
    | (.ok t, r) => { q with cursor := q.cursor + r.offset, delivered := q.delivered ++ [(j, t)] }
    | (.err (.ioError _), _) => q
    | _ => { q with broken := true }
  | .save => { q with saved := q.cursor }
  | .restart => { q with file := wholeTags e q.file, torn := false, cursor := q.saved }

def run (e : Engine P) (acts : List (QueueAct P)) : FileQueue P := acts.foldl (step e) start
end FileQueue

end Verif.Spec
