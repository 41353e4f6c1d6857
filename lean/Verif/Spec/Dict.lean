import Verif.Model.Dict
/-!
# Specification of a map by its history of calls
-/
namespace Verif.Spec
variable {V : Type}

/-- A call on a dictionary tag. -/
inductive MapOp (V : Type) where
  | insert (k : String) (v : V)
  | remove (k : String)
  | clear
  | get (k : String)
  | len
  | isEmpty

/-- What a call returns. -/
inductive MapAns (V : Type) where
  | value (v : Option V)
  | unit
  | len (n : Nat)
  | isEmpty (b : Bool)

/-- What the last call of a history (newest first) that concerns `k` left under it. -/
def lookupNewest (k : String) : List (MapOp V) → Option V
  | [] => none
  | .insert k' v :: h => if k' = k then some v else lookupNewest k h
  | .remove k' :: h => if k' = k then none else lookupNewest k h
  | .clear :: _ => none
  | _ :: h => lookupNewest k h

/-- What is under `k` after a history, oldest call first. -/
def lookup (h : List (MapOp V)) (k : String) : Option V := lookupNewest k h.reverse

/-- `n` is the number of keys that have a value after the history. -/
def KeyCount (h : List (MapOp V)) (n : Nat) : Prop :=
  ∃ keys : List String, keys.Nodup ∧ (∀ k, k ∈ keys ↔ (lookup h k).isSome) ∧ keys.length = n

/-- `r` is the answer a map gives to `op` after the history `h`. -/
def Answers (h : List (MapOp V)) : MapOp V → MapAns V → Prop
  | .insert k _, r => r = .value (lookup h k)
  | .remove k, r => r = .value (lookup h k)
  | .clear, r => r = .unit
  | .get k, r => r = .value (lookup h k)
  | .len, r => ∃ n, KeyCount h n ∧ r = .len n
  | .isEmpty, r => ∃ b, (b = true ↔ ∀ k, lookup h k = none) ∧ r = .isEmpty b

/-- The call on the tag. -/
def MapOp.call (t : MapTag V) : MapOp V → MapAns V × MapTag V
  | .insert k v => (.value (t.insert k v).1, (t.insert k v).2)
  | .remove k => (.value (t.remove k).1, (t.remove k).2)
  | .clear => (.unit, t.clear)
  | .get k => (.value (t.get k), t)
  | .len => (.len t.len, t)
  | .isEmpty => (.isEmpty t.isEmpty, t)

/-- `History id h rs t`: the calls `h`, oldest first, on the empty dictionary tag with id `id` return `rs` and lead to
`t`.  After each call the hash map may list its entries in any order. -/
inductive History (id : UInt64) : List (MapOp V) → List (MapAns V) → MapTag V → Prop where
  | start : History id [] [] (MapTag.withId id)
  | step {h rs t t'} (op : MapOp V) : History id h rs t → t'.id = (op.call t).2.id →
      t'.value.Perm (op.call t).2.value → History id (h ++ [op]) (rs ++ [(op.call t).1]) t'

end Verif.Spec
