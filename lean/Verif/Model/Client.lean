import Verif.Model.Util
import Verif.Model.Dict
/-!
# Programs that use tags

A program holds tags in variables and calls the API on them; what it does next may depend on every answer it has had.  The
one thing it is not given is the order in which a `HashMap` lists its entries, which Rust leaves open and which differs from
run to run.
-/
namespace Verif
variable {P : Type}

/-- The tags a program holds, by variable. -/
abbrev Store (P : Type) := Nat → Tag P

/-- `x = t`. -/
def Store.set (x : Store P) (i : Nat) (t : Tag P) : Store P := fun j => if j = i then t else x j

/-- A call of the API.  Moving a tag out of a container or into one is a copy here, which gives programs more power than
Rust does; borrowing a part mutably is taking it out, changing it and putting it back. -/
inductive Call (P : Type) where
  /-- A new tag that is no container (constructors and setters of each type, C81); of a string dictionary an empty one. -/
  | atom (i : Nat) (a : Atom P)
  /-- `ILTagSeqTag::with_id`, explicit/mod.rs:562-567 -/
  | newSeq (i : Nat) (id : UInt64)
  /-- `ILTagArrayTag::with_id`, explicit/mod.rs:641-645 -/
  | newArray (i : Nat) (id : UInt64)
  /-- `ILDictTag::with_id`, explicit/mod.rs:1006-1011 -/
  | newDict (i : Nat) (id : UInt64)
  /-- `x_j = x_i` -/
  | move (i j : Nat)
  /-- the concrete type, as downcasts tell it, /repo/src/tags/mod.rs:282-403 -/
  | kind (i : Nat)
  /-- `id()`, /repo/src/tags/mod.rs:182 -/
  | id (i : Nat)
  /-- `size()`, /repo/src/tags/mod.rs:198-204 -/
  | size (i : Nat)
  /-- `value_size()`, /repo/src/tags/mod.rs:195 -/
  | valueSize (i : Nat)
  /-- `to_bytes()`, /repo/src/tags/mod.rs:266-270 -/
  | bytes (i : Nat)
  /-- `iltag_are_equal`, /repo/src/tags/util/mod.rs:57-67 -/
  | equal (i j : Nat)
  /-- `x_j = iltag_clone_with_factory(x_i)`, /repo/src/tags/util/mod.rs:86-92 -/
  | clone (i j : Nat)
  /-- all accessors of a tag that is neither a container nor a string dictionary -/
  | value (i : Nat)
  /-- `value().len()` -/
  | len (i : Nat)
  /-- `x_j = x_i.value()[n]` -/
  | item (i n j : Nat)
  /-- `x_i.mut_value()[n] = x_j` -/
  | setItem (i n j : Nat)
  /-- `x_i.mut_value().push(x_j)` -/
  | push (i j : Nat)
  /-- `x_i.mut_value().remove(n)` -/
  | removeItem (i n : Nat)
  /-- `x_i.mut_value().clear()` -/
  | clear (i : Nat)
  /-- `x_j = x_i.get(k)`, explicit/mod.rs:1068-1073 -/
  | get (i : Nat) (k : String) (j : Nat)
  /-- `x_i.insert(k, x_j)`, explicit/mod.rs:1048-1050 -/
  | insert (i : Nat) (k : String) (j : Nat)
  /-- `x_i.mut_value().remove(k)` -/
  | remove (i : Nat) (k : String)
  /-- `ILStrDictTag::get`, explicit/mod.rs:1216-1221 -/
  | getText (i : Nat) (k : String)
  /-- `ILStrDictTag::insert`, explicit/mod.rs:1196-1198 -/
  | insertText (i : Nat) (k v : String)
  /-- `mut_value().remove(k)` of an `ILStrDictTag` -/
  | removeText (i : Nat) (k : String)
  /-- `x_i = factory.from_bytes(bs)`, /repo/src/tags/mod.rs:489-497 -/
  | read (i : Nat) (bs : Bytes)
  /-- `factory.deserialize_into(reader, x_i)` over `bs`, /repo/src/tags/mod.rs:477 -/
  | into (i : Nat) (bs : Bytes)

/-- What a call tells the program. -/
inductive Ans (P : Type) where
  | done
  | kind (k : Kind)
  | number (n : Nat)
  | count (n : Option Nat)
  | found (b : Bool)
  | text (s : Option String)
  | bytes (r : Res TagErr Bytes)
  | truth (r : Res TagErr Bool)
  | outcome (r : Res TagErr Unit)
  | value (a : Option (Atom P))

/-- A new tag that is no container. -/
def freshAtom : Atom P → Atom P
  | .strDict id _ => .strDict id []
  | a => a

/-- What the accessors of a tag that is neither a container nor a string dictionary give (all of them together, C81). -/
def Tag.plainValue : Tag P → Option (Atom P)
  | .atom (.strDict ..) => none
  | .atom a => some a
  | _ => none

/-- `value().len()` of the containers, explicit/mod.rs:577,653, and `len()` of the dictionaries, explicit/mod.rs:1026,1174. -/
def Tag.count : Tag P → Option Nat
  | .atom (.strDict _ es) => some es.length
  | .atom _ => none
  | .seq _ ts => some ts.length
  | .array _ ts => some ts.length
  | .dict _ es => some es.length

/-- `value()[n]`, explicit/mod.rs:577,653; `none` is Rust's panic, which `len` lets a program avoid. -/
def Tag.item (n : Nat) : Tag P → Option (Tag P)
  | .seq _ ts => ts[n]?
  | .array _ ts => ts[n]?
  | _ => none

/-- `mut_value()[n] = u`, explicit/mod.rs:582,658; nothing is done where Rust would panic. -/
def Tag.setItem (t : Tag P) (n : Nat) (u : Tag P) : Tag P :=
  match t with
  | .seq id ts => .seq id (ts.set n u)
  | .array id ts => .array id (ts.set n u)
  | t => t

/-- `mut_value().push(u)`, explicit/mod.rs:582,658. -/
def Tag.push (t u : Tag P) : Tag P :=
  match t with
  | .seq id ts => .seq id (ts ++ [u])
  | .array id ts => .array id (ts ++ [u])
  | t => t

/-- `mut_value().remove(n)`, explicit/mod.rs:582,658; nothing is done where Rust would panic. -/
def Tag.removeItem (n : Nat) : Tag P → Tag P
  | .seq id ts => .seq id (ts.eraseIdx n)
  | .array id ts => .array id (ts.eraseIdx n)
  | t => t

/-- `mut_value().clear()`, explicit/mod.rs:582,658,1021,1169. -/
def Tag.clear : Tag P → Tag P
  | .atom (.strDict id _) => .atom (.strDict id [])
  | .atom a => .atom a
  | .seq id _ => .seq id []
  | .array id _ => .array id []
  | .dict id _ => .dict id []

/-- `get(k)` of an `ILDictTag`, explicit/mod.rs:1068-1073. -/
def Tag.entry (k : String) : Tag P → Option (Tag P)
  | .dict _ es => HMap.get k es
  | _ => none

/-- `insert(k, u)` of an `ILDictTag`, explicit/mod.rs:1048-1050.  The call tells only whether there was a value before; a
program that wants it takes it out first. -/
def Tag.insertEntry (t : Tag P) (k : String) (u : Tag P) : Tag P :=
  match t with
  | .dict id es => .dict id (HMap.insert k u es)
  | t => t

/-- `mut_value().remove(k)` of an `ILDictTag`, explicit/mod.rs:1021. -/
def Tag.removeEntry (k : String) : Tag P → Tag P
  | .dict id es => .dict id (HMap.remove k es)
  | t => t

/-- `get(k)` of an `ILStrDictTag`, explicit/mod.rs:1216-1221. -/
def Tag.text (k : String) : Tag P → Option String
  | .atom (.strDict _ es) => HMap.get k es
  | _ => none

/-- `insert(k, v)` of an `ILStrDictTag`, explicit/mod.rs:1196-1198; the answer is the value before. -/
def Tag.insertText (k v : String) : Tag P → Tag P
  | .atom (.strDict id es) => .atom (.strDict id (HMap.insert k v es))
  | t => t

/-- `mut_value().remove(k)` of an `ILStrDictTag`, explicit/mod.rs:1169. -/
def Tag.removeText (k : String) : Tag P → Tag P
  | .atom (.strDict id es) => .atom (.strDict id (HMap.remove k es))
  | t => t

section
variable [TagPayload P] [Env]

/-- Keeps what a call that may fail has made. -/
def Store.keep (x : Store P) (j : Nat) : Res TagErr (Tag P) → Ans P × Store P
  | .ok t => (.outcome (.ok ()), x.set j t)
  | .err e => (.outcome (.err e), x)
  | .panic => (.outcome .panic, x)
  | .diverge => (.outcome .diverge, x)

/-- Keeps what was found. -/
def Store.keepFound (x : Store P) (j : Nat) : Option (Tag P) → Ans P × Store P
  | some t => (.found true, x.set j t)
  | none => (.found false, x)

/-- Makes a call; `e` is the factory of the program. -/
def Call.step (e : Engine P) (x : Store P) : Call P → Ans P × Store P
  | .atom i a => (.done, x.set i (.atom (freshAtom a)))
  | .newSeq i n => (.done, x.set i (.seq n []))
  | .newArray i n => (.done, x.set i (.array n []))
  | .newDict i n => (.done, x.set i (.dict n []))
  | .move i j => (.done, x.set j (x i))
  | .kind i => (.kind (x i).kind, x)
  | .id i => (.number (x i).id.toNat, x)
  | .size i => (.number (x i).size.toNat, x)
  | .valueSize i => (.number (x i).valueSize.toNat, x)
  | .bytes i => (.bytes (x i).toBytes, x)
  | .equal i j => (.truth (tagsAreEqual (x i) (x j)), x)
  | .clone i j => x.keep j (tagCloneWithFactory e (x i))
  | .value i => (.value (x i).plainValue, x)
  | .len i => (.count (x i).count, x)
  | .item i n j => x.keepFound j ((x i).item n)
  | .setItem i n j => (.found ((x i).item n).isSome, x.set i ((x i).setItem n (x j)))
  | .push i j => (.done, x.set i ((x i).push (x j)))
  | .removeItem i n => (.found ((x i).item n).isSome, x.set i ((x i).removeItem n))
  | .clear i => (.done, x.set i (x i).clear)
  | .get i k j => x.keepFound j ((x i).entry k)
  | .insert i k j => (.found ((x i).entry k).isSome, x.set i ((x i).insertEntry k (x j)))
  | .remove i k => (.found ((x i).entry k).isSome, x.set i ((x i).removeEntry k))
  | .getText i k => (.text ((x i).text k), x)
  | .insertText i k v => (.text ((x i).text k), x.set i ((x i).insertText k v))
  | .removeText i k => (.text ((x i).text k), x.set i ((x i).removeText k))
  | .read i bs => x.keep i (Factory.fromBytes e bs)
  | .into i bs =>
    match Factory.deserializeInto e (x i, ByteArrayReader.new bs) with
    | (r, (t, _)) => (.outcome r, x.set i t)

end

/-- A program: stops, or makes a call and goes on as the answer has it. -/
inductive Client (P : Type) where
  | stop
  | call (c : Call P) (next : Ans P → Client P)

/-- Runs a program: all answers it gets, and what it holds in the end. -/
def Client.run [TagPayload P] [Env] (e : Engine P) : Client P → Store P → List (Ans P) × Store P
  | .stop, x => ([], x)
  | .call c next, x =>
    match c.step e x with
    | (a, x') =>
      match Client.run e (next a) x' with
      | (as, x'') => (a :: as, x'')

end Verif
