import Verif.Spec.Data
import Verif.Model.Tag
/-!
# Specification of the serialized form of tags and of equality of content

Written from the layout tables of the ILTags standard as documented in the crate
(/repo/src/tags/standard/*/mod.rs, module documentation); only the data types `Atom`, `Tag` are taken from the model,
none of its functions except the identifier of a tag and the declared behaviour of a custom payload.
-/
namespace Verif.Spec
variable {P : Type}

/-- The bytes carried by writer calls, in order. -/
def opBytes : WOp → Bytes
  | .byte b => [b]
  | .all bs => bs
def opsBytes (ops : List WOp) : Bytes := ops.flatMap opBytes

/-- What a custom payload writes. -/
def payloadBytes [TagPayload P] (p : P) : Bytes := opsBytes (TagPayload.serialize p).1

/-- A payload that keeps its side of the contract: writing succeeds and `serialized_size` is the number of bytes
written. -/
def PayloadOk [TagPayload P] (p : P) : Prop :=
  (TagPayload.serialize p).2 = .ok () ∧ TagPayload.serializedSize p = (payloadBytes p).length

/-- A tag with identifier `id` around the value bytes: identifier, then the length unless the identifier is implicit
(0 to 15), then the value. -/
def wrap (id : UInt64) (value : Bytes) : Bytes :=
  ilint id.toNat ++ (if id.toNat ≤ 15 then [] else ilint value.length) ++ value

/-- A standard string tag (id 17). -/
def stringTag (s : String) : Bytes := wrap 17 (utf8 s)

/-- Puts an entry before the first one whose key is not smaller. -/
def insertByKey {α : Type} (e : String × α) : List (String × α) → List (String × α)
  | [] => [e]
  | x :: xs => if utf8 e.1 ≤ utf8 x.1 then e :: x :: xs else x :: insertByKey e xs

/-- Entries ordered by the bytes of their keys. -/
def sortByKey {α : Type} : List (String × α) → List (String × α)
  | [] => []
  | e :: es => insertByKey e (sortByKey es)

/-- Key tag, then value tag, for each entry in key order; the values are given as tags already in bytes. -/
def encSorted (es : List (String × Bytes)) : Bytes := (sortByKey es).flatMap fun e => stringTag e.1 ++ e.2

/-- A count followed by that many ILInts. -/
def encILInts (vs : List UInt64) : Bytes := ilint vs.length ++ vs.flatMap fun v => ilint v.toNat

/-- The value bytes of a tag that holds no other tags. -/
def encAtom [TagPayload P] : Atom P → Bytes
  | .null _ => []
  | .bool _ v => [if v then 1 else 0]
  | .int8 _ v => be 1 (twos 1 v.toInt)
  | .uint8 _ v => be 1 v.toNat
  | .int16 _ v => be 2 (twos 2 v.toInt)
  | .uint16 _ v => be 2 v.toNat
  | .int32 _ v => be 4 (twos 4 v.toInt)
  | .uint32 _ v => be 4 v.toNat
  | .int64 _ v => be 8 (twos 8 v.toInt)
  | .uint64 _ v => be 8 v.toNat
  | .bin32 _ v => be 4 v.toNat
  | .bin64 _ v => be 8 v.toNat
  | .bin128 _ v => v.1
  | .ilint _ v => ilint v.toNat
  | .signedILInt _ v => signedILInt v.toInt
  | .raw _ v => v
  | .byteArray v => v
  | .string _ s => utf8 s
  | .bigInt v => v
  | .bigDec _ scale v => be 4 (twos 4 scale.toInt) ++ v
  | .ilintArray _ vs => encILInts vs
  | .range _ start count => ilint start.toNat ++ be 2 count.toNat
  | .version _ a b c d => be 4 (twos 4 a.toInt) ++ be 4 (twos 4 b.toInt) ++ be 4 (twos 4 c.toInt) ++
      be 4 (twos 4 d.toInt)
  | .oid _ vs => encILInts vs
  | .strDict _ es => ilint es.length ++ encSorted (es.map fun e => (e.1, stringTag e.2))
  | .payload _ p => payloadBytes p

mutual
/-- The value bytes of a tag. -/
def encValue [TagPayload P] : Tag P → Bytes
  | .atom a => encAtom a
  | .seq _ ts => encTags ts
  | .array _ ts => ilint ts.length ++ encTags ts
  | .dict _ es => ilint es.length ++ encSorted (encEntries es)
/-- The tags one after another. -/
def encTags [TagPayload P] : List (Tag P) → Bytes
  | [] => []
  | t :: ts => wrap t.id (encValue t) ++ encTags ts
/-- The entries with their values in bytes. -/
def encEntries [TagPayload P] : List (String × Tag P) → List (String × Bytes)
  | [] => []
  | (k, t) :: es => (k, wrap t.id (encValue t)) :: encEntries es
end

/-- The bytes of a tag. -/
def enc [TagPayload P] (t : Tag P) : Bytes := wrap t.id (encValue t)

/-- `Within u t`: the tag `u` is `t` or nested in it. -/
inductive Within : Tag P → Tag P → Prop where
  | refl (t) : Within t t
  | seq {u v id ts} : v ∈ ts → Within u v → Within u (.seq id ts)
  | array {u v id ts} : v ∈ ts → Within u v → Within u (.array id ts)
  | dict {u k v id es} : (k, v) ∈ es → Within u v → Within u (.dict id es)

/-- What Rust guarantees of a tag by itself: a `HashMap` has no two entries with the same key. -/
def MapOk : Tag P → Prop
  | .atom (.strDict _ es) => (es.map (·.1)).Nodup
  | .dict _ es => (es.map (·.1)).Nodup
  | _ => True

/-- `MapOk` at every level. -/
def MapsOk (t : Tag P) : Prop := ∀ u, Within u t → MapOk u

/-- Every custom payload in the tag keeps its side of the contract. -/
def PayloadsOk [TagPayload P] (t : Tag P) : Prop := ∀ id p, Within (.atom (.payload id p)) t → PayloadOk p

/-- Same concrete type, same id and same content at every level, maps being compared as maps (same keys, and the same
value under each key) without regard to the order in which they list their entries. -/
inductive Same : Tag P → Tag P → Prop where
  | atom (a : Atom P) : Same (.atom a) (.atom a)
  | strDict (id : UInt64) {es fs : List (String × String)} : (∀ e, e ∈ es ↔ e ∈ fs) →
      Same (.atom (.strDict id es)) (.atom (.strDict id fs))
  | seq (id : UInt64) {ts us : List (Tag P)} : ts.length = us.length →
      (∀ (i : Nat) (h : i < ts.length) (h' : i < us.length), Same ts[i] us[i]) → Same (.seq id ts) (.seq id us)
  | array (id : UInt64) {ts us : List (Tag P)} : ts.length = us.length →
      (∀ (i : Nat) (h : i < ts.length) (h' : i < us.length), Same ts[i] us[i]) → Same (.array id ts) (.array id us)
  | dict (id : UInt64) {es fs : List (String × Tag P)} : (∀ k, k ∈ es.map (·.1) ↔ k ∈ fs.map (·.1)) →
      (∀ k t u, (k, t) ∈ es → (k, u) ∈ fs → Same t u) → Same (.dict id es) (.dict id fs)

end Verif.Spec

namespace Verif.Spec

/-- One writer call. -/
def call {ω : Type} [Writer ω] : WOp → ω → Res IoErr Unit × ω
  | .byte b, w => Writer.write b w
  | .all bs, w => Writer.writeAll bs w

/-- The calls, made one after another from the writer state `w`, all succeed and lead to `w'`. -/
inductive Succeed {ω : Type} [Writer ω] : List WOp → ω → ω → Prop where
  | nil (w) : Succeed [] w w
  | cons {op ops w w₁ w'} : call op w = (.ok (), w₁) → Succeed ops w₁ w' → Succeed (op :: ops) w w'

end Verif.Spec
