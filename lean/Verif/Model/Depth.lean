import Verif.Model.Util
/-!
# How deep the calls nest

The recursive functions of `Verif.Model.Tag` and `Verif.Model.Util` with room for a given number of levels: a call on a
tag nested deeper than that does not return (in the program: the stack overflows).  `value_size`, `size`, `serialize` and
`serialize_value` of one tag are one level.  `Factory.deserializeFuel` is the same for reading.
-/
namespace Verif
variable {P : Type}

/-- `ILTag::size`, /repo/src/tags/mod.rs:198-204: `vs` is `self.value_size()`, evaluated twice for an explicit tag. -/
def sizeFromAt (id : UInt64) (vs : Res TagErr UInt64) : Res TagErr UInt64 :=
  if isImplicitTag id then do
    let v ← vs
    pure (ilSize id + v)
  else do
    let v ← vs
    let w ← vs
    pure (ilSize id + ilSize v + w)

namespace Tag

/-- `for v in self.value { size += v.size() }`, explicit/mod.rs:591-595; `vs` is `value_size` of an element. -/
def sizeSumAt (vs : Tag P → Res TagErr UInt64) (acc : UInt64) : List (Tag P) → Res TagErr UInt64
  | [] => pure acc
  | t :: ts => do
    let s ← sizeFromAt t.id (vs t)
    sizeSumAt vs (acc + s) ts

/-- `.map(|(k, v)| string_tag_size_from_value(k) + v.size()).sum()`, explicit/mod.rs:1083-1085. -/
def entriesSumAt (vs : Tag P → Res TagErr UInt64) (acc : UInt64) : List (String × Tag P) → Res TagErr UInt64
  | [] => pure acc
  | (k, t) :: es => do
    let s ← sizeFromAt t.id (vs t)
    entriesSumAt vs (acc + (stringTagSize k + s)) es

/-- `ILTag::value_size`: explicit/mod.rs:590-596 (sequence), 666-669 (array), 1079-1086 (dictionary). -/
def valueSizeAt [TagPayload P] : Nat → Tag P → Res TagErr UInt64
  | 0, _ => .diverge
  | _ + 1, .atom a => pure a.valueSize
  | k + 1, .seq _ ts => sizeSumAt (valueSizeAt k) 0 ts
  | k + 1, .array _ ts => do
    let s ← sizeSumAt (valueSizeAt k) 0 ts
    pure (ilSize (lenU64 ts.length) + s)
  | k + 1, .dict _ es => do
    let s ← entriesSumAt (valueSizeAt k) 0 es
    pure (ilSize (lenU64 es.length) + s)

/-- `ILTag::size`, /repo/src/tags/mod.rs:198-204. -/
def sizeAt [TagPayload P] (k : Nat) (t : Tag P) : Res TagErr UInt64 := sizeFromAt t.id (t.valueSizeAt k)

variable {ω : Type} [Writer ω]

/-- `ILTag::serialize`, /repo/src/tags/mod.rs:230-236. -/
def serializeWithAt (id : UInt64) (valueSize : Res TagErr UInt64) (value : Act TagErr ω Unit) : Act TagErr ω Unit := do
  Ser.serializeILInt id
  if isImplicitTag id then value
  else do
    let v ← Act.lift valueSize
    Ser.serializeILInt v
    value

/-- `for v in self.value { v.serialize(writer)?; }`, explicit/mod.rs:599-601; `ser` is `serialize` of an element. -/
def serializeSeqAt (ser : Tag P → Act TagErr ω Unit) : List (Tag P) → Act TagErr ω Unit
  | [] => pure ()
  | t :: ts => do
    ser t
    serializeSeqAt ser ts

/-- Key to `value.serialize(writer)` for each entry (looked up at explicit/mod.rs:1096-1101). -/
def entrySerializersAt (ser : Tag P → Act TagErr ω Unit) : List (String × Tag P) → List (String × Act TagErr ω Unit)
  | [] => []
  | (k, t) :: es => (k, ser t) :: entrySerializersAt ser es

/-- `ILTag::serialize_value`: explicit/mod.rs:598-603 (sequence), 671-674 (array), 1088-1104 (dictionary). -/
def serializeValueAt [TagPayload P] : Nat → Tag P → Act TagErr ω Unit
  | 0, _ => Act.diverge
  | _ + 1, .atom a => a.serializeValue
  | k + 1, .seq _ ts => serializeSeqAt (fun t => serializeWithAt t.id (t.valueSizeAt k) (serializeValueAt k t)) ts
  | k + 1, .array _ ts => do
    Ser.serializeILInt (lenU64 ts.length)
    serializeSeqAt (fun t => serializeWithAt t.id (t.valueSizeAt k) (serializeValueAt k t)) ts
  | k + 1, .dict _ es => do
    Ser.serializeILInt (lenU64 es.length)
    serializeEntries (entrySerializersAt (fun t => serializeWithAt t.id (t.valueSizeAt k) (serializeValueAt k t)) es)
      (sortKeys (es.map (·.1)))

/-- `ILTag::serialize`, /repo/src/tags/mod.rs:230-236. -/
def serializeAt [TagPayload P] (k : Nat) (t : Tag P) : Act TagErr ω Unit :=
  if k = 0 then Act.diverge else serializeWithAt t.id (t.valueSizeAt k) (t.serializeValueAt k)

/-- `ILTag::to_bytes`, /repo/src/tags/mod.rs:266-270. -/
def toBytesAt [Env] [TagPayload P] (k : Nat) (t : Tag P) : Res TagErr Bytes := do
  let n ← t.sizeAt k
  if n.toNat ≤ Env.allocMax then
    match t.serializeAt k VecWriter.new with
    | (.ok (), w) => .ok w.vector
    | (.err e, _) => .err e
    | (.panic, _) => .panic
    | (.diverge, _) => .diverge
  else .panic

end Tag

/-- `ILTagFactory::from_bytes`, /repo/src/tags/mod.rs:489-497. -/
def Factory.fromBytesAt [TagPayload P] [Env] (e : Engine P) (k : Nat) (raw : Bytes) : Res TagErr (Tag P) :=
  match Factory.deserializeFuel e k ByteArrayReader none (ByteArrayReader.new raw) with
  | (.ok t, r) => if r.available = 0 then .ok t else .err .corruptedData
  | (.err x, _) => .err x
  | (.panic, _) => .panic
  | (.diverge, _) => .diverge

/-- `iltag_are_equal`, /repo/src/tags/util/mod.rs:57-67. -/
def tagsAreEqualAt [TagPayload P] [Env] (k : Nat) (a b : Tag P) : Res TagErr Bool :=
  match a.toBytesAt k with
  | .err _ => .ok false
  | .panic => .panic
  | .diverge => .diverge
  | .ok sa =>
    match b.toBytesAt k with
    | .err _ => .ok false
    | .panic => .panic
    | .diverge => .diverge
    | .ok sb => .ok (sa == sb)

/-- `iltag_clone_with_factory`, /repo/src/tags/util/mod.rs:86-92. -/
def tagCloneWithFactoryAt [TagPayload P] [Env] (e : Engine P) (k : Nat) (t : Tag P) : Res TagErr (Tag P) := do
  let s ← t.toBytesAt k
  Factory.fromBytesAt e k s

end Verif
