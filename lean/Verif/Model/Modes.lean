import Verif.Model.Size
import Verif.Model.Util
/-!
# `serialize` and `to_bytes` with overflow checks

The same functions as in `Verif.Model.Tag` with the sizes of `Verif.Model.Size`, in either arithmetic mode of the build:
in a checked build `serialize` panics where it asks for a `value_size` that overflows.  Reading makes no unchecked
addition.
-/
namespace Verif
variable {P : Type} {ω : Type} [Writer ω] [TagPayload P]

/-- `ILTag::serialize`, /repo/src/tags/mod.rs:230-236, given the id, what `value_size()` does and the value serializer. -/
def serializeWithM (id : UInt64) (valueSize : Res TagErr UInt64) (value : Act TagErr ω Unit) : Act TagErr ω Unit := do
  Ser.serializeILInt id
  if isImplicitTag id then value
  else do
    let v ← Act.lift valueSize
    Ser.serializeILInt v
    value

mutual
/-- `ILTag::serialize_value`: explicit/mod.rs:598-603 (sequence), 671-674 (array), 1088-1104 (dictionary). -/
def Tag.serializeValueM (m : ArithMode) : Tag P → Act TagErr ω Unit
  | .atom a => a.serializeValue
  | .seq _ ts => Tag.serializeSeqM m ts
  | .array _ ts => do
    Ser.serializeILInt (lenU64 ts.length)
    Tag.serializeSeqM m ts
  | .dict _ es => do
    Ser.serializeILInt (lenU64 es.length)
    Tag.serializeEntries (Tag.entrySerializersM m es) (sortKeys (es.map (·.1)))
/-- `for v in self.value { v.serialize(writer)?; }`, explicit/mod.rs:599-601. -/
def Tag.serializeSeqM (m : ArithMode) : List (Tag P) → Act TagErr ω Unit
  | [] => pure ()
  | t :: ts => do
    serializeWithM t.id (t.valueSizeM m) (t.serializeValueM m)
    Tag.serializeSeqM m ts
/-- Key to `value.serialize(writer)` for each entry (looked up at explicit/mod.rs:1096-1101). -/
def Tag.entrySerializersM (m : ArithMode) : List (String × Tag P) → List (String × Act TagErr ω Unit)
  | [] => []
  | (k, t) :: es => (k, serializeWithM t.id (t.valueSizeM m) (t.serializeValueM m)) :: Tag.entrySerializersM m es
end

/-- `ILTag::serialize`, /repo/src/tags/mod.rs:230-236. -/
def Tag.serializeM (m : ArithMode) (t : Tag P) : Act TagErr ω Unit :=
  serializeWithM t.id (t.valueSizeM m) (t.serializeValueM m)

/-- `ILTag::to_bytes`, /repo/src/tags/mod.rs:266-270. -/
def Tag.toBytesM [Env] (m : ArithMode) (t : Tag P) : Res TagErr Bytes := do
  let size ← t.sizeM m
  if size.toNat ≤ Env.allocMax then
    match t.serializeM m VecWriter.new with
    | (.ok (), w) => .ok w.vector
    | (.err e, _) => .err e
    | (.panic, _) => .panic
    | (.diverge, _) => .diverge
  else .panic

/-- `iltag_are_equal`, /repo/src/tags/util/mod.rs:57-67. -/
def tagsAreEqualM [Env] (m : ArithMode) (a b : Tag P) : Res TagErr Bool :=
  match a.toBytesM m with
  | .err _ => .ok false
  | .panic => .panic
  | .diverge => .diverge
  | .ok sa =>
    match b.toBytesM m with
    | .err _ => .ok false
    | .panic => .panic
    | .diverge => .diverge
    | .ok sb => .ok (sa == sb)

/-- `iltag_clone_with_factory`, /repo/src/tags/util/mod.rs:86-92. -/
def tagCloneWithFactoryM [Env] (m : ArithMode) (e : Engine P) (t : Tag P) : Res TagErr (Tag P) := do
  let s ← t.toBytesM m
  Factory.fromBytes e s

end Verif
