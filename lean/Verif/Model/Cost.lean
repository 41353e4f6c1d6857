import Verif.Model.Tag
/-!
# How often `value_size` is called

The functions of `Verif.Model.Tag` that compute sizes and serialize, written out once more with a counter of the calls
of `value_size` on tags.  The results are the same (`Verif.Proof.Cost`); only the number of calls is added.
Simplification: the call an outer struct makes on its inner struct (`ILOIDTag`, `ILByteArrayTag`, `ILBigIntTag`,
`ILTagArrayTag`) is not counted separately.
-/
namespace Verif

/-- A value and the number of `value_size` calls made to compute it. -/
structure Counted (α : Type) where
  value : α
  calls : Nat
  deriving Repr, DecidableEq

namespace Counted
instance : Monad Counted where
  pure a := ⟨a, 0⟩
  bind x f := ⟨(f x.value).value, x.calls + (f x.value).calls⟩

/-- Entering `value_size`. -/
def tick : Counted Unit := ⟨(), 1⟩
end Counted

/-- A writer together with the counter. -/
structure Counting (ω : Type) where
  writer : ω
  calls : Nat
  deriving Repr, DecidableEq

namespace Counting
variable {ω : Type}

/-- A call on the writer. -/
def onWriter {ε α : Type} (x : Act ε ω α) : Act ε (Counting ω) α := fun c =>
  match x c.writer with
  | (r, w) => (r, ⟨w, c.calls⟩)

instance [Writer ω] : Writer (Counting ω) where
  write b := onWriter (Writer.write b)
  writeAll bs := onWriter (Writer.writeAll bs)

/-- A computation that calls `value_size`. -/
def eval {ε α : Type} (x : Counted α) : Act ε (Counting ω) α := fun c => (.ok x.value, ⟨c.writer, c.calls + x.calls⟩)

end Counting

/-- `ILTag::size`, /repo/src/tags/mod.rs:198-204: `vs` is `self.value_size()`, evaluated twice for an explicit tag
(line 201 and line 203). -/
def sizeOfC (id : UInt64) (vs : Counted UInt64) : Counted UInt64 :=
  if isImplicitTag id then do
    let v ← vs
    pure (ilSize id + v)
  else do
    let v ← vs
    let w ← vs
    pure (ilSize id + ilSize v + w)

namespace Tag
variable {P : Type}

mutual
/-- `ILTag::value_size`: explicit/mod.rs:590-596 (sequence), 666-669 (array), 1079-1086 (dictionary). -/
def valueSizeC [TagPayload P] : Tag P → Counted UInt64
  | .atom a => do
    Counted.tick
    pure a.valueSize
  | .seq _ ts => do
    Counted.tick
    sizeSumC 0 ts
  | .array _ ts => do
    Counted.tick
    let s ← sizeSumC 0 ts
    pure (ilSize (lenU64 ts.length) + s)
  | .dict _ es => do
    Counted.tick
    let s ← entriesSumC 0 es
    pure (ilSize (lenU64 es.length) + s)
/-- `for v in self.value { size += v.size() }`, explicit/mod.rs:591-595. -/
def sizeSumC [TagPayload P] (acc : UInt64) : List (Tag P) → Counted UInt64
  | [] => pure acc
  | t :: ts => do
    let s ← sizeOfC t.id t.valueSizeC
    sizeSumC (acc + s) ts
/-- `.map(|(k, v)| string_tag_size_from_value(k) + v.size()).sum()`, explicit/mod.rs:1083-1085. -/
def entriesSumC [TagPayload P] (acc : UInt64) : List (String × Tag P) → Counted UInt64
  | [] => pure acc
  | (k, t) :: es => do
    let s ← sizeOfC t.id t.valueSizeC
    entriesSumC (acc + (stringTagSize k + s)) es
end

/-- `ILTag::size`, /repo/src/tags/mod.rs:198-204. -/
def sizeC [TagPayload P] (t : Tag P) : Counted UInt64 := sizeOfC t.id t.valueSizeC

variable {ω : Type} [Writer ω]

/-- `ILTag::serialize`, /repo/src/tags/mod.rs:230-236: `value_size` is called for an explicit tag. -/
def serializeWithC (id : UInt64) (valueSize : Counted UInt64) (value : Act TagErr (Counting ω) Unit) :
    Act TagErr (Counting ω) Unit := do
  Ser.serializeILInt id
  if isImplicitTag id then value
  else do
    let vs ← Counting.eval valueSize
    Ser.serializeILInt vs
    value

mutual
/-- `ILTag::serialize_value`: explicit/mod.rs:598-603 (sequence), 671-674 (array), 1088-1104 (dictionary). -/
def serializeValueC [TagPayload P] : Tag P → Act TagErr (Counting ω) Unit
  | .atom a => a.serializeValue
  | .seq _ ts => serializeSeqC ts
  | .array _ ts => do
    Ser.serializeILInt (lenU64 ts.length)
    serializeSeqC ts
  | .dict _ es => do
    Ser.serializeILInt (lenU64 es.length)
    serializeEntries (entrySerializersC es) (sortKeys (es.map (·.1)))
/-- `for v in self.value { v.serialize(writer)?; }`, explicit/mod.rs:599-601. -/
def serializeSeqC [TagPayload P] : List (Tag P) → Act TagErr (Counting ω) Unit
  | [] => pure ()
  | t :: ts => do
    serializeWithC t.id t.valueSizeC t.serializeValueC
    serializeSeqC ts
/-- Key to `value.serialize(writer)` for each entry (looked up at explicit/mod.rs:1096-1101). -/
def entrySerializersC [TagPayload P] : List (String × Tag P) → List (String × Act TagErr (Counting ω) Unit)
  | [] => []
  | (k, t) :: es => (k, serializeWithC t.id t.valueSizeC t.serializeValueC) :: entrySerializersC es
end

/-- `ILTag::serialize`, /repo/src/tags/mod.rs:230-236. -/
def serializeC [TagPayload P] (t : Tag P) : Act TagErr (Counting ω) Unit :=
  serializeWithC t.id t.valueSizeC t.serializeValueC

/-- `ILTag::to_bytes`, /repo/src/tags/mod.rs:266-270: `size()`, then `serialize`. -/
def toBytesC [Env] [TagPayload P] (t : Tag P) : Counted (Res TagErr Bytes) :=
  let s := t.sizeC
  if s.value.toNat ≤ Env.allocMax then
    match t.serializeC (⟨VecWriter.new, s.calls⟩ : Counting VecWriter) with
    | (.ok (), c) => ⟨.ok c.writer.vector, c.calls⟩
    | (.err e, c) => ⟨.err e, c.calls⟩
    | (.panic, c) => ⟨.panic, c.calls⟩
    | (.diverge, c) => ⟨.diverge, c.calls⟩
  else ⟨.panic, s.calls⟩

end Tag
end Verif
