import Verif.Model.Tag
/-!
# `value_size` and `size` with overflow checks

The same functions as in `Verif.Model.Tag`, in either arithmetic mode of the build: in a checked build an addition
that overflows `u64` panics.
-/
namespace Verif

/-- `string_tag_size_from_value`, /repo/src/tags/standard/explicit/mod.rs:241-244. -/
def stringTagSizeM (m : ArithMode) (s : String) : Res TagErr UInt64 := do
  let a ← addU64 m 1 (ilSize (lenU64 (utf8 s).length))
  addU64 m a (lenU64 (utf8 s).length)

/-- `for x in l { size += f(x) }` and `l.iter().map(f).sum()`. -/
def sumM {α : Type} (m : ArithMode) (f : α → Res TagErr UInt64) (acc : UInt64) : List α → Res TagErr UInt64
  | [] => .ok acc
  | x :: xs => do
    let v ← f x
    let acc' ← addU64 m acc v
    sumM m f acc' xs

/-- `ILTag::value_size` of the types without nested tags; explicit/mod.rs:413-415 (`bigDec`), 509-515
(`ilintArray`, `oid`), 1227-1234 (`strDict`); the other types perform no `u64` addition that could overflow
(`range` adds 2 to a number of bytes below 10). -/
def Atom.valueSizeM {P : Type} [TagPayload P] (m : ArithMode) : Atom P → Res TagErr UInt64
  | .bigDec _ _ v => addU64 m 4 (lenU64 v.length)
  | .ilintArray _ v => sumM m (fun x => .ok (ilSize x)) (ilSize (lenU64 v.length)) v
  | .oid _ v => sumM m (fun x => .ok (ilSize x)) (ilSize (lenU64 v.length)) v
  | .strDict _ es => do
    let s ← sumM m (fun e : String × String => do
      let a ← stringTagSizeM m e.1
      let b ← stringTagSizeM m e.2
      addU64 m a b) 0 es
    addU64 m (ilSize (lenU64 es.length)) s
  | a => .ok a.valueSize

/-- `ILTag::size` from the id and the value size, /repo/src/tags/mod.rs:198-204. -/
def sizeFromM (m : ArithMode) (id valueSize : UInt64) : Res TagErr UInt64 :=
  if isImplicitTag id then addU64 m (ilSize id) valueSize
  else do
    let a ← addU64 m (ilSize id) (ilSize valueSize)
    addU64 m a valueSize

mutual
/-- `ILTag::value_size`: explicit/mod.rs:590-596 (sequence), 666-669 (array), 1079-1086 (dictionary). -/
def Tag.valueSizeM {P : Type} [TagPayload P] (m : ArithMode) : Tag P → Res TagErr UInt64
  | .atom a => a.valueSizeM m
  | .seq _ ts => Tag.sizeSumM m 0 ts
  | .array _ ts => do
    let s ← Tag.sizeSumM m 0 ts
    addU64 m (ilSize (lenU64 ts.length)) s
  | .dict _ es => do
    let s ← Tag.entriesSumM m 0 es
    addU64 m (ilSize (lenU64 es.length)) s
/-- `for v in self.value { size += v.size() }`, explicit/mod.rs:591-595. -/
def Tag.sizeSumM {P : Type} [TagPayload P] (m : ArithMode) (acc : UInt64) : List (Tag P) → Res TagErr UInt64
  | [] => .ok acc
  | t :: ts => do
    let v ← Tag.valueSizeM m t
    let s ← sizeFromM m t.id v
    let acc' ← addU64 m acc s
    Tag.sizeSumM m acc' ts
/-- `.map(|(k, v)| string_tag_size_from_value(k) + v.size()).sum()`, explicit/mod.rs:1083-1085. -/
def Tag.entriesSumM {P : Type} [TagPayload P] (m : ArithMode) (acc : UInt64) :
    List (String × Tag P) → Res TagErr UInt64
  | [] => .ok acc
  | (k, t) :: es => do
    let a ← stringTagSizeM m k
    let v ← Tag.valueSizeM m t
    let s ← sizeFromM m t.id v
    let x ← addU64 m a s
    let acc' ← addU64 m acc x
    Tag.entriesSumM m acc' es
end

/-- `ILTag::size`, /repo/src/tags/mod.rs:198-204. -/
def Tag.sizeM {P : Type} [TagPayload P] (m : ArithMode) (t : Tag P) : Res TagErr UInt64 := do
  let v ← t.valueSizeM m
  sizeFromM m t.id v

end Verif
