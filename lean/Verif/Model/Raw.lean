import Verif.Model.Tag
/-!
# `src/tags/raw/mod.rs`: raw tag offsets and the raw tag scanner
-/
namespace Verif

/-- `struct RawTagOffset`, /repo/src/tags/raw/mod.rs:58-63, with `new`
(/repo/src/tags/raw/mod.rs:67-74) and the accessors `id`, `offset`, `value_size` (/repo/src/tags/raw/mod.rs:77-84, 97-99). -/
structure RawTagOffset where
  id : UInt64
  offset : UInt64
  headerSize : UInt64
  valueSize : UInt64
  deriving Repr, DecidableEq

namespace RawTagOffset
variable (m : ArithMode)

/-- `Default`, /repo/src/tags/raw/mod.rs:191-200. -/
def default : RawTagOffset := ⟨0, 0, 0, 0⟩
/-- `size`, /repo/src/tags/raw/mod.rs:87-89. -/
def size (t : RawTagOffset) : Res TagErr UInt64 := addU64 m t.headerSize t.valueSize
/-- `value_offset`, /repo/src/tags/raw/mod.rs:92-94. -/
def valueOffset (t : RawTagOffset) : Res TagErr UInt64 := addU64 m t.offset t.headerSize
/-- `next_tag_offset`, /repo/src/tags/raw/mod.rs:102-104. -/
def nextTagOffset (t : RawTagOffset) : Res TagErr UInt64 := do
  let s ← t.size m
  addU64 m t.offset s
/-- `value_start`, /repo/src/tags/raw/mod.rs:109-111 (64-bit `usize`). -/
def valueStart (t : RawTagOffset) : Res TagErr Nat := (t.valueOffset m).map UInt64.toNat
/-- `value_end`, /repo/src/tags/raw/mod.rs:116-118. -/
def valueEnd (t : RawTagOffset) : Res TagErr Nat := (t.nextTagOffset m).map UInt64.toNat
/-- `tag_start`, /repo/src/tags/raw/mod.rs:123-125. -/
def tagStart (t : RawTagOffset) : Nat := t.offset.toNat
/-- `tag_end`, /repo/src/tags/raw/mod.rs:129-131. -/
def tagEnd (t : RawTagOffset) : Res TagErr Nat := t.valueEnd m

/-- `&raw[a..b]`: panics if `a > b` or `b > raw.len()`. -/
def slice (raw : Bytes) (a b : Nat) : Res TagErr Bytes :=
  if a ≤ b ∧ b ≤ raw.length then .ok ((raw.take b).drop a) else .panic

/-- `tag_slice`, /repo/src/tags/raw/mod.rs:140-142. -/
def tagSlice (t : RawTagOffset) (raw : Bytes) : Res TagErr Bytes := do
  let e ← t.tagEnd m
  slice raw t.tagStart e
/-- `value_slice`, /repo/src/tags/raw/mod.rs:151-153. -/
def valueSlice (t : RawTagOffset) (raw : Bytes) : Res TagErr Bytes := do
  let s ← t.valueStart m
  let e ← t.valueEnd m
  slice raw s e

/-- `map_to_parent_space`, /repo/src/tags/raw/mod.rs:177-188. -/
def mapToParentSpace (t parent : RawTagOffset) : Res TagErr RawTagOffset := do
  let n ← t.nextTagOffset m
  if n > parent.valueSize then .err .corruptedData
  else do
    let po ← parent.valueOffset m
    let o ← addU64 m po t.offset
    .ok { t with offset := o }

end RawTagOffset

/-- `struct RawTagScanner`, /repo/src/tags/raw/mod.rs:210-213. -/
structure RawTagScanner (σ : Type) where
  offset : UInt64
  reader : σ
  deriving Repr, DecidableEq

namespace RawTagScanner
variable (m : ArithMode) {σ : Type} [Reader σ]

/-- `new`, /repo/src/tags/raw/mod.rs:218-220. -/
def new {σ : Type} (reader : σ) : RawTagScanner σ := ⟨0, reader⟩

/-- A call on the scanner's reader. -/
def onReader {ε α : Type} (x : Act ε σ α) : Act ε (RawTagScanner σ) α := fun s =>
  match x s.reader with
  | (r, rd) => (r, { s with reader := rd })

/-- `extract_implicit_ilint_tag_size`, /repo/src/tags/raw/mod.rs:290-294. -/
def extractImplicitILIntTagSize : Act TagErr σ (UInt64 × UInt64 × UInt64) := do
  let header ← tagIo Reader.read
  let totalSize := ILInt.decodedSize header
  pure (0, UInt64.ofNat totalSize, UInt64.ofNat (totalSize - 1))

/-- `extract_tag_size`, /repo/src/tags/raw/mod.rs:262-282. -/
def extractTagSize (id : UInt64) : Act TagErr σ (UInt64 × UInt64 × UInt64) :=
  if isImplicitTag id then
    if id = Id.ilint ∨ id = Id.signedILInt then extractImplicitILIntTagSize
    else if id = 15 then Act.fail .corruptedData
    else pure (0, implicitTagSize id, implicitTagSize id)
  else do
    let valueSize ← Ser.deserializeILInt
    pure (ilSize valueSize, valueSize, valueSize)

/-- `next_tag`, /repo/src/tags/raw/mod.rs:223-238. -/
def nextTag : Act TagErr (RawTagScanner σ) (Option RawTagOffset) := do
  let id ← onReader Ser.deserializeILInt
  let sizeInfo ← onReader (extractTagSize id)
  let headerSize ← Act.lift (addU64 m (ilSize id) sizeInfo.1)
  let valueSize := sizeInfo.2.1
  let bytesToSkip := sizeInfo.2.2
  let sc ← Act.get
  let offset := sc.offset
  let total ← Act.lift (addU64 m headerSize valueSize)
  let newOffset ← Act.lift (addU64 m offset total)
  Act.set { sc with offset := newOffset }
  onReader (tagIo (Reader.skipU64 bytesToSkip))
  pure (some ⟨id, offset, headerSize, valueSize⟩)

/-- `next_tag_if_id`, /repo/src/tags/raw/mod.rs:243-254. -/
def nextTagIfId (expectedId : UInt64) : Act TagErr (RawTagScanner σ) (Option RawTagOffset) := do
  let t ← nextTag m
  match t with
  | some t => if t.id = expectedId then pure (some t) else Act.fail .unexpectedTagType
  | none => pure none

end RawTagScanner
end Verif
