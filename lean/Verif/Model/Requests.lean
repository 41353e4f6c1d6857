import Verif.Model.Factory
import Verif.Spec.Prog
/-!
# The deserializers as trees of reader calls and memory requests

`Verif.Model.Deser` and `Verif.Model.Factory` once more, line by line, as `Prog` trees, in which each memory request is
visible.  `Verif.Proof.Requests` shows that running the tree is the same as calling the function, for every reader and
every amount of memory.  The citations are those of the functions of the same name there.
-/
namespace Verif

/-- A tree that depends on the value being filled. -/
def PS (τ α : Type) : Type := τ → Prog τ α

namespace PS
variable {τ τ' α β : Type}

instance : Monad (PS τ) where
  pure a := fun t => .done (.ok a) t
  bind p k := fun t => (p t).bind k

def lift (r : Res TagErr α) : PS τ α := fun t => .done r t
def fail (e : TagErr) : PS τ α := lift (.err e)
def panic : PS τ α := lift .panic
def diverge : PS τ α := lift .diverge
def guardE (c : Prop) [Decidable c] (e : TagErr) : PS τ Unit := if c then lift (.ok ()) else lift (.err e)
def read : PS τ Byte := fun t => .read t fun b => .done (.ok b) t
def readAll (n : Nat) : PS τ Bytes := fun t => .readAll t n fun bs => .done (.ok bs) t
def alloc (unit count : Nat) : PS τ Unit := fun t => .alloc t unit count (.done (.ok ()) t)
def set (t : τ) : PS τ Unit := fun _ => .done (.ok ()) t
def modify (g : τ → τ) : PS τ Unit := fun t => .done (.ok ()) (g t)
/-- A tree that has no value to fill. -/
def onReader (p : PS Unit α) : PS τ α := fun t => (p ()).mapT fun _ => t
def zoom (wrap : τ → τ') (t : τ) (p : PS τ α) : PS τ' α := fun _ => (p t).mapT wrap
/-- Goes through the limited reader; the second component is what it has available. -/
def limited (p : PS τ α) : PS (τ × Nat) α := fun q => (p q.1).limit q.2
def withLimited (n : Nat) (p : PS (τ × Nat) α) : PS τ α := fun t => (p (t, n)).mapT Prod.fst
def ensureEmpty : PS (τ × Nat) Unit := fun q =>
  if q.2 = 0 then .done (.ok ()) q else .done (.err .corruptedData) q

/-! ### Serialization helpers -/

def ilint : PS Unit UInt64 := do
  let h ← read
  if ILInt.decodedSize h = 1 then pure h.toUInt64
  else do
    let tmp ← readAll (ILInt.decodedSize h - 1)
    lift ((ILInt.decodeBody tmp).mapErr fun x => .ioError (Data.readILIntErr x))
def signedILInt : PS Unit Int64 := do
  let v ← ilint
  pure (ILInt.decodeSign v)
def i8 : PS Unit Int8 := do let v ← read; pure (v : Byte).toInt8
def u16 : PS Unit UInt16 := do let t ← readAll 2; pure (UInt16.ofNat (fromBE t))
def i16 : PS Unit Int16 := do let t ← readAll 2; pure (UInt16.ofNat (fromBE t)).toInt16
def u32 : PS Unit UInt32 := do let t ← readAll 4; pure (UInt32.ofNat (fromBE t))
def i32 : PS Unit Int32 := do let t ← readAll 4; pure (UInt32.ofNat (fromBE t)).toInt32
def u64 : PS Unit UInt64 := do let t ← readAll 8; pure (UInt64.ofNat (fromBE t))
def i64 : PS Unit Int64 := do let t ← readAll 8; pure (UInt64.ofNat (fromBE t)).toInt64
def bytes (size : Nat) : PS Unit Bytes := do
  alloc 1 size
  readAll size
def stringTag : PS Unit String := do
  let id ← ilint
  if id ≠ Id.string then fail .corruptedData
  else do
    let len ← ilint
    let usizeLen ← lift (tagSizeToUsize len)
    let tmp ← bytes usizeLen
    match fromUtf8 tmp with
    | some s => pure s
    | none => fail .corruptedData
def bytesIntoVec (size : Nat) : PS Bytes Unit := do
  alloc 1 size
  modify (resizeZ · size)
  let bs ← onReader (readAll size)
  set bs

/-! ### Values -/
variable {P : Type}

def rprog (f : Option (Tag P) → PS Unit (Tag P)) : RProg P → PS P Unit
  | .done r p => fun _ => .done r p
  | .read k => do
    let b ← onReader read
    rprog f (k b)
  | .readAll n k => do
    let bs ← onReader (readAll n)
    rprog f (k bs)
  | .deser k => do
    let t ← onReader (f none)
    rprog f (k t)
  | .into t k => do
    let t ← onReader (f (some t))
    rprog f (k t)

def pushILInts : Nat → PS (List UInt64) Unit
  | 0 => pure ()
  | n + 1 => do
    let v ← onReader ilint
    modify (· ++ [v])
    pushILInts n

def ilintArray (valueSize : Nat) : PS (List UInt64) Unit :=
  withLimited valueSize do
    let count ← limited (onReader ilint)
    if count.toNat > valueSize then fail .corruptedData
    else do
      limited (set [])
      limited (alloc 8 count.toNat)
      limited (pushILInts count.toNat)
      ensureEmpty

def insertStrEntries : Nat → PS (List (String × String)) Unit
  | 0 => pure ()
  | n + 1 => do
    let k ← onReader stringTag
    let v ← onReader stringTag
    modify (HMap.insert k v)
    insertStrEntries n

def strDict (valueSize : Nat) : PS (List (String × String)) Unit :=
  withLimited valueSize do
    let count ← limited (onReader ilint)
    limited (set [])
    limited (insertStrEntries count.toNat)
    ensureEmpty

def range (valueSize : Nat) : PS (UInt64 × UInt16) Unit :=
  withLimited valueSize do
    let start ← limited (onReader ilint)
    limited (modify (fun p => (start, p.2)))
    let count ← limited (onReader u16)
    limited (modify (fun p => (p.1, count)))
    ensureEmpty

/-- A value of fixed size: the check, the call, the assignment. -/
def fixed (valueSize size : Nat) (p : PS Unit α) (g : α → τ) : PS τ Unit := do
  guardE (valueSize = size) .corruptedData
  let v ← onReader p
  set (g v)

def atomValue [TagPayload P] (f : Option (Tag P) → PS Unit (Tag P)) (valueSize : Nat) : Atom P → PS (Atom P) Unit
  | .null _ => guardE (valueSize = 0) .corruptedData
  | .bool id _ => do
    guardE (valueSize = 1) .corruptedData
    let v ← onReader read
    if v = 0 then set (.bool id false)
    else if v = 1 then set (.bool id true)
    else fail .corruptedData
  | .int8 id _ => fixed valueSize 1 i8 (.int8 id)
  | .uint8 id _ => fixed valueSize 1 read (.uint8 id)
  | .int16 id _ => fixed valueSize 2 i16 (.int16 id)
  | .uint16 id _ => fixed valueSize 2 u16 (.uint16 id)
  | .int32 id _ => fixed valueSize 4 i32 (.int32 id)
  | .uint32 id _ => fixed valueSize 4 u32 (.uint32 id)
  | .int64 id _ => fixed valueSize 8 i64 (.int64 id)
  | .uint64 id _ => fixed valueSize 8 u64 (.uint64 id)
  | .bin32 id _ => fixed valueSize 4 u32 (.bin32 id)
  | .bin64 id _ => fixed valueSize 8 u64 (.bin64 id)
  | .bin128 id _ => do
    guardE (valueSize = 16) .corruptedData
    let v ← onReader (readAll 16)
    if h : v.length = 16 then set (.bin128 id ⟨v, h⟩)
    else panic
  | .ilint id _ => do
    let v ← onReader ilint
    set (.ilint id v)
  | .signedILInt id _ => do
    let v ← onReader signedILInt
    set (.signedILInt id v)
  | .raw id v => zoom (.raw id) v (bytesIntoVec valueSize)
  | .byteArray v => zoom .byteArray v (bytesIntoVec valueSize)
  | .string id _ => do
    let tmp ← onReader (bytes valueSize)
    match fromUtf8 tmp with
    | some s => set (.string id s)
    | none => fail .corruptedData
  | .bigInt v => zoom .bigInt v (bytesIntoVec valueSize)
  | .bigDec id _ v => do
    guardE (4 ≤ valueSize) .corruptedData
    let scale ← onReader i32
    set (.bigDec id scale v)
    zoom (.bigDec id scale) v (bytesIntoVec (valueSize - 4))
  | .ilintArray id v => zoom (.ilintArray id) v (ilintArray valueSize)
  | .range id start count => zoom (fun p => .range id p.1 p.2) (start, count) (range valueSize)
  | .version id a b c d => do
    guardE (valueSize = 16) .corruptedData
    let a' ← onReader i32
    set (.version id a' b c d)
    let b' ← onReader i32
    set (.version id a' b' c d)
    let c' ← onReader i32
    set (.version id a' b' c' d)
    let d' ← onReader i32
    set (.version id a' b' c' d')
  | .oid id v => zoom (.oid id) v (ilintArray valueSize)
  | .strDict id es => zoom (.strDict id) es (strDict valueSize)
  | .payload id p => zoom (.payload id) p (rprog f (TagPayload.deserialize p valueSize))

def pushWhileNotEmpty (f : PS Unit (Tag P)) : Nat → PS (List (Tag P) × Nat) Unit
  | 0 => diverge
  | fuel + 1 => fun q =>
    if (q.2 == 0) = true then .done (.ok ()) q
    else (do
      let t ← limited (onReader f)
      limited (modify (· ++ [t]))
      pushWhileNotEmpty f fuel : PS (List (Tag P) × Nat) Unit) q

def seq (f : PS Unit (Tag P)) (valueSize : Nat) : PS (List (Tag P)) Unit :=
  withLimited valueSize do
    limited (set [])
    pushWhileNotEmpty f (valueSize + 1)

def pushTags (f : PS Unit (Tag P)) : Nat → PS (List (Tag P)) Unit
  | 0 => pure ()
  | n + 1 => do
    let t ← onReader f
    modify (· ++ [t])
    pushTags f n

def array (f : PS Unit (Tag P)) (valueSize : Nat) : PS (List (Tag P)) Unit :=
  withLimited valueSize do
    let count ← limited (onReader ilint)
    if count.toNat > valueSize then fail .corruptedData
    else do
      limited (set [])
      limited (alloc 16 count.toNat)
      limited (pushTags f count.toNat)
      ensureEmpty

def insertEntries (f : PS Unit (Tag P)) : Nat → PS (List (String × Tag P)) Unit
  | 0 => pure ()
  | n + 1 => do
    let k ← onReader stringTag
    let v ← onReader f
    modify (HMap.insert k v)
    insertEntries f n

def dict (f : PS Unit (Tag P)) (valueSize : Nat) : PS (List (String × Tag P)) Unit :=
  withLimited valueSize do
    let count ← limited (onReader ilint)
    limited (set [])
    limited (insertEntries f count.toNat)
    ensureEmpty

def tagValue [TagPayload P] (f : Option (Tag P) → PS Unit (Tag P)) (valueSize : Nat) : Tag P → PS (Tag P) Unit
  | .atom a => zoom .atom a (atomValue f valueSize a)
  | .seq id ts => zoom (.seq id) ts (seq (f none) valueSize)
  | .array id ts => zoom (.array id) ts (array (f none) valueSize)
  | .dict id es => zoom (.dict id) es (dict (f none) valueSize)

/-! ### The factory -/

def tagSize (id : UInt64) : PS Unit Nat := do
  let size ← if isImplicitTag id then pure (implicitTagSize id) else ilint
  lift (tagSizeToUsize size)

def checkEmpty : PS (Tag P × Nat) Unit := fun q =>
  if q.1.id ≠ Id.ilint ∧ q.1.id ≠ Id.signedILInt ∧ (q.2 == 0) = false then .done (.err .corruptedData) q
  else .done (.ok ()) q

def tagValueInto [TagPayload P] (f : Option (Tag P) → PS Unit (Tag P)) (size : Nat) : PS (Tag P) Unit :=
  withLimited size fun q => (do
    limited (tagValue f size q.1)
    checkEmpty : PS (Tag P × Nat) Unit) q

def deserializeFuel [TagPayload P] (e : Engine P) : Nat → Option (Tag P) → PS Unit (Tag P)
  | 0, _ => diverge
  | fuel + 1, none => do
    let id ← ilint
    let size ← tagSize id
    let tag ← lift (e.createTag id)
    match tag with
    | none => fail .unknownTag
    | some tag => fun _ => (tagValueInto (deserializeFuel e fuel) size tag).toVal
  | fuel + 1, some tag => do
    let id ← ilint
    if id ≠ tag.id then fail .unexpectedTagType
    else do
      let size ← tagSize id
      fun _ => (tagValueInto (deserializeFuel e fuel) size tag).toVal

/-- The tree of `ILStandardTagFactory::deserialize`, /repo/src/tags/standard/factory/mod.rs:184-193. -/
def deserialize [TagPayload P] (e : Engine P) : Prog Unit (Tag P) := deserializeFuel e Factory.fuel none ()

end PS
end Verif
