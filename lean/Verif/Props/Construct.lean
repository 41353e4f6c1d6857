import Verif.Model.Construct
import Verif.Props.RoundTrip
import Verif.Props.Data
/-!
# C81: constructors, getters and setters of the tag types
-/
namespace Verif.Props
open Verif Verif.Spec
variable {P : Type}

/-- What `new()` of each standard type builds, seen as a tag, with the panics of the constructors. -/
def freshTags : List (Kind × Res TagErr (Tag P)) := [
  (.null, .ok nullNew),
  (.bool, .ok (ScalarTag.new (k := .bool)).toTag), (.int8, .ok (ScalarTag.new (k := .int8)).toTag),
  (.uint8, .ok (ScalarTag.new (k := .uint8)).toTag), (.int16, .ok (ScalarTag.new (k := .int16)).toTag),
  (.uint16, .ok (ScalarTag.new (k := .uint16)).toTag), (.int32, .ok (ScalarTag.new (k := .int32)).toTag),
  (.uint32, .ok (ScalarTag.new (k := .uint32)).toTag), (.int64, .ok (ScalarTag.new (k := .int64)).toTag),
  (.uint64, .ok (ScalarTag.new (k := .uint64)).toTag), (.ilint, .ok (ScalarTag.new (k := .ilint)).toTag),
  (.bin32, .ok (ScalarTag.new (k := .bin32)).toTag), (.bin64, .ok (ScalarTag.new (k := .bin64)).toTag),
  (.bin128, .ok Bin128Tag.new.toTag), (.signedILInt, .ok (ScalarTag.new (k := .signedILInt)).toTag),
  (.byteArray, (byteArrayWithValue [])), (.string, .ok StringTag.new.toTag),
  (.bigInt, (bigIntWithValue [])), (.bigDec, (BigDecTag.new.map BigDecTag.toTag)),
  (.ilintArray, .ok IntArrayTag.new.toTag), (.array, .ok ListTag.newArray.arrayTag),
  (.seq, .ok ListTag.newSeq.seqTag), (.range, .ok RangeTag.new.toTag), (.version, .ok VersionTag.new.toTag),
  (.oid, .ok OidTag.new.toTag), (.dict, .ok MapTag.newDict.dictTag), (.strDict, .ok MapTag.newStrDict.strDictTag)]

/-- **C81** `new()` of every standard type builds a tag of that type, under the id the standard gives it, and it is the
tag the standard factory creates for that id. -/
theorem C81_new (strict : Bool) :
    (freshTags (P := P)).map (·.1) = standardKinds ∧
    ∀ k t, (k, t) ∈ (freshTags (P := P)) → ∃ u, t = .ok u ∧ u.kind = k ∧ standardId k = some u.id.toNat ∧
      (Engine.std strict : Engine P).createTag u.id = .ok (some u) := by
  refine ⟨rfl, fun k t h => ?_⟩
  have key : ∀ u : Tag P, standardId u.kind = some u.id.toNat →
      (defaultCreatorOf u.kind u.id : Res TagErr (Tag P)) = .ok u →
      (Engine.std strict : Engine P).createTag u.id = .ok (some u) := by
    intro u h1 h2
    unfold Engine.createTag
    rw [std_get, stdKind_some.mpr h1]
    simp only [Option.map_some, h2]
    rfl
  simp only [freshTags, List.mem_cons, Prod.mk.injEq, List.not_mem_nil, or_false] at h
  rcases h with ⟨rfl, rfl⟩ | ⟨rfl, rfl⟩ | ⟨rfl, rfl⟩ | ⟨rfl, rfl⟩ | ⟨rfl, rfl⟩ | ⟨rfl, rfl⟩ | ⟨rfl, rfl⟩ | ⟨rfl, rfl⟩ |
    ⟨rfl, rfl⟩ | ⟨rfl, rfl⟩ | ⟨rfl, rfl⟩ | ⟨rfl, rfl⟩ | ⟨rfl, rfl⟩ | ⟨rfl, rfl⟩ | ⟨rfl, rfl⟩ | ⟨rfl, rfl⟩ | ⟨rfl, rfl⟩ |
    ⟨rfl, rfl⟩ | ⟨rfl, rfl⟩ | ⟨rfl, rfl⟩ | ⟨rfl, rfl⟩ | ⟨rfl, rfl⟩ | ⟨rfl, rfl⟩ | ⟨rfl, rfl⟩ | ⟨rfl, rfl⟩ | ⟨rfl, rfl⟩ |
    ⟨rfl, rfl⟩ <;>
  exact ⟨_, rfl, rfl, rfl, key _ rfl rfl⟩

/-- The tag is of the type `k` and has the id the standard gives it. -/
def Standard (k : Kind) (t : Tag P) : Prop := t.kind = k ∧ standardId k = some t.id.toNat

/-- **C81** `with_value` of every type builds a tag of that type, under its standard id, holding the value given. -/
theorem C81_with_value :
    (∀ k (v : Scalar.Value k), (ScalarTag.withValue v).getValue = v) ∧
    (∀ v, Standard .bool ((ScalarTag.withValue (k := .bool) v).toTag : Tag P)) ∧
    (∀ v, Standard .int8 ((ScalarTag.withValue (k := .int8) v).toTag : Tag P)) ∧
    (∀ v, Standard .uint8 ((ScalarTag.withValue (k := .uint8) v).toTag : Tag P)) ∧
    (∀ v, Standard .int16 ((ScalarTag.withValue (k := .int16) v).toTag : Tag P)) ∧
    (∀ v, Standard .uint16 ((ScalarTag.withValue (k := .uint16) v).toTag : Tag P)) ∧
    (∀ v, Standard .int32 ((ScalarTag.withValue (k := .int32) v).toTag : Tag P)) ∧
    (∀ v, Standard .uint32 ((ScalarTag.withValue (k := .uint32) v).toTag : Tag P)) ∧
    (∀ v, Standard .int64 ((ScalarTag.withValue (k := .int64) v).toTag : Tag P)) ∧
    (∀ v, Standard .uint64 ((ScalarTag.withValue (k := .uint64) v).toTag : Tag P)) ∧
    (∀ v, Standard .bin32 ((ScalarTag.withValue (k := .bin32) v).toTag : Tag P)) ∧
    (∀ v, Standard .bin64 ((ScalarTag.withValue (k := .bin64) v).toTag : Tag P)) ∧
    (∀ v, Standard .ilint ((ScalarTag.withValue (k := .ilint) v).toTag : Tag P)) ∧
    (∀ v, Standard .signedILInt ((ScalarTag.withValue (k := .signedILInt) v).toTag : Tag P)) ∧
    (∀ v, (Bin128Tag.withValue v).toTag = (.atom (.bin128 13 v) : Tag P)) ∧
    (∀ v, byteArrayWithValue v = .ok (.atom (.byteArray v) : Tag P)) ∧
    (∀ v, bigIntWithValue v = .ok (.atom (.bigInt v) : Tag P)) ∧
    (∀ v, (StringTag.withValue v).toTag = (.atom (.string 17 v) : Tag P)) ∧
    (∀ s v, (BigDecTag.withValue s v).map BigDecTag.toTag = .ok (.atom (.bigDec 19 s v) : Tag P)) ∧
    (∀ v, (IntArrayTag.withValue v).toTag = (.atom (.ilintArray 20 v) : Tag P)) ∧
    (∀ v, (OidTag.withValue v).toTag = (.atom (.oid 25 v) : Tag P)) ∧
    (∀ s c, (RangeTag.withValue s c).toTag = (.atom (.range 23 s c) : Tag P)) ∧
    (∀ a b c d, (VersionTag.withValue a b c d).toTag = (.atom (.version 24 a b c d) : Tag P)) ∧
    (∀ v, (VersionTag.withFromSlice v).toTag = (.atom (.version 24 v[0] v[1] v[2] v[3]) : Tag P)) := by
  refine ⟨fun k v => rfl, fun v => ⟨rfl, rfl⟩, fun v => ⟨rfl, rfl⟩, fun v => ⟨rfl, rfl⟩, fun v => ⟨rfl, rfl⟩,
    fun v => ⟨rfl, rfl⟩, fun v => ⟨rfl, rfl⟩, fun v => ⟨rfl, rfl⟩, fun v => ⟨rfl, rfl⟩, fun v => ⟨rfl, rfl⟩,
    fun v => ⟨rfl, rfl⟩, fun v => ⟨rfl, rfl⟩, fun v => ⟨rfl, rfl⟩, fun v => ⟨rfl, rfl⟩, fun v => rfl, fun v => rfl,
    fun v => rfl, fun v => rfl, fun s v => rfl, fun v => rfl, fun v => rfl, fun s c => rfl, fun a b c d => rfl,
    fun v => rfl⟩

/-- The tag of a scalar type under an id, holding a value: what the standard calls it. -/
def scalarTag : (k : Scalar) → UInt64 → k.Value → Tag P
  | .bool, id, v => .atom (.bool id v) | .int8, id, v => .atom (.int8 id v) | .uint8, id, v => .atom (.uint8 id v)
  | .int16, id, v => .atom (.int16 id v) | .uint16, id, v => .atom (.uint16 id v)
  | .int32, id, v => .atom (.int32 id v) | .uint32, id, v => .atom (.uint32 id v)
  | .int64, id, v => .atom (.int64 id v) | .uint64, id, v => .atom (.uint64 id v)
  | .bin32, id, v => .atom (.bin32 id v) | .bin64, id, v => .atom (.bin64 id v)
  | .ilint, id, v => .atom (.ilint id v) | .signedILInt, id, v => .atom (.signedILInt id v)

/-- False or zero. -/
def scalarZero : (k : Scalar) → k.Value
  | .bool => false
  | .int8 => Int8.ofNat 0 | .uint8 => UInt8.ofNat 0 | .int16 => Int16.ofNat 0 | .uint16 => UInt16.ofNat 0
  | .int32 => Int32.ofNat 0 | .uint32 => UInt32.ofNat 0 | .int64 => Int64.ofNat 0 | .uint64 => UInt64.ofNat 0
  | .bin32 => UInt32.ofNat 0 | .bin64 => UInt64.ofNat 0 | .ilint => UInt64.ofNat 0 | .signedILInt => Int64.ofNat 0

/-- **C81** `with_id` builds the tag under the id given, holding false, zero or nothing; `with_id_value` builds it under
the id given holding the value given. -/
theorem C81_with_id (id : UInt64) :
    (nullWithId id = (.atom (.null id) : Tag P)) ∧
    (∀ k, (ScalarTag.withId id : ScalarTag k).toTag = (scalarTag k id (scalarZero k) : Tag P)) ∧
    (∀ k (v : Scalar.Value k), (ScalarTag.withIdValue id v).toTag = (scalarTag k id v : Tag P)) ∧
    (Bin128Tag.withId id).toTag = (.atom (.bin128 id ⟨List.replicate 16 0, rfl⟩) : Tag P) ∧
    (∀ v, (Bin128Tag.withIdValue id v).toTag = (.atom (.bin128 id v) : Tag P)) ∧
    (StringTag.withId id).toTag = (.atom (.string id "") : Tag P) ∧
    (∀ v, (StringTag.withIdValue id v).toTag = (.atom (.string id v) : Tag P)) ∧
    (IntArrayTag.withId id).toTag = (.atom (.ilintArray id []) : Tag P) ∧
    (∀ v, (IntArrayTag.withIdValue id v).toTag = (.atom (.ilintArray id v) : Tag P)) ∧
    (OidTag.withId id).toTag = (.atom (.oid id []) : Tag P) ∧
    (∀ v, (OidTag.withIdValue id v).toTag = (.atom (.oid id v) : Tag P)) ∧
    (RangeTag.withId id).toTag = (.atom (.range id 0 0) : Tag P) ∧
    (∀ s c, (RangeTag.withIdValue id s c).toTag = (.atom (.range id s c) : Tag P)) ∧
    (VersionTag.withId id).toTag = (.atom (.version id 0 0 0 0) : Tag P) ∧
    (∀ a b c d, (VersionTag.withIdValue id a b c d).toTag = (.atom (.version id a b c d) : Tag P)) ∧
    (∀ v, (VersionTag.withIdFromSlice id v).toTag = (.atom (.version id v[0] v[1] v[2] v[3]) : Tag P)) ∧
    (ListTag.withId id).seqTag = (.seq id [] : Tag P) ∧ (ListTag.withId id).arrayTag = (.array id [] : Tag P) ∧
    (MapTag.withId id).dictTag = (.dict id [] : Tag P) ∧ (MapTag.withId id).strDictTag = (.atom (.strDict id []) : Tag P) :=
  ⟨rfl, fun k => by cases k <;> rfl, fun k v => by cases k <;> rfl, rfl, fun v => rfl, rfl, fun v => rfl, rfl,
    fun v => rfl, rfl, fun v => rfl, rfl, fun s c => rfl, rfl, fun a b c d => rfl, fun v => rfl, rfl, rfl, rfl, rfl⟩

example : (ScalarTag.withIdValue (k := .int32) 100 (-5 : Int32)).toTag = (.atom (.int32 100 (-5)) : Tag Unit) := rfl

/-- **C81** The constructors of raw tags, and of big decimals under a given id, panic exactly for the ids 0 to 15; else
they build the tag asked for. -/
theorem C81_raw (id : UInt64) (v : Bytes) (scale : Int32) :
    (id.toNat ≤ 15 → RawTag.new id = .panic ∧ RawTag.withValue id v = .panic ∧ BigDecTag.withId id = .panic ∧
      BigDecTag.withIdValue id scale v = .panic) ∧
    (16 ≤ id.toNat → RawTag.new id = .ok ⟨id, []⟩ ∧ RawTag.withValue id v = .ok ⟨id, v⟩ ∧
      BigDecTag.withId id = .ok ⟨⟨id, []⟩, 0⟩ ∧ BigDecTag.withIdValue id scale v = .ok ⟨⟨id, v⟩, scale⟩) := by
  have h := (C27_classes id).1
  simp only [RawTag.new, RawTag.withValue, BigDecTag.withId, BigDecTag.withIdValue]
  refine ⟨fun hl => ?_, fun hl => ?_⟩
  · rw [if_pos (h.mpr (by omega)), if_pos (h.mpr (by omega))]
    exact ⟨rfl, rfl, rfl, rfl⟩
  · rw [if_neg (fun hc => by have := h.mp hc; omega), if_neg (fun hc => by have := h.mp hc; omega)]
    exact ⟨rfl, rfl, rfl, rfl⟩

/-! ### Histories of setters -/

/-- The value most recently assigned by the calls, where `assigns` says what each call assigns. -/
def lastAssigned {Op V : Type} (assigns : Op → Option V) (init : V) (calls : List Op) : V :=
  ((calls.filterMap assigns).getLast?).getD init

theorem lastAssigned_run {S Op V : Type} (step : Op → S → S) (get : S → V) (assigns : Op → Option V)
    (h : ∀ op s, get (step op s) = (assigns op).getD (get s)) (calls : List Op) (s : S) :
    get (calls.foldl (fun s op => step op s) s) = lastAssigned assigns (get s) calls := by
  unfold lastAssigned
  induction calls generalizing s with
  | nil => rfl
  | cons op calls ih =>
    rw [List.foldl_cons, ih, h]
    cases ho : assigns op with
    | none => rw [List.filterMap_cons_none ho]; rfl
    | some v =>
      rw [List.filterMap_cons_some ho, List.getLast?_cons]
      rfl

theorem unchanged_run {S Op V : Type} (step : Op → S → S) (get : S → V) (h : ∀ op s, get (step op s) = get s)
    (calls : List Op) (s : S) : get (calls.foldl (fun s op => step op s) s) = get s := by
  induction calls generalizing s with
  | nil => rfl
  | cons op calls ih => rw [List.foldl_cons, ih, h]

/-- The setters of `ILVersionTag`. -/
inductive VersionCall where
  | setMajor (v : Int32) | setMinor (v : Int32) | setRevision (v : Int32) | setBuild (v : Int32)
  | setValue (major minor revision build : Int32) | setFromSlice (v : Vector Int32 4)

def VersionCall.run : VersionCall → VersionTag → VersionTag
  | .setMajor v => .setMajor v | .setMinor v => .setMinor v | .setRevision v => .setRevision v
  | .setBuild v => .setBuild v | .setValue a b c d => .setValue a b c d | .setFromSlice v => .setFromSlice v

/-- What each call assigns to each of the four components. -/
def VersionCall.major? : VersionCall → Option Int32
  | .setMajor v => some v | .setValue a _ _ _ => some a | .setFromSlice v => some v[0] | _ => none
def VersionCall.minor? : VersionCall → Option Int32
  | .setMinor v => some v | .setValue _ b _ _ => some b | .setFromSlice v => some v[1] | _ => none
def VersionCall.revision? : VersionCall → Option Int32
  | .setRevision v => some v | .setValue _ _ c _ => some c | .setFromSlice v => some v[2] | _ => none
def VersionCall.build? : VersionCall → Option Int32
  | .setBuild v => some v | .setValue _ _ _ d => some d | .setFromSlice v => some v[3] | _ => none

/-- **C81** Version tags: after any calls of the setters each component is the value last assigned to it, by whichever
setter; the id does not change, and the tag serialized has these components in this order. -/
theorem C81_version (t : VersionTag) (calls : List VersionCall) :
    let t' := calls.foldl (fun t c => c.run t) t
    t'.id = t.id ∧
    t'.major = lastAssigned VersionCall.major? t.major calls ∧
    t'.minor = lastAssigned VersionCall.minor? t.minor calls ∧
    t'.revision = lastAssigned VersionCall.revision? t.revision calls ∧
    t'.build = lastAssigned VersionCall.build? t.build calls ∧
    (t'.toTag : Tag P) = .atom (.version t.id t'.major t'.minor t'.revision t'.build) := by
  have hid : (calls.foldl (fun t c => c.run t) t).id = t.id :=
    unchanged_run VersionCall.run VersionTag.id (fun c s => by cases c <;> rfl) calls t
  refine ⟨hid, ?_, ?_, ?_, ?_, ?_⟩
  · exact lastAssigned_run _ VersionTag.major _ (fun c s => by
      cases c <;> simp [VersionCall.run, VersionCall.major?, VersionTag.major, VersionTag.setMajor, VersionTag.setMinor,
        VersionTag.setRevision, VersionTag.setBuild, VersionTag.setValue, VersionTag.setFromSlice, VersionTag.MAJOR,
        VersionTag.MINOR, VersionTag.REVISION, VersionTag.BUILD]) calls t
  · exact lastAssigned_run _ VersionTag.minor _ (fun c s => by
      cases c <;> simp [VersionCall.run, VersionCall.minor?, VersionTag.minor, VersionTag.setMajor, VersionTag.setMinor,
        VersionTag.setRevision, VersionTag.setBuild, VersionTag.setValue, VersionTag.setFromSlice, VersionTag.MAJOR,
        VersionTag.MINOR, VersionTag.REVISION, VersionTag.BUILD]) calls t
  · exact lastAssigned_run _ VersionTag.revision _ (fun c s => by
      cases c <;> simp [VersionCall.run, VersionCall.revision?, VersionTag.revision, VersionTag.setMajor,
        VersionTag.setMinor, VersionTag.setRevision, VersionTag.setBuild, VersionTag.setValue, VersionTag.setFromSlice,
        VersionTag.MAJOR, VersionTag.MINOR, VersionTag.REVISION, VersionTag.BUILD]) calls t
  · exact lastAssigned_run _ VersionTag.build _ (fun c s => by
      cases c <;> simp [VersionCall.run, VersionCall.build?, VersionTag.build, VersionTag.setMajor, VersionTag.setMinor,
        VersionTag.setRevision, VersionTag.setBuild, VersionTag.setValue, VersionTag.setFromSlice, VersionTag.MAJOR,
        VersionTag.MINOR, VersionTag.REVISION, VersionTag.BUILD]) calls t
  · rw [VersionTag.toTag, hid]; rfl

example :
    let calls : List VersionCall := [.setMinor 7, .setValue 1 2 3 4, .setBuild (-1), .setMajor 9]
    let t := calls.foldl (fun t c => c.run t) VersionTag.new
    t.major = 9 ∧ t.minor = 2 ∧ t.revision = 3 ∧ t.build = -1 := by decide +kernel

/-- The setters of `ILRangeTag`. -/
inductive RangeCall where
  | setStart (v : UInt64) | setCount (v : UInt16) | setValue (start : UInt64) (count : UInt16)

def RangeCall.run : RangeCall → RangeTag → RangeTag
  | .setStart v => .setStart v | .setCount v => .setCount v | .setValue s c => .setValue s c

/-- What each call assigns to each component. -/
def RangeCall.start? : RangeCall → Option UInt64
  | .setStart v => some v | .setValue s _ => some s | _ => none
def RangeCall.count? : RangeCall → Option UInt16
  | .setCount v => some v | .setValue _ c => some c | _ => none

/-- **C81** Range tags: after any calls of the setters `start` and `count` are the values last assigned. -/
theorem C81_range (t : RangeTag) (calls : List RangeCall) :
    let t' := calls.foldl (fun t c => c.run t) t
    (t'.toTag : Tag P) = .atom (.range t.id (lastAssigned RangeCall.start? t.start calls)
      (lastAssigned RangeCall.count? t.count calls)) := by
  have h1 := unchanged_run RangeCall.run RangeTag.id (fun c s => by cases c <;> rfl) calls t
  have h2 := lastAssigned_run RangeCall.run RangeTag.start RangeCall.start? (fun c s => by cases c <;> rfl) calls t
  have h3 := lastAssigned_run RangeCall.run RangeTag.count RangeCall.count? (fun c s => by cases c <;> rfl) calls t
  simp only [RangeTag.toTag, h1, h2, h3]

example : ([RangeCall.setStart 5, .setCount 2, .setStart 6].foldl (fun t c => c.run t) RangeTag.new) = ⟨23, 6, 2⟩ := rfl

/-- The setters of `ILBigDecTag`. -/
inductive BigDecCall where
  | setScale (v : Int32) | mutValue (f : Bytes → Bytes)

def BigDecCall.run : BigDecCall → BigDecTag → BigDecTag
  | .setScale v => .setScale v | .mutValue f => .mutValue f

def BigDecCall.scale? : BigDecCall → Option Int32
  | .setScale v => some v | .mutValue _ => none
/-- What each call does to the bytes. -/
def BigDecCall.edit : BigDecCall → Bytes → Bytes
  | .setScale _ => id | .mutValue f => f

/-- **C81** Big decimals: the scale is the one last set, the bytes are the result of the edits in order. -/
theorem C81_big_dec (t : BigDecTag) (calls : List BigDecCall) :
    let t' := calls.foldl (fun t c => c.run t) t
    (t'.toTag : Tag P) = .atom (.bigDec t.inner.id (lastAssigned BigDecCall.scale? t.scale calls)
      (calls.foldl (fun v c => c.edit v) t.inner.value)) := by
  have h1 := unchanged_run BigDecCall.run (fun t => t.inner.id) (fun c s => by cases c <;> rfl) calls t
  have h2 := lastAssigned_run BigDecCall.run BigDecTag.scale BigDecCall.scale? (fun c s => by cases c <;> rfl) calls t
  have h3 : (calls.foldl (fun t c => BigDecCall.run c t) t).inner.value =
      calls.foldl (fun v c => c.edit v) t.inner.value := by
    clear h1 h2
    induction calls generalizing t with
    | nil => rfl
    | cons c calls ih => rw [List.foldl_cons, ih]; cases c <;> rfl
  simp only [BigDecTag.toTag, h1, h2, h3]

/-- A setter of a tag with one value: assign a new value, or change the one there. -/
inductive ValueCall (V : Type) where
  | setValue (v : V) | mutValue (f : V → V)

/-- The call on an object with these two methods. -/
def ValueCall.run {S V : Type} (set : V → S → S) (upd : (V → V) → S → S) : ValueCall V → S → S
  | .setValue v => set v | .mutValue f => upd f

/-- The value after the calls. -/
def ValueCall.result {V : Type} (v : V) (calls : List (ValueCall V)) : V :=
  calls.foldl (fun v c => match c with | .setValue w => w | .mutValue f => f v) v

/-- After `set_value` the earlier history does not matter. -/
theorem ValueCall.result_set {V : Type} (v w : V) (calls later : List (ValueCall V)) :
    ValueCall.result v (calls ++ .setValue w :: later) = ValueCall.result w later := by
  simp [ValueCall.result, List.foldl_append]

theorem value_run {S V : Type} (set : V → S → S) (upd : (V → V) → S → S) (get : S → V)
    (hs : ∀ v s, get (set v s) = v) (hm : ∀ f s, get (upd f s) = f (get s)) (calls : List (ValueCall V)) (s : S) :
    get (calls.foldl (fun s c => c.run set upd s) s) =
      ValueCall.result (get s) calls := by
  unfold ValueCall.result
  induction calls generalizing s with
  | nil => rfl
  | cons c calls ih => rw [List.foldl_cons, ih, List.foldl_cons]; cases c <;> simp only [ValueCall.run, hs, hm]

/-- **C81** Raw tags, strings, arrays of ILInts and OIDs: after any calls of `set_value` and changes through `mut_value`
the tag holds the result of the changes made since the last `set_value`, under its old id. -/
theorem C81_values (r : RawTag) (rc : List (ValueCall Bytes)) (s : StringTag) (sc : List (ValueCall String))
    (a : IntArrayTag) (ac : List (ValueCall (List UInt64))) (o : OidTag) :
    ((rc.foldl (fun t c => c.run RawTag.setValue RawTag.mutValue t) r).toTag : Tag P) =
      .atom (.raw r.id (ValueCall.result r.value rc)) ∧
    ((sc.foldl (fun t c => c.run StringTag.setValue StringTag.mutValue t) s).toTag : Tag P) =
      .atom (.string s.id (ValueCall.result s.value sc)) ∧
    ((ac.foldl (fun t c => c.run IntArrayTag.setValue IntArrayTag.mutValue t) a).toTag : Tag P) =
      .atom (.ilintArray a.id (ValueCall.result a.value ac)) ∧
    ((ac.foldl (fun t c => c.run OidTag.setValue OidTag.mutValue t) o).toTag : Tag P) =
      .atom (.oid o.inner.id (ValueCall.result o.inner.value ac)) := by
  refine ⟨?_, ?_, ?_, ?_⟩
  · simp only [RawTag.toTag]
    rw [value_run RawTag.setValue RawTag.mutValue RawTag.value (fun _ _ => rfl) (fun _ _ => rfl),
      unchanged_run (ValueCall.run RawTag.setValue RawTag.mutValue) RawTag.id (fun c s => by cases c <;> rfl)]
  · simp only [StringTag.toTag]
    rw [value_run StringTag.setValue StringTag.mutValue StringTag.value (fun _ _ => rfl) (fun _ _ => rfl),
      unchanged_run (ValueCall.run StringTag.setValue StringTag.mutValue) StringTag.id (fun c s => by cases c <;> rfl)]
  · simp only [IntArrayTag.toTag]
    rw [value_run IntArrayTag.setValue IntArrayTag.mutValue IntArrayTag.value (fun _ _ => rfl) (fun _ _ => rfl),
      unchanged_run (ValueCall.run IntArrayTag.setValue IntArrayTag.mutValue) IntArrayTag.id
        (fun c s => by cases c <;> rfl)]
  · simp only [OidTag.toTag]
    rw [value_run OidTag.setValue OidTag.mutValue (fun t => t.inner.value) (fun _ _ => rfl) (fun _ _ => rfl),
      unchanged_run (ValueCall.run OidTag.setValue OidTag.mutValue) (fun t => t.inner.id)
        (fun c s => by cases c <;> rfl)]

/-- **C81** The scalar types and binary128: `value()` is the value last set, or the initial one. -/
theorem C81_scalars {k : Scalar} (t : ScalarTag k) (vs : List k.Value) (b : Bin128Tag)
    (bs : List { v : Bytes // v.length = 16 }) :
    (vs.foldl (fun t v => t.setValue v) t).getValue = vs.getLast?.getD t.value ∧
    (vs.foldl (fun t v => t.setValue v) t).id = t.id ∧
    ((bs.foldl (fun t v => t.setValue v) b).toTag : Tag P) = .atom (.bin128 b.id (bs.getLast?.getD b.value)) := by
  have h1 := lastAssigned_run (fun v (t : ScalarTag k) => t.setValue v) ScalarTag.value some (fun _ _ => rfl) vs t
  have h2 := unchanged_run (fun v (t : ScalarTag k) => t.setValue v) ScalarTag.id (fun _ _ => rfl) vs t
  have h3 := lastAssigned_run (fun v (t : Bin128Tag) => t.setValue v) Bin128Tag.value some (fun _ _ => rfl) bs b
  have h4 := unchanged_run (fun v (t : Bin128Tag) => t.setValue v) Bin128Tag.id (fun _ _ => rfl) bs b
  simp only [lastAssigned, List.filterMap_some] at h1 h3
  exact ⟨h1, h2, by simp only [Bin128Tag.toTag, h3, h4]⟩

/-- **C81** Sequences and arrays of tags: after any changes made through `mut_value` the tag holds the result of the
changes in order, under its old id. -/
theorem C81_containers (t : ListTag P) (edits : List (List (Tag P) → List (Tag P))) :
    (edits.foldl (fun t f => t.mutValue f) t).seqTag = .seq t.id (edits.foldl (fun v f => f v) t.value) ∧
    (edits.foldl (fun t f => t.mutValue f) t).arrayTag = .array t.id (edits.foldl (fun v f => f v) t.value) := by
  have h : (edits.foldl (fun t f => t.mutValue f) t).id = t.id ∧
      (edits.foldl (fun t f => t.mutValue f) t).value = edits.foldl (fun v f => f v) t.value := by
    induction edits generalizing t with
    | nil => exact ⟨rfl, rfl⟩
    | cons f edits ih => rw [List.foldl_cons, List.foldl_cons]; exact ih (t.mutValue f)
  simp only [ListTag.seqTag, ListTag.arrayTag, h.1, h.2, and_self]

example : (([(· ++ [nullNew]), (· ++ [(StringTag.withValue "a").toTag]), List.reverse] :
      List (List (Tag Unit) → List (Tag Unit))).foldl (fun t f => t.mutValue f) ListTag.newSeq).seqTag =
    .seq 22 [.atom (.string 17 "a"), .atom (.null 0)] := rfl

example : ([BigDecCall.setScale 3, .mutValue (· ++ [1, 2]), .setScale (-2), .mutValue (List.drop 1)].foldl
      (fun (t : BigDecTag) c => BigDecCall.run c t) ⟨⟨19, [9]⟩, 0⟩).toTag = (.atom (.bigDec 19 (-2) [1, 2]) : Tag Unit) := rfl

example : ([ValueCall.mutValue (· ++ [5]), .setValue [7, 8], .mutValue List.reverse].foldl
      (fun t c => c.run OidTag.setValue OidTag.mutValue t) OidTag.new).toTag = (.atom (.oid 25 [8, 7]) : Tag Unit) := rfl

example : ([3, 4, (-1 : Int16)].foldl (fun t v => ScalarTag.setValue (k := .int16) v t) (ScalarTag.withId 70)).getValue =
    (-1 : Int16) := rfl

example : RawTag.new 15 = .panic ∧ RawTag.withValue 16 [1] = .ok ⟨16, [1]⟩ := ⟨rfl, rfl⟩

end Verif.Props
