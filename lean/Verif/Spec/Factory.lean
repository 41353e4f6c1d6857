import Verif.Spec.Tag
import Verif.Model.Factory
import Verif.Model.Array
/-!
# Specification: which tags a factory can read back
-/
/-- The payload reader neither panics nor diverges by itself; it has tags filled only from `C`. -/
def Verif.RProg.Calm {P : Type} (C : Verif.Tag P → Prop) : Verif.RProg P → Prop
  | .done r _ => r ≠ .panic ∧ r ≠ .diverge
  | .read k => ∀ b, (k b).Calm C
  | .readAll _ k => ∀ bs, (k bs).Calm C
  | .deser k => ∀ t, (k t).Calm C
  | .into t k => C t ∧ ∀ t', (k t').Calm C

namespace Verif.Spec
variable {P : Type}

/-- The largest value a factory accepts: 512 MiB. -/
def maxValue : Nat := 2 ^ 29

/-- Bytes taken by the values of the implicit tags 0 to 15, from the table of the standard; 9 stands for the largest
encoding of an ILInt. -/
def implicitLen (id : Nat) : Nat := [0, 1, 1, 1, 2, 2, 4, 4, 8, 8, 9, 4, 8, 16, 9, 0].getD id 0

/-- The types whose value is one ILInt. -/
def oneILInt : Kind → Prop
  | .ilint => True
  | .signedILInt => True
  | _ => False

/-- Reading the bytes of the payload `p` into the payload `p₀`, with nested tags read by the factory, succeeds, gives
`p` and leaves nothing unread. -/
def ReadsBack [TagPayload P] [Env] (e : Engine P) (p₀ p : P) : Prop :=
  ∃ r, RProg.run (Factory.methods e) (TagPayload.deserialize p₀ (payloadBytes p).length)
      (p₀, ByteArrayReader.new (payloadBytes p)) = (.ok (), (p, r)) ∧ r.available = 0

/-- The factory maps the id of `u` to the type of `u`, and the value of `u` has an acceptable size. -/
structure SupportedHere [TagPayload P] [Env] (e : Engine P) (u : Tag P) : Prop where
  made : ∃ t₀, e.createTag u.id = .ok (some t₀) ∧ t₀.kind = u.kind ∧ t₀.id = u.id ∧
    ∀ id₀ p₀ id p, t₀ = .atom (.payload id₀ p₀) → u = .atom (.payload id p) → ReadsBack e p₀ p
  fits : (encValue u).length ≤ maxValue
  sized : u.id.toNat ≤ 15 → (encValue u).length = implicitLen u.id.toNat ∨
    (u.id = 10 ∨ u.id = 14) ∧ oneILInt u.kind

/-- The same at every level of nesting. -/
def Supported [TagPayload P] [Env] (e : Engine P) (t : Tag P) : Prop := ∀ u, Within u t → SupportedHere e u

/-- The allocator can serve every buffer the library may ask for while reading: at most 16 bytes times 512 MiB. -/
def MemoryOk [Env] : Prop := 16 * maxValue ≤ Env.allocMax

/-- The identifier the standard gives to each type; `none` for raw tags and custom payloads. -/
def standardId : Kind → Option Nat
  | .null => some 0
  | .bool => some 1
  | .int8 => some 2
  | .uint8 => some 3
  | .int16 => some 4
  | .uint16 => some 5
  | .int32 => some 6
  | .uint32 => some 7
  | .int64 => some 8
  | .uint64 => some 9
  | .ilint => some 10
  | .bin32 => some 11
  | .bin64 => some 12
  | .bin128 => some 13
  | .signedILInt => some 14
  | .byteArray => some 16
  | .string => some 17
  | .bigInt => some 18
  | .bigDec => some 19
  | .ilintArray => some 20
  | .array => some 21
  | .seq => some 22
  | .range => some 23
  | .version => some 24
  | .oid => some 25
  | .dict => some 30
  | .strDict => some 31
  | .raw => none
  | .payload => none

/-- The types in the standard. -/
def standardKinds : List Kind := [.null, .bool, .int8, .uint8, .int16, .uint16, .int32, .uint32, .int64, .uint64, .ilint,
  .bin32, .bin64, .bin128, .signedILInt, .byteArray, .string, .bigInt, .bigDec, .ilintArray, .array, .seq, .range,
  .version, .oid, .dict, .strDict]

/-- A tag as the standard factory makes it: a standard type under its identifier or, if the factory is not strict, a
raw tag under an explicit identifier that is not standard. -/
def StdTag (strict : Bool) (u : Tag P) : Prop :=
  standardId u.kind = some u.id.toNat ∨
    strict = false ∧ u.kind = .raw ∧ 16 ≤ u.id.toNat ∧ ∀ k, standardId k ≠ some u.id.toNat

/-- The payload of a payload tag never panics of its own while reading, nor does that of any tag it has filled in
turn. -/
def CalmTag [TagPayload P] (t : Tag P) : Prop :=
  ∃ C : Tag P → Prop, C t ∧ ∀ id p, C (.atom (.payload id p)) → ∀ n, (TagPayload.deserialize p n).Calm C

/-- The creators neither panic nor diverge, nor do the payloads they make. -/
def CalmCreators [TagPayload P] (e : Engine P) : Prop :=
  ∀ id, e.createTag id ≠ .panic ∧ e.createTag id ≠ .diverge ∧ ∀ t, e.createTag id = .ok (some t) → CalmTag t

/-- The reader in the state `s` delivers the header of a tag, the ILInt `id` and, for an explicit tag, the ILInt
`size`; the value starts at the state `s'`.  For implicit tags `size` is the entry of the table. -/
def Header {σ : Type} [Reader σ] (s : σ) (id : UInt64) (size : Nat) (s' : σ) : Prop :=
  ∃ s₁, (Ser.deserializeILInt : Act TagErr σ UInt64) s = (.ok id, s₁) ∧
    (id.toNat ≤ 15 ∧ size = implicitLen id.toNat ∧ s' = s₁ ∨
     16 ≤ id.toNat ∧ ∃ n : UInt64, (Ser.deserializeILInt : Act TagErr σ UInt64) s₁ = (.ok n, s') ∧ size = n.toNat)

/-- Engines built with the creators of the library only: `ILDefaultTagCreator<T>` and `ILDefaultWithIdTagCreator<T>`
(also for custom payloads) registered under any ids in any order, and `deregister`. -/
inductive LibraryEngine : Engine P → Prop where
  | new (strict) : LibraryEngine (Engine.new strict)
  | default {e} (id k) : LibraryEngine e → LibraryEngine (e.register id (defaultCreatorOf k)).2
  | withId {e} (id k) : LibraryEngine e → LibraryEngine (e.register id (withIdCreatorOf k)).2
  | payload {e} (id) (p : P) : LibraryEngine e → LibraryEngine (e.register id (payloadCreator p)).2
  | deregister {e} (id) : LibraryEngine e → LibraryEngine (e.deregister id).2

end Verif.Spec
