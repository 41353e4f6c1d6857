import Verif.Spec.Grammar
import Verif.Spec.Fields
import Verif.Spec.Factory
import Verif.Model.Schema
/-!
# Specification: structs on the wire
-/
namespace Verif.Spec
open Schema

/-- What the types of Rust guarantee: a field has the declared type (and size), a variant is one of
the type, and nothing has `2^64` items. -/
def HasType : (s : Schema) → s.Val → Prop
  | .field sh, f => shapeOf f = sh
  | .text, v => (utf8 v).length < 2 ^ 64
  | .blob, v => v.length < 2 ^ 64
  | .many s, vs => vs.length < 2 ^ 64 ∧ ∀ v ∈ vs, HasType s v
  | .both a b, (x, y) => HasType a x ∧ HasType b y
  | .opt _, none => True
  | .opt s, some v => HasType s v
  | .enum ok c, ⟨b, v⟩ => ok b = true ∧ HasType (c b) v

/-- The bytes stand for the value; numbers are ILInts of any valid form. -/
def StructForm : (s : Schema) → s.Val → Bytes → Prop
  | .field sh, f, bs => shapeOf f = sh ∧ FieldEnc f bs
  | .text, v, bs => StringForm v bs
  | .blob, v, bs => v.length ≤ maxValue ∧ ∃ l, IsILInt l v.length ∧ bs = l ++ v
  | .many s, vs, bs => Counted' (StructForm s) vs bs
  | .both a b, (x, y), bs => ∃ u v, bs = u ++ v ∧ StructForm a x u ∧ StructForm b y v
  | .opt _, none, bs => bs = [0]
  | .opt s, some v, bs => ∃ u, bs = 1 :: u ∧ StructForm s v u
  | .enum ok c, ⟨b, v⟩, bs => ok b = true ∧ ∃ u, bs = b :: u ∧ StructForm (c b) v u

/-- The bytes that are written: the shortest ILInts. -/
def structBytes : (s : Schema) → s.Val → Bytes
  | .field _, f => fieldBytes f
  | .text, v => Spec.stringTag v
  | .blob, v => ilint v.length ++ v
  | .many s, vs => ilint vs.length ++ vs.flatMap (structBytes s)
  | .both a b, (x, y) => structBytes a x ++ structBytes b y
  | .opt _, none => [0]
  | .opt s, some v => 1 :: structBytes s v
  | .enum _ c, ⟨b, v⟩ => b :: structBytes (c b) v

/-- The sizes written into the type are within the limit for tags. -/
def BoundedSchema : Schema → Prop
  | .field (.str n) => n ≤ maxValue
  | .field (.bytes n) => n ≤ maxValue
  | .field _ => True
  | .text => True
  | .blob => True
  | .many s => BoundedSchema s
  | .both a b => BoundedSchema a ∧ BoundedSchema b
  | .opt s => BoundedSchema s
  | .enum ok c => ∀ b, ok b = true → BoundedSchema (c b)

/-- The standard factory with struct types registered under ids, each with its default value; the first entry of the
list is the last registered, and hides earlier ones under the same id. -/
def structFactory (strict : Bool) : List (UInt64 × Struct) → Engine Struct
  | [] => Engine.std strict
  | (id, p) :: regs => ((structFactory strict regs).register id (payloadCreator p)).2

/-- The ids are explicit, and the types within the limits. -/
def RegsOk (regs : List (UInt64 × Struct)) : Prop := ∀ r ∈ regs, 16 ≤ r.1.toNat ∧ BoundedSchema r.2.schema

end Verif.Spec
