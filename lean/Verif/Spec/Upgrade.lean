import Verif.Spec.Schema
/-!
# Specification: payload types with more variants
-/
namespace Verif.Spec

/-- The content of a struct, without its type. -/
inductive Plain where
  | field (f : Field)
  | text (s : String)
  | blob (bs : Bytes)
  | list (items : List Plain)
  | pair (first second : Plain)
  | none
  | some (item : Plain)
  | variant (b : Byte) (fields : Plain)

/-- The content of a value. -/
def plain : (s : Schema) → s.Val → Plain
  | .field _, f => .field f
  | .text, v => .text v
  | .blob, v => .blob v
  | .many s, vs => .list (vs.map (plain s))
  | .both a b, (x, y) => .pair (plain a x) (plain b y)
  | .opt _, none => .none
  | .opt s, some v => .some (plain s v)
  | .enum _ c, ⟨b, v⟩ => .variant b (plain (c b) v)

/-- `Later s s'`: the type `s'` is `s` with more variants in its enums, at any place (a new layout under a new version
number in front is one of them). -/
inductive Later : Schema → Schema → Prop where
  | refl (s) : Later s s
  | enum {ok ok' c c'} : (∀ b, ok b = true → ok' b = true) → (∀ b, ok b = true → Later (c b) (c' b)) →
      Later (.enum ok c) (.enum ok' c')
  | both {a a' b b'} : Later a a' → Later b b' → Later (.both a b) (.both a' b')
  | many {s s'} : Later s s' → Later (.many s) (.many s')
  | opt {s s'} : Later s s' → Later (.opt s) (.opt s')

variable {P Q : Type}

/-- The atom with its payload, if it is one, replaced. -/
def mapAtom (f : P → Q) : Atom P → Atom Q
  | .null id => .null id
  | .bool id v => .bool id v
  | .int8 id v => .int8 id v
  | .uint8 id v => .uint8 id v
  | .int16 id v => .int16 id v
  | .uint16 id v => .uint16 id v
  | .int32 id v => .int32 id v
  | .uint32 id v => .uint32 id v
  | .int64 id v => .int64 id v
  | .uint64 id v => .uint64 id v
  | .bin32 id v => .bin32 id v
  | .bin64 id v => .bin64 id v
  | .bin128 id v => .bin128 id v
  | .ilint id v => .ilint id v
  | .signedILInt id v => .signedILInt id v
  | .raw id v => .raw id v
  | .byteArray v => .byteArray v
  | .string id v => .string id v
  | .bigInt v => .bigInt v
  | .bigDec id s v => .bigDec id s v
  | .ilintArray id v => .ilintArray id v
  | .range id a b => .range id a b
  | .version id a b c d => .version id a b c d
  | .oid id v => .oid id v
  | .strDict id es => .strDict id es
  | .payload id p => .payload id (f p)

mutual
/-- The tag with all payloads in it replaced. -/
def mapTag (f : P → Q) : Tag P → Tag Q
  | .atom a => .atom (mapAtom f a)
  | .seq id ts => .seq id (mapTags f ts)
  | .array id ts => .array id (mapTags f ts)
  | .dict id es => .dict id (mapEntries f es)
def mapTags (f : P → Q) : List (Tag P) → List (Tag Q)
  | [] => []
  | t :: ts => mapTag f t :: mapTags f ts
def mapEntries (f : P → Q) : List (String × Tag P) → List (String × Tag Q)
  | [] => []
  | (k, t) :: es => (k, mapTag f t) :: mapEntries f es
end

/-- What a tag holds, whatever the versions of its payload types. -/
def contentOf (t : Tag Struct) : Tag Plain := mapTag (fun p => plain p.schema p.value) t

/-- Two versions of a program: under each id the newer one has the same type with perhaps more variants, or a type of its
own where the older one knows no tag at all. -/
def Upgrade (strict : Bool) (regs regs' : List (UInt64 × Struct)) : Prop := ∀ id,
  (regs.lookup id = none ∧ regs'.lookup id = none) ∨
    (∃ p q, regs.lookup id = some p ∧ regs'.lookup id = some q ∧ Later p.schema q.schema) ∨
    (regs.lookup id = none ∧ (Engine.std strict : Engine Struct).createTag id = .ok none)

end Verif.Spec
