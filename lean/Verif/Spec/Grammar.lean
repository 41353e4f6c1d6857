import Verif.Spec.Factory
/-!
# Specification: the language of tags

Which byte strings stand for which tag, by the tables of the standard.  Contrary to `Spec.enc` the ILInts need not be
minimal, and a dictionary may list its keys in any order and more than once.
-/
namespace Verif.Spec
variable {P : Type}

/-- The bytes are forms of the items, one after another. -/
def Listed {α : Type} (L : α → Bytes → Prop) : List α → Bytes → Prop
  | [], bs => bs = []
  | a :: as, bs => ∃ x y, bs = x ++ y ∧ L a x ∧ Listed L as y

/-- A count and the items. -/
def Counted' {α : Type} (L : α → Bytes → Prop) (as : List α) (bs : Bytes) : Prop :=
  ∃ c x, bs = c ++ x ∧ IsILInt c as.length ∧ Listed L as x

/-- The bytes of a string tag: id 17, length, UTF-8. -/
def StringForm (s : String) (bs : Bytes) : Prop :=
  ∃ h l, bs = h ++ l ++ utf8 s ∧ IsILInt h 17 ∧ IsILInt l (utf8 s).length ∧ (utf8 s).length ≤ maxValue

/-- A key, as a string tag, and a value. -/
def EntryForm {α : Type} (L : α → Bytes → Prop) (e : String × α) (bs : Bytes) : Prop :=
  ∃ x y, bs = x ++ y ∧ StringForm e.1 x ∧ L e.2 y

/-- `es` is the map that results from the entries `ws`: each key once, with the value of its last occurrence. -/
def Latest {α : Type} (ws es : List (String × α)) : Prop :=
  (es.map (·.1)).Nodup ∧ ∀ k v, (k, v) ∈ es ↔ ∃ l r, ws = l ++ (k, v) :: r ∧ k ∉ r.map (·.1)

/-- The relation between the entries on the wire and the map made of them. -/
def MapMaking : Type 1 := ∀ (α : Type), List (String × α) → List (String × α) → Prop

/-- The value bytes of a tag that holds no other tags. -/
def AtomForm [TagPayload P] (M : MapMaking) : Atom P → Bytes → Prop
  | .ilint _ v, bs => IsILInt bs v.toNat
  | .signedILInt _ v, bs => IsILInt bs (zigzag v.toInt)
  | .ilintArray _ vs, bs => Counted' (fun v x => IsILInt x v.toNat) vs bs
  | .oid _ vs, bs => Counted' (fun v x => IsILInt x v.toNat) vs bs
  | .range _ start count, bs => ∃ x, bs = x ++ be 2 count.toNat ∧ IsILInt x start.toNat
  | .strDict _ es, bs => ∃ ws, Counted' (EntryForm StringForm) ws bs ∧ M String ws es
  | .payload _ _, _ => False
  -- all others have one form only
  | a, bs => bs = encAtom a

/-- The value bytes of a tag, nested tags being as `L` says. -/
def ValueForm [TagPayload P] (M : MapMaking) (L : Tag P → Bytes → Prop) : Tag P → Bytes → Prop
  | .atom a, bs => AtomForm M a bs
  | .seq _ ts, bs => Listed L ts bs
  | .array _ ts, bs => Counted' L ts bs
  | .dict _ es, bs => ∃ ws, Counted' (EntryForm L) ws bs ∧ M (Tag P) ws es

/-- The bytes of a tag with at most `depth` levels: id, length unless the id is implicit, value. -/
def FormAt [TagPayload P] (M : MapMaking) (strict : Bool) : Nat → Tag P → Bytes → Prop
  | 0, _, _ => False
  | depth + 1, t, bs => StdTag strict t ∧ ∃ h v, IsILInt h t.id.toNat ∧ ValueForm M (FormAt M strict depth) t v ∧
      v.length ≤ maxValue ∧
      (t.id.toNat ≤ 15 ∧ bs = h ++ v ∨ 16 ≤ t.id.toNat ∧ ∃ l, IsILInt l v.length ∧ bs = h ++ l ++ v)

/-- The bytes stand for the tag, in the language of the standard factory (strict or not). -/
def Form [TagPayload P] (strict : Bool) (t : Tag P) (bs : Bytes) : Prop :=
  ∃ depth, FormAt (fun _ => Latest) strict depth t bs

end Verif.Spec
