import Verif.Model.Tag
/-!
# The map interface of the dictionary tags

`ILDictTag` and `ILStrDictTag` have the same methods over `HashMap<String, Box<dyn ILTag>>` and
`HashMap<String, String>`; both are `MapTag V`.
-/
namespace Verif

/-- `struct ILDictTag`, explicit/mod.rs:990-993 (`V = Tag P`); `struct ILStrDictTag`, explicit/mod.rs:1138-1141
(`V = String`).  The `HashMap` is the list of its entries in iteration order. -/
structure MapTag (V : Type) where
  id : UInt64
  value : List (String × V)

namespace MapTag
variable {V P : Type}

/-- `with_id`, explicit/mod.rs:1006-1011,1154-1159. -/
def withId (id : UInt64) : MapTag V := ⟨id, []⟩
/-- `ILDictTag::new`, explicit/mod.rs:997-999. -/
def newDict : MapTag (Tag P) := withId Id.dict
/-- `ILStrDictTag::new`, explicit/mod.rs:1145-1147. -/
def newStrDict : MapTag String := withId Id.strDict
/-- `len`, explicit/mod.rs:1026-1028,1174-1176. -/
def len (t : MapTag V) : Nat := t.value.length
/-- `is_empty`, explicit/mod.rs:1031-1033,1179-1181. -/
def isEmpty (t : MapTag V) : Bool := t.value.isEmpty
/-- `insert`, explicit/mod.rs:1048-1050,1196-1198: returns the previous value of the key. -/
def insert (k : String) (v : V) (t : MapTag V) : Option V × MapTag V :=
  (HMap.get k t.value, { t with value := HMap.insert k v t.value })
/-- `get`, explicit/mod.rs:1068-1073,1216-1221. -/
def get (k : String) (t : MapTag V) : Option V := HMap.get k t.value
/-- `mut_value().remove(k)`, explicit/mod.rs:1021-1023,1169-1171. -/
def remove (k : String) (t : MapTag V) : Option V × MapTag V :=
  (HMap.get k t.value, { t with value := HMap.remove k t.value })
/-- `mut_value().clear()`, explicit/mod.rs:1021-1023,1169-1171. -/
def clear (t : MapTag V) : MapTag V := { t with value := [] }

/-- An `ILDictTag` as a tag. -/
def dictTag (t : MapTag (Tag P)) : Tag P := .dict t.id t.value
/-- An `ILStrDictTag` as a tag. -/
def strDictTag (t : MapTag String) : Tag P := .atom (.strDict t.id t.value)

end MapTag
end Verif
