import Verif.Spec.Access
import Verif.Model.Construct
/-!
# Specification: editing serialized tags without reading them
-/
namespace Verif.Spec

/-- The caller: puts the bytes `new` in place of the tag that the path `i :: path` leads to among the serialized tags
`bytes`.  The tag is found with the scanner (`nthIn`); a sequence around it is taken apart with `value_slice` and put
together again as a raw tag with the same id. -/
def splice [Env] (m : ArithMode) : Nat → List Nat → Bytes → Bytes → Res TagErr Bytes
  | i, [], bytes, new => do
    let o ← nthIn m bytes i
    let e ← o.tagEnd m
    .ok (bytes.take o.tagStart ++ new ++ bytes.drop e)
  | i, j :: path, bytes, new => do
    let o ← nthIn m bytes i
    let value ← o.valueSlice m bytes
    let value' ← splice m j path value new
    let t ← RawTag.withValue o.id value'
    let new' ← (t.toTag : Tag Empty).toBytes
    let e ← o.tagEnd m
    .ok (bytes.take o.tagStart ++ new' ++ bytes.drop e)

/-- The tags `ts` with those in `new` in place of the one that the path `i :: path` leads to: a replacement if `new` is
one tag, a deletion if it is empty, an insertion if it holds the tag itself and others. -/
def spliceAt {P : Type} : Nat → List Nat → List (Tag P) → List (Tag P) → Option (List (Tag P))
  | i, [], ts, new => if i < ts.length then some (ts.take i ++ new ++ ts.drop (i + 1)) else none
  | i, j :: path, ts, new =>
    match ts[i]? with
    | some (.seq id us) => (spliceAt j path us new).map fun us' => ts.set i (.seq id us')
    | _ => none

end Verif.Spec
