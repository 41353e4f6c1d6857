import Verif.Spec.Raw
/-!
# Specification: finding a tag inside nested sequences with the scanner

The program a caller writes with `RawTagScanner`, `value_slice` and `map_to_parent_space` to reach a tag without reading
the ones around it, and the tag it is meant to reach.
-/
namespace Verif.Spec

/-- The caller: calls `next_tag` `i + 1` times and keeps the last result. -/
def scanNth {σ : Type} [Reader σ] (m : ArithMode) : Nat → Act TagErr (RawTagScanner σ) RawTagOffset
  | 0 => do
    match ← RawTagScanner.nextTag m with
    | some o => pure o
    | none => Act.fail .corruptedData
  | i + 1 => do
    match ← RawTagScanner.nextTag m with
    | some _ => scanNth m i
    | none => Act.fail .corruptedData

/-- The caller: the `i`-th tag in `bytes`. -/
def nthIn (m : ArithMode) (bytes : Bytes) (i : Nat) : Res TagErr RawTagOffset :=
  (scanNth m i (RawTagScanner.new (ByteArrayReader.new bytes))).1

/-- The caller: from the tag at `o` of `raw` down along the path, each step scanning the value of the tag reached so far
and mapping what is found back to `raw`. -/
def descend (m : ArithMode) (raw : Bytes) : RawTagOffset → List Nat → Res TagErr RawTagOffset
  | o, [] => .ok o
  | o, i :: path => do
    let value ← o.valueSlice m raw
    let child ← nthIn m value i
    let o' ← child.mapToParentSpace m o
    descend m raw o' path

/-- The caller: the tag reached from the `i`-th tag of `raw` along the path. -/
def locate (m : ArithMode) (raw : Bytes) (i : Nat) (path : List Nat) : Res TagErr RawTagOffset := do
  let o ← nthIn m raw i
  descend m raw o path

/-- The tag reached from `t` through nested sequences: the path says which child to take at each step. -/
def childAt {P : Type} : Tag P → List Nat → Option (Tag P)
  | t, [] => some t
  | .seq _ ts, i :: path =>
    match ts[i]? with
    | some t => childAt t path
    | none => none
  | _, _ :: _ => none

/-- The same tag with the one the path leads to replaced. -/
def replaceAt {P : Type} : Tag P → List Nat → Tag P → Tag P
  | _, [], c => c
  | .seq id ts, i :: path, c =>
    match ts[i]? with
    | some t => .seq id (ts.set i (replaceAt t path c))
    | none => .seq id ts
  | t, _ :: _, _ => t

/-- How many bytes into the serialized form of the tag the one the path leads to begins. -/
def startOf {P : Type} [TagPayload P] : Tag P → List Nat → Nat
  | _, [] => 0
  | .seq id ts, i :: path =>
    match ts[i]? with
    | some t => ((enc (.seq id ts)).length - (encValue (.seq id ts)).length) + ((ts.take i).flatMap enc).length +
        startOf t path
    | none => 0
  | _, _ :: _ => 0

end Verif.Spec
