import Verif.Model.Factory
/-!
# `src/tags/util/mod.rs` and the downcast helpers of `src/tags/mod.rs`

Type parameters `T: ILTag` are `Kind`s; a `&T` is the tag itself.
-/
namespace Verif
variable {P : Type}

/-- `iltag_are_equal`, /repo/src/tags/util/mod.rs:57-67. -/
def tagsAreEqual [TagPayload P] [Env] (a b : Tag P) : Res TagErr Bool :=
  match a.toBytes with
  | .err _ => .ok false
  | .panic => .panic
  | .diverge => .diverge
  | .ok sa =>
    match b.toBytes with
    | .err _ => .ok false
    | .panic => .panic
    | .diverge => .diverge
    | .ok sb => .ok (sa == sb)

/-- `iltag_clone_with_factory`, /repo/src/tags/util/mod.rs:86-92. -/
def tagCloneWithFactory [TagPayload P] [Env] (e : Engine P) (t : Tag P) : Res TagErr (Tag P) := do
  let s ← t.toBytes
  Factory.fromBytes e s

/-- `iltag_clone`, /repo/src/tags/util/mod.rs:109-112. -/
def tagClone [TagPayload P] [Env] (t : Tag P) : Res TagErr (Tag P) :=
  tagCloneWithFactory (Engine.std false) t

/-- `tag_downcast_ref`, `tag_downcast_mut`, /repo/src/tags/mod.rs:282-297. -/
def downcast (k : Kind) (t : Tag P) : Option (Tag P) := if t.kind = k then some t else none

/-- `tag_downcast_ref_with_id`, `tag_downcast_mut_with_id`, /repo/src/tags/mod.rs:310-335. -/
def downcastWithId (k : Kind) (id : UInt64) (t : Tag P) : Option (Tag P) :=
  if t.id = id then downcast k t else none

/-- `tag_id_downcast_ref`, `tag_id_downcast_mut`, /repo/src/tags/mod.rs:348-379. -/
def idDowncast (k : Kind) (id : UInt64) (t : Tag P) : Res TagErr (Tag P) :=
  if t.id ≠ id then .err .unexpectedTagType
  else match downcast k t with
    | some v => .ok v
    | none => .err .unexpectedTagType

/-- `assert_tag_id_and_type_or_error`, /repo/src/tags/mod.rs:393-403. -/
def assertIdAndTypeOrError (k : Kind) (id : UInt64) (t : Tag P) (e : TagErr) : Res TagErr Unit :=
  if t.id = id ∧ t.kind = k then .ok () else .err e

/-- `assert_tag_id_and_type`, /repo/src/tags/mod.rs:417-419. -/
def assertIdAndType (k : Kind) (id : UInt64) (t : Tag P) : Res TagErr Unit :=
  assertIdAndTypeOrError k id t .unexpectedTagType

end Verif
