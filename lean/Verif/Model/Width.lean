import Verif.Model.Raw
/-!
# The conversions to `usize` on platforms of other widths

The rest of the model takes `usize` to have 64 bits.  Here the width is a parameter, for the functions of the crate that
convert a `u64` to `usize`.
-/
namespace Verif.Width

/-- `v as usize` where `usize` has `bits` bits: the low bits of `v`. -/
def asUsize (bits : Nat) (v : UInt64) : Nat := v.toNat % 2 ^ bits

/-- `tag_size_to_usize`, /repo/src/tags/mod.rs:163-169. -/
def tagSizeToUsize (bits : Nat) (size : UInt64) : Res TagErr Nat :=
  if size.toNat > maxTagSize then .err .tagTooLarge else .ok (asUsize bits size)

section
variable (bits : Nat) (m : ArithMode)

/-- `value_start`, /repo/src/tags/raw/mod.rs:109-111. -/
def valueStart (t : RawTagOffset) : Res TagErr Nat := (t.valueOffset m).map (asUsize bits)
/-- `value_end`, /repo/src/tags/raw/mod.rs:116-118. -/
def valueEnd (t : RawTagOffset) : Res TagErr Nat := (t.nextTagOffset m).map (asUsize bits)
/-- `tag_start`, /repo/src/tags/raw/mod.rs:123-125. -/
def tagStart (t : RawTagOffset) : Nat := asUsize bits t.offset
/-- `tag_end`, /repo/src/tags/raw/mod.rs:129-131. -/
def tagEnd (t : RawTagOffset) : Res TagErr Nat := valueEnd bits m t

/-- `tag_slice`, /repo/src/tags/raw/mod.rs:140-142. -/
def tagSlice (t : RawTagOffset) (raw : Bytes) : Res TagErr Bytes := do
  let e ← tagEnd bits m t
  RawTagOffset.slice raw (tagStart bits t) e
/-- `value_slice`, /repo/src/tags/raw/mod.rs:151-153. -/
def valueSlice (t : RawTagOffset) (raw : Bytes) : Res TagErr Bytes := do
  let s ← valueStart bits m t
  let e ← valueEnd bits m t
  RawTagOffset.slice raw s e

end
end Verif.Width
