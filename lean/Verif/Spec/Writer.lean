import Verif.Model.Io
/-!
# Specification: what it means for a writer to collect bytes

`Sink ω` says when a writer in some state has collected the bytes `bs` and accepts everything.
-/
namespace Verif.Spec

structure Sink (ω : Type) [Writer ω] where
  /-- The writer in state `w` has received exactly the bytes `bs`. -/
  W : ω → Bytes → Prop
  write_ok : ∀ {w bs} (b : Byte), W w bs → ∃ w', Writer.write b w = (.ok (), w') ∧ W w' (bs ++ [b])
  writeAll_ok : ∀ {w bs} (buf : Bytes), W w bs → ∃ w', Writer.writeAll buf w = (.ok (), w') ∧ W w' (bs ++ buf)

/-- What the author of a writer promises about `write` alone. -/
structure ByteSink (ω : Type) [WriteByte ω] where
  /-- The type in state `w` has received exactly the bytes `bs`. -/
  W : ω → Bytes → Prop
  put_ok : ∀ {w bs} (b : Byte), W w bs → ∃ w', WriteByte.put b w = (.ok (), w') ∧ W w' (bs ++ [b])

/-- Writing the bytes one by one, all accepted. -/
inductive PutAll {ω : Type} [WriteByte ω] : Bytes → ω → ω → Prop where
  | nil (w) : PutAll [] w w
  | cons {b bs w w₁ w₂} : WriteByte.put b w = (.ok (), w₁) → PutAll bs w₁ w₂ → PutAll (b :: bs) w w₂

end Verif.Spec
