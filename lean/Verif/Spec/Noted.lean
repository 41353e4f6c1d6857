import Verif.Spec.Watch
/-!
# Specification: watching a writer

`Noted ω` forwards every call to a writer of any kind and writes down the bytes it accepted and the failures it
reported.
-/
namespace Verif.Spec

/-- A writer under observation. -/
structure Noted (ω : Type) where
  writer : ω
  /-- The bytes of the accepted calls, in order. -/
  log : Bytes
  /-- The outcomes of failed calls, in order. -/
  failed : List (Res IoErr Unit)

namespace Noted
variable {ω : Type}

/-- Start watching. -/
def start (w : ω) : Noted ω := ⟨w, [], []⟩

/-- Forwards a call that offers `bytes`. -/
def note (bytes : Bytes) (x : Act IoErr ω Unit) : Act IoErr (Noted ω) Unit := fun w =>
  match x w.writer with
  | (.ok (), w') => (.ok (), ⟨w', w.log ++ bytes, w.failed⟩)
  | (.err e, w') => (.err e, ⟨w', w.log, w.failed ++ [.err e]⟩)
  | (.panic, w') => (.panic, ⟨w', w.log, w.failed ++ [.panic]⟩)
  | (.diverge, w') => (.diverge, ⟨w', w.log, w.failed ++ [.diverge]⟩)

instance [Writer ω] : Writer (Noted ω) where
  write b := note [b] (Writer.write b)
  writeAll bs := note bs (Writer.writeAll bs)

end Noted
end Verif.Spec
