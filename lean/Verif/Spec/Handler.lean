import Verif.Spec.Reader
/-!
# Readers that stay what they are after a failure
-/
namespace Verif.Spec
open Verif

/-- After a `read` or `read_all` that failed the reader still holds bytes, no more than before (it may have taken some). -/
structure Lasting {σ : Type} [Reader σ] (V : View σ) : Prop where
  read : ∀ {s}, V.R s [] → V.R (Reader.read s).2 []
  readAll : ∀ {s bs n}, V.R s bs → bs.length < n → ∃ rest, V.R (Reader.readAll n s).2 rest ∧ rest.length ≤ bs.length

end Verif.Spec
