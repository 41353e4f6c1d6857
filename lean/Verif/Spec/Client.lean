import Verif.Model.Client
import Verif.Spec.Tag
/-!
# Specification: tags that cannot be told apart
-/
namespace Verif.Spec
variable {P : Type}

/-- The variables hold tags of the same content. -/
def SameStore (x y : Store P) : Prop := ∀ i, Same (x i) (y i)

/-- What Rust guarantees of maps holds in all variables. -/
def StoreOk (x : Store P) : Prop := ∀ i, MapsOk (x i)

/-- No program is ever answered differently when one of its variables holds the one tag instead of the other, whatever the
other variables hold. -/
def Indistinguishable [TagPayload P] [Env] (e : Engine P) (t u : Tag P) : Prop :=
  ∀ (x : Store P) (i : Nat) (prog : Client P), StoreOk x → (prog.run e (x.set i t)).1 = (prog.run e (x.set i u)).1

end Verif.Spec
