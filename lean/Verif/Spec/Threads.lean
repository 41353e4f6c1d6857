import Verif.Model.Tag
/-!
# Specification: several threads that append to one log
-/
namespace Verif.Spec

/-- Thread `i` has the items `queue i` to hand in, in this order; `schedule` says whose turn it is.  The result is what
was handed in, in the order of the turns, with the thread; a thread with nothing left lets its turn pass. -/
def turns {α : Type} : List Nat → (Nat → List α) → List (Nat × α)
  | [], _ => []
  | i :: schedule, queue =>
    match queue i with
    | [] => turns schedule queue
    | x :: rest => (i, x) :: turns schedule fun j => if j = i then rest else queue j

/-- Writes the data with one `write_all` each. -/
def writeEach {ω : Type} [Writer ω] : List Bytes → Act IoErr ω Unit
  | [] => pure ()
  | d :: ds => do Writer.writeAll d; writeEach ds

end Verif.Spec
