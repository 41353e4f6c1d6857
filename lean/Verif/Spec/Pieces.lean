import Verif.Spec.Factory
/-!
# Containers read and written piece by piece (C101)
-/
namespace Verif.Spec
open Verif
variable {P : Type} [TagPayload P] [Env] {σ : Type} [Reader σ]

/-- A caller's loop `while !limited.empty() { factory.deserialize(&mut limited)? … }` up to some point: successful calls
on a limited reader, each made while it is not empty, and the tags they gave. -/
inductive Pieces (e : Engine P) : Limited σ → List (Tag P) → Limited σ → Prop where
  | nil (l) : Pieces e l [] l
  | cons {l l₁ l₂ t ts} : l.empty = false → Factory.deserialize e (Limited σ) l = (.ok t, l₁) → Pieces e l₁ ts l₂ →
    Pieces e l (t :: ts) l₂

/-- A caller's loop `for _ in 0..count { factory.deserialize(&mut reader)? … }`: the given number of successful calls. -/
inductive CountedPieces (e : Engine P) {σ : Type} [Reader σ] : Nat → σ → List (Tag P) → σ → Prop where
  | zero (s) : CountedPieces e 0 s [] s
  | succ {n s s₁ s₂ t ts} : Factory.deserialize e σ s = (.ok t, s₁) → CountedPieces e n s₁ ts s₂ →
    CountedPieces e (n + 1) s (t :: ts) s₂

/-- A caller's loop `for t in tags { t.serialize(&mut writer)? }`. -/
def writeAll {ω : Type} [Writer ω] (ts : List (Tag P)) : Act TagErr ω Unit :=
  ts.foldr (fun t rest => Tag.serialize t >>= fun _ => rest) (pure ())

end Verif.Spec
