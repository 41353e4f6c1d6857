import Verif.Model.Tag
/-!
# Specification: counting the calls on a reader

`Counted σ` forwards every call to a reader of any kind and counts the calls, and the bytes the calls delivered.
-/
namespace Verif.Spec

/-- A reader with counters. -/
structure Counted (σ : Type) where
  source : σ
  /-- The calls made, whatever their outcome. -/
  calls : Nat
  /-- The bytes delivered by the successful ones. -/
  bytes : Nat

namespace Counted
variable {σ α : Type}

/-- Start counting. -/
def start (s : σ) : Counted σ := ⟨s, 0, 0⟩

/-- Forwards a call that delivers `size a` bytes if it returns `a`. -/
def count (size : α → Nat) (x : Act IoErr σ α) : Act IoErr (Counted σ) α := fun w =>
  match x w.source with
  | (.ok a, s) => (.ok a, ⟨s, w.calls + 1, w.bytes + size a⟩)
  | (.err e, s) => (.err e, ⟨s, w.calls + 1, w.bytes⟩)
  | (.panic, s) => (.panic, ⟨s, w.calls + 1, w.bytes⟩)
  | (.diverge, s) => (.diverge, ⟨s, w.calls + 1, w.bytes⟩)

instance [Reader σ] : Reader (Counted σ) where
  read := count (fun _ => 1) Reader.read
  readAll n := count List.length (Reader.readAll n)
  skip n := count (fun _ => n) (Reader.skip n)
  skipU64 n := count (fun _ => n.toNat) (Reader.skipU64 n)
  readAll_len n w bs w' h := by
    unfold count at h
    rcases hx : Reader.readAll n w.source with ⟨r, s'⟩
    rw [hx] at h
    cases r <;> simp at h
    obtain ⟨rfl, -⟩ := h
    exact Reader.readAll_len n _ _ _ hx

end Counted

/-- Along every path the payload's own reader calls number at most twice the bytes they deliver plus `credit`: it may
make `read_all` calls for no bytes at all, but not arbitrarily many of them. -/
def Frugal {P : Type} : Nat → RProg P → Prop
  | _, .done _ _ => True
  | credit, .read k => ∀ b, Frugal (credit + 1) (k b)
  | credit, .readAll n k => 1 ≤ credit + 2 * n ∧ ∀ bs, Frugal (credit + 2 * n - 1) (k bs)
  | credit, .deser k => ∀ t, Frugal credit (k t)
  | credit, .into _ k => ∀ t, Frugal credit (k t)

/-- Every payload of the type is frugal: it makes at most one call more than twice the bytes delivered so far. -/
def FrugalPayloads (P : Type) [TagPayload P] : Prop := ∀ (p : P) (size : Nat), Frugal 1 (TagPayload.deserialize p size)

theorem frugal_empty : FrugalPayloads Empty := nofun

end Verif.Spec
