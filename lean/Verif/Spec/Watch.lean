import Verif.Model.Io
/-!
# Specification: watching a reader

`Watched σ` forwards every call to a reader of any kind and writes down the bytes it delivered and the errors it
reported.
-/
namespace Verif.Spec

/-- A reader under observation. -/
structure Watched (σ : Type) where
  source : σ
  /-- The bytes delivered by successful calls, in order. -/
  log : Bytes
  /-- The outcomes of failed calls, in order. -/
  failed : List (Res IoErr Unit)

namespace Watched
variable {σ α : Type}

/-- Start watching. -/
def start (s : σ) : Watched σ := ⟨s, [], []⟩

/-- Forwards a call; `bytes` are the bytes in its result. -/
def watch (bytes : α → Bytes) (x : Act IoErr σ α) : Act IoErr (Watched σ) α := fun w =>
  match x w.source with
  | (.ok a, s) => (.ok a, ⟨s, w.log ++ bytes a, w.failed⟩)
  | (.err e, s) => (.err e, ⟨s, w.log, w.failed ++ [.err e]⟩)
  | (.panic, s) => (.panic, ⟨s, w.log, w.failed ++ [.panic]⟩)
  | (.diverge, s) => (.diverge, ⟨s, w.log, w.failed ++ [.diverge]⟩)

instance [Reader σ] : Reader (Watched σ) where
  read := watch (fun b => [b]) Reader.read
  readAll n := watch id (Reader.readAll n)
  skip n := watch (fun _ => []) (Reader.skip n)
  skipU64 n := watch (fun _ => []) (Reader.skipU64 n)
  readAll_len n w bs w' h := by
    unfold watch at h
    rcases hx : Reader.readAll n w.source with ⟨r, s'⟩
    rw [hx] at h
    cases r <;> simp at h
    obtain ⟨rfl, -⟩ := h
    exact Reader.readAll_len n _ _ _ hx

end Watched

/-- The outcome a deserializer has to report for a failed call of its reader: an error is wrapped in `IOError`; a
panic (or an endless loop) inside the reader is not caught. -/
def ofFailure {α : Type} : Res IoErr Unit → Res TagErr α
  | .ok _ => .panic                                                  -- not a failure
  | .err e => .err (.ioError e)
  | .panic => .panic
  | .diverge => .diverge

end Verif.Spec
