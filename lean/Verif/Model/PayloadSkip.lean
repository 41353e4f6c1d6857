import Verif.Model.Deser
/-!
# Payload code that calls `skip` and `skip_u64`

The reader a factory hands to a payload is a `LimitedReader`, which has the default `skip` and `skip_u64` of the trait:
`read_all` in chunks.  So a payload that skips is again a program of `read_all` calls.
-/
namespace Verif

/-- `reader.skip(n)?` in the code of a payload, /repo/src/io/mod.rs:113-122 (the default method, which `LimitedReader`
does not override, /repo/src/io/mod.rs:278-296). -/
def RProg.skip {P : Type} (n : Nat) (k : RProg P) : RProg P :=
  if _h : n = 0 then k else .readAll (min n 512) fun _ => RProg.skip (n - min n 512) k
termination_by n
decreasing_by omega

/-- `reader.skip_u64(n)?` in the code of a payload, /repo/src/io/mod.rs:142-150. -/
def RProg.skipU64 {P : Type} (n : UInt64) (k : RProg P) : RProg P := RProg.skip n.toNat k

end Verif
