import Verif.Proof.PayloadSkip
import Verif.Props.RoundTrip
/-!
# C66: payload code that skips
-/
namespace Verif.Props
open Verif Verif.Spec

/-- **C66** Payload code that calls `skip` on the limited reader it is given is a program of `read_all` calls, with the
same outcome and the same state left behind; so what is proved for all payload programs holds for it, too. -/
theorem C66_skip {P σ : Type} [Reader σ] (f : FactoryDeser P) (n : Nat) (k : RProg P) (q : P × Limited σ) :
    (RProg.skip n k).run f q = (onReader (tagIo (Reader.skip n)) >>= fun _ => k.run f) q := RProg.run_skip f k n q

/-- **C66** The same for `skip_u64`. -/
theorem C66_skip_u64 {P σ : Type} [Reader σ] (f : FactoryDeser P) (n : UInt64) (k : RProg P) (q : P × Limited σ) :
    (RProg.skipU64 n k).run f q = (onReader (tagIo (Reader.skipU64 n)) >>= fun _ => k.run f) q :=
  RProg.run_skipU64 f k n q

/-! Non-vacuity: a payload that skips 600 of 601 bytes and keeps the last one; with 600 bytes it fails. -/
attribute [local instance] bigEnv

/-- A payload of one byte behind reserved bytes. -/
structure Tail where
  last : Byte

instance : TagPayload Tail where
  serializedSize _ := 601
  serialize p := ([.all (List.replicate 600 0 ++ [p.last])], .ok ())
  deserialize p n := if n = 601 then RProg.skip 600 (.read fun b => .done (.ok ()) ⟨b⟩) else .done (.err .corruptedData) p

/-- What reading the payload through a reader limited to `n` bytes gives, and what is left of the limit. -/
def lastOf (n : Nat) (bs : Bytes) : Option (Byte × Nat) :=
  match ((TagPayload.deserialize (⟨0⟩ : Tail) 601).run (fun _ _ _ => Act.panic)
      (⟨0⟩, (⟨ByteArrayReader.new bs, n⟩ : Limited ByteArrayReader))) with
  | (.ok (), (p, l)) => some (p.last, l.available)
  | _ => none

example : lastOf 601 (List.replicate 600 1 ++ [7, 8]) = some (7, 0) ∧ lastOf 601 (List.replicate 600 1) = none ∧
    lastOf 602 (List.replicate 600 1 ++ [7, 8]) = some (7, 1) ∧ lastOf 600 (List.replicate 600 1 ++ [7, 8]) = none := by
  have h : TagPayload.deserialize (⟨0⟩ : Tail) 601 =
      .readAll 512 fun _ => .readAll 88 fun _ => .read fun b => .done (.ok ()) ⟨b⟩ := by
    show RProg.skip 600 _ = _
    rw [RProg.skip, dif_neg (by decide)]
    congr; funext _
    show RProg.skip 88 _ = _
    rw [RProg.skip, dif_neg (by decide)]
    congr; funext _
    show RProg.skip 0 _ = _
    rw [RProg.skip, dif_pos rfl]
  unfold lastOf
  rw [h]
  decide +kernel

end Verif.Props
