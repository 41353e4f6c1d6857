import Verif.Props.Scanner
import Verif.Props.Equality
import Verif.Proof.Deliver
/-!
# Property theorems: payloads that misreport their size

Nothing in these theorems assumes that `serialized_size` of a payload is the number of bytes its `serialize` writes.
-/
namespace Verif
open Spec
variable {P : Type}

/-- The calls of `serialize_value`, whatever its payloads do: a fixed list, then a fixed result. -/
theorem serializeValue_fixed [TagPayload P] (t : Tag P) (hm : MapsOk t) : ∃ (ops : List WOp) (r : Res TagErr Unit),
    ∀ (ω : Type) [Writer ω], (t.serializeValue : Act TagErr ω Unit) = (do runOps ops; Act.lift r) := by
  obtain ⟨ops, r, h, -⟩ := Tag.writesValue t hm
  exact ⟨ops, r, h⟩

theorem opsBytes_append (a b : List WOp) : opsBytes (a ++ b) = opsBytes a ++ opsBytes b := by
  simp [opsBytes]

/-- The bytes `serialize` writes before the value. -/
def headerOf (id vs : UInt64) : Bytes :=
  Spec.ilint id.toNat ++ if 16 ≤ id.toNat then Spec.ilint vs.toNat else []

theorem serializeWith_header (id vs : UInt64) : ∃ ops, opsBytes ops = headerOf id vs ∧
    ∀ (ω : Type) [Writer ω] (m : Act TagErr ω Unit), Tag.serializeWith id vs m = (do runOps ops; m) := by
  obtain ⟨a, ha, ha'⟩ := Props.Writes.ops (WritesIf.ilint (C := True) id) trivial
  obtain ⟨b, hb, hb'⟩ := Props.Writes.ops (WritesIf.ilint (C := True) vs) trivial
  by_cases hi : 16 ≤ id.toNat
  · refine ⟨a ++ b, ?_, fun ω _ m => ?_⟩
    · simp only [opsBytes_append, ha, hb, headerOf, if_pos hi]
    · have : isImplicitTag id = false := by
        rcases Bool.eq_false_or_eq_true (isImplicitTag id) with h | h
        · have := (isImplicit_iff id).mp h; omega
        · exact h
      unfold Tag.serializeWith
      simp only [this, ha', hb', runOps_append, Act.bind_assoc]
      rfl
  · refine ⟨a, ?_, fun ω _ m => ?_⟩
    · simp only [ha, headerOf, if_neg hi, List.append_nil]
    · have : isImplicitTag id = true := (isImplicit_iff id).mpr (by omega)
      unfold Tag.serializeWith
      simp only [this, ha', if_true]

end Verif

namespace Verif.Props
open Verif Verif.Spec
variable {P : Type}

section
variable [Env] [TagPayload P]

/-- **C92** What `to_bytes` returns, whatever the payloads inside do: the id, the size the tag reports, and what its
`serialize_value` writes; or what its `serialize_value` fails with. -/
theorem C92_written (t : Tag P) (hm : MapsOk t) (ha : t.size.toNat ≤ Env.allocMax) :
    match t.serializeValue VecWriter.new with
    | (.ok (), w) => t.toBytes = .ok (Spec.ilint t.id.toNat ++
        (if 16 ≤ t.id.toNat then Spec.ilint t.valueSize.toNat else []) ++ w.vector)
    | (.err x, _) => t.toBytes = .err x
    | (.panic, _) => t.toBytes = .panic
    | (.diverge, _) => t.toBytes = .diverge := by
  obtain ⟨ops, r, h⟩ := serializeValue_fixed t hm
  obtain ⟨hd, h1, h2⟩ := serializeWith_header t.id t.valueSize
  obtain ⟨w, hw, hv⟩ := vec_runOps ops
  obtain ⟨w', hw', hv'⟩ := vec_runOps (hd ++ ops)
  have e1 : t.serializeValue VecWriter.new = (r, w) := by
    rw [h, Act.bind_ok hw]; rfl
  have e2 : t.serialize VecWriter.new = (r, w') := by
    unfold Tag.serialize
    rw [h2, h, ← Act.bind_assoc, ← runOps_append, Act.bind_ok hw']; rfl
  have e3 : w'.vector = Spec.ilint t.id.toNat ++
        (if 16 ≤ t.id.toNat then Spec.ilint t.valueSize.toNat else []) ++ w.vector := by
    rw [hv', opsBytes_append, h1, hv]; rfl
  unfold Tag.toBytes
  rw [if_pos ha, e1, e2]
  cases r with
  | ok u => cases u; dsimp only; rw [e3]
  | err x => rfl
  | panic => rfl
  | diverge => rfl

/-- **C92** A tag whose reported size is not the number of bytes its value writes is never read back: if a factory
accepts the bytes as one tag, the value has the reported length (the length fixed by the id, for an implicit id). -/
theorem C92_detected {e : Engine P} (he : Faithful e) (t u : Tag P) (hm : MapsOk t) (bs : Bytes) (w : VecWriter)
    (hb : t.toBytes = .ok bs) (hw : t.serializeValue VecWriter.new = (.ok (), w))
    (hu : Factory.fromBytes e bs = .ok u) :
    u.id = t.id ∧ (16 ≤ t.id.toNat → w.vector.length = t.valueSize.toNat) ∧
      (t.id.toNat < 15 → t.id ≠ 10 → t.id ≠ 14 → w.vector.length = implicitLen t.id.toNat) := by
  have ha : t.size.toNat ≤ Env.allocMax := by
    unfold Tag.toBytes at hb
    split at hb
    · assumption
    · cases hb
  have h := C92_written t hm ha
  rw [hw] at h
  dsimp only at h
  rw [hb, Res.ok.injEq] at h
  rw [fromBytes_ok_iff] at hu
  obtain ⟨idb, sz, value, h1, h2, h3⟩ := top_layout he hu
  rw [List.append_nil, h, List.append_assoc, List.append_assoc] at h1
  obtain ⟨-, h4, h5⟩ := isILInt_append (ILInt.isILInt_ilint t.id.toNat_lt) h2 h1
  have hid : u.id = t.id := UInt64.toNat_inj.mp h4.symm
  rw [hid] at h3
  refine ⟨hid, fun h16 => ?_, fun h15 h10 h14 => ?_⟩
  · have h3 := h3 (by omega)
    unfold Layout at h3
    rw [if_pos h16] at h3 h5
    obtain ⟨-, h6, h7⟩ := isILInt_append (ILInt.isILInt_ilint t.valueSize.toNat_lt) h3 h5
    rw [h6, h7]
  · have h3 := h3 (by omega)
    unfold Layout at h3
    rw [if_neg (by omega)] at h3 h5
    obtain ⟨rfl, h6⟩ := h3
    have n10 : t.id.toNat ≠ 10 := fun hx => h10 (UInt64.toNat_inj.mp hx)
    have n14 : t.id.toNat ≠ 14 := fun hx => h14 (UInt64.toNat_inj.mp hx)
    rw [if_neg (by omega)] at h6
    rw [← h6.2]
    exact congrArg List.length h5

/-- A standard factory stays faithful when payload types are registered for ids other than those of the two ILInt
tags. -/
theorem faithful_payload {e : Engine P} (he : Faithful e) (id : UInt64) (p : P) (h10 : id ≠ 10) (h14 : id ≠ 14) :
    Faithful (e.register id (payloadCreator p)).2 := by
  intro i t h
  simp only [Engine.register, Engine.createTag, HMap.get_insert] at h
  by_cases hi : i = id
  · subst hi
    rw [if_pos rfl] at h
    simp only [payloadCreator, Res.map, Res.ok.injEq, Option.some.injEq] at h
    subst h
    refine ⟨rfl, fun hx => ?_⟩
    rcases hx with hx | hx
    · exact absurd hx h10
    · exact absurd hx h14
  · rw [if_neg hi] at h
    exact he i t h

end

/-! ### Witnesses -/

/-- A payload that reports a size and writes bytes, with no relation between the two; it reads its value. -/
structure Liar where
  reported : Nat
  written : Bytes
  deriving DecidableEq

instance : TagPayload Liar where
  serializedSize p := p.reported
  serialize p := ([.all p.written], .ok ())
  deserialize _ n := .readAll n fun bs => .done (.ok ()) ⟨n, bs⟩

section
attribute [local instance] bigEnv

/-- A payload of 3 bytes reported as 2, and the same payload reported as 3. -/
example : (.atom (.payload 50 ⟨2, [7, 8, 9]⟩) : Tag Liar).toBytes = .ok [50, 2, 7, 8, 9] ∧
    (.atom (.payload 50 ⟨3, [7, 8, 9]⟩) : Tag Liar).toBytes = .ok [50, 3, 7, 8, 9] := by decide +kernel

/-- Only the second is read back. -/
example : (match Factory.fromBytes (Engine.std false : Engine Liar) [50, 2, 7, 8, 9] with
      | .err .corruptedData => true | _ => false) = true ∧
    (match Factory.fromBytes (Engine.std false : Engine Liar) [50, 3, 7, 8, 9] with
      | .ok (.atom (.raw 50 [7, 8, 9])) => true | _ => false) = true := by
  rw [Factory.fromBytes, Factory.fromBytes, deserialize_eq]; decide +kernel

/-- A factory that knows the type is faithful, and reads the second back as its own type. -/
example : Faithful ((Engine.std true).register 50 (payloadCreator (⟨0, []⟩ : Liar))).2 :=
  faithful_payload (std_faithful true) 50 _ (by decide) (by decide)

example : (match Factory.fromBytes ((Engine.std true).register 50 (payloadCreator (⟨0, []⟩ : Liar))).2 [50, 3, 7, 8, 9] with
    | .ok (.atom (.payload 50 ⟨3, [7, 8, 9]⟩)) => true | _ => false) = true := by
  rw [Factory.fromBytes, deserialize_eq]; decide +kernel

/-- The first is refused by every faithful factory, whatever it makes of the id 50. -/
example {e : Engine Liar} (he : Faithful e) (u : Tag Liar) : Factory.fromBytes e [50, 2, 7, 8, 9] ≠ .ok u := fun h => by
  obtain ⟨w, hw, hl⟩ : ∃ w, (.atom (.payload 50 ⟨2, [7, 8, 9]⟩) : Tag Liar).serializeValue VecWriter.new = (.ok (), w) ∧
      w.vector.length = 3 := ⟨⟨[7, 8, 9], 3, false⟩, by decide +kernel, rfl⟩
  have := (C92_detected he _ u (mapsOk_of_B (by decide +kernel)) _ w (by decide +kernel) hw h).2.1 (by decide)
  rw [hl] at this
  revert this
  decide +kernel

/-- **C92** The sizes of nested tags are not checked one by one: when two wrong sizes make up for each other the bytes
are accepted and read as something else.  Here a sequence of two tags is read as a sequence of three, and the equality
of the library says that the two are equal. -/
theorem C92_compensating : ∃ (a b c d f : Tag Liar), MapsOk (.seq 22 [a, b]) ∧
    tagClone (.seq 22 [a, b]) = .ok (.seq 22 [c, d, f]) ∧ tagsAreEqual (.seq 22 [a, b]) (.seq 22 [c, d, f]) = .ok true := by
  refine ⟨.atom (.payload 50 ⟨2, [7]⟩), .atom (.payload 50 ⟨1, [1, 0]⟩), .atom (.raw 50 [7, 50]), .atom (.bool 1 true),
    .atom (.null 0), mapsOk_of_B (by decide +kernel), ?_, by decide +kernel⟩
  have h : (match tagClone (.seq 22 [.atom (.payload 50 ⟨2, [7]⟩), .atom (.payload 50 ⟨1, [1, 0]⟩)] : Tag Liar) with
      | .ok (.seq 22 [.atom (.raw 50 [7, 50]), .atom (.bool 1 true), .atom (.null 0)]) => true | _ => false) = true := by
    unfold tagClone tagCloneWithFactory Factory.fromBytes
    rw [deserialize_eq]; decide +kernel
  revert h
  split
  · next h => intro _; exact h
  · intro h; cases h

end
end Verif.Props
