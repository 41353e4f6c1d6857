import Verif.Proof.Calls
import Verif.Proof.Deliver
import Verif.Spec.Reader
import Verif.Proof.Views
/-!
# The number of reader calls (C75)
-/
namespace Verif.Props
open Verif Verif.Spec
variable {P : Type} [TagPayload P] [Env] {σ : Type} [Reader σ]

/-- **C75** Whatever the reader and the factory, and whatever counts and sizes the input declares: the calls
`deserialize` makes on the reader number at most twice the bytes they delivered, and one more if it does not succeed.
-/
theorem C75_deserialize_calls (hp : FrugalPayloads P) (e : Engine P) (s : σ) :
    (Factory.deserialize e (Counted σ) (Counted.start s)).2.calls ≤
        2 * (Factory.deserialize e (Counted σ) (Counted.start s)).2.bytes + 1 ∧
    ∀ t, (Factory.deserialize e (Counted σ) (Counted.start s)).1 = .ok t →
      (Factory.deserialize e (Counted σ) (Counted.start s)).2.calls ≤
        2 * (Factory.deserialize e (Counted σ) (Counted.start s)).2.bytes := by
  have h := Gain.deserialize hp e (Counted σ) (fun w => (w.calls : Int) - 2 * w.bytes) (Counted.start s)
  revert h
  rcases Factory.deserialize e (Counted σ) (Counted.start s) with ⟨r, w⟩
  cases r <;> simp [Counted.start] <;> intro h <;> omega

/-- **C75** The same for `deserialize_into`. -/
theorem C75_deserializeInto_calls (hp : FrugalPayloads P) (e : Engine P) (t : Tag P) (s : σ) :
    (Factory.deserializeInto e (t, Counted.start s)).2.2.calls ≤
        2 * (Factory.deserializeInto e (t, Counted.start s)).2.2.bytes + 1 ∧
    ((Factory.deserializeInto e (t, Counted.start s)).1 = .ok () →
      (Factory.deserializeInto e (t, Counted.start s)).2.2.calls ≤
        2 * (Factory.deserializeInto e (t, Counted.start s)).2.2.bytes) := by
  have h : Gain (fun p : Tag P × Counted σ => (p.2.calls : Int) - 2 * p.2.bytes) 0 (Factory.deserializeInto e) := by
    unfold Factory.deserializeInto
    refine Gain.bindLoss (φ := fun p : Tag P × Counted σ => (p.2.calls : Int) - 2 * p.2.bytes)
      (Gain.onReader (φ := fun w : Counted σ => (w.calls : Int) - 2 * w.bytes) Gain.ilint) fun id => ?_
    intro q
    simp only [Act.bind_apply, Act.get]
    by_cases hid : id ≠ q.1.id
    · simp only [hid, if_true, ne_eq, not_false_eq_true, Act.fail]; omega
    · simp only [hid, if_false]
      have h1 := Gain.onReader (τ := Tag P) (Gain.tagSize (φ := fun w : Counted σ => (w.calls : Int) - 2 * w.bytes) id) q
      simp only [Act.bind_apply]
      rcases hm : (onReader (Factory.deserializeTagSize id) : Act TagErr (Tag P × Counted σ) Nat) q with ⟨r, q'⟩
      rw [hm] at h1
      cases r with
      | ok n =>
        have h2 := Loss.tagValueInto (φ := fun w : Counted σ => (w.calls : Int) - 2 * w.bytes) hp
          (f := Factory.methods e) (Gain.deserializeFuel hp e Factory.fuel) n q'
        simp only at h1 ⊢
        revert h2
        rcases Factory.deserializeTagValueInto (Factory.methods e) n q' with ⟨r, q''⟩
        cases r <;> intro h <;> simp only at h ⊢ <;> omega
      | _ => simp only at h1 ⊢; omega
  have h := h (t, Counted.start s)
  revert h
  rcases Factory.deserializeInto e (t, Counted.start s) with ⟨r, q⟩
  cases r <;> simp [Counted.start] <;> intro h <;> omega

/-- **C75** Counting changes nothing: the result and what is left of the reader are those of the reader itself. -/
theorem C75_counting_is_transparent (e : Engine P) (s : σ) :
    (Factory.deserialize e (Counted σ) (Counted.start s)).1 = (Factory.deserialize e σ s).1 ∧
    (Factory.deserialize e (Counted σ) (Counted.start s)).2.source = (Factory.deserialize e σ s).2 := by
  obtain ⟨T, -, hT⟩ := Rep.deserialize (A := fun _ _ => True) (fun _ _ => ⟨trivial, trivial, trivial⟩) e
  simp only at hT
  rw [hT, hT]
  suffices h : ∀ w : Counted σ, (T.run w).1 = (T.run w.source).1 ∧ (T.run w).2.2.source = (T.run w.source).2.2 from
    h (Counted.start s)
  clear hT
  induction T with
  | done r t => intro w; exact ⟨rfl, rfl⟩
  | read t k ih =>
    intro w
    simp only [Prog.run, Reader.read, Counted.count]
    rcases Reader.read w.source with ⟨r, s'⟩
    cases r with
    | ok b => exact ih b _
    | _ => exact ⟨rfl, rfl⟩
  | readAll t n k ih =>
    intro w
    simp only [Prog.run, Reader.readAll, Counted.count]
    rcases Reader.readAll n w.source with ⟨r, s'⟩
    cases r with
    | ok b => exact ih b _
    | _ => exact ⟨rfl, rfl⟩
  | alloc t u c k ih =>
    intro w
    simp only [Prog.run]
    split
    · exact ih w
    · exact ⟨rfl, rfl⟩

/-- **C75** On a reader that holds `bs.length` bytes at most `2 * bs.length + 1` calls are made, whatever the bytes. -/
theorem C75_calls_bounded_by_input (hp : FrugalPayloads P) (e : Engine P) (V : View σ) (s : σ) (bs : Bytes) (h : V.R s bs) :
    (Factory.deserialize e (Counted σ) (Counted.start s)).2.calls ≤ 2 * bs.length + 1 := by
  have h1 := (C75_deserialize_calls hp e s).1
  suffices h2 : (Factory.deserialize e (Counted σ) (Counted.start s)).2.bytes ≤ bs.length by omega
  obtain ⟨T, -, hT⟩ := Rep.deserialize (A := fun _ _ => True) (fun _ _ => ⟨trivial, trivial, trivial⟩) e
  simp only at hT
  rw [hT]
  suffices hg : ∀ (w : Counted σ) (bs : Bytes), V.R w.source bs → (T.run w).2.2.bytes ≤ w.bytes + bs.length by
    simpa [Counted.start] using hg (Counted.start s) bs h
  clear hT h1 h
  induction T with
  | done r t => intro w bs h; simp [Prog.run]
  | read t k ih =>
    intro w bs h
    simp only [Prog.run, Reader.read, Counted.count]
    cases bs with
    | nil =>
      obtain ⟨e, s', h1, -⟩ := V.read_nil h
      simp only [h1]
      simp
    | cons b bs =>
      obtain ⟨s', h1, h2⟩ := V.read_cons h
      simp only [h1]
      have := ih b ⟨s', w.calls + 1, w.bytes + 1⟩ bs h2
      simp only [List.length_cons] at this ⊢
      omega
  | readAll t n k ih =>
    intro w bs h
    simp only [Prog.run, Reader.readAll, Counted.count]
    by_cases hn : n ≤ bs.length
    · obtain ⟨s', h1, h2⟩ := V.readAll_ok h hn
      simp only [h1]
      have := ih (bs.take n) ⟨s', w.calls + 1, w.bytes + (bs.take n).length⟩ _ h2
      simp only [List.length_take, List.length_drop] at this ⊢
      omega
    · obtain ⟨e, s', h1, -⟩ := V.readAll_short h (n := n) (by omega)
      simp only [h1]
      omega
  | alloc t u c k ih =>
    intro w bs h
    simp only [Prog.run]
    split
    · exact ih w bs h
    · simp

/-- Payload code that asks for no bytes, `k` times. -/
def askNothing : Nat → RProg Unit
  | 0 => .done (.ok ()) ()
  | k + 1 => .readAll 0 fun _ => askNothing k

/-- A payload type with that code. -/
@[reducible] def idle (k : Nat) : TagPayload Unit where
  serializedSize _ := 0
  serialize _ := ([], .ok ())
  deserialize _ _ := askNothing k

omit [TagPayload P] [Env] in
theorem run_askNothing (f : FactoryDeser Unit) (k c b n : Nat) (s : ByteArrayReader) (hs : s.offset ≤ s.array.length) :
    RProg.run f (askNothing k) ((), (⟨⟨s, c, b⟩, n⟩ : Limited (Counted ByteArrayReader))) =
      (.ok (), ((), ⟨⟨s, c + k, b⟩, n⟩)) := by
  induction k generalizing c with
  | zero => rfl
  | succ k ih =>
    have h1 : (onReader (tagIo (Reader.readAll 0)) : Act TagErr (Unit × Limited (Counted ByteArrayReader)) Bytes)
        ((), ⟨⟨s, c, b⟩, n⟩) = (.ok [], ((), ⟨⟨s, c + 1, b⟩, n⟩)) := by
      simp [onReader, tagIo, Act.mapErr, Reader.readAll, Limited.readAll, Limited.canRead, Counted.count,
        ByteArrayReader.readAll, ByteArrayReader.canRead, assertCanRead, hs, Res.isOk, Res.mapErr]
    rw [askNothing, RProg.run, Act.bind_ok h1, ih]
    simp only [Nat.add_comm, Nat.add_left_comm]

/-- **C75** The condition on payloads is needed: code of a payload that asks for nothing again and again makes as many
calls as it likes on two bytes. -/
theorem C75_payload_condition_needed (k : Nat) :
    k ≤ (@Factory.deserialize Unit (idle k) _ ((Engine.new true).register 50 (payloadCreator ())).2
      (Counted ByteArrayReader) _ (Counted.start (ByteArrayReader.new [50, 0]))).2.calls := by
  letI := idle k
  rw [deserialize_eq]
  have h1 : (Ser.deserializeILInt : Act TagErr (Counted ByteArrayReader) UInt64)
      (Counted.start (ByteArrayReader.new [50, 0])) = (.ok 50, ⟨⟨[50, 0], 1⟩, 1, 1⟩) := rfl
  have h2 : (Factory.deserializeTagSize 50 : Act TagErr (Counted ByteArrayReader) Nat)
      ⟨⟨[50, 0], 1⟩, 1, 1⟩ = (.ok 0, ⟨⟨[50, 0], 2⟩, 2, 2⟩) := rfl
  have h3 : ((Engine.new true).register 50 (payloadCreator ())).2.createTag 50 =
    .ok (some (.atom (.payload 50 ()))) := rfl
  rw [Act.bind_ok h1, Act.bind_ok h2, h3]
  have h4 : Tag.deserializeValue (Factory.deserializeFuel ((Engine.new true).register 50 (payloadCreator ())).2 (maxTagSize + 1))
      0 (.atom (.payload 50 ())) (Tag.atom (.payload 50 ()), (⟨⟨⟨[50, 0], 2⟩, 2, 2⟩, 0⟩ : Limited (Counted ByteArrayReader))) =
      (.ok (), (Tag.atom (.payload 50 ()), ⟨⟨⟨[50, 0], 2⟩, 2 + k, 2⟩, 0⟩)) := by
    simp only [Tag.deserializeValue, Atom.deserializeValue, zoom]
    rw [show TagPayload.deserialize () 0 = askNothing k from rfl, run_askNothing _ _ _ _ _ _ (by simp)]
  show k ≤ ((match Factory.deserializeTagValueInto _ 0 _ with
      | (r, (t, s')) => (r.map fun _ => t, s')) : Res TagErr (Tag Unit) × Counted ByteArrayReader).2.calls
  simp only [Factory.deserializeTagValueInto, withLimited, Act.bind_ok h4, Factory.checkEmpty]
  simp [Limited.empty]

/-- Twice the bytes is met: an empty string under the id of the null tag takes two calls for its one byte. -/
example : (@Factory.deserialize Empty _ ⟨1000⟩ ((Engine.new true).register 0 fun id => .ok (.atom (.string id ""))).2
    (Counted ByteArrayReader) _ (Counted.start (ByteArrayReader.new [0]))).2.calls = 2 := by
  rw [@deserialize_eq Empty _ ⟨1000⟩]; decide +kernel

/-- A dictionary that declares more than 2^63 entries and holds half of one: nine calls. -/
example : (@Factory.deserialize Empty _ ⟨1000⟩ (Engine.std true) (Counted ByteArrayReader) _
    (Counted.start (ByteArrayReader.new [30, 20, 255, 255, 255, 255, 255, 255, 255, 7, 7, 17, 1, 65, 17]))).2.calls = 9 := by
  rw [@deserialize_eq Empty _ ⟨1000⟩]; decide +kernel

end Verif.Props
