import Verif.Props.Serialize
import Verif.Props.Streams
import Verif.Props.Journal
import Verif.Spec.Faults
/-!
# C98: writing a tag again after a failure
-/
namespace Verif.Props
open Verif Verif.Spec

theorem overwriteGap_again (c : Bytes) (p : Nat) (a b : Bytes) (h : a.length ≤ b.length) :
    overwriteGap (overwriteGap c p a) p b = overwriteGap c p b := by
  unfold overwriteGap
  generalize hv : c ++ List.replicate (p - c.length) 0 = v
  have hp : p ≤ v.length := by rw [← hv]; simp; omega
  have hl : (overwrite v p a).length = max v.length (p + a.length) := by unfold overwrite; simp; omega
  rw [show p - (overwrite v p a).length = 0 by omega, List.replicate_zero, List.append_nil]
  unfold overwrite
  have ht : (v.take p).length = p := by simp; omega
  have e1 : (v.take p ++ a ++ v.drop (p + a.length)).take p = v.take p := by
    rw [List.append_assoc, List.take_append_of_le_length (by omega), List.take_of_length_le (by omega)]
  have e2 : (v.take p ++ a ++ v.drop (p + a.length)).drop (p + b.length) = v.drop (p + b.length) := by
    rw [List.drop_append, List.drop_eq_nil_of_le (by simp; omega), List.drop_drop]
    simp only [List.length_append, ht, List.nil_append]
    congr 1; omega
  rw [e1, e2]

theorem overwriteGap_prefix (c : Bytes) (p : Nat) (b x : Bytes) :
    overwriteGap (overwriteGap c p (b ++ x)) p b = overwriteGap c p (b ++ x) := by
  unfold overwriteGap
  generalize hv : c ++ List.replicate (p - c.length) 0 = v
  have hp : p ≤ v.length := by rw [← hv]; simp; omega
  have hl : (overwrite v p (b ++ x)).length = max v.length (p + (b ++ x).length) := by unfold overwrite; simp; omega
  rw [show p - (overwrite v p (b ++ x)).length = 0 by omega, List.replicate_zero, List.append_nil]
  unfold overwrite
  have ht : (v.take p).length = p := by simp; omega
  have e1 : (v.take p ++ (b ++ x) ++ v.drop (p + (b ++ x).length)).take p = v.take p := by
    rw [List.append_assoc, List.take_append_of_le_length (by omega), List.take_of_length_le (by omega)]
  have e2 : (v.take p ++ (b ++ x) ++ v.drop (p + (b ++ x).length)).drop (p + b.length) =
      x ++ v.drop (p + (b ++ x).length) := by
    rw [show v.take p ++ (b ++ x) ++ v.drop (p + (b ++ x).length) =
      (v.take p ++ b) ++ (x ++ v.drop (p + (b ++ x).length)) by simp only [List.append_assoc]]
    rw [List.drop_left' (by rw [List.length_append, ht])]
  rw [e1, e2]
  simp only [List.append_assoc]

/-- The content with `acc` written at `p`; writing nothing changes nothing. -/
def putBytes (c : Bytes) (p : Nat) (acc : Bytes) : Bytes := if acc = [] then c else overwriteGap c p acc

theorem putBytes_append (c : Bytes) (p : Nat) (a b : Bytes) :
    putBytes (putBytes c p a) (p + a.length) b = putBytes c p (a ++ b) := by
  unfold putBytes
  by_cases ha : a = []
  · subst ha; simp
  · by_cases hb : b = []
    · subst hb; simp
    · rw [if_neg hb, if_neg ha, if_neg (by simp [ha]), overwriteGap_append]

theorem putBytes_again (c : Bytes) (p : Nat) (a b : Bytes) (h : a.length ≤ b.length) :
    putBytes (putBytes c p a) p b = putBytes c p b := by
  unfold putBytes
  by_cases hb : b = []
  · subst hb
    have : a = [] := List.eq_nil_of_length_eq_zero (by simpa using h)
    simp [this]
  · rw [if_neg hb, if_neg hb]
    split
    · rfl
    · exact overwriteGap_again c p a b h

theorem putBytes_prefix (c : Bytes) (p : Nat) (b x : Bytes) : putBytes (putBytes c p (b ++ x)) p b = putBytes c p (b ++ x) := by
  by_cases hb : b = []
  · subst hb; simp [putBytes]
  · unfold putBytes
    rw [if_neg hb, if_neg (by simp [hb])]
    exact overwriteGap_prefix c p b x

section
variable {P : Type} [TagPayload P] {m : ArithMode}

theorem seek_call (op : WOp) (s : SeekStream m) (hb : s.pos.toNat + (opBytes op).length < 2 ^ 64) :
    ∃ acc, acc <+: opBytes op ∧ (call op s).2.content = putBytes s.content s.pos.toNat acc ∧
      (call op s).2.pos.toNat = s.pos.toNat + acc.length ∧ ((call op s).1 = .ok () → acc = opBytes op) := by
  have h : call op s = Writer.writeAll (opBytes op) s := by cases op <;> rfl
  rw [h]
  obtain ⟨acc, s', h1, h2, h3, ⟨h4, h5⟩ | ⟨h4, -⟩⟩ := C24_seek_writer s (opBytes op) hb
  · exact ⟨acc, h1, by rw [h4]; exact h2, by rw [h4]; exact h3, fun _ => h5⟩
  · exact ⟨acc, h1, by rw [h4]; exact h2, by rw [h4]; exact h3, by rw [h4]; simp⟩

theorem seek_succeed {ops : List WOp} {s s' : SeekStream m} (h : Succeed ops s s')
    (hb : s.pos.toNat + (opsBytes ops).length < 2 ^ 64) :
    s'.content = putBytes s.content s.pos.toNat (opsBytes ops) ∧ s'.pos.toNat = s.pos.toNat + (opsBytes ops).length := by
  induction h with
  | nil w => simp [opsBytes, putBytes]
  | @cons op ops w w₁ w' h1 _ ih =>
    rw [show opsBytes (op :: ops) = opBytes op ++ opsBytes ops from rfl] at hb ⊢
    rw [List.length_append] at hb ⊢
    obtain ⟨acc, -, h2, h3, h4⟩ := seek_call op w (by omega)
    rw [h1] at h2 h3 h4
    have h4 := h4 rfl
    subst h4
    simp only at h2 h3
    obtain ⟨h5, h6⟩ := ih (by omega)
    rw [h5, h6, h2, h3, putBytes_append]
    exact ⟨rfl, by omega⟩

theorem seek_serialize (t : Tag P) (hm : MapsOk t) (hp : PayloadsOk t) (s : SeekStream m)
    (hb : s.pos.toNat + (enc t).length < 2 ^ 64) :
    ∃ acc, acc <+: enc t ∧ (t.serialize s).2.content = putBytes s.content s.pos.toNat acc ∧
      (t.serialize s).2.pos.toNat = s.pos.toNat + acc.length ∧ ((t.serialize s).1 = .ok () → acc = enc t) := by
  obtain ⟨ops, ho, h⟩ := C69_stops_at_first_error t hm hp (by omega)
  rw [← ho] at hb ⊢
  rcases h _ s with ⟨w', h1, h2⟩ | ⟨done, op, rest, w₁, rfl, h2, h3, h4⟩
  · rw [h2]
    obtain ⟨h5, h6⟩ := seek_succeed h1 hb
    exact ⟨_, List.prefix_rfl, h5, h6, fun _ => rfl⟩
  · have e : opsBytes (done ++ op :: rest) = opsBytes done ++ (opBytes op ++ opsBytes rest) := by
      simp only [opsBytes, List.flatMap_append, List.flatMap_cons]
    rw [e] at hb ⊢
    simp only [List.length_append] at hb
    rw [h4]
    obtain ⟨h5, h6⟩ := seek_succeed h2 (by omega)
    obtain ⟨acc, ⟨x, hx⟩, h7, h8, -⟩ := seek_call op w₁ (by omega)
    refine ⟨opsBytes done ++ acc, ⟨x ++ opsBytes rest, ?_⟩, ?_, ?_, ?_⟩
    · rw [← hx]; simp only [List.append_assoc]
    · simp only [h7, h5, h6, putBytes_append]
    · simp only [h8, h6, List.length_append]; omega
    · intro hok
      cases hc : (call op w₁).1 with
      | ok u => exact absurd hc h3
      | err x => rw [hc] at hok; simp [Res.mapErr] at hok
      | panic => rw [hc] at hok; simp [Res.mapErr] at hok
      | diverge => rw [hc] at hok; simp [Res.mapErr] at hok

theorem seekStart_ok {pos p : UInt64} {s s' : SeekStream m} (h : SeekStream.seekStart pos s = (.ok p, s')) :
    s'.pos = pos ∧ s'.content = s.content := by
  unfold SeekStream.seekStart SeekStream.seekTo at h
  split at h <;> simp only [Prod.mk.injEq, Res.ok.injEq, reduceCtorEq, false_and] at h <;> rw [← h.2] <;> exact ⟨rfl, rfl⟩

/-- **C98** Whatever attempts failed, and wherever: only bytes that belong to the tag were written, at their place. -/
theorem C98_attempts (t : Tag P) (hm : MapsOk t) (hp : PayloadsOk t) (pos : UInt64) {s s' : SeekStream m}
    (hb : pos.toNat + (enc t).length < 2 ^ 64) (h : WriteAttempts t pos s s') :
    s'.content = s.content ∨ ∃ acc, acc <+: enc t ∧ s'.content = overwriteGap s.content pos.toNat acc := by
  suffices H : ∃ acc, acc <+: enc t ∧ s'.content = putBytes s.content pos.toNat acc by
    obtain ⟨acc, h1, h2⟩ := H
    unfold putBytes at h2
    split at h2
    · exact .inl h2
    · exact .inr ⟨acc, h1, h2⟩
  induction h with
  | none => exact ⟨[], List.nil_prefix, by simp [putBytes]⟩
  | @write s₁ s₂ p _ hs ih =>
    obtain ⟨acc, ⟨x, h1⟩, h2⟩ := ih
    obtain ⟨e1, e2⟩ := seekStart_ok hs
    obtain ⟨acc', ⟨y, h3⟩, h4, -, -⟩ := seek_serialize t hm hp s₂ (by rw [e1]; exact hb)
    rw [h4, e2, e1, h2]
    rcases Nat.le_total acc.length acc'.length with hl | hl
    · exact ⟨acc', ⟨y, h3⟩, putBytes_again _ _ _ _ hl⟩
    · obtain ⟨z, hz⟩ := List.prefix_of_prefix_length_le ⟨y, h3⟩ ⟨x, h1⟩ hl
      subst hz
      exact ⟨acc' ++ z, ⟨x, h1⟩, putBytes_prefix _ _ _ _⟩
  | seek p _ ih =>
    obtain ⟨acc, h1, h2⟩ := ih
    refine ⟨acc, h1, ?_⟩
    rw [← h2]
    unfold SeekStream.seekStart SeekStream.seekTo
    split <;> rfl

/-- **C98** An attempt that succeeds leaves the destination as if it had been the first: the tag is at its place, what
is around it is as before. -/
theorem C98_again (t : Tag P) (hm : MapsOk t) (hp : PayloadsOk t) (pos p : UInt64) {s s₁ s₂ s₃ : SeekStream m}
    (hb : pos.toNat + (enc t).length < 2 ^ 64) (h : WriteAttempts t pos s s₁)
    (hs : SeekStream.seekStart pos s₁ = (.ok p, s₂)) (hok : t.serialize s₂ = (.ok (), s₃)) :
    s₃.content = overwriteGap s.content pos.toNat (enc t) ∧ s₃.pos.toNat = pos.toNat + (enc t).length := by
  obtain ⟨e1, e2⟩ := seekStart_ok hs
  obtain ⟨acc', -, h4, h5, h6⟩ := seek_serialize t hm hp s₂ (by rw [e1]; exact hb)
  rw [hok] at h4 h5 h6
  have h6 := h6 rfl
  subst h6
  have hne : enc t ≠ [] := by
    intro h0
    have := enc_length_pos t
    rw [h0] at this
    simp at this
  have hw : ∀ c, putBytes c pos.toNat (enc t) = overwriteGap c pos.toNat (enc t) := fun c => by
    unfold putBytes; rw [if_neg hne]
  simp only [e1, e2] at h4 h5
  refine ⟨?_, h5⟩
  rw [h4, hw]
  rcases C98_attempts t hm hp pos hb h with h7 | ⟨acc, h8, h7⟩
  · rw [h7]
  · rw [h7, overwriteGap_again _ _ _ _ h8.length_le]

end

section
attribute [local instance] bigEnv

/-- **C98** On a plain `std::io::Write` this does not hold, as there is no way back: a byte array that fails after its
header and is written again is read back as another byte array and a string. -/
theorem C98_not_appending : ∃ (t : Tag Empty) (w w' w'' : WriteWriter), MapsOk t ∧
    (∃ e, t.serialize w = (.err (.ioError e), w')) ∧ t.serialize w' = (.ok (), w'') ∧
    (match Factory.deserialize (Engine.std false : Engine Empty) ByteArrayReader (ByteArrayReader.new w''.out) with
      | (.ok (.atom (.byteArray v)), r) => decide (v = [16, 2]) &&
        (match Factory.deserialize (Engine.std false : Engine Empty) ByteArrayReader r with
          | (.ok (.atom (.string id v)), r') => decide (id = 17 ∧ v = "") && r'.available == 0
          | _ => false)
      | _ => false) = true ∧ t.toBytes = .ok [16, 2, 17, 0] := by
  refine ⟨.atom (.byteArray [17, 0]), ⟨[], [.accept 1, .accept 1, .error (.other 5)]⟩, ⟨[16, 2], []⟩,
    ⟨[16, 2, 16, 2, 17, 0], []⟩, mapsOk_of_B (by decide), ⟨.ioError (.other 5), rfl⟩, rfl, ?_, rfl⟩
  rw [deserialize_eq]; decide +kernel

/-- A first attempt that fails within the value and a second that succeeds, over old content. -/
example : ∃ s₁ s₂ s₃ : SeekStream .checked,
    WriteAttempts (.atom (.byteArray [17, 0]) : Tag Empty) 1
      ⟨[9, 8, 7, 6, 5, 4], 0, [], [.accept 1, .accept 1, .accept 1, .error (.other 5)], []⟩ s₁ ∧
    s₁.content = [9, 16, 2, 17, 5, 4] ∧ SeekStream.seekStart 1 s₁ = (.ok 1, s₂) ∧
    (.atom (.byteArray [17, 0]) : Tag Empty).serialize s₂ = (.ok (), s₃) ∧ s₃.content = [9, 16, 2, 17, 0, 4] := by
  refine ⟨⟨[9, 16, 2, 17, 5, 4], 4, [], [], []⟩, ⟨[9, 16, 2, 17, 5, 4], 1, [], [], []⟩,
    ⟨[9, 16, 2, 17, 0, 4], 5, [], [], []⟩, ?_, rfl, rfl, rfl, rfl⟩
  exact WriteAttempts.write (p := 1)
    (s₂ := ⟨[9, 8, 7, 6, 5, 4], 1, [], [.accept 1, .accept 1, .accept 1, .error (.other 5)], []⟩) (.none _) rfl

end

end Verif.Props
