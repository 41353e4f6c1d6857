import Verif.Props.RoundTrip
import Verif.Proof.Deliver
import Verif.Props.Serialize
/-!
# Readers and writers with only the required method (C71, C72)
-/
namespace Verif.Props
open Verif Verif.Spec
variable {P : Type}

/-! ### C71 -/

section
variable {σ : Type} [ReadByte σ]

theorem byRead_readAll_ok (V : ByteView σ) (n : Nat) {s : σ} {bs : Bytes} (h : V.R s bs) (hn : n ≤ bs.length) :
    ∃ s', defaultReadAll ByRead.read n (⟨s⟩ : ByRead σ) = (.ok (bs.take n), ⟨s'⟩) ∧ V.R s' (bs.drop n) := by
  induction n generalizing s bs with
  | zero => exact ⟨s, by simp [defaultReadAll], by simpa using h⟩
  | succ n ih =>
    cases bs with
    | nil => simp at hn
    | cons b bs =>
      obtain ⟨s1, h1, r1⟩ := V.next_cons h
      obtain ⟨s2, h2, r2⟩ := ih r1 (by simpa using hn)
      refine ⟨s2, ?_, by simpa using r2⟩
      have h3 : ByRead.read (⟨s⟩ : ByRead σ) = (.ok b, ⟨s1⟩) := by simp only [ByRead.read, h1]
      rw [defaultReadAll, Act.bind_ok h3, Act.bind_ok h2]
      simp

theorem byRead_readAll_short (V : ByteView σ) (n : Nat) {s : σ} {bs : Bytes} (h : V.R s bs) (hn : bs.length < n) :
    ∃ e s1 s', defaultReadAll ByRead.read n (⟨s⟩ : ByRead σ) = (.err e, ⟨s'⟩) ∧ V.E e ∧ V.R s1 [] ∧
      ReadByte.next s1 = (.err e, s') := by
  induction n generalizing s bs with
  | zero => omega
  | succ n ih =>
    cases bs with
    | nil =>
      obtain ⟨e, s', h1, he⟩ := V.next_nil h
      have h3 : ByRead.read (⟨s⟩ : ByRead σ) = (.err e, ⟨s'⟩) := by simp only [ByRead.read, h1]
      exact ⟨e, s, s', by rw [defaultReadAll, Act.bind_err h3], he, h, h1⟩
    | cons b bs =>
      obtain ⟨s1, h1, r1⟩ := V.next_cons h
      obtain ⟨e, s2, s', h2, he, r2, h4⟩ := ih r1 (by simpa using hn)
      have h3 : ByRead.read (⟨s⟩ : ByRead σ) = (.ok b, ⟨s1⟩) := by simp only [ByRead.read, h1]
      exact ⟨e, s2, s', by rw [defaultReadAll, Act.bind_ok h3, Act.bind_err h2], he, r2, h4⟩

/-- A reader with only `read` written is a well-behaved reader. -/
def byReadView (V : ByteView σ) : View (ByRead σ) where
  R r bs := V.R r.state bs
  E := V.E
  read_cons := by
    rintro ⟨s⟩ b bs h
    obtain ⟨s1, h1, r1⟩ := V.next_cons h
    exact ⟨⟨s1⟩, by simp only [Reader.read, ByRead.read, h1], r1⟩
  read_nil := by
    rintro ⟨s⟩ h
    obtain ⟨e, s1, h1, r1⟩ := V.next_nil h
    exact ⟨e, ⟨s1⟩, by simp only [Reader.read, ByRead.read, h1], r1⟩
  readAll_ok := by
    rintro ⟨s⟩ bs n h hn
    obtain ⟨s1, h1, r1⟩ := byRead_readAll_ok V n h hn
    exact ⟨⟨s1⟩, h1, r1⟩
  readAll_short := by
    rintro ⟨s⟩ bs n h hn
    obtain ⟨e, -, s1, h1, r1, -⟩ := byRead_readAll_short V n h hn
    exact ⟨e, ⟨s1⟩, h1, r1⟩

/-- **C71** A type that implements only `read`, correctly: the inherited `read_all(n)`, `skip(n)` and `skip_u64(n)`
succeed exactly when `n` bytes are left, return exactly those bytes in order and leave the type exactly after them. -/
theorem C71_inherited_methods (V : ByteView σ) (s : σ) (bs : Bytes) (h : V.R s bs) :
    (∀ n, n ≤ bs.length →
      (∃ s', Reader.readAll n (⟨s⟩ : ByRead σ) = (.ok (bs.take n), ⟨s'⟩) ∧ V.R s' (bs.drop n)) ∧
      (∃ s', Reader.skip n (⟨s⟩ : ByRead σ) = (.ok (), ⟨s'⟩) ∧ V.R s' (bs.drop n)) ∧
      (∀ k : UInt64, k.toNat = n →
        ∃ s', Reader.skipU64 k (⟨s⟩ : ByRead σ) = (.ok (), ⟨s'⟩) ∧ V.R s' (bs.drop n))) ∧
    (∀ n, bs.length < n →
      (∃ e s', Reader.readAll n (⟨s⟩ : ByRead σ) = (.err e, s') ∧ V.E e) ∧
      (∃ e s', Reader.skip n (⟨s⟩ : ByRead σ) = (.err e, s') ∧ V.E e) ∧
      (∀ k : UInt64, k.toNat = n → ∃ e s', Reader.skipU64 k (⟨s⟩ : ByRead σ) = (.err e, s') ∧ V.E e)) := by
  have hv : (byReadView V).R ⟨s⟩ bs := h
  constructor
  · intro n hn
    refine ⟨byRead_readAll_ok V n h hn, ?_, ?_⟩
    · obtain ⟨s', h1, r1⟩ := defaultSkip_ok (byReadView V) n hv hn
      exact ⟨s'.state, h1, r1⟩
    · rintro k rfl
      obtain ⟨s', h1, r1⟩ := defaultSkipU64Loop_ok (R := (byReadView V).R) usizeMax64
        (fun h hn => defaultSkip_ok (byReadView V) _ h hn) k.toNat hv hn
      exact ⟨s'.state, h1, r1⟩
  · intro n hn
    refine ⟨?_, ?_, ?_⟩
    · obtain ⟨e, -, s', h1, he, -⟩ := byRead_readAll_short V n h hn
      exact ⟨e, ⟨s'⟩, h1, he⟩
    · exact defaultSkip_short (byReadView V) n hv hn
    · rintro k rfl
      exact defaultSkipU64Loop_short (R := (byReadView V).R) (E := V.E) usizeMax64
        (fun h hn => defaultSkip_ok (byReadView V) _ h hn) (fun h hn => defaultSkip_short (byReadView V) _ h hn)
        k.toNat hv hn

/-- **C71** The inherited `read_all` is not all-or-nothing, although the trait says so: when it fails every byte that
was left has been consumed, and the error is the one of the `read` after the last byte. -/
theorem C71_not_all_or_nothing (V : ByteView σ) (s : σ) (bs : Bytes) (h : V.R s bs) (n : Nat) (hn : bs.length < n) :
    ∃ e s₁ s', Reader.readAll n (⟨s⟩ : ByRead σ) = (.err e, ⟨s'⟩) ∧ V.R s₁ [] ∧ ReadByte.next s₁ = (.err e, s') := by
  obtain ⟨e, s1, s', h1, -, h2, h3⟩ := byRead_readAll_short V n h hn
  exact ⟨e, s1, s', h1, h2, h3⟩

/-- **C71** Whatever `read` does, correct or not: the inherited `read_all` makes one call of `read` for each byte of the
buffer, in order, and ends at the first that fails with its failure. -/
theorem C71_any_read (n : Nat) (s : σ) :
    (∃ bs s', Reader.readAll n (⟨s⟩ : ByRead σ) = (.ok bs, ⟨s'⟩) ∧ bs.length = n ∧ Reads s bs s') ∨
    (∃ bs s₁ s', bs.length < n ∧ Reads s bs s₁ ∧ (ReadByte.next s₁).1.isOk = false ∧ s' = (ReadByte.next s₁).2 ∧
      Reader.readAll n (⟨s⟩ : ByRead σ) = ((ReadByte.next s₁).1.map fun _ => [], ⟨s'⟩)) := by
  simp only [Reader.readAll]
  induction n generalizing s with
  | zero => exact .inl ⟨[], s, rfl, rfl, .nil s⟩
  | succ n ih =>
    have hr : ByRead.read (⟨s⟩ : ByRead σ) = ((ReadByte.next s).1, ⟨(ReadByte.next s).2⟩) := rfl
    rcases h1 : ReadByte.next s with ⟨r, s1⟩
    rw [h1] at hr
    simp only at hr
    cases r with
    | ok b =>
      rcases ih s1 with ⟨bs, s', h2, h3, h4⟩ | ⟨bs, s2, s', h2, h3, h4, h5, h6⟩
      · exact .inl ⟨b :: bs, s', by rw [defaultReadAll, Act.bind_ok hr, Act.bind_ok h2]; rfl, by simp [h3], .cons h1 h4⟩
      · refine .inr ⟨b :: bs, s2, s', by simp; omega, .cons h1 h3, h4, h5, ?_⟩
        rw [defaultReadAll, Act.bind_ok hr]
        cases hx : (ReadByte.next s2).1 with
        | ok b => simp [hx, Res.isOk] at h4
        | err e => rw [hx] at h6; rw [Act.bind_err h6]; rfl
        | panic => rw [hx] at h6; rw [Act.bind_panic h6]; rfl
        | diverge => rw [hx] at h6; rw [Act.bind_diverge h6]; rfl
    | err e => exact .inr ⟨[], s, s1, by simp, .nil s, by simp [h1, Res.isOk], by rw [h1],
        by rw [defaultReadAll, Act.bind_err hr, h1]; rfl⟩
    | panic => exact .inr ⟨[], s, s1, by simp, .nil s, by simp [h1, Res.isOk], by rw [h1],
        by rw [defaultReadAll, Act.bind_panic hr, h1]; rfl⟩
    | diverge => exact .inr ⟨[], s, s1, by simp, .nil s, by simp [h1, Res.isOk], by rw [h1],
        by rw [defaultReadAll, Act.bind_diverge hr, h1]; rfl⟩

/-- **C71** Deserializing through such a type gives what deserializing the bytes from memory gives: the same tag, or
the same class of failure. -/
theorem C71_deserialize [TagPayload P] [Env] (e : Engine P) (V : ByteView σ) (s : σ) (bs : Bytes) (h : V.R s bs) :
    SameClass (Factory.deserialize e (ByRead σ) ⟨s⟩).1
      (Factory.deserialize e ByteArrayReader (ByteArrayReader.new bs)).1 ∧
    ∀ t s', Factory.deserialize e (ByRead σ) ⟨s⟩ = (.ok t, ⟨s'⟩) →
      ∃ r, Factory.deserialize e ByteArrayReader (ByteArrayReader.new bs) = (.ok t, r) ∧ V.R s' (r.array.drop r.offset) := by
  have hv : (byReadView V).R ⟨s⟩ bs := h
  have hc := C65_only_bytes e (byReadView V) ByteArrayReader.view.toView ⟨s⟩ (ByteArrayReader.new bs) bs hv
    (ByteArrayReader.view_new bs)
  refine ⟨hc.1, fun t s' ht => ?_⟩
  rw [ht] at hc
  obtain ⟨rest, h1, h2⟩ := hc.2 rfl
  have h3 := hc.1
  rcases hd : Factory.deserialize e ByteArrayReader (ByteArrayReader.new bs) with ⟨r, st⟩
  rw [hd] at h2 h3
  simp only at h2 h3
  cases r with
  | ok t' =>
    simp only [SameClass, Res.ok.injEq] at h3
    subst h3
    exact ⟨st, rfl, h2.2 ▸ h1⟩
  | _ => simp [SameClass] at h3
end

/-- The bytes of a list, handed out one by one. -/
structure Feed where
  left : Bytes

instance : ReadByte Feed where
  next f := match f.left with
    | [] => (.err .endOfData, f)
    | b :: bs => (.ok b, ⟨bs⟩)

def Feed.view : ByteView Feed where
  R f bs := f.left = bs
  E e := e = .endOfData
  next_cons := by rintro ⟨l⟩ b bs h; simp only at h; subst h; exact ⟨_, rfl, rfl⟩
  next_nil := by rintro ⟨l⟩ h; simp only at h; subst h; exact ⟨_, _, rfl, rfl⟩

example : ∃ s', Reader.skip 2 (⟨⟨[1, 2, 3]⟩⟩ : ByRead Feed) = (.ok (), ⟨s'⟩) ∧ Feed.view.R s' [3] :=
  ((C71_inherited_methods Feed.view ⟨[1, 2, 3]⟩ _ rfl).1 2 (by decide)).2.1
example : (Reader.readAll 4 (⟨⟨[1, 2, 3]⟩⟩ : ByRead Feed)).2.state.left = [] := by decide +kernel
section
attribute [local instance] bigEnv
example : (Factory.deserialize (Engine.std true : Engine Empty) (ByRead Feed) ⟨⟨[22, 4, 3, 7, 2, 9, 255]⟩⟩).2.state.left
    = [255] := by rw [deserialize_eq]; decide +kernel
end

/-! ### C72 -/

section
variable {ω : Type} [WriteByte ω]

/-- **C72** Whatever `write` does: the inherited `write_all` hands over the bytes one by one in order and ends at the
first one refused, with the failure of that call. -/
theorem C72_any_write (buf : Bytes) (w : ω) :
    (∃ w', PutAll buf w w' ∧ Writer.writeAll buf (⟨w⟩ : ByWrite ω) = (.ok (), ⟨w'⟩)) ∨
    (∃ done b rest w₁, buf = done ++ b :: rest ∧ PutAll done w w₁ ∧ (WriteByte.put b w₁).1 ≠ .ok () ∧
      Writer.writeAll buf (⟨w⟩ : ByWrite ω) = ((WriteByte.put b w₁).1, ⟨(WriteByte.put b w₁).2⟩)) := by
  simp only [Writer.writeAll]
  induction buf generalizing w with
  | nil => exact .inl ⟨w, .nil w, rfl⟩
  | cons b bs ih =>
    have hr : ByWrite.write b (⟨w⟩ : ByWrite ω) = ((WriteByte.put b w).1, ⟨(WriteByte.put b w).2⟩) := rfl
    rcases h1 : WriteByte.put b w with ⟨r, w1⟩
    rw [h1] at hr
    simp only at hr
    cases r with
    | ok u =>
      rcases ih w1 with ⟨w', h2, h3⟩ | ⟨done, c, rest, w2, h2, h3, h4, h5⟩
      · exact .inl ⟨w', .cons h1 h2, by rw [defaultWriteAll, Act.bind_ok hr, h3]⟩
      · exact .inr ⟨b :: done, c, rest, w2, by simp [h2], .cons h1 h3, h4, by rw [defaultWriteAll, Act.bind_ok hr, h5]⟩
    | err e => exact .inr ⟨[], b, bs, w, rfl, .nil w, by simp [h1], by rw [defaultWriteAll, Act.bind_err hr, h1]⟩
    | panic => exact .inr ⟨[], b, bs, w, rfl, .nil w, by simp [h1], by rw [defaultWriteAll, Act.bind_panic hr, h1]⟩
    | diverge => exact .inr ⟨[], b, bs, w, rfl, .nil w, by simp [h1], by rw [defaultWriteAll, Act.bind_diverge hr, h1]⟩

theorem putAll_append {a b : Bytes} {w w₁ w₂ : ω} (h : PutAll a w w₁) (h' : PutAll b w₁ w₂) : PutAll (a ++ b) w w₂ := by
  induction h with
  | nil w => exact h'
  | cons h1 _ ih => exact .cons h1 (ih h')

/-- One call on such a writer. -/
theorem byWrite_call (op : WOp) (w : ω) :
    (∃ w', PutAll (opBytes op) w w' ∧ call op (⟨w⟩ : ByWrite ω) = (.ok (), ⟨w'⟩)) ∨
    (∃ done b rest w₁, opBytes op = done ++ b :: rest ∧ PutAll done w w₁ ∧ (WriteByte.put b w₁).1 ≠ .ok () ∧
      call op (⟨w⟩ : ByWrite ω) = ((WriteByte.put b w₁).1, ⟨(WriteByte.put b w₁).2⟩)) := by
  cases op with
  | all bs => exact C72_any_write bs w
  | byte b =>
    have hr : call (.byte b) (⟨w⟩ : ByWrite ω) = ((WriteByte.put b w).1, ⟨(WriteByte.put b w).2⟩) := rfl
    by_cases h : (WriteByte.put b w).1 = .ok ()
    · exact .inl ⟨_, .cons (Prod.ext h rfl) (.nil _), by rw [hr, h]⟩
    · exact .inr ⟨[], b, [], w, rfl, .nil w, h, hr⟩

theorem byWrite_succeed {ops : List WOp} {w w' : ByWrite ω} (h : Succeed ops w w') :
    PutAll (opsBytes ops) w.state w'.state := by
  induction h with
  | nil => exact .nil _
  | cons h1 _ ih =>
    rename_i op ops w w1 w2 _
    rcases byWrite_call op w.state with ⟨w3, h3, h4⟩ | ⟨done, b, rest, w3, h2, h3, h4, h5⟩
    · rw [h1, Prod.mk.injEq] at h4
      rw [show opsBytes (op :: ops) = opBytes op ++ opsBytes ops from rfl]
      rw [h4.2] at ih
      exact putAll_append h3 ih
    · rw [h1, Prod.mk.injEq] at h5
      exact absurd h5.1.symm h4

/-- **C72** Serializing any tag through a type with only `write`, correct or not: either every byte of the serialization
was accepted, one by one in order, and the result is `Ok`; or a proper prefix was accepted, the next byte was refused, no
call was made after that, and the result is the error of that call. -/
theorem C72_serialize [TagPayload P] (t : Tag P) (hm : MapsOk t) (hp : PayloadsOk t) (hl : (enc t).length < 2 ^ 64)
    (w : ω) :
    (∃ w', PutAll (enc t) w w' ∧ t.serialize (⟨w⟩ : ByWrite ω) = (.ok (), ⟨w'⟩)) ∨
    (∃ done b rest w₁, enc t = done ++ b :: rest ∧ PutAll done w w₁ ∧ (WriteByte.put b w₁).1 ≠ .ok () ∧
      t.serialize (⟨w⟩ : ByWrite ω) = ((WriteByte.put b w₁).1.mapErr .ioError, ⟨(WriteByte.put b w₁).2⟩)) := by
  obtain ⟨ops, h1, h2⟩ := C69_stops_at_first_error t hm hp hl
  rcases h2 (ByWrite ω) ⟨w⟩ with ⟨w', hs, hr⟩ | ⟨done, op, rest, w₁, rfl, hs, hne, hr⟩
  · exact .inl ⟨w'.state, h1 ▸ byWrite_succeed hs, hr⟩
  · rcases byWrite_call op w₁.state with ⟨w3, h3, h4⟩ | ⟨d, b, r, w3, e1, e2, e3, e4⟩
    · exact absurd (by rw [show w₁ = ⟨w₁.state⟩ from rfl, h4]) hne
    · refine .inr ⟨opsBytes done ++ d, b, r ++ opsBytes rest, w3, ?_, putAll_append (byWrite_succeed hs) e2, e3, ?_⟩
      · rw [← h1]; simp [opsBytes, e1]
      · rw [hr, show w₁ = ⟨w₁.state⟩ from rfl, e4]

/-- **C72** If `write` collects every byte, `write_all` and serialization collect everything. -/
theorem C72_collects [TagPayload P] (S : ByteSink ω) (w : ω) (pre : Bytes) (hw : S.W w pre) :
    (∀ buf, ∃ w', Writer.writeAll buf (⟨w⟩ : ByWrite ω) = (.ok (), ⟨w'⟩) ∧ S.W w' (pre ++ buf)) ∧
    (∀ t : Tag P, MapsOk t → PayloadsOk t → (enc t).length < 2 ^ 64 →
      ∃ w', t.serialize (⟨w⟩ : ByWrite ω) = (.ok (), ⟨w'⟩) ∧ S.W w' (pre ++ enc t)) := by
  have hput : ∀ (buf : Bytes) {w w' : ω} {pre : Bytes}, S.W w pre → PutAll buf w w' → S.W w' (pre ++ buf) := by
    intro buf w w' pre hw hp
    induction hp generalizing pre with
    | nil => simpa using hw
    | cons h1 _ ih =>
      rename_i b bs w w1 w2 _
      obtain ⟨w3, h3, h4⟩ := S.put_ok b hw
      rw [h1, Prod.mk.injEq] at h3
      rw [← h3.2] at h4
      have := ih h4
      simpa using this
  have hok : ∀ {done b w₁}, PutAll done w w₁ → (WriteByte.put b w₁).1 ≠ .ok () → False := by
    intro done b w₁ hd hne
    obtain ⟨w3, h3, -⟩ := S.put_ok b (hput _ hw hd)
    rw [h3] at hne
    exact hne rfl
  constructor
  · intro buf
    rcases C72_any_write buf w with ⟨w', h1, h2⟩ | ⟨done, b, rest, w₁, -, h2, h3, -⟩
    · exact ⟨w', h2, hput _ hw h1⟩
    · exact (hok h2 h3).elim
  · intro t hm hp hl
    rcases C72_serialize t hm hp hl w with ⟨w', h1, h2⟩ | ⟨done, b, rest, w₁, -, h2, h3, -⟩
    · exact ⟨w', h2, hput _ hw h1⟩
    · exact (hok h2 h3).elim
end

/-- Accepts `room` bytes, then is full. -/
structure Tray where
  room : Nat
  got : Bytes
  deriving DecidableEq

instance : WriteByte Tray where
  put b t := match t.room with
    | 0 => (.err .unableToWriteData, t)
    | n + 1 => (.ok (), ⟨n, t.got ++ [b]⟩)

example : (Tag.atom (.string 17 "abc") : Tag Empty).serialize (⟨⟨4, []⟩⟩ : ByWrite Tray)
    = (.err (.ioError .unableToWriteData), ⟨⟨0, [17, 3, 97, 98]⟩⟩) := by decide +kernel
example : (Tag.atom (.string 17 "abc") : Tag Empty).serialize (⟨⟨5, []⟩⟩ : ByWrite Tray)
    = (.ok (), ⟨⟨0, [17, 3, 97, 98, 99]⟩⟩) := by decide +kernel

end Verif.Props
