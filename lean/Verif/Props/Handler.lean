import Verif.Model.Handler
import Verif.Spec.Handler
import Verif.Proof.Deliver
import Verif.Props.Payload
/-!
# C113: payload code that handles errors of its reader
-/
namespace Verif.Props
open Verif Verif.Spec

section
variable {P σ : Type} [Reader σ]

theorem valueWith_eq (n : Nat) (code : Act TagErr (P × Limited σ) Unit) (p : P) (s : σ) :
    valueWith n code (p, s) =
      match code (p, ⟨s, n⟩) with
      | (.ok (), (p', l)) => (if l.available = 0 then .ok () else .err .corruptedData, (p', l.source))
      | (r, (p', l)) => (r, (p', l.source)) := by
  unfold valueWith withLimited
  rw [Act.bind_apply]
  rcases code (p, ⟨s, n⟩) with ⟨_ | _ | _ | _, p', l⟩
  · simp only [ensureEmpty, Limited.empty]
    by_cases h : l.available = 0 <;> simp [h]
  all_goals rfl

theorem lread_ok (V : View σ) {s : σ} {bs : Bytes} {n : Nat} (hR : V.R s bs) (h1 : 1 ≤ n) (hn : n ≤ bs.length) :
    ∃ b s', Reader.read (⟨s, n⟩ : Limited σ) = (.ok b, ⟨s', n - 1⟩) ∧ V.R s' (bs.drop 1) := by
  cases bs with
  | nil => simp at hn; omega
  | cons b bs =>
    obtain ⟨s', h, hR'⟩ := V.read_cons hR
    refine ⟨b, s', ?_, hR'⟩
    show Limited.read _ = _
    unfold Limited.read Limited.canRead
    rw [if_neg (show ¬ 1 > n by omega)]
    simp only [h, Res.isOk, if_true]

theorem lread_limit {s : σ} {n : Nat} (h : ¬ 1 ≤ n) :
    Reader.read (⟨s, n⟩ : Limited σ) = (.err .unableToReadData, ⟨s, n⟩) := by
  show Limited.read _ = _
  unfold Limited.read Limited.canRead
  rw [if_pos (show 1 > n by omega)]

theorem lreadAll_ok (V : View σ) {s : σ} {bs : Bytes} {m n : Nat} (hR : V.R s bs) (h1 : m ≤ n) (hn : m ≤ bs.length) :
    ∃ s', Reader.readAll m (⟨s, n⟩ : Limited σ) = (.ok (bs.take m), ⟨s', n - m⟩) ∧ V.R s' (bs.drop m) := by
  obtain ⟨s', h, hR'⟩ := V.readAll_ok hR hn
  refine ⟨s', ?_, hR'⟩
  show Limited.readAll m _ = _
  unfold Limited.readAll Limited.canRead
  rw [if_neg (show ¬ m > n by omega)]
  simp only [h, Res.isOk, if_true]

theorem lreadAll_limit {s : σ} {m n : Nat} (h : ¬ m ≤ n) :
    Reader.readAll m (⟨s, n⟩ : Limited σ) = (.err .unableToReadData, ⟨s, n⟩) := by
  show Limited.readAll m _ = _
  unfold Limited.readAll Limited.canRead
  rw [if_pos (show m > n by omega)]

theorem handler_same (V : View σ) (f : FactoryDeser P) (c : HProg P) (n : Nat) (p : P) (s : σ) (bs : Bytes)
    (hR : V.R s bs) (hn : n ≤ bs.length) : c.run (p, (⟨s, n⟩ : Limited σ)) = (c.plain n).run f (p, (⟨s, n⟩ : Limited σ)) := by
  induction c generalizing n p s bs with
  | done r q => rfl
  | read k ih =>
    unfold HProg.run HProg.plain
    by_cases h : 1 ≤ n
    · obtain ⟨b, s', h1, h2⟩ := lread_ok V hR h hn
      simp only [h1, if_pos h]
      rw [RProg.run, Act.bind_apply]
      simp only [onReader, tagIo, Act.mapErr, h1]
      exact ih _ _ _ _ _ h2 (by simp; omega)
    · simp only [lread_limit h, if_neg h]
      exact ih _ _ _ _ _ hR hn
  | readAll m k ih =>
    unfold HProg.run HProg.plain
    by_cases h : m ≤ n
    · obtain ⟨s', h1, h2⟩ := lreadAll_ok V hR h (by omega)
      simp only [h1, if_pos h]
      rw [RProg.run, Act.bind_apply]
      simp only [onReader, tagIo, Act.mapErr, h1]
      exact ih _ _ _ _ _ h2 (by simp; omega)
    · simp only [lreadAll_limit h, if_neg h]
      exact ih _ _ _ _ _ hR hn

theorem handler_short (V : View σ) (hl : Lasting V) (c : HProg P) (n : Nat) (p : P) (s : σ) (bs : Bytes)
    (hR : V.R s bs) (hn : bs.length < n) :
    ∀ q l, c.run (p, (⟨s, n⟩ : Limited σ)) = (.ok (), (q, l)) → l.available ≠ 0 := by
  induction c generalizing n p s bs with
  | done r q =>
    intro q' l h
    simp only [HProg.run, Prod.mk.injEq] at h
    rw [← h.2.2]
    show n ≠ 0
    omega
  | read k ih =>
    intro q l h
    unfold HProg.run at h
    cases bs with
    | nil =>
      obtain ⟨e, s', h1, -⟩ := V.read_nil hR
      have h2 := hl.read hR
      rw [h1] at h2
      have h3 : Reader.read (⟨s, n⟩ : Limited σ) = (.err e, ⟨s', n⟩) := by
        show Limited.read _ = _
        unfold Limited.read Limited.canRead
        rw [if_neg (show ¬ 1 > n by simp at hn; omega)]
        simp [h1, Res.isOk]
      simp only [h3] at h
      exact ih _ _ _ _ _ h2 hn _ _ h
    | cons b bs =>
      obtain ⟨s', h1, h2⟩ := V.read_cons hR
      have h3 : Reader.read (⟨s, n⟩ : Limited σ) = (.ok b, ⟨s', n - 1⟩) := by
        show Limited.read _ = _
        unfold Limited.read Limited.canRead
        rw [if_neg (show ¬ 1 > n by simp at hn; omega)]
        simp [h1, Res.isOk]
      simp only [h3] at h
      exact ih _ _ _ _ _ h2 (by simp at hn; omega) _ _ h
  | readAll m k ih =>
    intro q l h
    unfold HProg.run at h
    by_cases hm : m ≤ n
    · by_cases hb : m ≤ bs.length
      · obtain ⟨s', h1, h2⟩ := lreadAll_ok V hR hm hb
        simp only [h1] at h
        exact ih _ _ _ _ _ h2 (by simp; omega) _ _ h
      · obtain ⟨e, s', h1, -⟩ := V.readAll_short hR (Nat.lt_of_not_le hb)
        obtain ⟨rest, h2, h2'⟩ := hl.readAll hR (Nat.lt_of_not_le hb)
        rw [h1] at h2
        have h3 : Reader.readAll m (⟨s, n⟩ : Limited σ) = (.err e, ⟨s', n⟩) := by
          show Limited.readAll m _ = _
          unfold Limited.readAll Limited.canRead
          rw [if_neg (show ¬ m > n by omega)]
          simp [h1, Res.isOk]
        simp only [h3] at h
        exact ih _ _ _ _ _ h2 (by omega) _ _ h
    · simp only [lreadAll_limit hm] at h
      exact ih _ _ _ _ _ hR hn _ _ h

theorem plain_short (V : View σ) (f : FactoryDeser P) (c : HProg P) (n : Nat) (p : P) (s : σ) (bs : Bytes)
    (hR : V.R s bs) (hn : bs.length < n) :
    ∀ q l, (c.plain n).run f (p, (⟨s, n⟩ : Limited σ)) = (.ok (), (q, l)) → l.available ≠ 0 := by
  induction c generalizing n p s bs with
  | done r q =>
    intro q' l h
    simp only [HProg.plain, RProg.run, Prod.mk.injEq] at h
    rw [← h.2.2]
    show n ≠ 0
    omega
  | read k ih =>
    intro q l h
    have h1n : 1 ≤ n := by omega
    unfold HProg.plain at h
    rw [if_pos h1n, RProg.run, Act.bind_apply] at h
    cases bs with
    | nil =>
      obtain ⟨e, s', h1, -⟩ := V.read_nil hR
      have h3 : Reader.read (⟨s, n⟩ : Limited σ) = (.err e, ⟨s', n⟩) := by
        show Limited.read _ = _
        unfold Limited.read Limited.canRead
        rw [if_neg (show ¬ 1 > n by omega)]
        simp [h1, Res.isOk]
      simp [onReader, tagIo, Act.mapErr, h3, Res.mapErr] at h
    | cons b bs =>
      obtain ⟨s', h1, h2⟩ := V.read_cons hR
      have h3 : Reader.read (⟨s, n⟩ : Limited σ) = (.ok b, ⟨s', n - 1⟩) := by
        show Limited.read _ = _
        unfold Limited.read Limited.canRead
        rw [if_neg (show ¬ 1 > n by omega)]
        simp [h1, Res.isOk]
      simp only [onReader, tagIo, Act.mapErr, h3, Res.mapErr] at h
      exact ih _ _ _ _ _ h2 (by simp at hn; omega) _ _ h
  | readAll m k ih =>
    intro q l h
    unfold HProg.plain at h
    by_cases hm : m ≤ n
    · rw [if_pos hm, RProg.run, Act.bind_apply] at h
      by_cases hb : m ≤ bs.length
      · obtain ⟨s', h1, h2⟩ := lreadAll_ok V hR hm hb
        simp only [onReader, tagIo, Act.mapErr, h1, Res.mapErr] at h
        exact ih _ _ _ _ _ h2 (by simp; omega) _ _ h
      · obtain ⟨e, s', h1, -⟩ := V.readAll_short hR (Nat.lt_of_not_le hb)
        have h3 : Reader.readAll m (⟨s, n⟩ : Limited σ) = (.err e, ⟨s', n⟩) := by
          show Limited.readAll m _ = _
          unfold Limited.readAll Limited.canRead
          rw [if_neg (show ¬ m > n by omega)]
          simp [h1, Res.isOk]
        simp [onReader, tagIo, Act.mapErr, h3, Res.mapErr] at h
    · rw [if_neg hm] at h
      exact ih _ _ _ _ _ hR hn _ _ h

/-- **C113** From a reader that holds the whole value, code that handles the errors of its reader does exactly what code
does that never sees an error: the same result, payload and state of the reader. -/
theorem C113_same (V : View σ) (f : FactoryDeser P) (c : HProg P) (n : Nat) (p : P) (s : σ) (bs : Bytes)
    (hR : V.R s bs) (hn : n ≤ bs.length) : valueWith n c.run (p, s) = valueWith n ((c.plain n).run f) (p, s) := by
  rw [valueWith_eq, valueWith_eq, handler_same V f c n p s bs hR hn]

/-- **C113** If data is missing, such code cannot make the factory accept the value, whatever it does about the error. -/
theorem C113_truncated (V : View σ) (hl : Lasting V) (c : HProg P) (n : Nat) (p : P) (s : σ) (bs : Bytes)
    (hR : V.R s bs) (hn : bs.length < n) : (valueWith n c.run (p, s)).1 ≠ .ok () := by
  rw [valueWith_eq]
  have h := handler_short V hl c n p s bs hR hn
  rcases hc : c.run (p, (⟨s, n⟩ : Limited σ)) with ⟨_ | _ | _ | _, p', l⟩
  · simp [h _ _ hc]
  all_goals simp

/-- **C113** So for code that handles errors there is code that does not with which the factory accepts the same values,
with the same results. -/
theorem C113_accepted (V : View σ) (hl : Lasting V) (f : FactoryDeser P) (c : HProg P) (n : Nat) (p : P) (s : σ) (bs : Bytes)
    (hR : V.R s bs) (q : P × σ) :
    valueWith n c.run (p, s) = (.ok (), q) ↔ valueWith n ((c.plain n).run f) (p, s) = (.ok (), q) := by
  by_cases hn : n ≤ bs.length
  · rw [C113_same V f c n p s bs hR hn]
  · have h1 := C113_truncated V hl c n p s bs hR (by omega)
    have h2 : (valueWith n ((c.plain n).run f) (p, s)).1 ≠ .ok () := by
      rw [valueWith_eq]
      have h := plain_short V f c n p s bs hR (by omega)
      rcases hc : (c.plain n).run f (p, (⟨s, n⟩ : Limited σ)) with ⟨_ | _ | _ | _, p', l⟩
      · simp [h _ _ hc]
      all_goals simp
    constructor
    · intro h; rw [h] at h1; exact absurd rfl h1
    · intro h; rw [h] at h2; exact absurd rfl h2

/-- A limited reader, as inside of containers, over a reader that is well-behaved. -/
def nestedView (V : View σ) : View (Limited σ) where
  R l bs := ∃ slack D, (limView V slack D).R l bs
  E := (limView V 0 []).E
  read_cons := by
    rintro s b bs ⟨k, D, h⟩
    obtain ⟨s', h1, h2⟩ := (limView V k D).read_cons h
    exact ⟨s', h1, k, D, h2⟩
  read_nil := by
    rintro s ⟨k, D, h⟩
    exact (limView V k D).read_nil h
  readAll_ok := by
    rintro s bs n ⟨k, D, h⟩ hn
    obtain ⟨s', h1, h2⟩ := (limView V k D).readAll_ok h hn
    exact ⟨s', h1, k, D, h2⟩
  readAll_short := by
    rintro s bs n ⟨k, D, h⟩ hn
    exact (limView V k D).readAll_short h hn

end

/-- **C113** The readers of the library stay what they are after a failure: over byte arrays, over vectors, over sources
that deliver their bytes in any chunks, over seekable ones, and limited ones over these. -/
theorem C113_lasting :
    Lasting ByteArrayReader.view.toView ∧ Lasting VecReader.view.toView ∧ Lasting ReadReader.view.toView ∧
    (∀ m, Lasting (SeekStream.view0 m)) ∧
    ∀ {σ : Type} [Reader σ] (V : View σ), Lasting V → Lasting (nestedView V) := by
  refine ⟨⟨?_, ?_⟩, ⟨?_, ?_⟩, ⟨?_, ?_⟩, fun m => ⟨?_, ?_⟩, fun V hV => ⟨?_, ?_⟩⟩
  · rintro r h
    have hl := congrArg List.length h.2
    simp at hl
    have h0 := h.1
    rw [show Reader.read r = _ from ByteArrayReader.read_refused (by omega)]
    exact h
  · rintro r bs n h hn
    have hl := congrArg List.length h.2
    simp at hl
    rw [show Reader.readAll n r = _ from ByteArrayReader.readAll_refused h.1 (by have := h.1; omega)]
    exact ⟨bs, h, Nat.le_refl _⟩
  · rintro r h
    have hl := congrArg List.length h.2
    simp at hl
    have h0 := h.1
    rw [show Reader.read r = _ from VecReader.read_eq r, ByteArrayReader.read_refused (r := r.toBAR) (by omega)]
    exact h
  · rintro r bs n h hn
    have hl := congrArg List.length h.2
    simp at hl
    rw [show Reader.readAll n r = _ from VecReader.readAll_eq n r,
      ByteArrayReader.readAll_refused (r := r.toBAR) h.1 (by have := h.1; omega)]
    exact ⟨bs, h, Nat.le_refl _⟩
  · rintro r ⟨h, hb⟩
    obtain ⟨sc, hr, hbs⟩ := (readExact_benign hb r.data 1).2 (by simp [h])
    have : Reader.read r = (.err (.ioError .unexpectedEof), ⟨[], sc⟩) := by simp [Reader.read, ReadReader.read, hr]
    rw [this]
    exact ⟨rfl, hbs⟩
  · rintro r bs n ⟨rfl, hb⟩ hn
    obtain ⟨sc, hr, hbs⟩ := (ReadReader.readAll_benign hb n).2 hn
    rw [show Reader.readAll n r = _ from hr]
    exact ⟨[], ⟨rfl, hbs⟩, Nat.zero_le _⟩
  · rintro s ⟨hb, hk, hp, hl, hbs⟩
    have hlen := congrArg List.length hbs
    simp at hlen
    obtain ⟨sc, hr, hbn⟩ := (SeekStream.readAll_benign hb hp (by omega) 1).2 (by omega)
    rw [show Reader.read s = _ from Act.bind_err hr]
    refine ⟨hbn, hk, ?_, hl, ?_⟩
    · rw [UInt64.toNat_ofNat', Nat.mod_eq_of_lt (by omega)]
      exact Nat.le_refl _
    · rw [UInt64.toNat_ofNat', Nat.mod_eq_of_lt (by omega)]
      simp
  · rintro s bs n ⟨hb, hk, hp, hl, rfl⟩ hn
    simp at hn
    obtain ⟨sc, hr, hbn⟩ := (SeekStream.readAll_benign hb hp (by omega) n).2 (by omega)
    rw [show Reader.readAll n s = _ from hr]
    refine ⟨[], ⟨hbn, hk, ?_, hl, ?_⟩, Nat.zero_le _⟩
    · rw [UInt64.toNat_ofNat', Nat.mod_eq_of_lt (by omega)]
      exact Nat.le_refl _
    · rw [UInt64.toNat_ofNat', Nat.mod_eq_of_lt (by omega)]
      simp
  · rintro l ⟨k, D, hk, hR, hs⟩
    by_cases h0 : 1 ≤ l.available
    · have hD : D = [] := by
        rcases hs with hs | hs
        · simp at hk; omega
        · exact hs
      subst hD
      obtain ⟨e, s', h1, -⟩ := V.read_nil hR
      have h2 := hV.read hR
      rw [h1] at h2
      have h3 : Reader.read l = (.err e, ⟨s', l.available⟩) := by
        show Limited.read _ = _
        unfold Limited.read Limited.canRead
        rw [if_neg (show ¬ 1 > l.available by omega)]
        simp [h1, Res.isOk]
      rw [h3]
      exact ⟨k, [], hk, h2, .inr rfl⟩
    · rw [show Reader.read l = _ from lread_limit h0]
      exact ⟨k, D, hk, hR, hs⟩
  · rintro l bs n ⟨k, D, hk, hR, hs⟩ hn
    by_cases h0 : n ≤ l.available
    · have hD : D = [] := by
        rcases hs with hs | hs
        · omega
        · exact hs
      subst hD
      rw [List.append_nil] at hR
      obtain ⟨e, s', h1, -⟩ := V.readAll_short hR hn
      obtain ⟨rest, h2, h2'⟩ := hV.readAll hR hn
      rw [h1] at h2
      have h3 : Reader.readAll n l = (.err e, ⟨s', l.available⟩) := by
        show Limited.readAll n _ = _
        unfold Limited.readAll Limited.canRead
        rw [if_neg (show ¬ n > l.available by omega)]
        simp [h1, Res.isOk]
      rw [h3]
      exact ⟨rest, ⟨l.available - rest.length, [], by show _ + _ = l.available; omega, by simpa using h2, .inr rfl⟩, h2'⟩
    · rw [show Reader.readAll n l = _ from lreadAll_limit h0]
      exact ⟨bs, ⟨k, D, hk, hR, hs⟩, Nat.le_refl _⟩

/-- A payload of a byte and, since a later version, an optional second one. -/
structure TwoVersions where
  first : Byte
  second : Option Byte

/-- Reads the first byte, and the second one if there is one. -/
def TwoVersions.code (p : TwoVersions) : HProg TwoVersions :=
  .read fun
    | .error e => .done (.err (.ioError e)) p
    | .ok a => .read fun
      | .error _ => .done (.ok ()) ⟨a, none⟩
      | .ok b => .done (.ok ()) ⟨a, some b⟩

instance : TagPayload TwoVersions where
  serializedSize p := if p.second.isSome then 2 else 1
  serialize p := ([.all (p.first :: p.second.toList)], .ok ())
  deserialize p n := p.code.plain n

/-- What a factory that knows the payload under id 50 makes of the bytes. -/
def versions [Env] (bs : Bytes) : Option (Byte × Option Byte) :=
  match Factory.fromBytes (withPayload true 50 (⟨0, none⟩ : TwoVersions)) bs with
  | .ok (.atom (.payload _ p)) => some (p.first, p.second)
  | _ => none

/-- What the code itself does as the factory calls it. -/
def valueVersions (n : Nat) (bs : Bytes) : Option (Byte × Option Byte × Nat) :=
  match valueWith n (TwoVersions.code ⟨0, none⟩).run (⟨0, none⟩, ByteArrayReader.new bs) with
  | (.ok (), p, r) => some (p.first, p.second, r.offset)
  | _ => none

section
attribute [local instance] bigEnv

/-! Both versions are read; what is cut or too long is refused. -/
example : valueVersions 1 [7, 9] = some (7, none, 1) ∧ valueVersions 2 [7, 8, 9] = some (7, some 8, 2) ∧
    valueVersions 2 [7] = none ∧ valueVersions 3 [7, 8, 9] = none ∧ valueVersions 0 [7] = none := by decide +kernel

example : versions [50, 1, 7] = some (7, none) ∧ versions [50, 2, 7, 8] = some (7, some 8) ∧ versions [50, 2, 7] = none ∧
    versions [50, 0] = none ∧ versions [50, 3, 7, 8, 9] = none := by
  unfold versions Factory.fromBytes
  rw [deserialize_eq]
  decide +kernel

end

/-- Reads two bytes, and tries once more if that fails. -/
def tryTwice : HProg Bytes :=
  .readAll 2 fun
    | .ok bs => .done (.ok ()) bs
    | .error _ => .readAll 2 fun
      | .ok bs => .done (.ok ()) bs
      | .error e => .done (.err (.ioError e)) []

/-- **C113** On a source with passing faults code that tries again can read beyond the end of its value, unnoticed: a
failed `read_all` has taken bytes that the limited reader does not count.  The value is `[1, 2]`; it gets `[2, 3]`. -/
theorem C113_beyond :
    valueWith 2 tryTwice.run ([], (⟨[1, 2, 3], [.chunk 1, .error (.other 5), .chunk 9]⟩ : ReadReader)) =
      (.ok (), ([2, 3], ⟨[], []⟩)) := by
  decide +kernel

end Verif.Props
