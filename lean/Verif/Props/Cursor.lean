import Verif.Model.Cursor
import Verif.Props.Streams
import Verif.Props.RoundTrip
import Verif.Props.Serialize
import Verif.Proof.Deliver
/-!
# Cursors and slices behind the `std::io` adapters (C88, C89)
-/
namespace Verif.Props
open Verif Verif.Spec
variable {P : Type}

/-! ### C88: sources -/

/-- `Cursor::read_exact`: the bytes are there and are delivered, or nothing is. -/
theorem cursor_readExact (c : Cursor) (n : Nat) :
    (n ≤ c.rest.length → c.readExact n = (.ok (c.rest.take n), { c with pos := c.pos + UInt64.ofNat n })) ∧
    (c.rest.length < n → c.readExact n = (.err .unexpectedEof,
      { c with pos := if c.onShort = .stays then c.pos else UInt64.ofNat c.content.length })) := by
  constructor
  · intro h
    show (if _ then _ else _) = _
    rw [if_pos h]
  · intro h
    show (if _ then _ else _) = _
    rw [if_neg (by omega)]
    rcases c with ⟨b, p, _ | _⟩ <;> rfl

/-- **C88** `ReadReader` over a `Cursor` (at any position, also behind the end) or over a `&[u8]`: `read_all` of `n`
bytes delivers the next `n` bytes and advances by `n` if that many are left.  Otherwise it fails with
`IOError(UnexpectedEof)` and no byte of the buffer is changed; the position stays or moves to the end, depending on the
version of std. -/
theorem C88_read_reader (c : Cursor) (buf : Bytes) :
    (buf.length ≤ c.rest.length → BufReader.readInto (buf, (⟨c⟩ : CursorReader)) =
      (.ok (), (c.rest.take buf.length, ⟨{ c with pos := c.pos + UInt64.ofNat buf.length }⟩))) ∧
    (c.rest.length < buf.length → BufReader.readInto (buf, (⟨c⟩ : CursorReader)) =
      (.err (.ioError .unexpectedEof), (buf,
        ⟨{ c with pos := if c.onShort = .stays then c.pos else UInt64.ofNat c.content.length }⟩))) := by
  obtain ⟨h1, h2⟩ := cursor_readExact c buf.length
  constructor
  · intro h
    simp only [BufReader.readInto, CursorReader.readAll, h1 h, Res.mapErr]
  · intro h
    simp only [BufReader.readInto, CursorReader.readAll, h2 h, Res.mapErr]

/-- **C88** A `Cursor` as a reader itself: the same, with `UnableToReadData`. -/
theorem C88_seekable {m : ArithMode} (c : Cursor) (buf : Bytes) :
    (buf.length ≤ c.rest.length → BufReader.readInto (buf, (⟨c⟩ : SeekCursor m)) =
      (.ok (), (c.rest.take buf.length, ⟨{ c with pos := c.pos + UInt64.ofNat buf.length }⟩))) ∧
    (c.rest.length < buf.length → BufReader.readInto (buf, (⟨c⟩ : SeekCursor m)) =
      (.err .unableToReadData, (buf,
        ⟨{ c with pos := if c.onShort = .stays then c.pos else UInt64.ofNat c.content.length }⟩))) := by
  obtain ⟨h1, h2⟩ := cursor_readExact c buf.length
  constructor
  · intro h
    simp only [BufReader.readInto, SeekCursor.readAll, h1 h, Res.mapErr]
  · intro h
    simp only [BufReader.readInto, SeekCursor.readAll, h2 h, Res.mapErr]

example : BufReader.readInto ([7, 7], (⟨⟨[1, 2, 3], 0, .stays⟩⟩ : CursorReader)) =
      (.ok (), ([1, 2], ⟨⟨[1, 2, 3], 2, .stays⟩⟩)) ∧
    BufReader.readInto ([7, 7], (⟨⟨[1, 2, 3], 2, .stays⟩⟩ : CursorReader)) =
      (.err (.ioError .unexpectedEof), ([7, 7], ⟨⟨[1, 2, 3], 2, .stays⟩⟩)) ∧
    BufReader.readInto ([7, 7], (⟨⟨[1, 2, 3], 2, .toEnd⟩⟩ : SeekCursor .checked)) =
      (.err .unableToReadData, ([7, 7], ⟨⟨[1, 2, 3], 3, .toEnd⟩⟩)) := by decide +kernel

/-- **C88** With a std that leaves the position, a `read` or `read_all` that fails has no effect, so that a caller can
still read the bytes that are there; with one that moves to the end nothing is left to read. -/
theorem C88_failed_read (c : Cursor) (n : Nat) (hl : c.content.length < 2 ^ 64) :
    (∀ e r, Reader.readAll n (⟨c⟩ : CursorReader) = (.err e, r) →
      (c.onShort = .stays → r = ⟨c⟩) ∧ (c.onShort = .toEnd → r.source.rest = [])) ∧
    (∀ e r, Reader.read (⟨c⟩ : CursorReader) = (.err e, r) →
      (c.onShort = .stays → r = ⟨c⟩) ∧ (c.onShort = .toEnd → r.source.rest = [])) := by
  have key : ∀ n e c', c.readExact n = (.err e, c') → (c.onShort = .stays → c' = c) ∧ (c.onShort = .toEnd → c'.rest = []) := by
    intro n e c' h
    have hn : c.rest.length < n := by
      refine Nat.lt_of_not_le fun hle => ?_
      rw [(cursor_readExact c n).1 hle] at h
      simp at h
    rw [(cursor_readExact c n).2 hn] at h
    simp only [Prod.mk.injEq] at h
    obtain ⟨-, rfl⟩ := h
    constructor
    · intro hs
      rw [if_pos hs]
    · intro hs
      rw [if_neg (by rw [hs]; decide)]
      simp only [Cursor.rest, UInt64.toNat_ofNat', Nat.mod_eq_of_lt hl, List.drop_length]
  have all : ∀ n e r, CursorReader.readAll n (⟨c⟩ : CursorReader) = (.err e, r) →
      (c.onShort = .stays → r = ⟨c⟩) ∧ (c.onShort = .toEnd → r.source.rest = []) := by
    intro n e r h
    unfold CursorReader.readAll at h
    rcases hx : c.readExact n with ⟨x, c'⟩
    rw [hx] at h
    simp only [Prod.mk.injEq] at h
    obtain ⟨h1, rfl⟩ := h
    cases x <;> simp [Res.mapErr] at h1
    obtain ⟨k1, k2⟩ := key n _ c' hx
    exact ⟨fun h => by rw [k1 h], k2⟩
  refine ⟨all n, fun e r h => ?_⟩
  rcases hx : CursorReader.readAll 1 (⟨c⟩ : CursorReader) with ⟨x, r'⟩
  have h' : CursorReader.read (⟨c⟩ : CursorReader) = (.err e, r) := h
  cases x with
  | ok bs =>
    have hb := Reader.readAll_len (σ := CursorReader) 1 _ _ _ hx
    rw [CursorReader.read, Act.bind_ok hx] at h'
    rcases bs with _ | ⟨b, bs⟩
    · simp at hb
    · simp [pure, Act.pure] at h'
  | err e' =>
    rw [CursorReader.read, Act.bind_err hx] at h'
    simp only [Prod.mk.injEq] at h'
    obtain ⟨-, rfl⟩ := h'
    exact all 1 _ _ hx
  | panic =>
    rw [CursorReader.read, Act.bind_panic hx] at h'
    simp at h'
  | diverge =>
    rw [CursorReader.read, Act.bind_diverge hx] at h'
    simp at h'

example : Reader.readAll 2 (⟨⟨[9], 0, .stays⟩⟩ : CursorReader) =
      (.err (.ioError .unexpectedEof), ⟨⟨[9], 0, .stays⟩⟩) ∧
    Reader.readAll 1 (⟨⟨[9], 0, .stays⟩⟩ : CursorReader) = (.ok [9], ⟨⟨[9], 1, .stays⟩⟩) ∧
    (Reader.read (⟨⟨[9], 1, .toEnd⟩⟩ : CursorReader)).1 = .err (.ioError .unexpectedEof) := by decide +kernel

/-- The position is within the bytes, of which there are fewer than `2^63`. -/
def Cursor.Within (c : Cursor) : Prop := c.pos.toNat ≤ c.content.length ∧ c.content.length < 2 ^ 63

theorem cursor_advance {c : Cursor} (h : Cursor.Within c) {n : Nat} (hn : n ≤ c.rest.length) :
    Cursor.Within { c with pos := c.pos + UInt64.ofNat n } ∧
    ({ c with pos := c.pos + UInt64.ofNat n } : Cursor).rest = c.rest.drop n := by
  obtain ⟨h1, h2⟩ := h
  simp only [Cursor.rest, List.length_drop] at hn
  have hp : (c.pos + UInt64.ofNat n).toNat = c.pos.toNat + n := by
    rw [UInt64.toNat_add, UInt64.toNat_ofNat', Nat.mod_eq_of_lt (a := n) (by omega), Nat.mod_eq_of_lt (by omega)]
  refine ⟨⟨?_, h2⟩, ?_⟩
  · show (c.pos + UInt64.ofNat n).toNat ≤ c.content.length
    omega
  · simp only [Cursor.rest, hp, List.drop_drop]

/-- A `ReadReader` over a cursor holds the bytes behind the position. -/
def cursorView : View CursorReader where
  R r bs := Cursor.Within r.source ∧ r.source.rest = bs
  E e := e = .ioError .unexpectedEof
  read_cons := by
    rintro ⟨c⟩ b bs ⟨h, hb⟩
    have hn : 1 ≤ c.rest.length := by rw [hb]; simp
    obtain ⟨w, hr⟩ := cursor_advance h hn
    have hx : CursorReader.readAll 1 ⟨c⟩ = (.ok [b], ⟨{ c with pos := c.pos + UInt64.ofNat 1 }⟩) := by
      simp only [CursorReader.readAll, (cursor_readExact c 1).1 hn, Res.mapErr]
      simp only at hb
      rw [hb]; rfl
    refine ⟨_, Act.bind_ok hx, w, ?_⟩
    simp only at hb hr
    rw [hr, hb]; rfl
  read_nil := by
    rintro ⟨c⟩ ⟨h, hb⟩
    simp only at hb
    obtain ⟨r, hx⟩ : ∃ r, CursorReader.readAll 1 ⟨c⟩ = (.err (.ioError .unexpectedEof), r) :=
      ⟨_, by simp only [CursorReader.readAll, (cursor_readExact c 1).2 (by rw [hb]; simp), Res.mapErr]; rfl⟩
    exact ⟨_, _, Act.bind_err hx, rfl⟩
  readAll_ok := by
    rintro ⟨c⟩ bs n ⟨h, rfl⟩ hn
    obtain ⟨w, hr⟩ := cursor_advance h hn
    exact ⟨_, by simp only [Reader.readAll, CursorReader.readAll, (cursor_readExact c n).1 hn, Res.mapErr], w, hr⟩
  readAll_short := by
    rintro ⟨c⟩ bs n ⟨h, rfl⟩ hn
    exact ⟨_, _, by simp only [Reader.readAll, CursorReader.readAll, (cursor_readExact c n).2 hn, Res.mapErr]; rfl, rfl⟩

/-- A cursor used as a reader holds the bytes behind the position. -/
def seekCursorView (m : ArithMode) : View (SeekCursor m) where
  R r bs := Cursor.Within r.source ∧ r.source.rest = bs
  E e := e = .unableToReadData
  read_cons := by
    rintro ⟨c⟩ b bs ⟨h, hb⟩
    have hn : 1 ≤ c.rest.length := by rw [hb]; simp
    obtain ⟨w, hr⟩ := cursor_advance h hn
    have hx : SeekCursor.readAll (m := m) 1 ⟨c⟩ = (.ok [b], ⟨{ c with pos := c.pos + UInt64.ofNat 1 }⟩) := by
      simp only [SeekCursor.readAll, (cursor_readExact c 1).1 hn, Res.mapErr]
      simp only at hb
      rw [hb]; rfl
    refine ⟨_, Act.bind_ok hx, w, ?_⟩
    simp only at hb hr
    rw [hr, hb]; rfl
  read_nil := by
    rintro ⟨c⟩ ⟨h, hb⟩
    simp only at hb
    obtain ⟨r, hx⟩ : ∃ r, SeekCursor.readAll (m := m) 1 ⟨c⟩ = (.err .unableToReadData, r) :=
      ⟨_, by simp only [SeekCursor.readAll, (cursor_readExact c 1).2 (by rw [hb]; simp), Res.mapErr]; rfl⟩
    exact ⟨_, _, Act.bind_err hx, rfl⟩
  readAll_ok := by
    rintro ⟨c⟩ bs n ⟨h, rfl⟩ hn
    obtain ⟨w, hr⟩ := cursor_advance h hn
    exact ⟨_, by simp only [Reader.readAll, SeekCursor.readAll, (cursor_readExact c n).1 hn, Res.mapErr], w, hr⟩
  readAll_short := by
    rintro ⟨c⟩ bs n ⟨h, rfl⟩ hn
    exact ⟨_, _, by simp only [Reader.readAll, SeekCursor.readAll, (cursor_readExact c n).2 hn, Res.mapErr]; rfl, rfl⟩

/-- **C88** Any factory reads from a `Cursor` or a slice, through `ReadReader` or directly, what it reads from a
`ByteArrayReader` over the bytes behind the position: the same tag, after which all have the same bytes left, or the
same failure (i/o errors may differ). -/
theorem C88_deserialize [TagPayload P] [Env] (e : Engine P) (m : ArithMode) (c : Cursor)
    (hp : c.pos.toNat ≤ c.content.length) (hl : c.content.length < 2 ^ 63) :
    let a := Factory.deserialize e ByteArrayReader (.new c.rest)
    let r := Factory.deserialize e CursorReader ⟨c⟩
    let s := Factory.deserialize e (SeekCursor m) ⟨c⟩
    SameClass a.1 r.1 ∧ SameClass a.1 s.1 ∧
    (a.1.isOk = true → r.2.source.rest = a.2.array.drop a.2.offset ∧ s.2.source.rest = a.2.array.drop a.2.offset) := by
  intro a r s
  obtain ⟨h1, h2⟩ := C65_only_bytes e ByteArrayReader.view.toView cursorView (.new c.rest) ⟨c⟩ c.rest
    (ByteArrayReader.view_new _) ⟨⟨hp, hl⟩, rfl⟩
  obtain ⟨h3, h4⟩ := C65_only_bytes e ByteArrayReader.view.toView (seekCursorView m) (.new c.rest) ⟨c⟩ c.rest
    (ByteArrayReader.view_new _) ⟨⟨hp, hl⟩, rfl⟩
  refine ⟨h1, h3, fun h => ?_⟩
  obtain ⟨b1, q1, -, q2⟩ := h2 h
  obtain ⟨b2, q3, -, q4⟩ := h4 h
  exact ⟨by rw [q2]; exact q1.2, by rw [q4]; exact q3.2⟩

section
attribute [local instance] bigEnv

example : (Factory.deserialize (Engine.std true : Engine Empty) CursorReader ⟨⟨[0, 17, 2, 97, 98, 5], 1, .stays⟩⟩).2 =
    ⟨⟨[0, 17, 2, 97, 98, 5], 5, .stays⟩⟩ := by rw [deserialize_eq]; decide +kernel
example : (Factory.deserialize (Engine.std true : Engine Empty) (SeekCursor .checked)
    ⟨⟨[0, 17, 9, 97, 98, 5], 1, .stays⟩⟩).2 = ⟨⟨[0, 17, 9, 97, 98, 5], 3, .stays⟩⟩ := by rw [deserialize_eq]; decide +kernel
end

/-- **C88** Skipping over a `Cursor` is skipping over any seekable source of the same bytes (C23), whatever the version
of std. -/
theorem C88_skip {m : ArithMode} (c : Cursor) (n : UInt64) :
    let q := Reader.skipU64 n (⟨c.content, c.pos, [], [], []⟩ : SeekStream m)
    Reader.skipU64 n (⟨c⟩ : SeekCursor m) = (q.1, ⟨{ c with pos := q.2.pos }⟩) ∧
    ∀ k : Nat, Reader.skip k (⟨c⟩ : SeekCursor m) = Reader.skipU64 (UInt64.ofNat k) (⟨c⟩ : SeekCursor m) := by
  refine ⟨?_, fun _ => rfl⟩
  show SeekCursor.skipU64 n ⟨c⟩ = ((SeekStream.skipU64 n _).1, _)
  by_cases h0 : n = 0
  · subst h0
    show SeekCursor.skipU64 0 ⟨c⟩ = ((SeekStream.skipU64 0 _).1, ⟨{ c with pos := (SeekStream.skipU64 0 _).2.pos }⟩)
    simp [SeekCursor.skipU64, SeekStream.skipU64, pure, Act.pure]
  · show SeekCursor.skipU64 n ⟨c⟩ = ((SeekStream.skipU64 n _).1, ⟨{ c with pos := (SeekStream.skipU64 n _).2.pos }⟩)
    rw [skipU64_unfold rfl h0]
    simp only [SeekCursor.skipU64, h0, if_false]
    rw [Act.bind_ok (show SeekCursor.seekCur (⟨c⟩ : SeekCursor m) = (.ok c.pos, ⟨c⟩) from rfl),
      Act.bind_ok (show SeekCursor.seekEnd (⟨c⟩ : SeekCursor m) =
        (.ok (UInt64.ofNat c.content.length), ⟨{ c with pos := UInt64.ofNat c.content.length }⟩) from rfl)]
    by_cases hp : c.pos = UInt64.ofNat c.content.length
    · rw [if_pos hp, if_pos hp]; rfl
    · rw [if_neg hp, if_neg hp]
      cases hu : (addU64 m c.pos n : Res IoErr UInt64) with
      | ok p =>
        rw [Act.bind_ok (show (Act.lift (.ok p) : Act IoErr (SeekCursor m) UInt64)
          ⟨{ c with pos := UInt64.ofNat c.content.length }⟩ = (.ok p, _) from rfl)]
        by_cases hq : p ≤ UInt64.ofNat c.content.length
        · simp only [if_pos hq]; rfl
        · simp only [if_neg hq]; rfl
      | err e => rfl
      | panic => rfl
      | diverge => rfl

example : Reader.skipU64 2 (⟨⟨[1, 2, 3], 1, .stays⟩⟩ : SeekCursor .checked) = (.ok (), ⟨⟨[1, 2, 3], 3, .stays⟩⟩) ∧
    Reader.skipU64 3 (⟨⟨[1, 2, 3], 1, .stays⟩⟩ : SeekCursor .checked) =
      (.err .unableToReadData, ⟨⟨[1, 2, 3], 3, .stays⟩⟩) := by decide +kernel

/-! ### C89: destinations of a fixed length -/

/-- The claim that a second call of `write` accepts nothing, on which `stdWriteAll` rests. -/
theorem stdWrite_again (buf : Bytes) (w : FixedCursor) (h : (w.stdWrite buf).1 < buf.length) (more : Bytes) :
    (w.stdWrite buf).2.stdWrite more = (0, (w.stdWrite buf).2) := by
  rcases w with ⟨c, p⟩
  simp only [FixedCursor.stdWrite] at h ⊢
  have hn : min buf.length (c.length - min p c.length) = c.length - min p c.length := by omega
  simp only [hn]
  have hl : (c.take (min p c.length) ++ buf.take (c.length - min p c.length) ++
      c.drop (min p c.length + (c.length - min p c.length))).length = c.length := by
    simp only [List.length_append, List.length_take, List.length_drop]; omega
  simp only [hl]
  have hm : min (p + (c.length - min p c.length)) c.length = c.length := by omega
  simp only [hm, Nat.sub_self, Nat.min_zero, List.take_zero, List.append_nil, Nat.add_zero, Prod.mk.injEq, true_and]
  congr 1
  exact List.take_append_drop _ _

/-- What one call does with a fixed destination: everything that fits is written. -/
def fixedStep (d : FixedCursor) (bs : Bytes) : Res IoErr Unit × FixedCursor :=
  let p := min d.pos d.content.length
  let n := min bs.length (d.content.length - p)
  (if n = bs.length then .ok () else .err .unableToWriteData, ⟨overwrite d.content p (bs.take n), d.pos + n⟩)

theorem stdWrite_eq (d : FixedCursor) (bs : Bytes) :
    d.stdWrite bs = (min bs.length (d.content.length - min d.pos d.content.length), (fixedStep d bs).2) := by
  simp only [FixedCursor.stdWrite, fixedStep, overwrite, List.length_take]
  generalize min d.pos d.content.length = p
  generalize hn : min bs.length (d.content.length - p) = n
  have : min n bs.length = n := by omega
  rw [this]

theorem fixedWriter_call (d : FixedCursor) (op : WOp) :
    call op (⟨d⟩ : FixedWriter) = ((fixedStep d (opBytes op)).1, ⟨(fixedStep d (opBytes op)).2⟩) := by
  cases op <;> simp only [call, Writer.write, Writer.writeAll, stdWrite_eq, opBytes] <;> rfl

theorem fixedStep_nil (d : FixedCursor) : fixedStep d [] = (.ok (), d) := by
  simp [fixedStep, overwrite]

theorem stdWriteAll_eq (bs : Bytes) (d : FixedCursor) :
    ((FixedCursor.stdWriteAll bs d).1.mapErr fun _ => IoErr.unableToWriteData) = (fixedStep d bs).1 ∧
    (FixedCursor.stdWriteAll bs d).2 = (fixedStep d bs).2 := by
  cases bs with
  | nil => rw [fixedStep_nil]; exact ⟨rfl, rfl⟩
  | cons b bs =>
    simp only [FixedCursor.stdWriteAll, stdWrite_eq, and_true]
    unfold fixedStep
    simp only
    split <;> rfl

theorem fixedSeek_call (d : FixedCursor) (op : WOp) :
    call op (⟨d⟩ : FixedSeek) = ((fixedStep d (opBytes op)).1, ⟨(fixedStep d (opBytes op)).2⟩) := by
  cases op <;> simp only [call, Writer.write, Writer.writeAll, opBytes, stdWriteAll_eq]

theorem fixed_runOps {ω : Type} [Writer ω] (mk : FixedCursor → ω)
    (hc : ∀ d op, call op (mk d) = ((fixedStep d (opBytes op)).1, mk (fixedStep d (opBytes op)).2))
    (ops : List WOp) (d : FixedCursor) :
    runOps ops (mk d) = ((fixedStep d (opsBytes ops)).1.mapErr .ioError, mk (fixedStep d (opsBytes ops)).2) := by
  induction ops generalizing d with
  | nil => rw [show opsBytes [] = [] from rfl, fixedStep_nil]; rfl
  | cons op ops ih =>
    have hb : opsBytes (op :: ops) = opBytes op ++ opsBytes ops := by simp [opsBytes]
    have hrun : op.run (mk d) = (((call op (mk d)).1.mapErr .ioError, (call op (mk d)).2) : Res TagErr Unit × _) := by
      cases op <;> rfl
    rw [hc] at hrun
    rw [hb]
    generalize opBytes op = x at hrun ⊢
    generalize opsBytes ops = y at ih ⊢
    rcases d with ⟨c, p⟩
    have hq : min p c.length ≤ c.length := by omega
    by_cases hf : x.length ≤ c.length - min p c.length
    · have hn : min x.length (c.length - min p c.length) = x.length := by omega
      have hs : fixedStep ⟨c, p⟩ x = (.ok (), ⟨overwrite c (min p c.length) x, p + x.length⟩) := by
        simp only [fixedStep, hn, if_true, List.take_length]
      rw [hs] at hrun
      rw [runOps, Act.bind_ok hrun, ih]
      have hlen : (overwrite c (min p c.length) x).length = c.length := by
        rw [overwrite_length _ _ _ hq]; omega
      have hst : fixedStep ⟨overwrite c (min p c.length) x, p + x.length⟩ y = fixedStep ⟨c, p⟩ (x ++ y) := by
        by_cases hx : x = []
        · subst hx
          simp [overwrite]
        have hx0 : 0 < x.length := List.length_pos_iff.mpr hx
        have hpc : p ≤ c.length := by omega
        have e1 : min p c.length = p := by omega
        have e2 : min (p + x.length) c.length = p + x.length := by omega
        rw [e1] at hf hlen ⊢
        simp only [fixedStep, hlen, e1, e2, List.length_append]
        have e3 : min (x.length + y.length) (c.length - p) = x.length + min y.length (c.length - (p + x.length)) := by omega
        rw [e3]
        generalize hk : min y.length (c.length - (p + x.length)) = k
        have e4 : (x ++ y).take (x.length + k) = x ++ y.take k := by
          rw [List.take_append, List.take_of_length_le (l := x) (by omega), Nat.add_sub_cancel_left]
        rw [e4, overwrite_append _ _ _ _ hpc, Nat.add_assoc]
        have : (x.length + k = x.length + y.length) ↔ k = y.length := by omega
        simp only [this]
      rw [hst]
    · have hn : min x.length (c.length - min p c.length) = c.length - min p c.length := by omega
      have hs : (fixedStep ⟨c, p⟩ x).1 = .err .unableToWriteData := by
        simp only [fixedStep, hn]; rw [if_neg (by omega)]
      rw [hs] at hrun
      rw [runOps, Act.bind_err hrun]
      have hn' : min (x.length + y.length) (c.length - min p c.length) = c.length - min p c.length := by omega
      have h1 : (fixedStep ⟨c, p⟩ (x ++ y)).1 = .err .unableToWriteData := by
        simp only [fixedStep, List.length_append, hn']; rw [if_neg (by omega)]
      have h2 : (fixedStep ⟨c, p⟩ (x ++ y)).2 = (fixedStep ⟨c, p⟩ x).2 := by
        simp only [fixedStep, List.length_append, hn', hn]
        rw [List.take_append_of_le_length (by omega)]
      rw [h1, h2]; rfl

/-- What serializing `bs` into a destination of fixed length does, whatever the adapter. -/
theorem fixed_serialize [TagPayload P] (t : Tag P) (hm : MapsOk t) (hp : PayloadsOk t) (hl : (enc t).length < 2 ^ 64)
    (d : FixedCursor) :
    t.serialize (⟨d⟩ : FixedWriter) = ((fixedStep d (enc t)).1.mapErr .ioError, ⟨(fixedStep d (enc t)).2⟩) ∧
    t.serialize (⟨d⟩ : FixedSeek) = ((fixedStep d (enc t)).1.mapErr .ioError, ⟨(fixedStep d (enc t)).2⟩) := by
  obtain ⟨ops, h1, h2⟩ := serialize_ops hm hp hl
  rw [h2, h2, ← h1]
  exact ⟨fixed_runOps FixedWriter.mk fixedWriter_call ops d, fixed_runOps FixedSeek.mk fixedSeek_call ops d⟩

/-- **C89** Serializing a tag into a `&mut [u8]` or a `Cursor<&mut [u8]>`, through `WriteWriter` or directly: it
succeeds exactly when the tag's size fits behind the position, and then the serialization is there and everything else
is as before.  If it does not fit the result is `IOError(UnableToWriteData)` and as much of the serialization as fits
has been written, up to the end.  A cursor behind the end accepts nothing and is left alone. -/
theorem C89_fixed_destination [TagPayload P] (t : Tag P) (hm : MapsOk t) (hp : PayloadsOk t)
    (hl : (enc t).length < 2 ^ 64) (a : Bytes) (pos : Nat) :
    (pos ≤ a.length → t.size.toNat ≤ a.length - pos →
      t.serialize (⟨⟨a, pos⟩⟩ : FixedWriter) = (.ok (), ⟨⟨overwrite a pos (enc t), pos + t.size.toNat⟩⟩) ∧
      t.serialize (⟨⟨a, pos⟩⟩ : FixedSeek) = (.ok (), ⟨⟨overwrite a pos (enc t), pos + t.size.toNat⟩⟩)) ∧
    (pos ≤ a.length → a.length - pos < t.size.toNat →
      t.serialize (⟨⟨a, pos⟩⟩ : FixedWriter) =
        (.err (.ioError .unableToWriteData), ⟨⟨a.take pos ++ (enc t).take (a.length - pos), a.length⟩⟩) ∧
      t.serialize (⟨⟨a, pos⟩⟩ : FixedSeek) =
        (.err (.ioError .unableToWriteData), ⟨⟨a.take pos ++ (enc t).take (a.length - pos), a.length⟩⟩)) ∧
    (a.length < pos →
      t.serialize (⟨⟨a, pos⟩⟩ : FixedWriter) = (.err (.ioError .unableToWriteData), ⟨⟨a, pos⟩⟩) ∧
      t.serialize (⟨⟨a, pos⟩⟩ : FixedSeek) = (.err (.ioError .unableToWriteData), ⟨⟨a, pos⟩⟩)) := by
  obtain ⟨h1, h2⟩ := fixed_serialize t hm hp hl ⟨a, pos⟩
  have hs : t.size.toNat = (enc t).length := by rw [t.size_eq hp hl]; exact lenU64_toNat hl
  rw [h1, h2, hs]
  refine ⟨fun ho hf => ?_, fun ho hf => ?_, fun ho => ?_⟩
  · have e1 : min pos a.length = pos := by omega
    have e2 : min (enc t).length (a.length - pos) = (enc t).length := by omega
    simp only [fixedStep, e1, e2, if_true, List.take_length, Res.mapErr, and_self]
  · have e1 : min pos a.length = pos := by omega
    have e2 : min (enc t).length (a.length - pos) = a.length - pos := by omega
    have e3 : overwrite a pos ((enc t).take (a.length - pos)) = a.take pos ++ (enc t).take (a.length - pos) := by
      unfold overwrite
      rw [List.drop_of_length_le (by simp only [List.length_take]; omega), List.append_nil]
    have e4 : ¬ (a.length - pos = (enc t).length) := by omega
    have e5 : pos + (a.length - pos) = a.length := by omega
    simp only [fixedStep, e1, e2, e3, e4, e5, if_false, Res.mapErr, and_self]
  · have hne : 0 < (enc t).length := enc_length_pos t
    have e1 : min pos a.length = a.length := by omega
    have e2 : min (enc t).length (a.length - a.length) = 0 := by omega
    have e4 : ¬ (0 = (enc t).length) := by omega
    have e3 : overwrite a a.length [] = a := by simp [overwrite]
    simp only [fixedStep, e1, e2, e4, if_false, List.take_zero, e3, Nat.add_zero, Res.mapErr, and_self]

example : (.atom (.string 17 "abc") : Tag Empty).serialize (⟨⟨[9, 9, 9, 9, 9, 9, 9], 1⟩⟩ : FixedWriter) =
      (.ok (), ⟨⟨[9, 17, 3, 97, 98, 99, 9], 6⟩⟩) ∧
    (.atom (.string 17 "abc") : Tag Empty).serialize (⟨⟨[9, 9, 9, 9, 9, 9], 2⟩⟩ : FixedSeek) =
      (.err (.ioError .unableToWriteData), ⟨⟨[9, 9, 17, 3, 97, 98], 6⟩⟩) := by decide +kernel

end Verif.Props
