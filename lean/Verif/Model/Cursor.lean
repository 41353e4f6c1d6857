import Verif.Model.StdIo
import Verif.Model.Buffer
/-!
# Sources and destinations in memory behind the `std::io` adapters

`std::io::Cursor` and `&[u8]` do not use the provided `read_exact` of `std::io::Read`: they check first whether the
bytes are there.  What a failed `read_exact` does with the position depends on the version of std: older versions leave
it (the crate's own test `test_readreader_read_all`, /repo/src/io/std_io/tests.rs, relies on it), newer ones move it to
the end.  Both are modelled.  A `Cursor<&mut [u8]>` and a `&mut [u8]` are destinations of a fixed length.
-/
namespace Verif

/-- What a failed `read_exact` of a `Cursor` or a `&[u8]` does with the position. -/
inductive OnShort where
  | stays
  | toEnd
  deriving Repr, DecidableEq

/-- `std::io::Cursor` over bytes that is only read; a `&[u8]` is one whose position is within the bytes. -/
structure Cursor where
  content : Bytes
  pos : UInt64
  onShort : OnShort
  deriving Repr, DecidableEq

namespace Cursor

/-- The bytes behind the position. -/
def rest (c : Cursor) : Bytes := c.content.drop c.pos.toNat

/-- `Cursor::read_exact`, `<&[u8]>::read_exact` (std) for a buffer of `n` bytes. -/
def readExact (n : Nat) : Act StdErr Cursor Bytes := fun c =>
  if n ≤ c.rest.length then (.ok (c.rest.take n), { c with pos := c.pos + UInt64.ofNat n })
  else (.err .unexpectedEof, match c.onShort with
    | .stays => c
    | .toEnd => { c with pos := UInt64.ofNat c.content.length })

theorem readExact_len (n : Nat) (c c' : Cursor) (bs : Bytes) (h : readExact n c = (.ok bs, c')) : bs.length = n := by
  unfold readExact at h
  split at h
  · simp only [Prod.mk.injEq, Res.ok.injEq] at h
    obtain ⟨rfl, -⟩ := h
    simp only [List.length_take]
    omega
  · simp at h

end Cursor

/-- `ReadReader` over a `Cursor` or a `&[u8]`, /repo/src/io/std_io/mod.rs:93-103. -/
structure CursorReader where
  source : Cursor
  deriving Repr, DecidableEq

namespace CursorReader

/-- `read_all`, /repo/src/io/std_io/mod.rs:116-121. -/
def readAll (n : Nat) : Act IoErr CursorReader Bytes := fun r =>
  match r.source.readExact n with
  | (x, c) => (x.mapErr .ioError, ⟨c⟩)

/-- `read`, /repo/src/io/std_io/mod.rs:107-113. -/
def read : Act IoErr CursorReader Byte := do
  let bs ← readAll 1
  match bs with
  | b :: _ => pure b
  | [] => Act.panic

/-- `impl Reader for ReadReader`, /repo/src/io/std_io/mod.rs:107-122. -/
instance : Reader CursorReader where
  read := read
  readAll := readAll
  skip := defaultSkip readAll
  skipU64 := defaultSkipU64 (defaultSkip readAll)
  readAll_len := by
    intro n r bs r' h
    unfold readAll at h
    rcases hx : r.source.readExact n with ⟨x, c⟩
    rw [hx] at h
    cases x <;> simp [Res.mapErr] at h
    obtain ⟨rfl, -⟩ := h
    exact Cursor.readExact_len _ _ _ _ hx

/-- `read_all` with the buffer: it is filled or left as it was. -/
instance : BufReader CursorReader where
  readInto := fun p =>
    match readAll p.1.length p.2 with
    | (.ok bs, r) => (.ok (), (bs, r))
    | (.err e, r) => (.err e, (p.1, r))
    | (.panic, r) => (.panic, (p.1, r))
    | (.diverge, r) => (.diverge, (p.1, r))

end CursorReader

/-- A `Cursor` used as a reader itself (`impl Reader for T: Read + Seek`, /repo/src/io/std_io/mod.rs:170-210); its seeks
do not fail.  `m` is the arithmetic mode of the build. -/
structure SeekCursor (m : ArithMode) where
  source : Cursor
  deriving Repr, DecidableEq

namespace SeekCursor
variable {m : ArithMode}

/-- `read_all`, /repo/src/io/std_io/mod.rs:180-185. -/
def readAll (n : Nat) : Act IoErr (SeekCursor m) Bytes := fun r =>
  match r.source.readExact n with
  | (x, c) => (x.mapErr fun _ => .unableToReadData, ⟨c⟩)

/-- `read`, /repo/src/io/std_io/mod.rs:174-178. -/
def read : Act IoErr (SeekCursor m) Byte := do
  let bs ← readAll 1
  match bs with
  | b :: _ => pure b
  | [] => Act.panic

/-- `seek(SeekFrom::Start(p))` of a `Cursor`. -/
def seekStart (p : UInt64) : Act IoErr (SeekCursor m) UInt64 := fun r => (.ok p, ⟨{ r.source with pos := p }⟩)
/-- `seek(SeekFrom::Current(0))`. -/
def seekCur : Act IoErr (SeekCursor m) UInt64 := fun r => seekStart r.source.pos r
/-- `seek(SeekFrom::End(0))`. -/
def seekEnd : Act IoErr (SeekCursor m) UInt64 := fun r => seekStart (UInt64.ofNat r.source.content.length) r

/-- `skip_u64`, /repo/src/io/std_io/mod.rs:191-209. -/
def skipU64 (count : UInt64) : Act IoErr (SeekCursor m) Unit :=
  if count = 0 then pure ()
  else do
    let currPos ← seekCur
    let endPos ← seekEnd
    if currPos = endPos then Act.fail .endOfData
    else do
      let newPos ← Act.lift (addU64 m currPos count)
      if newPos ≤ endPos then do
        let _ ← seekStart newPos
        pure ()
      else Act.fail .unableToReadData

/-- `skip`, /repo/src/io/std_io/mod.rs:187-189. -/
def skip (count : Nat) : Act IoErr (SeekCursor m) Unit := skipU64 (UInt64.ofNat count)

/-- `impl Reader for T: Read + Seek`, /repo/src/io/std_io/mod.rs:170-210. -/
instance : Reader (SeekCursor m) where
  read := read
  readAll := readAll
  skip := skip
  skipU64 := skipU64
  readAll_len := by
    intro n r bs r' h
    unfold readAll at h
    rcases hx : r.source.readExact n with ⟨x, c⟩
    rw [hx] at h
    cases x <;> simp [Res.mapErr] at h
    obtain ⟨rfl, -⟩ := h
    exact Cursor.readExact_len _ _ _ _ hx

/-- `read_all` with the buffer: it is filled or left as it was. -/
instance : BufReader (SeekCursor m) where
  readInto := fun p =>
    match readAll p.1.length p.2 with
    | (.ok bs, r) => (.ok (), (bs, r))
    | (.err e, r) => (.err e, (p.1, r))
    | (.panic, r) => (.panic, (p.1, r))
    | (.diverge, r) => (.diverge, (p.1, r))

end SeekCursor

/-- `Cursor<&mut [u8]>`, and `&mut [u8]` (whose position is within the bytes), as destinations: the length is fixed. -/
structure FixedCursor where
  content : Bytes
  pos : Nat
  deriving Repr, DecidableEq

namespace FixedCursor

/-- `std::io::Write::write` (std): copies what fits and returns how much that was. -/
def stdWrite (buf : Bytes) (w : FixedCursor) : Nat × FixedCursor :=
  let p := min w.pos w.content.length
  let n := min buf.length (w.content.length - p)
  (n, ⟨w.content.take p ++ buf.take n ++ w.content.drop (p + n), w.pos + n⟩)

/-- `std::io::Write::write_all` (std): calls `write` until the buffer is empty; `Ok(0)` is an error.  A second call of
`write` accepts nothing, because the first has reached the end. -/
def stdWriteAll : Bytes → Act StdErr FixedCursor Unit
  | [], w => (.ok (), w)
  | b :: bs, w =>
    match stdWrite (b :: bs) w with
    | (n, w') => (if n = (b :: bs).length then .ok () else .err .writeZero, w')

end FixedCursor

/-- `WriteWriter` over a fixed destination, /repo/src/io/std_io/mod.rs:129-139. -/
structure FixedWriter where
  dest : FixedCursor
  deriving Repr, DecidableEq

/-- `impl Writer for WriteWriter`, /repo/src/io/std_io/mod.rs:143-164. -/
instance : Writer FixedWriter where
  write value := fun w =>
    match w.dest.stdWrite [value] with
    | (n, d) => (if n = 1 then .ok () else .err .unableToWriteData, ⟨d⟩)
  writeAll buff := fun w =>
    match w.dest.stdWrite buff with
    | (n, d) => (if n = buff.length then .ok () else .err .unableToWriteData, ⟨d⟩)

/-- A `Cursor<&mut [u8]>` used as a writer itself (`impl Writer for T: Write + Seek`,
/repo/src/io/std_io/mod.rs:216-235). -/
structure FixedSeek where
  dest : FixedCursor
  deriving Repr, DecidableEq

/-- `impl Writer for T: Write + Seek`, /repo/src/io/std_io/mod.rs:216-235. -/
instance : Writer FixedSeek where
  write value := fun w =>
    match FixedCursor.stdWriteAll [value] w.dest with
    | (r, d) => (r.mapErr fun _ => .unableToWriteData, ⟨d⟩)
  writeAll buff := fun w =>
    match FixedCursor.stdWriteAll buff w.dest with
    | (r, d) => (r.mapErr fun _ => .unableToWriteData, ⟨d⟩)

end Verif
