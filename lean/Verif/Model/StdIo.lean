import Verif.Model.Io
/-!
# `src/io/std_io/mod.rs`: adapters over `std::io`

The environment (`std::io::Read`, `Write`, `Seek`) is modelled by a stream with a schedule that decides, for
each call, how many bytes are transferred or which error is returned.  Once a schedule is exhausted calls
transfer as much as possible.
-/
namespace Verif

/-- `From<std::io::Error> for io::ErrorKind`, /repo/src/io/std_io/mod.rs:43-50. -/
def ioErrFromStd : StdErr → IoErr
  | .unexpectedEof => .endOfData
  | e => .boxedError e

/-- What the next `std::io::Read::read` does: transfer at most `n` bytes (0 is an early end of file) or fail. -/
inductive ReadEv where
  | chunk (n : Nat)
  | error (e : StdErr)
  deriving Repr, DecidableEq

/-- `std::io::Read::read_exact` (std, `default_read_exact`) of `n` bytes from the remaining `data`: calls `read`
until the buffer is full; `Ok(0)` is `UnexpectedEof`, `Interrupted` is retried, other errors are returned.
Returns the outcome, the remaining data and the remaining schedule. -/
def readExact (data : Bytes) : List ReadEv → Nat → Res StdErr Bytes × Bytes × List ReadEv
  | sched, 0 => (.ok [], data, sched)
  | [], n + 1 =>
    if n + 1 ≤ data.length then (.ok (data.take (n + 1)), data.drop (n + 1), [])
    else (.err .unexpectedEof, [], [])
  | .error e :: sched, n + 1 =>
    if e = .interrupted then readExact data sched (n + 1) else (.err e, data, sched)
  | .chunk k :: sched, n + 1 =>
    let c := data.take (min k (n + 1))
    if c.isEmpty then (.err .unexpectedEof, data, sched)
    else
      match readExact (data.drop c.length) sched (n + 1 - c.length) with
      | (.ok bs, d, s) => (.ok (c ++ bs), d, s)
      | (r, d, s) => (r, d, s)

/-- `struct ReadReader` over a `std::io::Read`, /repo/src/io/std_io/mod.rs:93-103. -/
structure ReadReader where
  data : Bytes
  sched : List ReadEv
  deriving Repr, DecidableEq

namespace ReadReader

/-- `read_all`, /repo/src/io/std_io/mod.rs:116-121. -/
def readAll (n : Nat) : Act IoErr ReadReader Bytes := fun s =>
  match readExact s.data s.sched n with
  | (r, d, sc) => (r.mapErr .ioError, ⟨d, sc⟩)

/-- `read`, /repo/src/io/std_io/mod.rs:107-113: `read_exact` into a one byte buffer. -/
def read : Act IoErr ReadReader Byte := fun s =>
  match readExact s.data s.sched 1 with
  | (.ok (b :: _), d, sc) => (.ok b, ⟨d, sc⟩)
  | (.ok [], d, sc) => (.panic, ⟨d, sc⟩)
  | (.err e, d, sc) => (.err (.ioError e), ⟨d, sc⟩)
  | (.panic, d, sc) => (.panic, ⟨d, sc⟩)
  | (.diverge, d, sc) => (.diverge, ⟨d, sc⟩)

end ReadReader

theorem readExact_len (data : Bytes) (sched : List ReadEv) (n : Nat) (bs : Bytes) (r : Bytes × List ReadEv)
    (h : readExact data sched n = (.ok bs, r)) : bs.length = n := by
  induction sched generalizing data n bs r with
  | nil =>
    cases n with
    | zero => simp [readExact] at h; obtain ⟨rfl, -⟩ := h; rfl
    | succ n =>
      simp only [readExact] at h
      split at h
      · simp at h; obtain ⟨rfl, -⟩ := h; simp; omega
      · simp at h
  | cons ev sched ih =>
    cases n with
    | zero => simp [readExact] at h; obtain ⟨rfl, -⟩ := h; rfl
    | succ n =>
      cases ev with
      | error e =>
        simp only [readExact] at h
        split at h
        · exact ih _ _ _ _ h
        · simp at h
      | chunk k =>
        simp only [readExact] at h
        split at h
        · simp at h
        · rename_i hc
          rcases hr : readExact (data.drop (data.take (min k (n + 1))).length) sched
            (n + 1 - (data.take (min k (n + 1))).length) with ⟨r', d', s'⟩
          rw [hr] at h
          cases r' with
          | ok bs' =>
            simp only [Prod.mk.injEq, Res.ok.injEq] at h
            have := ih _ _ _ _ hr
            obtain ⟨rfl, -⟩ := h
            simp at this ⊢
            omega
          | err e => simp at h
          | panic => simp at h
          | diverge => simp at h

/-- `impl Reader for ReadReader`, /repo/src/io/std_io/mod.rs:107-122: `skip` and `skip_u64` are the default ones. -/
instance : Reader ReadReader where
  read := ReadReader.read
  readAll := ReadReader.readAll
  skip := defaultSkip ReadReader.readAll
  skipU64 := defaultSkipU64 (defaultSkip ReadReader.readAll)
  readAll_len := by
    intro n s bs s' h
    unfold ReadReader.readAll at h
    rcases hr : readExact s.data s.sched n with ⟨r, d, sc⟩
    rw [hr] at h
    cases r with
    | ok bs' =>
      simp [Res.mapErr] at h
      obtain ⟨rfl, -⟩ := h
      exact readExact_len _ _ _ _ _ hr
    | err e => simp [Res.mapErr] at h
    | panic => simp [Res.mapErr] at h
    | diverge => simp [Res.mapErr] at h

/-- What the next `std::io::Write::write` does: accept at most `n` bytes or fail. -/
inductive WriteEv where
  | accept (n : Nat)
  | error (e : StdErr)
  deriving Repr, DecidableEq

/-- `struct WriteWriter` over a `std::io::Write`, /repo/src/io/std_io/mod.rs:129-139: `out` is what the
destination has accepted. -/
structure WriteWriter where
  out : Bytes
  sched : List WriteEv
  deriving Repr, DecidableEq

namespace WriteWriter

/-- One call of `std::io::Write::write(buf)`: the number of bytes accepted, or an error. -/
def stdWrite (buf : Bytes) (w : WriteWriter) : Res StdErr Nat × WriteWriter :=
  match w.sched with
  | [] => (.ok buf.length, ⟨w.out ++ buf, []⟩)
  | .accept k :: sched => (.ok (min k buf.length), ⟨w.out ++ buf.take k, sched⟩)
  | .error e :: sched => (.err e, ⟨w.out, sched⟩)

/-- `write_all`, /repo/src/io/std_io/mod.rs:153-159. -/
def writeAll (buff : Bytes) : Act IoErr WriteWriter Unit := fun w =>
  match stdWrite buff w with
  | (.ok n, w') => (if n = buff.length then .ok () else .err .unableToWriteData, w')
  | (.err e, w') => (.err (.ioError e), w')
  | (.panic, w') => (.panic, w')
  | (.diverge, w') => (.diverge, w')

/-- `write`, /repo/src/io/std_io/mod.rs:144-151. -/
def write (value : Byte) : Act IoErr WriteWriter Unit := fun w =>
  match stdWrite [value] w with
  | (.ok n, w') => (if n = 1 then .ok () else .err .unableToWriteData, w')
  | (.err e, w') => (.err (.ioError e), w')
  | (.panic, w') => (.panic, w')
  | (.diverge, w') => (.diverge, w')

end WriteWriter

/-- `impl Writer for WriteWriter`, /repo/src/io/std_io/mod.rs:143-164. -/
instance : Writer WriteWriter where
  write := WriteWriter.write
  writeAll := WriteWriter.writeAll

/-- A seekable stream (`std::fs::File`, `std::io::Cursor<Vec<u8>>`): its bytes, the position, the schedules of
its reads and writes, and for each seek whether it fails.  `m` is the arithmetic mode of the build. -/
structure SeekStream (m : ArithMode) where
  content : Bytes
  pos : UInt64
  reads : List ReadEv := []
  writes : List WriteEv := []
  seeks : List (Option StdErr) := []
  deriving Repr, DecidableEq

namespace SeekStream
variable {m : ArithMode}

/-- The result of the next seek: `Err(e)` if the schedule says so; otherwise moves to `p` and returns it. -/
def seekTo (p : UInt64) : Act IoErr (SeekStream m) UInt64 := fun s =>
  match s.seeks with
  | some e :: sk => (.err (ioErrFromStd e), { s with seeks := sk })
  | none :: sk => (.ok p, { s with seeks := sk, pos := p })
  | [] => (.ok p, { s with pos := p })

/-- `seek(SeekFrom::Current(0))`. -/
def seekCur : Act IoErr (SeekStream m) UInt64 := fun s => seekTo s.pos s
/-- `seek(SeekFrom::End(0))`. -/
def seekEnd : Act IoErr (SeekStream m) UInt64 := fun s => seekTo (UInt64.ofNat s.content.length) s
/-- `seek(SeekFrom::Start(p))`. -/
def seekStart (p : UInt64) : Act IoErr (SeekStream m) UInt64 := seekTo p

/-- `read_all`, /repo/src/io/std_io/mod.rs:180-185. -/
def readAll (n : Nat) : Act IoErr (SeekStream m) Bytes := fun s =>
  match readExact (s.content.drop s.pos.toNat) s.reads n with
  | (r, d, sc) =>
    (r.mapErr fun _ => .unableToReadData,
      { s with pos := s.pos + UInt64.ofNat ((s.content.drop s.pos.toNat).length - d.length), reads := sc })

/-- `read`, /repo/src/io/std_io/mod.rs:174-178. -/
def read : Act IoErr (SeekStream m) Byte := do
  let bs ← readAll 1
  match bs with
  | b :: _ => pure b
  | [] => Act.panic

/-- `skip_u64`, /repo/src/io/std_io/mod.rs:191-209. -/
def skipU64 (count : UInt64) : Act IoErr (SeekStream m) Unit :=
  if count = 0 then pure ()
  else do
    let currPos ← seekCur
    let endPos ← seekEnd
    if currPos = endPos then Act.fail .endOfData
    else do
      let newPos ← Act.lift (addU64 m currPos count)
      if newPos ≤ endPos then do
        let _ ← seekStart newPos
        pure ()
      else Act.fail .unableToReadData

/-- `skip`, /repo/src/io/std_io/mod.rs:187-189: `count as u64`. -/
def skip (count : Nat) : Act IoErr (SeekStream m) Unit := skipU64 (UInt64.ofNat count)

/-- `impl Reader for T: Read + Seek`, /repo/src/io/std_io/mod.rs:170-210. -/
instance : Reader (SeekStream m) where
  read := read
  readAll := readAll
  skip := skip
  skipU64 := skipU64
  readAll_len := by
    intro n s bs s' h
    unfold readAll at h
    rcases hr : readExact (s.content.drop s.pos.toNat) s.reads n with ⟨r, d, sc⟩
    rw [hr] at h
    cases r with
    | ok bs' =>
      simp [Res.mapErr] at h
      obtain ⟨rfl, -⟩ := h
      exact readExact_len _ _ _ _ _ hr
    | err e => simp [Res.mapErr] at h
    | panic => simp [Res.mapErr] at h
    | diverge => simp [Res.mapErr] at h

/-- The bytes of the stream after writing `bs` at `pos`: a gap is filled with zeros. -/
def putAt (content : Bytes) (pos : Nat) (bs : Bytes) : Bytes :=
  (content.take pos ++ List.replicate (pos - content.length) 0) ++ bs ++ content.drop (pos + bs.length)

/-- `std::io::Write::write_all` (std): calls `write` until the buffer is empty; `Ok(0)` is `WriteZero`,
`Interrupted` is retried, other errors are returned. -/
def stdWriteAll (content : Bytes) (pos : Nat) : List WriteEv → Bytes → Res StdErr Unit × Bytes × Nat × List WriteEv
  | sched, [] => (.ok (), content, pos, sched)
  | [], b :: bs => (.ok (), putAt content pos (b :: bs), pos + (b :: bs).length, [])
  | .error e :: sched, b :: bs =>
    if e = .interrupted then stdWriteAll content pos sched (b :: bs) else (.err e, content, pos, sched)
  | .accept 0 :: sched, _ :: _ => (.err .writeZero, content, pos, sched)
  | .accept (k + 1) :: sched, b :: bs =>
    let c := (b :: bs).take (k + 1)
    stdWriteAll (putAt content pos c) (pos + c.length) sched ((b :: bs).drop (k + 1))

/-- `write_all`, /repo/src/io/std_io/mod.rs:225-230. -/
def writeAll (buff : Bytes) : Act IoErr (SeekStream m) Unit := fun s =>
  match stdWriteAll s.content s.pos.toNat s.writes buff with
  | (r, c, p, sc) => (r.mapErr fun _ => .unableToWriteData,
      { s with content := c, pos := UInt64.ofNat p, writes := sc })

/-- `write`, /repo/src/io/std_io/mod.rs:220-223. -/
def write (value : Byte) : Act IoErr (SeekStream m) Unit := writeAll [value]

/-- `impl Writer for T: Write + Seek`, /repo/src/io/std_io/mod.rs:216-235. -/
instance : Writer (SeekStream m) where
  write := write
  writeAll := writeAll

/-- `SizedSeek::len`, /repo/src/io/std_io/mod.rs:58, 74-81. -/
def len : Act IoErr (SeekStream m) UInt64 := do
  let curr ← seekCur
  let e ← seekEnd
  let _ ← seekStart curr
  pure e

/-- `SizedSeek::is_empty`, /repo/src/io/std_io/mod.rs:61-63. -/
def isEmpty : Act IoErr (SeekStream m) Bool := do
  let n ← len
  pure (n == 0)

/-- `SizedSeek::offset`, /repo/src/io/std_io/mod.rs:66, 83-85 (`stream_position` is `seek(Current(0))`). -/
def offset : Act IoErr (SeekStream m) UInt64 := seekCur

/-- `SizedSeek::available`, /repo/src/io/std_io/mod.rs:68-70: `u64` subtraction. -/
def available : Act IoErr (SeekStream m) UInt64 := do
  let n ← len
  let o ← offset
  if o ≤ n then pure (n - o)
  else match m with
    | .checked => Act.panic
    | .wrapping => pure (n - o)

end SeekStream
end Verif
