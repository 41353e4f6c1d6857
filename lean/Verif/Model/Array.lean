import Verif.Model.Io
/-!
# `src/io/array/mod.rs`: in-memory readers and writers

Simplification: vector capacity and allocation failure of the writers' vectors are not modelled.
-/
namespace Verif

/-- `MemoryReader::assert_can_read`, /repo/src/io/array/mod.rs:76-86, for a reader with `available` bytes. -/
def assertCanRead (available count : Nat) : Res IoErr Unit :=
  if count = 0 then .ok ()
  else match available with
    | 0 => .err .endOfData
    | x => if x < count then .err .unableToReadData else .ok ()

/-- `struct ByteArrayReader`, /repo/src/io/array/mod.rs:94-97.  `array` is what `as_slice` returns
(/repo/src/io/array/mod.rs:109-111), `offset` what `offset` returns (/repo/src/io/array/mod.rs:56, 131-133). -/
structure ByteArrayReader where
  array : Bytes
  offset : Nat
  deriving Repr, DecidableEq

namespace ByteArrayReader

/-- `ByteArrayReader::new`, /repo/src/io/array/mod.rs:100-105. -/
def new (buff : Bytes) : ByteArrayReader := ⟨buff, 0⟩
/-- `len`, /repo/src/io/array/mod.rs:48, 127-129. -/
def len (r : ByteArrayReader) : Nat := r.array.length
/-- `available` (default method), /repo/src/io/array/mod.rs:63-65; `is_empty` (/repo/src/io/array/mod.rs:51-53)
is `len = 0`. `usize` subtraction; an underflow is a panic, shown unreachable by the invariant `offset ≤ len`. -/
def available (r : ByteArrayReader) : Nat := r.len - r.offset
/-- `can_read`, /repo/src/io/array/mod.rs:121-123. -/
def canRead (r : ByteArrayReader) (count : Nat) : Res IoErr Unit := assertCanRead r.available count
/-- `set_offset`, /repo/src/io/array/mod.rs:60, 135-137. -/
def setOffset (r : ByteArrayReader) (offset : Nat) : ByteArrayReader :=
  { r with offset := min offset r.array.length }

/-- `read`, /repo/src/io/array/mod.rs:141-146. Indexing out of bounds is a panic. -/
def read : Act IoErr ByteArrayReader Byte := fun r =>
  match r.canRead 1 with
  | .ok () =>
    match r.array[r.offset]? with
    | some b => (.ok b, { r with offset := r.offset + 1 })
    | none => (.panic, r)
  | .err e => (.err e, r)
  | .panic => (.panic, r)
  | .diverge => (.diverge, r)

/-- `read_all`, /repo/src/io/array/mod.rs:148-153. Slicing out of bounds is a panic. -/
def readAll (n : Nat) : Act IoErr ByteArrayReader Bytes := fun r =>
  match r.canRead n with
  | .ok () =>
    if r.offset + n ≤ r.array.length then
      (.ok ((r.array.drop r.offset).take n), { r with offset := r.offset + n })
    else (.panic, r)
  | .err e => (.err e, r)
  | .panic => (.panic, r)
  | .diverge => (.diverge, r)

/-- `skip`, /repo/src/io/array/mod.rs:155-159. -/
def skip (count : Nat) : Act IoErr ByteArrayReader Unit := fun r =>
  match r.canRead count with
  | .ok () => (.ok (), { r with offset := r.offset + count })
  | .err e => (.err e, r)
  | .panic => (.panic, r)
  | .diverge => (.diverge, r)

theorem readAll_len (n : Nat) (r : ByteArrayReader) (bs : Bytes) (r' : ByteArrayReader)
    (h : readAll n r = (.ok bs, r')) : bs.length = n := by
  unfold readAll at h
  split at h <;> try simp at h
  split at h
  · simp at h
    obtain ⟨rfl, -⟩ := h
    simp; omega
  · simp at h

/-- `impl Reader for ByteArrayReader`, /repo/src/io/array/mod.rs:140-160; `skip_u64` is the default one. -/
instance : Reader ByteArrayReader where
  read := read
  readAll := readAll
  skip := skip
  skipU64 := defaultSkipU64 skip
  readAll_len := readAll_len

end ByteArrayReader

/-- `struct VecReader`, /repo/src/io/array/mod.rs:170-173.  `vector` is what `as_slice` and `vec` return
(/repo/src/io/array/mod.rs:201-208), `offset` what `offset` returns (/repo/src/io/array/mod.rs:216-218). -/
structure VecReader where
  vector : Bytes
  offset : Nat
  deriving Repr, DecidableEq

namespace VecReader

/-- `VecReader::new`, /repo/src/io/array/mod.rs:178-185. -/
def new (value : Bytes) : VecReader := ⟨[] ++ value, 0⟩
/-- `len`, /repo/src/io/array/mod.rs:212-214. -/
def len (r : VecReader) : Nat := r.vector.length
/-- `available`, /repo/src/io/array/mod.rs:224-226. -/
def available (r : VecReader) : Nat := r.vector.length - r.offset
/-- `can_read`, /repo/src/io/array/mod.rs:195-197. -/
def canRead (r : VecReader) (count : Nat) : Res IoErr Unit := assertCanRead r.available count
/-- `set_offset`, /repo/src/io/array/mod.rs:220-222. -/
def setOffset (r : VecReader) (offset : Nat) : VecReader :=
  { r with offset := min offset r.vector.length }

/-- `read`, /repo/src/io/array/mod.rs:230-235. -/
def read : Act IoErr VecReader Byte := fun r =>
  match r.canRead 1 with
  | .ok () =>
    match r.vector[r.offset]? with
    | some b => (.ok b, { r with offset := r.offset + 1 })
    | none => (.panic, r)
  | .err e => (.err e, r)
  | .panic => (.panic, r)
  | .diverge => (.diverge, r)

/-- `read_all`, /repo/src/io/array/mod.rs:237-243. -/
def readAll (n : Nat) : Act IoErr VecReader Bytes := fun r =>
  match r.canRead n with
  | .ok () =>
    let newOffs := r.offset + n
    if newOffs ≤ r.vector.length then
      (.ok ((r.vector.take newOffs).drop r.offset), { r with offset := newOffs })
    else (.panic, r)
  | .err e => (.err e, r)
  | .panic => (.panic, r)
  | .diverge => (.diverge, r)

/-- `skip`, /repo/src/io/array/mod.rs:245-249. -/
def skip (count : Nat) : Act IoErr VecReader Unit := fun r =>
  match r.canRead count with
  | .ok () => (.ok (), { r with offset := r.offset + count })
  | .err e => (.err e, r)
  | .panic => (.panic, r)
  | .diverge => (.diverge, r)

theorem readAll_len (n : Nat) (r : VecReader) (bs : Bytes) (r' : VecReader)
    (h : readAll n r = (.ok bs, r')) : bs.length = n := by
  unfold readAll at h
  split at h <;> try simp at h
  split at h
  · simp at h
    obtain ⟨rfl, -⟩ := h
    simp; omega
  · simp at h

/-- `impl Reader for VecReader`, /repo/src/io/array/mod.rs:229-250. -/
instance : Reader VecReader where
  read := read
  readAll := readAll
  skip := skip
  skipU64 := defaultSkipU64 skip
  readAll_len := readAll_len

end VecReader

/-- `struct VecWriter`, /repo/src/io/array/mod.rs:350-354.  `vector` is what `as_slice`, `vec` and `into` return
(/repo/src/io/array/mod.rs:305-312, 396-398), `offset` what `get_offset` returns (/repo/src/io/array/mod.rs:262-264),
`readOnly` what `is_read_only` returns (/repo/src/io/array/mod.rs:277-279); `as_writer` is the writer itself
(/repo/src/io/array/mod.rs:340-342). -/
structure VecWriter where
  vector : Bytes
  offset : Nat
  readOnly : Bool
  deriving Repr, DecidableEq

/-- `Vec::resize(new_len, 0)`. -/
def resizeZ (v : Bytes) (n : Nat) : Bytes := v.take n ++ List.replicate (n - v.length) 0

/-- `v[a..b].copy_from_slice(buff)` with `b = a + buff.len()`; out of bounds is a panic (`none`). -/
def copyInto (v : Bytes) (a : Nat) (buff : Bytes) : Option Bytes :=
  if a + buff.length ≤ v.length then some (v.take a ++ buff ++ v.drop (a + buff.length)) else none

/-- `write` of `basevecwriter_writer_impl!`, /repo/src/io/array/mod.rs:318-327, on (vector, offset, read_only); the
test of `readOnly` is `can_write`, /repo/src/io/array/mod.rs:296-302. -/
def vecWrite (value : Byte) (vector : Bytes) (offset : Nat) (readOnly : Bool) :
    Res IoErr Unit × Bytes × Nat :=
  if readOnly then (.err .unableToWriteData, vector, offset)
  else if offset = vector.length then (.ok (), vector ++ [value], offset + 1)
  else if offset < vector.length then (.ok (), vector.set offset value, offset + 1)
  else (.panic, vector, offset)

/-- `write_all` of `basevecwriter_writer_impl!`, /repo/src/io/array/mod.rs:329-338. -/
def vecWriteAll (buff : Bytes) (vector : Bytes) (offset : Nat) (readOnly : Bool) :
    Res IoErr Unit × Bytes × Nat :=
  if readOnly then (.err .unableToWriteData, vector, offset)
  else
    let newOffset := offset + buff.length
    let vector' := if newOffset > vector.length then resizeZ vector newOffset else vector
    match copyInto vector' offset buff with
    | some v => (.ok (), v, newOffset)
    | none => (.panic, vector', offset)

namespace VecWriter

/-- `VecWriter::new` / `with_capacity` / `default`, /repo/src/io/array/mod.rs:359-378, 387-391. -/
def new : VecWriter := ⟨[], 0, false⟩
/-- `set_offset`, /repo/src/io/array/mod.rs:272-274. -/
def setOffset (w : VecWriter) (offset : Nat) : VecWriter := { w with offset := min offset w.vector.length }
/-- `set_read_only`, /repo/src/io/array/mod.rs:285-287. -/
def setReadOnly (w : VecWriter) (b : Bool) : VecWriter := { w with readOnly := b }

/-- `write`, /repo/src/io/array/mod.rs:318-327,383-385. -/
def write (value : Byte) : Act IoErr VecWriter Unit := fun w =>
  match vecWrite value w.vector w.offset w.readOnly with
  | (r, v, o) => (r, { w with vector := v, offset := o })
/-- `write_all`, /repo/src/io/array/mod.rs:329-338,383-385. -/
def writeAll (buff : Bytes) : Act IoErr VecWriter Unit := fun w =>
  match vecWriteAll buff w.vector w.offset w.readOnly with
  | (r, v, o) => (r, { w with vector := v, offset := o })

instance : Writer VecWriter where
  write := write
  writeAll := writeAll

end VecWriter

/-- `struct BorrowedVecWriter`, /repo/src/io/array/mod.rs:411-416. -/
structure BorrowedVecWriter where
  vector : Bytes
  initialOffset : Nat
  offset : Nat
  readOnly : Bool
  deriving Repr, DecidableEq

namespace BorrowedVecWriter

/-- `with_offset`, /repo/src/io/array/mod.rs:435-443. -/
def withOffset (vector : Bytes) (offset : Nat) : BorrowedVecWriter :=
  ⟨vector, min offset vector.length, min offset vector.length, false⟩
/-- `new`, /repo/src/io/array/mod.rs:424-426. -/
def new (vector : Bytes) : BorrowedVecWriter := withOffset vector 0
/-- `set_offset`, /repo/src/io/array/mod.rs:272-274. -/
def setOffset (w : BorrowedVecWriter) (offset : Nat) : BorrowedVecWriter :=
  { w with offset := min offset w.vector.length }
/-- `set_read_only`, /repo/src/io/array/mod.rs:285-287. -/
def setReadOnly (w : BorrowedVecWriter) (b : Bool) : BorrowedVecWriter := { w with readOnly := b }
/-- `bytes_written`, /repo/src/io/array/mod.rs:448-450: `usize` subtraction; an underflow panics in checked
builds and wraps in release builds. -/
def bytesWritten (m : ArithMode) (w : BorrowedVecWriter) : Res IoErr Nat :=
  if w.initialOffset ≤ w.offset then .ok (w.offset - w.initialOffset)
  else match m with
    | .checked => .panic
    | .wrapping => .ok (w.offset + 2 ^ 64 - w.initialOffset)

/-- `write`, /repo/src/io/array/mod.rs:318-327,453-455. -/
def write (value : Byte) : Act IoErr BorrowedVecWriter Unit := fun w =>
  match vecWrite value w.vector w.offset w.readOnly with
  | (r, v, o) => (r, { w with vector := v, offset := o })
/-- `write_all`, /repo/src/io/array/mod.rs:329-338,453-455. -/
def writeAll (buff : Bytes) : Act IoErr BorrowedVecWriter Unit := fun w =>
  match vecWriteAll buff w.vector w.offset w.readOnly with
  | (r, v, o) => (r, { w with vector := v, offset := o })

instance : Writer BorrowedVecWriter where
  write := write
  writeAll := writeAll

end BorrowedVecWriter

/-- `struct ByteArrayWriter`, /repo/src/io/array/mod.rs:464-467.  `offset` is what `get_offset` returns
(/repo/src/io/array/mod.rs:483-485); `as_writer` is the writer itself (/repo/src/io/array/mod.rs:527-529). -/
structure ByteArrayWriter where
  array : Bytes
  offset : Nat
  deriving Repr, DecidableEq

namespace ByteArrayWriter

/-- `new`, /repo/src/io/array/mod.rs:474-476. -/
def new (array : Bytes) : ByteArrayWriter := ⟨array, 0⟩
/-- `set_offset`, /repo/src/io/array/mod.rs:493-495. -/
def setOffset (w : ByteArrayWriter) (offset : Nat) : ByteArrayWriter :=
  { w with offset := min offset w.array.length }
/-- `available`, /repo/src/io/array/mod.rs:499-501. -/
def available (w : ByteArrayWriter) : Nat := w.array.length - w.offset
/-- `can_write`, /repo/src/io/array/mod.rs:503-509. -/
def canWrite (w : ByteArrayWriter) (len : Nat) : Res IoErr Unit :=
  if w.available ≥ len then .ok () else .err .unableToWriteData

/-- `write`, /repo/src/io/array/mod.rs:513-518. -/
def write (value : Byte) : Act IoErr ByteArrayWriter Unit := fun w =>
  match w.canWrite 1 with
  | .ok () =>
    if w.offset < w.array.length then
      (.ok (), { array := w.array.set w.offset value, offset := w.offset + 1 })
    else (.panic, w)
  | .err e => (.err e, w)
  | .panic => (.panic, w)
  | .diverge => (.diverge, w)

/-- `write_all`, /repo/src/io/array/mod.rs:520-525. -/
def writeAll (buff : Bytes) : Act IoErr ByteArrayWriter Unit := fun w =>
  match w.canWrite buff.length with
  | .ok () =>
    match copyInto w.array w.offset buff with
    | some a => (.ok (), { array := a, offset := w.offset + buff.length })
    | none => (.panic, w)
  | .err e => (.err e, w)
  | .panic => (.panic, w)
  | .diverge => (.diverge, w)

instance : Writer ByteArrayWriter where
  write := write
  writeAll := writeAll

end ByteArrayWriter
end Verif
