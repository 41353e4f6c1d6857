import Verif.Model.Cursor
import Verif.Tests.Array
/-!
# The crate's own tests of `src/io/std_io`, run on the model (/repo/src/io/std_io/tests.rs)

The tests read from `std::io::Cursor`, with a std whose failed `read_exact` leaves the position.
-/
namespace Verif.Tests.StdIo
open Verif Verif.Tests.Array

/-- `Cursor::new(&bytes)`. -/
def cur (bs : Bytes) : Cursor := ⟨bs, 0, .stays⟩

/-- `test_readreader_new`, `test_readreader_read`. -/
example : (calls (List.replicate 11 Reader.read) (⟨cur (sample 10)⟩ : CursorReader)).1 =
    (sample 10).map .ok ++ [.err (.ioError .unexpectedEof)] := by decide +kernel

/-- `test_readreader_read_all`. -/
example : (calls ([0, 5, 4, 2, 1, 0, 1].map Reader.readAll) (⟨cur (sample 10)⟩ : CursorReader)).1 =
    [.ok [], .ok [0, 1, 2, 3, 4], .ok [5, 6, 7, 8], .err (.ioError .unexpectedEof), .ok [9], .ok [],
      .err (.ioError .unexpectedEof)] := by decide +kernel

/-- The same test fails with a std that moves to the end. -/
example : (calls ([0, 5, 4, 2, 1].map Reader.readAll) (⟨⟨sample 10, 0, .toEnd⟩⟩ : CursorReader)).1 =
    [.ok [], .ok [0, 1, 2, 3, 4], .ok [5, 6, 7, 8], .err (.ioError .unexpectedEof),
      .err (.ioError .unexpectedEof)] := by decide +kernel

/-- `test_writewriter_new`, `test_writewriter_write`. -/
example : calls ((sample 10).map Writer.write) (⟨[], []⟩ : WriteWriter) =
    (List.replicate 10 (.ok ()), ⟨sample 10, []⟩) := by decide +kernel

/-- `test_writewriter_write_all`. -/
example : calls ([[0], [1, 2, 3, 4, 5, 6, 7, 8], [9]].map Writer.writeAll) (⟨[], []⟩ : WriteWriter) =
    (List.replicate 3 (.ok ()), ⟨sample 10, []⟩) := by decide +kernel

/-- `test_reader_for_read_seek_read`. -/
example : (calls (List.replicate 5 Reader.read) (⟨cur [1, 2, 3, 4]⟩ : SeekCursor .checked)).1 =
    [.ok 1, .ok 2, .ok 3, .ok 4, .err .unableToReadData] := by decide +kernel

/-- `test_reader_for_read_seek_read_all`. -/
example :
    (calls ([4, 0, 1].map Reader.readAll) (⟨cur [1, 2, 3, 4]⟩ : SeekCursor .checked)).1 =
      [.ok [1, 2, 3, 4], .ok [], .err .unableToReadData] ∧
    (calls ([2, 2, 1].map Reader.readAll) (⟨cur [1, 2, 3, 4]⟩ : SeekCursor .checked)).1 =
      [.ok [1, 2], .ok [3, 4], .err .unableToReadData] ∧
    (calls ([5].map Reader.readAll) (⟨cur [1, 2, 3, 4]⟩ : SeekCursor .checked)).1 = [.err .unableToReadData] := by
  decide +kernel

/-- `read` with its byte dropped, to mix it with the skips. -/
def readUnit {σ : Type} [Reader σ] (b : Byte) : Act IoErr σ Unit := do
  let x ← Reader.read
  if x = b then pure () else Act.panic

/-- `test_reader_for_read_seek_skip`. -/
example :
    (calls [Reader.skip 2, readUnit 3, Reader.skip 1, Reader.skip 1] (⟨cur [1, 2, 3, 4]⟩ : SeekCursor .checked)).1 =
      [.ok (), .ok (), .ok (), .err .endOfData] ∧
    (Reader.skip 2 (⟨cur [1]⟩ : SeekCursor .checked)).1 = .err .unableToReadData := by decide +kernel

/-- `test_reader_for_read_seek_skip_u64`. -/
example :
    (calls [Reader.skipU64 2, readUnit 3, Reader.skipU64 1, Reader.skipU64 1] (⟨cur [1, 2, 3, 4]⟩ : SeekCursor .checked)).1
      = [.ok (), .ok (), .ok (), .err .endOfData] ∧
    (Reader.skipU64 2 (⟨cur [1]⟩ : SeekCursor .checked)).1 = .err .unableToReadData := by decide +kernel

/-- `test_writer_write_seek_write`. -/
example : calls ([1, 2, 3, 4].map Writer.write) ({ content := [], pos := 0 } : SeekStream .checked) =
    (List.replicate 4 (.ok ()), { content := [1, 2, 3, 4], pos := 4 }) := by decide +kernel

/-- `test_writer_write_seek_write_all`. -/
example : calls ([[1, 2, 3, 4]].map Writer.writeAll) ({ content := [], pos := 0 } : SeekStream .checked) =
    ([.ok ()], { content := [1, 2, 3, 4], pos := 4 }) := by decide +kernel

end Verif.Tests.StdIo
