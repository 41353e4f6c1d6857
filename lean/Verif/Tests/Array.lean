import Verif.Model.Array
/-!
# The crate's own tests of `src/io/array`, run on the model (/repo/src/io/array/tests.rs)
-/
namespace Verif.Tests.Array
open Verif

/-- `fill_sample`, /repo/src/tests.rs:34-38. -/
def sample (n : Nat) : Bytes := (List.range n).map UInt8.ofNat

/-- Calls one after another, going on after errors. -/
def calls {ε σ α : Type} : List (Act ε σ α) → σ → List (Res ε α) × σ
  | [], s => ([], s)
  | x :: xs, s =>
    match x s with
    | (r, s') => match calls xs s' with
      | (rs, s'') => (r :: rs, s'')

/-- `test_memoryreader`. -/
example : assertCanRead 0 0 = .ok () ∧ assertCanRead 0 3 = .err .endOfData ∧ assertCanRead 2 0 = .ok () ∧
    assertCanRead 2 1 = .ok () ∧ assertCanRead 2 2 = .ok () ∧ assertCanRead 2 3 = .err .unableToReadData := by
  decide +kernel

/-- `test_bytearrayreader_new`, `_as_slice`, `_get_set_offset`. -/
example : (ByteArrayReader.new (sample 8)).offset = 0 ∧ (ByteArrayReader.new (sample 8)).array = sample 8 ∧
    (List.range 9).all (fun i => ((ByteArrayReader.new (sample 8)).setOffset i).offset == i) = true ∧
    ((ByteArrayReader.new (sample 8)).setOffset 9).offset = 8 ∧
    ((ByteArrayReader.new (sample 8)).setOffset usizeMax64).offset = 8 := by decide +kernel

/-- `test_bytearrayreader_available`, `_can_read`, `_reader_read`. -/
example : (List.range 9).all (fun i =>
      let o := calls (List.replicate i (Reader.read : Act IoErr ByteArrayReader Byte)) (ByteArrayReader.new (sample 8))
      o.2.available == 8 - i && o.1 == (sample i).map .ok) = true ∧
    ((calls (List.replicate 9 (Reader.read : Act IoErr ByteArrayReader Byte)) (ByteArrayReader.new (sample 8))).1.getLast?)
      = some (.err .endOfData) ∧
    (List.range 9).all (fun n => (ByteArrayReader.new (List.replicate 8 0)).canRead n = .ok ()) = true ∧
    (ByteArrayReader.new (List.replicate 8 0)).canRead 10 = .err .unableToReadData := by decide +kernel

/-- `test_bytearrayreader_reader_readall`: 0, 1, 2, 3, 4, 5 and then the 5 that are left. -/
example : calls ([0, 1, 2, 3, 4, 5, 5].map fun n => (Reader.readAll n : Act IoErr ByteArrayReader Bytes))
      (ByteArrayReader.new (sample 20)) =
    ([.ok [], .ok [0], .ok [1, 2], .ok [3, 4, 5], .ok [6, 7, 8, 9], .ok [10, 11, 12, 13, 14], .ok [15, 16, 17, 18, 19]],
      ⟨sample 20, 20⟩) := by decide +kernel

/-- `test_bytearrayreader_skip`. -/
example : calls ([0, 1, 2, 3, 4, 5, 6, 5, 0, 1].map fun n => (Reader.skip n : Act IoErr ByteArrayReader Unit))
      (ByteArrayReader.new (sample 20)) =
    ([.ok (), .ok (), .ok (), .ok (), .ok (), .ok (), .err .unableToReadData, .ok (), .ok (), .err .endOfData],
      ⟨sample 20, 20⟩) := by decide +kernel

/-- `test_vecreader_new`, `_get_vec`, `_get_set_offset`. -/
example : (VecReader.new (sample 20)).offset = 0 ∧ (VecReader.new (sample 20)).vector = sample 20 ∧
    (List.range 21).all (fun i => ((VecReader.new (sample 20)).setOffset i).offset == i) = true ∧
    ((VecReader.new (sample 20)).setOffset 21).offset = 20 ∧
    ((VecReader.new (sample 20)).setOffset usizeMax64).offset = 20 := by decide +kernel

/-- `test_vecreader_available`, `_can_read`, `_reader_read`. -/
example : (List.range 9).all (fun i =>
      let o := calls (List.replicate i (Reader.read : Act IoErr VecReader Byte)) (VecReader.new (sample 8))
      o.2.available == 8 - i && o.1 == (sample i).map .ok) = true ∧
    ((calls (List.replicate 9 (Reader.read : Act IoErr VecReader Byte)) (VecReader.new (sample 8))).1.getLast?)
      = some (.err .endOfData) ∧
    (List.range 9).all (fun n => (VecReader.new (List.replicate 8 0)).canRead n = .ok ()) = true ∧
    (VecReader.new (List.replicate 8 0)).canRead 10 = .err .unableToReadData := by decide +kernel

/-- `test_vecreader_reader_readall`. -/
example : calls ([0, 1, 2, 3, 4, 5, 5].map fun n => (Reader.readAll n : Act IoErr VecReader Bytes))
      (VecReader.new (sample 20)) =
    ([.ok [], .ok [0], .ok [1, 2], .ok [3, 4, 5], .ok [6, 7, 8, 9], .ok [10, 11, 12, 13, 14], .ok [15, 16, 17, 18, 19]],
      ⟨sample 20, 20⟩) := by decide +kernel

/-- `test_vecreader_skip`. -/
example : calls ([0, 1, 2, 3, 4, 5, 6, 5, 0, 1].map fun n => (Reader.skip n : Act IoErr VecReader Unit))
      (VecReader.new (sample 20)) =
    ([.ok (), .ok (), .ok (), .ok (), .ok (), .ok (), .err .unableToReadData, .ok (), .ok (), .err .endOfData],
      ⟨sample 20, 20⟩) := by decide +kernel

/-- `test_vecwriter_new`, `_get_set_read_only`, `_can_write`. -/
example : VecWriter.new = ⟨[], 0, false⟩ ∧ (VecWriter.new.setReadOnly true).readOnly = true ∧
    ((VecWriter.new.setReadOnly true).setReadOnly false).readOnly = false ∧
    (Writer.write 1 VecWriter.new).1 = .ok () ∧
    (Writer.write 1 (VecWriter.new.setReadOnly true)).1 = .err .unableToWriteData ∧
    (Writer.write 1 ((VecWriter.new.setReadOnly true).setReadOnly false)).1 = .ok () := by decide +kernel

/-- `test_vecwriter_as_slice`, `_get_vec`, `_writer_write`. -/
example : calls ((sample 10).map (Writer.write : Byte → Act IoErr VecWriter Unit)) VecWriter.new =
    (List.replicate 10 (.ok ()), ⟨sample 10, 10, false⟩) := by decide +kernel

/-- `test_vecwriter_writer_write_all`. -/
example : calls [(Writer.writeAll (sample 8) : Act IoErr VecWriter Unit), Writer.writeAll (sample 8)] VecWriter.new =
    ([.ok (), .ok ()], ⟨sample 8 ++ sample 8, 16, false⟩) := by decide +kernel

/-- `test_borrowedvecwriter_new`. -/
example : BorrowedVecWriter.new [] = ⟨[], 0, 0, false⟩ ∧
    (BorrowedVecWriter.new []).bytesWritten .checked = .ok 0 ∧
    (BorrowedVecWriter.withOffset [0, 1] 1).offset = 1 ∧
    (BorrowedVecWriter.withOffset [0, 1] 1).bytesWritten .checked = .ok 0 ∧
    (BorrowedVecWriter.withOffset [0, 1] 1000).offset = 2 ∧
    (BorrowedVecWriter.withOffset [0, 1] 1000).bytesWritten .checked = .ok 0 := by decide +kernel

/-- `test_borrowedvecwriter_get_set_read_only`, `_can_write`. -/
example : ((BorrowedVecWriter.new []).setReadOnly true).readOnly = true ∧
    (Writer.write 1 (BorrowedVecWriter.new [])).1 = .ok () ∧
    (Writer.write 1 ((BorrowedVecWriter.new []).setReadOnly true)).1 = .err .unableToWriteData ∧
    (Writer.write 1 (((BorrowedVecWriter.new []).setReadOnly true).setReadOnly false)).1 = .ok () := by decide +kernel

/-- `test_borrowedvecwriter_get_vec`, `_writer_write`: to an empty vector and appending. -/
example : (List.range 9).all (fun k =>
    (calls ((sample k).map (Writer.write : Byte → Act IoErr BorrowedVecWriter Unit)) (BorrowedVecWriter.new [])).2.bytesWritten
      .checked = .ok k &&
    (calls ((sample k).map (Writer.write : Byte → Act IoErr BorrowedVecWriter Unit))
      (BorrowedVecWriter.withOffset [0xFF] 1)).2.bytesWritten .checked = .ok k) = true ∧
    (calls ((sample 8).map (Writer.write : Byte → Act IoErr BorrowedVecWriter Unit)) (BorrowedVecWriter.new [])).2.vector
      = sample 8 ∧
    (calls ((sample 8).map (Writer.write : Byte → Act IoErr BorrowedVecWriter Unit))
      (BorrowedVecWriter.withOffset [0xFF] 1)).2.vector = 0xFF :: sample 8 := by decide +kernel

/-- `test_borrowedvecwriter_writer_write_all`: on an empty vector, and on one of ten zeros. -/
example : ([[], List.replicate 10 0] : List Bytes).all (fun v =>
    calls [(Writer.writeAll (sample 8) : Act IoErr BorrowedVecWriter Unit), Writer.writeAll (sample 8)]
        (BorrowedVecWriter.new v) = ([.ok (), .ok ()], ⟨sample 8 ++ sample 8, 0, 16, false⟩) &&
    (Writer.writeAll (sample 8) (BorrowedVecWriter.new v)).2.bytesWritten .checked = .ok 8) = true := by decide +kernel

/-- `test_bytearraywriter_impl_new`, `_impl_offset_available`. -/
example : ([0, 1, 16, 17].map fun o => (((ByteArrayWriter.new (List.replicate 16 0)).setOffset o).offset,
      ((ByteArrayWriter.new (List.replicate 16 0)).setOffset o).available)) = [(0, 16), (1, 15), (16, 0), (16, 0)] := by
  decide +kernel

/-- `test_bytearraywriter_impl_can_write`. -/
example : ([(0, 0), (0, 1), (0, 16), (0, 17), (10, 0), (10, 1), (10, 6), (10, 7), (16, 0), (16, 7)].map fun p =>
      ((ByteArrayWriter.new (List.replicate 16 0)).setOffset p.1).canWrite p.2) =
    [.ok (), .ok (), .ok (), .err .unableToWriteData, .ok (), .ok (), .ok (), .err .unableToWriteData, .ok (),
      .err .unableToWriteData] := by decide +kernel

/-- `test_bytearraywriter_writer_write`. -/
example : calls (((sample 16) ++ [17]).map (Writer.write : Byte → Act IoErr ByteArrayWriter Unit))
      (ByteArrayWriter.new (List.replicate 16 0)) =
    (List.replicate 16 (.ok ()) ++ [.err .unableToWriteData], ⟨sample 16, 16⟩) := by decide +kernel

/-- `test_bytearraywriter_writer_all`. -/
example : calls ([[0], [1, 2, 3, 4], [5, 6, 7, 8, 9, 10, 11, 12, 13, 14, 15], [0]].map
      (Writer.writeAll : Bytes → Act IoErr ByteArrayWriter Unit)) (ByteArrayWriter.new (List.replicate 16 0)) =
    ([.ok (), .ok (), .ok (), .err .unableToWriteData], ⟨sample 16, 16⟩) := by decide +kernel

end Verif.Tests.Array
