import Verif.Model.Deser
import Verif.Model.StdIo
/-!
# `read_all` with the caller's buffer

In `Verif.Model.Io` a failed `read_all` returns no bytes.  Here the buffer is part of the state, so that its content
after a failure is modelled too.  The state of an action is the buffer together with the reader.
-/
namespace Verif

/-- `Reader::read_all(&mut self, buff: &mut [u8])`, /repo/src/io/mod.rs:94-99, with the buffer. -/
class BufReader (σ : Type) [Reader σ] where
  readInto : Act IoErr (Bytes × σ) Unit

/-- Default `read_all`, /repo/src/io/mod.rs:94-99: `for b in buff { *b = self.read()?; }`. -/
def defaultReadInto {σ : Type} (read : Act IoErr σ Byte) : Bytes → σ → Res IoErr Unit × (Bytes × σ)
  | [], s => (.ok (), ([], s))
  | old :: buf, s =>
    match read s with
    | (.ok b, s₁) =>
      match defaultReadInto read buf s₁ with
      | (r, (buf', s₂)) => (r, (b :: buf', s₂))
    | (.err e, s₁) => (.err e, (old :: buf, s₁))
    | (.panic, s₁) => (.panic, (old :: buf, s₁))
    | (.diverge, s₁) => (.diverge, (old :: buf, s₁))

/-- A reader with only `read` given. -/
instance {σ : Type} [ReadByte σ] : BufReader (ByRead σ) where
  readInto := fun p => defaultReadInto ByRead.read p.1 p.2

/-- `LimitedReader::read_all`, /repo/src/io/mod.rs:288-295. -/
def Limited.readInto {σ : Type} [Reader σ] [BufReader σ] : Act IoErr (Bytes × Limited σ) Unit := fun p =>
  match p.2.canRead p.1.length with
  | .ok () =>
    match BufReader.readInto (p.1, p.2.source) with
    | (ret, (buf, s)) => (ret, (buf, ⟨s, if ret.isOk then p.2.available - p.1.length else p.2.available⟩))
  | .err e => (.err e, p)
  | .panic => (.panic, p)
  | .diverge => (.diverge, p)

instance {σ : Type} [Reader σ] [BufReader σ] : BufReader (Limited σ) where
  readInto := Limited.readInto

/-- `ByteArrayReader::read_all`, /repo/src/io/array/mod.rs:148-153: `copy_from_slice` fills the whole buffer. -/
def ByteArrayReader.readInto : Act IoErr (Bytes × ByteArrayReader) Unit := fun p =>
  match p.2.canRead p.1.length with
  | .ok () =>
    if p.2.offset + p.1.length ≤ p.2.array.length then
      (.ok (), ((p.2.array.drop p.2.offset).take p.1.length, { p.2 with offset := p.2.offset + p.1.length }))
    else (.panic, p)
  | .err e => (.err e, p)
  | .panic => (.panic, p)
  | .diverge => (.diverge, p)

instance : BufReader ByteArrayReader where
  readInto := ByteArrayReader.readInto

/-- `VecReader::read_all`, /repo/src/io/array/mod.rs:237-243. -/
def VecReader.readInto : Act IoErr (Bytes × VecReader) Unit := fun p =>
  match p.2.canRead p.1.length with
  | .ok () =>
    let newOffs := p.2.offset + p.1.length
    if newOffs ≤ p.2.vector.length then
      (.ok (), ((p.2.vector.take newOffs).drop p.2.offset, { p.2 with offset := newOffs }))
    else (.panic, p)
  | .err e => (.err e, p)
  | .panic => (.panic, p)
  | .diverge => (.diverge, p)

instance : BufReader VecReader where
  readInto := VecReader.readInto

/-- `std::io::Read::read_exact` (std, `default_read_exact`) with the buffer: each `read` stores what it delivers behind
what is already there.  Simplification: a source that overrides `read_exact` (`&[u8]`, `Cursor`) or whose `read` scribbles
beyond what it reports may leave something else in the buffer when it fails; std leaves that unspecified. -/
def readExactInto (data : Bytes) : List ReadEv → Bytes → Res StdErr Unit × Bytes × Bytes × List ReadEv
  | sched, [] => (.ok (), [], data, sched)
  | [], x :: buf =>
    if buf.length + 1 ≤ data.length then (.ok (), data.take (buf.length + 1), data.drop (buf.length + 1), [])
    else (.err .unexpectedEof, data ++ (x :: buf).drop data.length, [], [])
  | .error e :: sched, x :: buf =>
    if e = .interrupted then readExactInto data sched (x :: buf) else (.err e, x :: buf, data, sched)
  | .chunk k :: sched, x :: buf =>
    let c := data.take (min k (buf.length + 1))
    if c.isEmpty then (.err .unexpectedEof, x :: buf, data, sched)
    else
      match readExactInto (data.drop c.length) sched ((x :: buf).drop c.length) with
      | (r, buf', d, s) => (r, c ++ buf', d, s)

/-- `ReadReader::read_all`, /repo/src/io/std_io/mod.rs:116-121. -/
def ReadReader.readInto : Act IoErr (Bytes × ReadReader) Unit := fun p =>
  match readExactInto p.2.data p.2.sched p.1 with
  | (r, buf, d, sc) => (r.mapErr .ioError, (buf, ⟨d, sc⟩))

instance : BufReader ReadReader where
  readInto := ReadReader.readInto

/-- `read_all` of `T: Read + Seek`, /repo/src/io/std_io/mod.rs:180-185. -/
def SeekStream.readInto {m : ArithMode} : Act IoErr (Bytes × SeekStream m) Unit := fun p =>
  match readExactInto (p.2.content.drop p.2.pos.toNat) p.2.reads p.1 with
  | (r, buf, d, sc) =>
    (r.mapErr fun _ => .unableToReadData,
      (buf, { p.2 with
        pos := p.2.pos + UInt64.ofNat ((p.2.content.drop p.2.pos.toNat).length - d.length), reads := sc }))

instance {m : ArithMode} : BufReader (SeekStream m) where
  readInto := SeekStream.readInto

/-- `deserialize_bytes_into_vec`, /repo/src/tags/serialization/mod.rs:205-208,230-233,468-474: `resize`, then `read_all`
into the vector itself. -/
def deserializeBytesIntoVecExact [Env] {σ : Type} [Reader σ] [BufReader σ] (size : Nat) :
    Act TagErr (Bytes × σ) Unit := do
  Data.alloc 1 size
  modifySelf (resizeZ · size)
  tagIo BufReader.readInto

/-- `deserialize_value` of the types that read into a vector they keep: raw tags (tags/mod.rs:750-757), byte arrays and
big integers (tags/macros.rs:194-201) and big decimals (explicit/mod.rs:422-434).  The other types read into buffers of
their own, which the caller never sees. -/
def Atom.deserializeValueExact [Env] {P σ : Type} [TagPayload P] [Reader σ] [BufReader σ] (f : FactoryDeser P)
    (valueSize : Nat) (a : Atom P) : Act TagErr (Atom P × σ) Unit :=
  match a with
  | .raw id v => zoom (.raw id) v (deserializeBytesIntoVecExact valueSize)
  | .byteArray v => zoom .byteArray v (deserializeBytesIntoVecExact valueSize)
  | .bigInt v => zoom .bigInt v (deserializeBytesIntoVecExact valueSize)
  | .bigDec id _ v => do
    Act.guardE (4 ≤ valueSize) .corruptedData
    let scale ← onReader (tagIo Data.readI32)
    setSelf (.bigDec id scale v)
    zoom (.bigDec id scale) v (deserializeBytesIntoVecExact (valueSize - 4))
  | a => Atom.deserializeValue f valueSize a

end Verif
