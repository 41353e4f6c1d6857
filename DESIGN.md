# Formal model of il2-iltags in Lean 4: design

## Shape of the model

The model follows the Rust code function by function. Each definition cites the file and
lines it models. Under `lean/Verif`:

| Lean module | Rust source |
|---|---|
| `Basic` | outcomes (`Ok`/`Err`/panic/no return), error enums, state-passing actions |
| `Model/Io` | `src/io/mod.rs` (Reader, Writer, default methods, LimitedReader) |
| `Model/ILInt` | `src/ilint/mod.rs` |
| `Model/Array` | `src/io/array/mod.rs` |
| `Model/StdIo` | `src/io/std_io/mod.rs`, and what it uses of `std::io` (`read_exact`, `write_all`, `seek`) |
| `Model/Data` | `src/io/data/mod.rs`, `src/tags/serialization/mod.rs` |
| `Model/Fields` | the extension traits of `src/io/data/mod.rs` and `src/tags/serialization/mod.rs` |
| `Model/Tag` | tag types, sizes, serialization: `src/tags/mod.rs`, `macros.rs`, `standard/implicit`, `standard/explicit`, `payload` |
| `Model/Size` | the same sizes in either arithmetic mode (overflow panics or wraps) |
| `Model/Modes` | `serialize`, `to_bytes`, `iltag_are_equal` and clone in either arithmetic mode |
| `Model/Deser` | `deserialize_value` of every tag type |
| `Model/Factory` | creators, engine, `standard/factory`, `ILTagFactory::from_bytes` |
| `Model/Raw` | `src/tags/raw/mod.rs` |
| `Model/Util` | `src/tags/util/mod.rs`, downcasts |
| `Model/Dict` | the map methods of `ILDictTag` and `ILStrDictTag` |
| `Model/Construct` | constructors, getters and setters of the tag types |
| `Model/Cost` | sizes and serialization with a counter of `value_size` calls, proved equal to the originals |
| `Model/Buffer` | `read_all` of every reader with the caller's buffer |
| `Model/Cursor` | the adapters of `src/io/std_io/mod.rs` over `Cursor`, `&[u8]`, `Cursor<&mut [u8]>`, `&mut [u8]` |
| `Model/Width` | the conversions `u64 → usize` of `src/tags/raw/mod.rs` with the width as a parameter |
| `Model/PayloadSkip` | `skip` and `skip_u64` in the code of a payload |
| `Model/PayloadTypes` | several payload types and their downcasts |
| `Model/Requests` | the deserializers as explicit trees of reader calls and memory requests, proved equal to the originals |

`Spec/*` are specifications that do not refer to the functions of the model (they share only its data types):
the ILInt format over natural numbers, cursors and files, byte layout of tags, the grammar of accepted inputs,
maps by their history, what a well-behaved reader is, instruments (a watching reader, a counting reader). Where a property is about a program
that uses the API (`Spec/Access`, `Spec/Journal`, `Spec/Consumer`, `Spec/Log`) the program is there, too, and calls the model's API.
`Tests/*` are the crate's own unit tests, run on the model: they check the model against what its authors expect of
the code and prove no property. `Proof/*` are the lemmas. `Props/*` hold the property theorems, named `Cnn_*`, each with a non-vacuity `example`
beside it.

### Conventions

* `Result` = `Res ε α` with outcomes `ok`, `err`, `panic` and `diverge` (loop or recursion ran
  out of fuel). `panic` is used for every Rust panic we model: assertion, arithmetic overflow in
  checked builds, capacity overflow / failed allocation.
* `&mut self` / `&mut reader` become state passing: an action is `σ → Res ε α × σ`, and the state
  after an error is kept, so "what is left behind on failure" can be stated.
* `trait Reader` / `trait Writer` are Lean classes `Reader σ`, `Writer ω` over an arbitrary state
  type: the code is modelled generically, exactly as the Rust functions are generic over
  `dyn Reader`/`dyn Writer`. `LimitedReader` is a reader over any reader. The only law in the class is that a
  successful `read_all(buf)` fills the buffer, which the Rust type forces.
* "Well-behaved reader" is a `View`: a relation `R s bs` ("state `s` has exactly `bs` left")
  with the laws of `read`/`read_all`; `SkipView` adds those of `skip`. In-memory readers, chunked streams, limited
  readers and seekable sources are each shown to have one (the seekable source only a `View`, see findings).
  Theorems about readers quantify over all views, or over all readers without any law.
* `u64`, `i64`, ... are Lean's fixed-width types; `f32`/`f64` are bit patterns; `usize` lengths are `Nat`
  (64-bit platform; casts `usize → u64` are written out; `skip_u64` has `usize::MAX` as a
  parameter). `Model/Width` has the conversions `u64 → usize` again with the width as a parameter (C85).
* `String` is Lean's `String` (valid UTF-8 by construction); `String::from_utf8` is `String.fromUTF8?`.
* `HashMap` is an association list without duplicate keys in an arbitrary order: the list order *is* the
  iteration order, so independence from hash order is a theorem.
* Trait objects `Box<dyn ILTag>` are a closed inductive type `Tag P` of all tag types of the crate plus
  `payload id p` for user-defined payload types `P` (class `TagPayload`), whose deserialization code is an
  arbitrary program (`RProg`) of `read`, `read_all`, `factory.deserialize` and `factory.deserialize_into` calls
  and whose serialization is an arbitrary list of writer calls or an error.
* The process has a parameter `Env.allocMax`: the largest single allocation it can satisfy; a larger request panics.
* Recursion of `deserialize` is by fuel; `deserialize_rec` (Proof/Recursion) shows, for every reader, that it
  satisfies the recursive equation of the code, so the fuel never shows.

### Simplifications

* `value_size` sums wrap in `Model/Tag`, as in a release build; theorems about sizes assume the true length is below
  2^64. `Model/Size` and `Model/Modes` have both arithmetic modes; C111 says how they differ.
* `Reader.readAll` says nothing about the caller's buffer after a failed `read_all`; `Model/Buffer.lean` models it for
  every reader and C87 shows that the two agree in everything else. `std::io::Read::read_exact` is the default one
  except in `Model/Cursor`; other sources that override it may leave other bytes in the buffer when they fail.
* The capacity of vectors is not modelled: `reserve`/`resize` of a reused vector counts as a request for its full size.
* Payload programs do not allocate through the crate, and pass on every error of their reader (as `?` does);
  code that handles errors itself is `Model/Handler` (C113). `skip`
  and `skip_u64` on the `LimitedReader` they are given are programs of `read_all` calls (`Model/PayloadSkip`, C66).
* All payload types share one `Kind`; `Model/PayloadTypes` tells them apart in downcasts (C109).
* `sort_unstable` on distinct keys is insertion sort.
* Inner `value_size` helpers of structs are not counted separately in C73.
* The writers' vectors never fail to grow (`VecWriter`, `BorrowedVecWriter`); allocation failure is modelled where
  the size comes from the input.
* A seekable source is the default `read_exact` over a content and a position; `Model/Cursor` has the `read_exact` of
  `Cursor` and `&[u8]` (C88). Other sources that override it are not modelled.

### Which parts of the code are modelled

| File | Modelled | Not modelled |
|---|---|---|
| `src/ilint/mod.rs` | everything | |
| `src/io/mod.rs` | traits with default methods, `LimitedReader`, errors and their conversions | |
| `src/io/array/mod.rs` | all readers and writers, every operation | `as_slice`-like accessors and `Into` conversions (fields of the model's structures), capacity |
| `src/io/std_io/mod.rs` | everything | |
| `src/io/data/mod.rs` | everything (the several impls of a trait with the same body once) | |
| `src/tags/mod.rs` | `ILTag` provided methods, id classes, `ILRawTag`, creators, engine, `from_bytes`, downcasts | `Debug`, `Any` plumbing |
| `src/tags/macros.rs` | what the macros generate, per type | |
| `src/tags/standard/*` | every tag type with its constructors and setters, constants, factory | capacity |
| `src/tags/payload/mod.rs` | everything, over arbitrary payloads | |
| `src/tags/serialization/mod.rs` | everything (the several impls of a trait with the same body once) | |
| `src/tags/raw/mod.rs` | everything | |
| `src/tags/util/mod.rs` | everything | |
| `src/lib.rs` | | re-exports only |

Not modelled at all: wall-clock time, actual heap usage and stack size, `Debug` output, `PhantomData`, feature
flags, tests and benches, threads (the crate has no shared state; C102 and C103 have schedules of calls), user implementations of `ILTag` that
override provided methods or whose id changes (one that keeps the provided methods and its id does the same as an
`ILGenericPayloadTag` with that code, so `payload id p` stands for it).

### Findings

Behaviour of the code that the theorems establish and a user may not expect:

* Non-minimal ILInts are accepted (C10); the tag scanner computes offsets from the minimal size, so they drift (C58).
* `skip_u64` on a seekable source with a huge count goes *backwards* in release builds and panics in debug builds
  (C23, C60); a failed one leaves the position at the end (C23, C78).
* `LimitedReader::skip` of more than 512 bytes may consume before failing, against its documentation (C19); the
  default `read_all` consumes everything before failing, against its documentation (C71).
* `bytes_written` underflows after `set_offset` before the start (C16); `SizedSeek::available` past the end (C24).
* A failed `deserialize_into` leaves the tag partly overwritten (C48).
* A few bytes make `deserialize` request 512 MiB to 8 GiB at once (C63), and 8 GiB per 11 bytes of nesting (C76);
  recursion depth is linear in the input (C62) and, if entries of a dictionary are overwritten, greater than the levels
  of the tag that is read (C116); dropping a tag, which the compiler generates, nests as deep as its levels too; `size()` takes time exponential in the depth (C73).
* Dictionary entries that are overwritten must still be readable (C77, C79); dictionaries have no check of their
  count, but cannot be made to loop (C75).
* Serializing does not check the limit of 512 MiB: a longer tag is written without error, never read, and shuts off
  what is behind it in a file (C122).
* A `Read + Seek` source loses the cause of every read error (C78).
* `iltag_are_equal` is not reflexive on tags that fail to serialize (C53).
* `next_tag` never returns `Ok(None)` (C59).
* Where `usize` has 32 bits, `tag_slice` of a tag beyond 4 GiB returns unrelated bytes, and 11 bytes of input make
  the factory panic with a capacity overflow (C85).
* `ILRawTag::new` panics on implicit ids; a default creator registered under another id panics when used (C46).
* An i/o error does not mean that data is missing: a nested tag that runs over its container gives one whatever
  follows (C90), so a program that waits for more data on i/o errors waits forever (C94). `EndOfData` does not tell a
  cut log from one that ends properly, and a `serialize` that failed may have written the whole tag (C93).
* After an i/o error in the middle of a tag a new attempt on the same `ReadReader` may give a tag nobody wrote (C97);
  `serialize` again on the same `WriteWriter` after a failure may likewise be read back as other tags (C98).
* Payloads nested in a container whose wrong sizes make up for each other are read back as different content, and
  `iltag_are_equal` calls the two equal (C92).
* Bytes that are accepted but not canonical may contain bytes that do not matter, and one replaced byte in a log can
  turn a byte array into the tags its content spells (C106).
* Payloads that report huge sizes make a release build write a size field that has wrapped around, and a debug build
  panic with the id already written (C111).
* A payload that tries again after a failed read can read beyond its value on a source with passing faults (C113).
* What a tag that did not fit leaves behind the offset of a `ByteArrayWriter` can be read as a tag (C108).

## Trusted base

* Lean 4.33.0's kernel. `vcheck` replays every module through it.
* The axioms `propext`, `Classical.choice`, `Quot.sound` of Lean itself; no others. The table at the end of this
  file, made by `tools/gen_axioms.py` from `#print axioms`, says which theorem uses which.
* Lean's core library definitions that occur in statements (`UInt64`, `Int64`, `List`, `String`, ...).
* The faithfulness of the hand-written model to the Rust text, within the simplifications above.

No Mathlib module is imported. No `sorry`, `admit`, `axiom`, `native_decide`, `bv_decide` is used. `decide +kernel`
is used on concrete examples only; it is checked by the kernel.

## Wrong programs

`seeded/LOG.jsonl` has one line per edit of the model that was tried in a scratch copy: the definition, the edit, the
claims it falsifies, the declarations that stopped being accepted (`failed`), the property theorems that depend on
them, and the theorems that were added or tightened because the edit had survived.

## Plan per property

<!-- PLAN -->
- **C01** Model of encode over class Writer and decode over class Reader. Proof: arithmetic of big-endian digits; stated for every reader that has a View (see below).
- **C02** Direct from the encoder model and the specification of length.
- **C03** Spec/ILInt.lean gives the wire form over Nat (minimal byte count, big-endian digits); encoder = spec by case split on the eight thresholds.
- **C04** decode_from_bytes model with checked additions (overflow = panic value); iff-characterisation against big-endian value over Nat.
- **C05** Both decoder models related through View; equality of outcome for every byte string.
- **C06** From the wire form: first byte determines the length; then list lemmas; induction on lists of values.
- **C07** Nat inequalities on thresholds; lexicographic order via first byte then equal-length big-endian comparison.
- **C08** Int64/UInt64 shifts modelled literally; proof by BitVec/Int arithmetic.
- **C09** From C01+C08 and monotonicity.
- **C10** From C04; negation of uniqueness with witness and partial uniqueness for v < 248.
- **C11** Cursor specification (data, position) with an interpreter of operation histories; simulation by induction on the history.
- **C12** Bisimulation over histories.
- **C13** Induction on the chunk loop; usize::MAX is a parameter of skip_u64.
- **C14** File-with-cursor specification; simulation by induction on the history.
- **C15** Induction on the buffer.
- **C16** Invariant over histories of write/write_all; underflow witness after set_offset.
- **C17** Invariant over histories.
- **C18** Arbitrary Reader instance (no laws); invariant consumed + available = limit by induction on histories.
- **C19** Positive lemmas for read/read_all/short skip, negation with a 600/700 witness for skip.
- **C20** View of the source.
- **C21** std Read modelled as data + schedule of (chunk size | Interrupted); read_exact loop; induction on schedule; yields a View so every reader theorem applies.
- **C22** std Write modelled as a schedule of answers; exact characterisation.
- **C23** Cursor-like seekable source (content, position as u64); arithmetic mode checked/wrapping as parameter.
- **C24** Same source model.
- **C25** Models of read_*/write_* over View / writer trace; one generic big-endian lemma.
- **C26** Rust String = Lean String (UTF-8 validated bytes); from_utf8 = String.fromUTF8?.
- **C27** Direct.
- **C28** Structural induction on tags against Spec bytes; wrapping u64 sums shown equal to the Nat sums; checked variant shown not to panic.
- **C29** Spec/Tag.lean defines the byte layout independently; serialize is shown to perform, on every writer, a trace of writes whose concatenation is that layout.
- **C30** Induction on tags, for every reader with a View; engine conditions stated as: the creator registered for each (nested) id produces that type. Result is the tag with dictionaries in sorted order, which is the same map.
- **C31** Stream form of C30, then induction on the list.
- **C32** From C31.
- **C33** List-level parser: success is stable under extension.
- **C34** Same stability lemma: if a proper prefix were accepted, the longer input would leave a remainder.
- **C35** Soundness: every accepted input yields a tag satisfying the round-trip conditions and length(re-encoding) <= length(input).
- **C36** Fuel-based model; fuel shown sufficient for every reader (limit strictly decreases); panic shown unreachable through the list-level parser.
- **C37** Allocation limit is a parameter (allocMax); exceeding it is a panic value; theorem: no panic when allocMax >= 16*512MiB.
- **C38** HashMap = duplicate-free association list in arbitrary order; sort produces the unique sorted permutation.
- **C39** Sortedness of output keys; lookup after inserting a list of entries = last occurrence.
- **C40** Byte equality by induction; cross-deserialization.
- **C41** Value encoders equal; deserializers equal.
- **C42** Engine model + factory model.
- **C43** Instance of C30 for raw tags.
- **C44** History of register/deregister interpreted against a function-update specification.
- **C45** Table by case split over ids.
- **C46** Invariant: deserialize_value preserves id and type.
- **C47** deserialize_value result does not depend on prior content when it succeeds.
- **C48** Direct + invariant + witness of partial overwrite.
- **C49** Arbitrary payload programs over LimitedReader; invariant by induction on programs.
- **C50** Direct from factory model.
- **C51** Direct from tag models, any reader.
- **C52** Equality of traces/results.
- **C53** Equality of bytes + C32.
- **C54** C30 + from_bytes.
- **C55** Tag model splits atoms (no factory argument at all) from containers; stated on the dispatching function for arbitrary factories including the panicking one.
- **C56** Induction on the list of tags.
- **C57** Soundness lemma of both on the same View.
- **C58** Negation with witness and iff-characterisation.
- **C59** Case analysis.
- **C60** Seekable source model with wrapping mode; explicit cyclic witness; positive theorem under no-overflow hypothesis.
- **C61** List take/drop arithmetic.
- **C62** Family of inputs by induction on depth; fuel lower bound = number of nested calls; upper bound by measure.
- **C63** Witness family with allocMax parameter.
- **C64** Fault-injecting reader; error provenance invariant.
- **C65** Both equal to the list-level parser.
- **C66** C30 with abstract payload class and law hypothesis.
- **C67** Case analysis over type tags (Kind).
- **C68** Trace of writes folded over ByteArrayWriter.
- **C69** Trace of writes over arbitrary writer.
- **C70** Direct from model.
- **C71** A type class with `read` only, the trait's default methods on top; refinement of the list reader by induction on the count.
- **C72** A type class with `write` only; induction over the bytes of each call.
- **C73** The size and serialization functions once more with a call counter, proved equal to the originals; recurrence on nesting for the lower bound, structural induction for the upper bound; the exact count is a sum over the tags weighed by the explicit tags around them (Spec/Weigh), by structural induction.
- **C74** The map operations of the two dictionary types on an association list; a history is an inductive relation that permits any reordering after each call; the answers are compared with a look-up in the list of calls, newest first.
- **C75** A counting reader around any reader; a potential (calls minus twice the bytes) composed over every step of every deserializer, by induction on nesting; counting proved transparent.
- **C76** The deserializers written as explicit trees of reader calls and memory requests (Model/Requests), proved to be the code for every reader and amount of memory; a potential (rate per byte delivered minus requests) over every path of the tree, instantiated twice; the nested-array family by induction on the depth.
- **C77** Grammar as a relation between tags and bytes (Spec/Grammar), independent of the model; every list-level parser shown to accept exactly its clause (Proof/Grammar), induction on depth; maps as a separate relation (last occurrence wins), closed under reordering (Proof/Language).
- **C78** Schedules of the underlying stream as lists of events; induction on the events before the failing one; seeks stepped one by one.
- **C79** Relation between two computations: equal, or the first reports an unknown tag; closed under every construct of the model (Proof/Agree); induction on the depth.
- **C80** Each type's codec (C25, C26, ILInt) as one interface: accepts its encodings, only those, fails on strict prefixes; induction on the list of fields.
- **C81** Objects with constructors and setters (Model/Construct); the fold of a history equals the last assignment, by induction on the history.
- **C82** Ex n m (Proof/Nested): an action needs n bytes and no limit of n or more shows; composed over the value deserializers. The language half from the parser characterisation of C77, the round trip from that of C30. For customised factories the characterisation of C114 takes the place of that of C77.
- **C83** Deserializers are trees of reader calls (Spec/Prog); nested limits by induction on the tree, skip by induction on the count.
- **C84** The caller's program (Spec/Access): induction on the path from the positions of C56, the mapping of C61 and the round trip of C30.
- **C85** The conversions with the width as a parameter (Model/Width); arithmetic modulo 2^bits; the panic from C63 with 8 bytes per ILInt.
- **C86** Spec/Utf8: the rows of Table 3-7 as an inductive predicate; every row is the encoding of a character and conversely (arithmetic); order by comparing encodings of two characters.
- **C87** read_all once more with the buffer in the state (Model/Buffer), for every reader; same result and reader as readAll by induction over the buffer or the schedule; then the vector and the tags.
- **C88** Cursor as content, position and what a failed read_exact does (Model/Cursor); direct computation, a View for both adapters, then C65; skips equal to those of the seekable stream.
- **C89** Fixed destination as content and position; every call writes what fits; induction over the calls of serialization (C69).
- **C90** The parser that models `deserialize` (C65) depends only on what it consumes (`Local`); `limited n` looks at the first n bytes only once they are there. Negation with witness for i/o errors.
- **C91** The offset that the caller of C84 finds is pinned to the position of the tag in the serialized form (`startOf`); a replacement of the same length keeps all headers; C68 for the writing.
- **C92** `Props/Lying`: no assumption on payloads. The calls of `serialize_value` are a fixed list with a fixed result for every writer, so `to_bytes` is header ++ what the value writes; the layout of what any faithful factory accepts then forces the length. The counterexample for nested tags is a concrete sequence, checked by the kernel.
- **C93** `Spec/Journal`: what a writer that may fail still promises (its content grows by a prefix of the data of each call, by all of it on success); `WriteWriter` over every schedule and `ByteArrayWriter` are instances. From C69 what a sequence of `serialize` calls leaves is a prefix of the encodings; induction on the list with C31 and C34 gives what is read back.
- **C94** `Spec/Consumer`: the receiving loop as a function of the pieces. With the parser view (`Local.top`: a success depends on the bytes used only, a definite failure on nothing that follows) feeding two pieces equals feeding their concatenation; induction on the pieces. Delivery is then C93 for the concatenation; the stall is C90.
- **C95** `Spec/Log`: histories of sessions as an inductive relation, each with its own `Journal` writer. Invariant by induction on the history: the log is the encodings of the tags kept, then nothing or a proper prefix of an encoding; opening it is C94, a session C69 and C93. The negation is a witness.
- **C96** `Spec/Scan`: a reference scanner, pure functions on byte strings without reader, state or fixed-width arithmetic (`headILInt`, `headSize`, `scanHead`), with its five outcomes. The call on any reader over the bytes gives the outcome of the reference scanner, by simulation of its three steps; the equivalence with the layout of C58 is a separate theorem; the end of the loop by induction on the number of bytes left.
- **C97** `Spec/Faults`: `FaultyView`, a reader each of whose calls delivers the next bytes or fails, with nothing said about the state after a failure, and `Attempts`, histories of reads and seeks. Deserialization is a `Prog` (C37); induction on it compares a run with faults and one without. `ReadReader` and `SeekStream` with arbitrary schedules are such readers. No call changes the content of a seekable source, so a history with a seek at its end is a fresh start. Witness for the case without seek.
- **C98** `WriteAttempts` in `Spec/Faults`. Serialization is a fixed list of writer calls that stops at the first failure (C69), each writes a prefix of its data at the position (C24), so an attempt writes a prefix of the encoding; overwriting with prefixes of the same bytes; induction on the history. Witness for plain writers.
- **C99** `FaultySkipView` and `Uses` in `Spec/Index`. `next_tag` up to the skip is a tree of reader requests, so C97's argument applies to it; the skip moves by what was asked or fails; induction over the scan with the positions of C56. Content of the source is kept by every use (invariant through every action); then C97 and C31 at the position of the entry. Instances for `ReadReader` (skip in chunks) and for seekable sources (skip by seeks).
- **C100** `splice` (the caller) and `spliceAt` (the tags it should give) in `Spec/Splice`. Induction over the path with the scanner's positions (C84) and the serialized form of a raw tag (C29); then C31 for reading.
- **C101** `Pieces` and `CountedPieces` (the caller's loops) and `writeAll` in `Spec/Pieces`. Reading: the limit of `deserialize` around the value does not show (C82), the loop of the container is unrolled call by call, and each successful call takes a byte, so the fuel of the loop is enough on every reader. Writing: sizes are lengths (C28).
- **C102** `LiveFile` (a file that grows before each `std` read) and `Follower` in `Spec/Follow`. What the file will hold never changes, so the file is a source with faults over it (C97); each attempt uses up one coming read, and once nothing is coming an attempt cannot fail on a whole tag.
- **C103** `turns` (whose call is next) in `Spec/Threads`. With one call per tag the log is a concatenation of serializations (C31); for `serialize` the calls are recorded (C69) and an order of the calls of two threads is the witness.
- **C104** `verdict` in `Spec/Verdict`: a validator over bytes with its own fault type, written with the tables only (no tags, no readers). The pure parser that every reader follows (C16) is compared with it construct by construct, by induction on the depth; panics and divergence are excluded by C33.
- **C105** `canonical` in `Spec/Canonical`: a check over bytes that never builds a tag. Against the grammar of C77: if it passes, the form is the encoding (by induction on the depth of the form), and it passes on every encoding (by induction on the size).
- **C106** Against the grammar of C77: every form is at least as long as the encoding, and a permutation of it if it is not longer, by induction on the depth (numbers, counts and overwritten entries each cost bytes); replacing one byte changes the multiset of bytes. `Shuffled` (Spec/Change) says which bytes differ in the order of entries only; forms of the length of the encoding are such (by induction on the depth, `formAt_shuffled`) and these are forms (`shuffled_form`). Witnesses for the limits.
- **C107** `content` in `Spec/Bulk`; both measures are bounded by the encoding, by induction on the tag, and that by the input (C35). Customised factories: by induction over the forms of C114, with an encoding that writes a payload as so many zeros as it holds.
- **C108** The program is in `Spec/Pack`; induction on the tags with the exact effect of one serialize on a bounded buffer (C68), reading back by C31. Witness for what is left behind the offset.
- **C109** `Model/PayloadTypes` splits `P` into Rust types, which payload code cannot change; induction on the nesting: the top tag keeps the type its creator gave it, and what is put into containers was returned by the factory.
- **C110** Two environments side by side. `deserialize` is a tree of reader calls and memory requests (C76): a tree run with less memory panics or agrees with the run with more, by induction; if the sum of its requests is served the runs agree, and the sum is at most 16 for every byte delivered when the run succeeds (C76). The round trip follows from C30 on a large machine. Sharpness: the parser on the encoding of an array of n nulls reaches the request of 16 n bytes.
- **C111** `Model/Modes` is `serialize`/`to_bytes`/`iltag_are_equal`/clone over the sizes of `Model/Size`, in either mode. Induction on the tag: each step gives the wrapped result or panics in checked mode. `Spec/Reported` is the reported size over `Nat`; the checked sums are that size or a panic from 2^64 on.
- **C112** `Spec/SortKey` has the orders of the values; the order of the bytes follows from that of ILInts (C07), from prefix-freeness (C06, C32) and from the order of big-endian digits; the magnitude of a floating point number is shown to grow strictly with its bits.
- **C113** `Model/Handler` has payload code as a tree that branches on the result of every read, and the code without errors it amounts to (`HProg.plain`). Induction on the tree, against any well-behaved reader. A witness for the limit.
- **C114** `Spec/Custom` states the grammar of any factory, with the payload's own code as the meaning of payload values. The parser of the factory accepts exactly this (`Acc`, as in C77), by induction on the depth; the depth of calls is shown not to matter. Lemmas say which factories are of this kind.
- **C115** Induction over the forms of C114: a part the relay knows is written again in its shortest form, a part it does not know byte by byte, and both are forms of the same tag for the receiver. Chains by induction. For canonical bytes the tag the relay makes has the same encoding, by induction over the tag.
- **C116** The functions of the model are given a second form with room for k nested calls (Model/Depth.lean). Equal to the first form if the tag has at most k levels, by induction over k; below that by induction over the tag. Reading: the relation "where the first returns, the second does the same" is closed under all the combinators of the model (Proof/Upto.lean), and the tags read inside a value are given by the nested calls (Proof/Types.lean). Canonical bytes: the form of C77 with the least number of levels. Customised factories: `CustomFormIn` (Spec/CustomDepth.lean) indexes the forms of C114 by the room left for the code of payloads; copying by the argument of C117 at one depth.
- **C117** The induction of C115 over the forms of C114 with one more case, a payload that both sides know, and lengths instead of permutations; normalisation is the case of a relay with the factory of the receiver.
- **C118** A small transition system on the bytes of the file (Spec/Queue), using to_bytes, deserialize and the opening of C95, and another on a list; a simulation invariant between them by induction on the history; the exactly-once and at-least-once claims are invariants of the list carried over.
- **C119** followChain (Spec/Chain) goes along the records with to_bytes and an arbitrary function as hash. Content: C38 record by record. Fixed: induction from the last record backwards, with the injectivity of C32 where the bytes are equal and the collision exhibited where they are not. Read back and tampered: C31, and the tags the standard factory can read (C30).
- **C120** The proof of C106 over the forms of C114: by induction over the depth of a form, a form is no shorter than the encoding and one of equal length is a shuffled encoding, the payloads being as Tidy and Brief (Spec/Brief) say; and back, every shuffled encoding of an accepted tag is a form of it.
- **C121** C117_supported turns what a customised factory reads into the Supported of C30 to C32 (by the forms of C114), so C119_fixed applies to any two lists read from logs. Relays: C117 message by message and C119_content. A relay that checks: the body is an Echo (C115) with the same encoding, the record around it is read by the relay as a sequence with the same byte array, and both serialize to the same bytes. The negative case is a concrete message.
- **C122** A tag inside another has a value that is no longer (induction over Within), so the condition of C30 at every level is that at the top. Header (C37) from the encoding through any View; after it TagTooLarge. ReadSeq is deterministic, so a failing read bounds all sequences of reads. The scanner half is C56, which has no limit.
- **C123** Schema, a type of shapes of structs; from it the code with library calls (read, write, size) and the payload as a program of reader and writer calls; Runs: the program does what the calls do (congruence under bind). Reads: the calls read exactly a language, closed under bind, repetition and choice. Forms against the bytes written: Snug of C118. Then Tidy, Brief and Regular, and C30, C117, C120 for these factories. Out of reach here: structs that read nested tags (dictionaries have no order, so equality of payloads is too strict for the general conditions), and a size check up front as in the tests of the repository, which changes only the error.
- **C124** Spec/Evolve: Grown (more fields at the end, each addition never empty on the wire), Versions. Fork, a relation between two computations (the same, or one does not succeed) closed under bind and all the wrappers, as Wk of C79; with a limited reader that has nothing left no part with at least one byte can be read (code_dry), so a payload read to its end by one version fails in the other; fuel induction. The types in the result by C109. No assumption on the reader.
- **C125** Spec/Upgrade: the content of a value without its type (Plain), Later (more variants at any place), the tag with its payloads replaced (mapTag). Reading: what the older factory does with success, step by step, the newer one does with tags of the same content (inversion of binds, fuel induction; read_later by induction on Later for the structs). Writing: size and calls depend on the content only. Refusals: what is read is typed (C123_typed, from the forms of C114), so a content without an old value contradicts a reading.
- **C126** Spec/Kin: Akin (where both use a variant byte they agree on it), Kin (also more fields at the end), Passed (handing on through a list of programs). MeetF: what both factories read has the same content and leaves the reader alike; inversion of both runs, fuel induction; read_akin and read_kin by induction on the relations, with read_dry of C124 for added fields. Handing on: C123_normal for the first, agreement and C125_writes for every other, by induction on the list.
- **C127** Model/Tailed: a struct of C123 with an optional last field, the user's code as library calls and as a program; the subtraction's failure is a parameter, shown to be irrelevant (the fields take at least their computed size, which is at most the limit). Spec/Tailed: TailedForm. Reads.tailed: the accepted forms, the shortest form following from structForm_snug; then the general theorems for Regular, Tidy and Brief factories (C30, C36, C114, C117, C120).
- **C128** Model/Client: programs as trees that branch on answers, over variables that hold tags; 27 kinds of calls, those that would need a borrow are copies. Spec/Client: Indistinguishable. Proof/Client: sizes and serialization factor through the canonical form (canon) for every writer; deserialize_value of two such tags either gives the same value or leaves both alone (Level); what is read has proper maps with any creators (Sets, by induction on the nesting); congruence of each call, then induction on the program. Converse by induction on the tag with programs that look at type, id, value, items and entries.
- **C129** `SameTypes` compares what two engines make by kind and id only; the fuelled readers are equal by induction on the fuel, since filling a tag does not depend on what it held (Proof/Prior, the device of C47). For the converse every made tag, emptied (`Tag.bare`), is read back by its own factory (round trip), and an id without a tag is reached by some header (a scratch factory shows one exists).
- **C130** `ReadCode` (Model/ReadCode) is the tree of calls of such code; `skip` is left out, since seekable sources answer it without looking at their data (C23), and so is the handling of errors (C113 has it for payloads). By induction on the code it equals a `Prog` of reader calls on every reader (Proof/ReadCode, from the trees of C37 and `Prog.limit` for limited parts); the theorems are then those about all `Prog`s behind C64, C65, C83 and C97.
- **C131** `ConvCode` (Model/ConvCode) alternates reading code of C130 and writing. Everything that can be written is a fixed series of writer calls, for every tag and payload (`IsOps`, Proof/ConvCode, which also frees C69 of its last hypothesis). `Noted` (Spec/Noted) watches a writer of any kind. Induction on the code, with C130 for the reading steps; a reader that holds a part of the input is a faulty reader of the whole (`cutView`).
- **C132** `SkipCode` (Model/SkipCode) adds skips, scans and `goto_end` to the code of C130. `Follows` and `Alike` (Spec/Follows) are about single calls of a reader only. A simulation that allows the first reader to fail at any call, kept by limited readers and by the default skips, and induction on the code (Proof/SkipCode). The simulation may also let the first reader panic, for seekable sources in debug builds.
- **C133** `TryCode` (Model/TryCode) calls code of C132 and goes on from its result, value or error. `Mirror` (Spec/Mirror) is about single calls of a reader: the same results and related states after all of them, failed ones included. It is kept by limited readers and default skips; induction on the code (Proof/TryCode).
- **C134** `HandleCode` (Model/HandleCode) alternates reading code of C133 and writing calls and goes on from every result. `WriterMirror` (Spec/WriterMirror) is about single calls of a writer. What is written is a fixed series of writer calls (C131), so a mirror of single calls is one of whole tags; induction on the code (Proof/HandleCode).
<!-- /PLAN -->

## Axioms per theorem

<!-- AXIOMS -->
- **no axioms** (1 theorems): C67_assert
- **`propext`** (19 theorems): C27_classes, C44_standard, C45_standard_ids, C46_create, C59_never_none, C59_fifteen, C59_if_id, C59_if_id_iff, C67_downcast, C67_with_id, C67_id_downcast, C72_any_write, C78_sized_seek_fails, C81_range, C81_big_dec, C81_values, C81_containers, C104_modes, C114_creators
- **`Quot.sound`, `propext`** (76 theorems): C13_default_skip, C13_default_skip_u64, C13_default_skip_u64_64bit, C14_VecWriter_is_file, C15_write_all_bytewise, C16_BorrowedVecWriter_is_file, C16_counts_and_preserves, C16_new_overwrites, C16_bytes_written_underflow, C17_ByteArrayWriter_is_fixed_file, C18_limit_is_respected, C18_too_large_refused, C19_refusal_consumes_nothing, C19_refused_skip_consumes, C19_documented_claim_false, C20_goto_end, C20_goto_end_available, C21_same_as_array, C21_success_is_exact, C22_write_all, C22_history, C23_skip, C23_skip_usize, C23_overflow, C24_sized_seek, C24_seek_writer, C27_tag_size, C40_same_value_bytes, C44_create, C44_previous, C44_others, C52_size_and_serialize, C53_refl, C53_symm, C53_trans, C53_not_reflexive, C58_drift, C61_overflow, C66_skip, C66_skip_u64, C71_any_read, C78_read_reader, C78_seek_reader, C78_seek_reader_position, C78_skip_seek_fails, C79_strict, C79_standard, C79_register, C81_with_value, C81_with_id, C81_raw, C81_version, C81_scalars, C83_operations, C85_out_of_range, C85_truncated, C85_sizes, C87_every_reader, C87_in_memory, C87_limited, C87_default, C87_std, C87_seekable, C87_into_vec, C88_read_reader, C88_seekable, C88_failed_read, C88_skip, C109_downcast, C110_to_bytes, C113_beyond, C114_histories, C114_register, C114_deregister, C115_deregister, C119_made
- **`Classical.choice`, `Quot.sound`, `propext`** (398 theorems): C01_round_trip, C02_encoded_size, C03_minimal_form, C04_slice_decoder, C05_decoders_agree, C06_prefix_free, C07_monotone, C08_zigzag, C09_signed_round_trip, C10_accepted_forms, C10_unique_iff, C11_ByteArrayReader, C11_VecReader, C12_interchangeable, C13_in_memory_skip, C21_schedule_independent, C25_unsigned, C25_signed, C25_floats, C26_read_string, C26_read_string_short, C26_write_string, C26_round_trip, C28_size, C29_to_bytes, C29_any_writer, C29_any_sink, C30_exactly, C30_round_trip, C30_standard, C31_self_delimiting, C31_lists, C32_prefix_free, C32_injective, C33_trailing, C34_prefix, C34_truncated_stream, C35_accepted_tags, C35_normalise, C36_any_reader, C36_bytes, C36_streams, C37_too_large, C37_requests, C37_memory, C38_hash_order, C39_dict_last_wins, C39_strDict_last_wins, C39_dict_sorted, C39_strDict_sorted, C40_dict_reads_strDict, C40_strDict_reads_dict, C41_bytes, C41_ilints, C41_bytes_exchanged, C41_ilints_exchanged, C42_unknown, C42_raw, C42_raw_accepted, C43_unknown_preserved, C45_standard_engine, C46_deserialize, C46_wrong_id, C47_into_eq_deserialize, C48_mismatch, C48_id_and_type_kept, C48_untouched, C48_partial_overwrite, C49_value_bounded, C50_all_read, C50_left_over, C50_ilint, C51_only_size, C51_factory, C51_bool, C52_deserialize, C52_other_id, C52_into, C53_content, C53_bytes, C54_supported, C54_custom, C54_same_clone, C54_clone_of_clone, C55_factory_unused, C55_untouchable, C55_same_or_panic, C55_touched, C56_scan, C56_slices, C57_advance, C57_scans, C57_standard, C57_unfaithful, C57_unfaithful_kind, C58_reported, C59_end, C60_for_ever, C60_panics, C60_forward, C61_maps, C62_unbounded, C62_half, C62_returns, C62_any_factory, C63_byte_buffer, C63_array_buffer, C63_ilint_buffer, C63_unbounded_by_data, C64_watching, C64_reader_errors, C64_error, C65_only_bytes, C66_round_trip, C67_from_bytes, C68_bounded_buffer, C69_stops_at_first_error, C69_any_tag, C69_every_failure_point, C70_count_too_large, C70_count_stored, C71_inherited_methods, C71_not_all_or_nothing, C71_deserialize, C72_serialize, C72_collects, C73_same, C73_same_toBytes, C73_exponential, C73_bound, C73_exactly, C74_answers, C74_history, C74_dict_bytes, C74_strDict_bytes, C74_strDict_read_back, C74_dict_read_back, C75_deserialize_calls, C75_deserializeInto_calls, C75_counting_is_transparent, C75_calls_bounded_by_input, C75_payload_condition_needed, C76_tree, C76_success_linear, C76_upper, C76_amplification, C77_sound, C77_complete, C77_language, C77_stream, C77_one_meaning, C77_prefix_free, C77_shortest, C79_knows_less, C79_accepted, C79_into, C79_from_bytes, C79_same_tags, C80_write, C80_read, C80_round_trip, C80_truncated, C81_new, C82_limit, C82_bytes, C82_factory, C82_language, C82_round_trip, C82_custom, C82_payload, C83_deserialize, C83_limit, C84_locate, C84_no_such_child, C84_read, C84_standard, C85_in_range, C85_capacity, C86_read_string, C86_string_tag, C86_written, C86_order, C86_inner_string, C86_keys_in_order, C87_tag, C88_deserialize, C89_fixed_destination, C90_tag_stays, C90_error_stays, C90_final, C90_not_before, C90_io_error_may_be_final, C91_patch, C91_standard, C92_written, C92_detected, C92_compensating, C93_cut, C93_recovery, C93_end_not_told, C94_pieces, C94_delivers, C94_stalls, C95_log, C95_never_lost, C95_must_truncate, C96_exact, C96_accepts, C96_ends, C97_faults, C97_stream, C97_retry, C97_no_retry, C98_attempts, C98_again, C98_not_appending, C99_scan, C99_lookup, C99_standard, C100_splice, C100_standard, C101_read, C101_array, C101_write, C102_follow, C102_catches_up, C102_must_go_back, C103_whole_tags, C103_calls_mix, C104_verdict, C104_from_bytes, C104_errors, C105_recognized, C105_serializations, C105_injective, C106_same_length, C106_exactly, C106_replaced, C106_one_byte, C106_log, C106_hidden, C107_result, C107_from_bytes, C107_reached, C107_custom, C108_fill, C108_read_back, C108_leftover, C109_types, C109_from_bytes, C109_into, C109_registered, C110_same, C110_from_bytes, C110_enough, C110_from_bytes_enough, C110_round_trip, C110_sharp, C111_release, C111_same, C111_size, C111_serialize, C111_to_bytes, C111_honest, C111_honest_util, C111_util, C111_wrapped, C112_order, C112_unsigned, C112_signed, C112_signed_ilint, C112_floats, C112_text, C112_range, C112_version, C112_records, C113_same, C113_truncated, C113_accepted, C113_lasting, C114_language, C114_stream, C114_prefix_free, C114_standard, C115_relay, C115_chain, C115_canonical, C115_canonical_chain, C115_standard, C116_size, C116_serialize, C116_to_bytes, C116_equal, C116_read, C116_after_reading, C116_enough, C116_read_exactly, C116_canonical, C116_clone, C116_copy, C116_half, C116_custom_exactly, C116_custom_copy, C116_custom_condition_needed, C117_supported, C117_relay, C117_chain, C117_normalise, C117_exactly, C117_condition_needed, C118_behaves, C118_kept, C118_exactly_once, C118_at_least_once, C118_twice, C119_content, C119_fixed, C119_read_back, C119_tampered, C119_received, C120_same_length, C120_exactly, C120_replaced, C120_one_byte, C120_condition_needed, C121_tampered, C121_relayed, C121_relay_check, C121_canonical_needed, C122_one_test, C122_any_factory, C122_written_not_read, C122_shuts_off, C122_scanner_goes_on, C123_code, C123_reader, C123_lawful, C123_exactly, C123_round_trip, C123_total, C123_typed, C123_normal, C124_agree, C124_noticed, C124_from_bytes, C124_written, C125_reads, C125_from_bytes, C125_writes, C125_back, C125_refused, C126_agree, C126_from_bytes, C126_fleet, C126_covers, C127_no_underflow, C127_code, C127_lawful, C127_exactly, C127_round_trip, C127_total, C127_normal, C128_programs, C128_exactly, C128_read_back, C128_maps, C128_writers, C128_readers, C129_contents, C129_programs, C129_creators, C129_exactly, C130_only_bytes, C130_faults, C130_first_failure, C130_nested, C130_limit, C130_memory, C131_prefix, C131_watching, C131_cut, C131_pipeline, C132_follows, C132_alike, C132_only_bytes, C132_stream, C132_seekable, C132_release, C133_exactly, C133_memory, C133_pieces, C133_builds, C133_seekable_builds, C134_exactly, C134_memory, C134_streams, C134_builds, C134_seekable_builds
<!-- /AXIOMS -->
