{"id": "C01", "title": "ILInt round trip", "statement": "For every u64 value, the bytes written by ilint::encode, followed by arbitrary further data, decode back to exactly that value, and exactly the encoded bytes are consumed from the reader.", "quantifier": "every u64 value, every following byte string, every well-behaved reader and in-memory writer", "why_tests_cant": "2^64 values and unboundedly many continuations", "anchors": ["src/ilint/mod.rs:encode", "src/ilint/mod.rs:decode", "src/ilint/mod.rs:decode_from_bytes"]}
{"id": "C02", "title": "ILInt encoded_size is exact", "statement": "encoded_size(v) equals the number of bytes encode(v) writes, and is always between 1 and 9; decoded_size of the first written byte gives the same number.", "quantifier": "every u64 value", "why_tests_cant": "2^64 values; boundary mistakes affect isolated values", "anchors": ["src/ilint/mod.rs:encoded_size", "src/ilint/mod.rs:encode", "src/ilint/mod.rs:decoded_size"]}
{"id": "C03", "title": "ILInt wire format is the minimal specified form", "statement": "encode(v) writes [v] when v < 248, and otherwise the header 0xF8+(n-1) followed by v-248 as exactly n big-endian bytes, where n is the smallest byte count (at least 1) that can hold v-248.", "quantifier": "every u64 value", "why_tests_cant": "interoperability with other implementations depends on every one of 2^64 encodings", "anchors": ["src/ilint/mod.rs:encode", "src/ilint/mod.rs:encoded_size"]}
{"id": "C04", "title": "ILInt decoding accepts exactly the valid inputs", "statement": "decode_from_bytes(bs) succeeds with (v,n) exactly when bs starts with a byte below 248 (v that byte, n=1) or with a header 0xF8+k followed by at least k+1 bytes whose big-endian value plus 248 is at most 2^64-1 (v that sum, n=k+2); it reports ValueOverflow exactly when the body is complete but the sum is too large, InvalidFormat otherwise; it never panics or wraps.", "quantifier": "every byte slice of any length", "why_tests_cant": "unbounded input space; overflow boundary at 0xFFFFFFFFFFFFFF07", "anchors": ["src/ilint/mod.rs:decode_from_bytes", "src/ilint/mod.rs:decode_body", "src/ilint/mod.rs:decoded_size"]}
{"id": "C05", "title": "Stream and slice ILInt decoders agree", "statement": "decode(reader) and decode_from_bytes(slice) return the same value and consume the same number of bytes on the same data, and fail on the same data.", "quantifier": "every byte string, every well-behaved reader", "why_tests_cant": "two independent code paths over unbounded input", "anchors": ["src/ilint/mod.rs:decode", "src/ilint/mod.rs:decode_from_bytes"]}
{"id": "C06", "title": "ILInt encodings are prefix-free", "statement": "No encoding of one value is a prefix of the encoding of a different value; in particular distinct values have distinct encodings and a concatenation of encodings splits in only one way.", "quantifier": "every pair of u64 values, every list of values", "why_tests_cant": "quantifies over pairs of 2^64 values and all lists", "anchors": ["src/ilint/mod.rs:encode"]}
{"id": "C07", "title": "ILInt size and byte order are monotone", "statement": "If v <= w then encoded_size(v) <= encoded_size(w); and v < w exactly when the encoding of v precedes the encoding of w in bytewise lexicographic order.", "quantifier": "every pair of u64 values", "why_tests_cant": "pairs of 2^64 values", "anchors": ["src/ilint/mod.rs:encoded_size", "src/ilint/mod.rs:encode"]}
{"id": "C08", "title": "Signed mapping is the zig-zag bijection", "statement": "encode_sign(v) is 2v for v >= 0 and -2v-1 for v < 0; decode_sign and encode_sign are inverse of each other in both directions.", "quantifier": "every i64 and every u64 value", "why_tests_cant": "2^64 values each way; i64::MIN edge", "anchors": ["src/ilint/mod.rs:encode_sign", "src/ilint/mod.rs:decode_sign"]}
{"id": "C09", "title": "Signed ILInt round trip and compactness", "statement": "signed_decode recovers every i64 written by signed_encode consuming exactly signed_encoded_size bytes, and a value of smaller magnitude never takes more bytes.", "quantifier": "every i64 value and every pair of i64 values", "why_tests_cant": "2^64 values and pairs", "anchors": ["src/ilint/mod.rs:signed_encode", "src/ilint/mod.rs:signed_decode", "src/ilint/mod.rs:signed_encoded_size"]}
{"id": "C10", "title": "Exactly which non-minimal ILInts are accepted", "statement": "The byte strings accepted for a value v are exactly the one-byte form (v < 248) and, for v >= 248, the headers 0xF8+k for every k whose k+1 bytes can hold v-248, zero padded; so the accepted encoding is unique for v < 248 and is NOT unique for 248 <= v < 248+256^7.", "quantifier": "every u64 value and every byte string", "why_tests_cant": "full characterisation of a preimage over unbounded strings", "anchors": ["src/ilint/mod.rs:decode_body", "src/ilint/mod.rs:decode_from_bytes"]}
{"id": "C11", "title": "In-memory readers behave as a cursor over an immutable array", "statement": "Under any sequence of read, read_all, skip and set_offset, ByteArrayReader and VecReader return exactly the next bytes of the array, advance by exactly the amount read, keep offset <= len, and a failing operation returns EndOfData when nothing is left and UnableToReadData otherwise and leaves the reader unchanged (all-or-nothing).", "quantifier": "every array, every finite history of operations", "why_tests_cant": "all operation histories", "anchors": ["src/io/array/mod.rs:ByteArrayReader", "src/io/array/mod.rs:VecReader", "src/io/array/mod.rs:MemoryReader::assert_can_read"]}
{"id": "C12", "title": "ByteArrayReader and VecReader are interchangeable", "statement": "For every array and every history of operations the two readers give identical results, errors and offsets.", "quantifier": "every array, every history", "why_tests_cant": "all histories", "anchors": ["src/io/array/mod.rs:ByteArrayReader", "src/io/array/mod.rs:VecReader"]}
{"id": "C13", "title": "Skipping equals reading and discarding", "statement": "Reader::skip(n) by the default chunked implementation succeeds exactly when n bytes remain and leaves the reader where read_all of n bytes would; skip_u64 gives the same result for every possible platform usize width.", "quantifier": "every n, every well-behaved reader, every usize::MAX > 0", "why_tests_cant": "loop over unbounded counts, 32-bit behaviour untestable on a 64-bit host", "anchors": ["src/io/mod.rs:Reader::skip", "src/io/mod.rs:Reader::skip_u64"]}
{"id": "C14", "title": "VecWriter behaves as a growable file with a cursor", "statement": "Under any sequence of write, write_all, set_offset and set_read_only, VecWriter's content is the old content overwritten/extended at the cursor by exactly the bytes of the successful writes, the cursor stays within the content, the content never shrinks, and a write while read-only fails with UnableToWriteData and changes nothing.", "quantifier": "every history of operations", "why_tests_cant": "all operation histories", "anchors": ["src/io/array/mod.rs:VecWriter", "src/io/array/mod.rs:basevecwriter_writer_impl"]}
{"id": "C15", "title": "write_all equals writing byte by byte", "statement": "For VecWriter, BorrowedVecWriter and ByteArrayWriter, a successful write_all(buf) leaves the same content and cursor as writing the bytes of buf one at a time.", "quantifier": "every writer state, every buffer", "why_tests_cant": "unbounded buffers and states", "anchors": ["src/io/array/mod.rs:basevecwriter_writer_impl", "src/io/array/mod.rs:ByteArrayWriter", "src/io/mod.rs:Writer::write_all"]}
{"id": "C16", "title": "BorrowedVecWriter preserves data before its start and counts bytes written", "statement": "As long as set_offset is never called, the vector content before the initial offset is untouched, the vector never shrinks, and bytes_written() equals the total length of the data successfully written. With set_offset below the initial offset bytes_written() underflows.", "quantifier": "every vector, offset and history of writes", "why_tests_cant": "all histories", "anchors": ["src/io/array/mod.rs:BorrowedVecWriter"]}
{"id": "C17", "title": "ByteArrayWriter never writes outside its slice and is all-or-nothing", "statement": "Any history keeps the slice length constant and the cursor within it; a write that does not fit fails with UnableToWriteData and changes nothing; a write that fits changes exactly the targeted bytes.", "quantifier": "every slice, every history of write/write_all/set_offset", "why_tests_cant": "all histories", "anchors": ["src/io/array/mod.rs:ByteArrayWriter"]}
{"id": "C18", "title": "LimitedReader never lets through more than its limit", "statement": "For every source reader (including misbehaving ones) and every history of operations, the number of bytes handed out by successful operations plus available() equals the initial limit, so never more than the limit is handed out, and a request larger than available() is refused with UnableToReadData without touching the source.", "quantifier": "every source reader, every history of read/read_all", "why_tests_cant": "arbitrary readers and histories", "anchors": ["src/io/mod.rs:LimitedReader"]}
{"id": "C19", "title": "A refused LimitedReader operation consumes nothing", "statement": "The documentation says failed attempts do not consume data from the inner reader: true for read and read_all refused by the limit, and for skip of at most 512 bytes; false for larger skips, which consume whole 512-byte chunks before failing.", "quantifier": "every state and every requested count", "why_tests_cant": "all counts and states; the counterexample needs more than 512 bytes", "anchors": ["src/io/mod.rs:LimitedReader", "src/io/mod.rs:Reader::skip"]}
{"id": "C20", "title": "goto_end moves to the end of the limit", "statement": "LimitedReader::goto_end succeeds exactly when the source still has the available bytes; afterwards available() is 0 and the source is positioned right after the limited window; on failure available() is unchanged.", "quantifier": "every limit, every well-behaved source", "why_tests_cant": "unbounded sizes", "anchors": ["src/io/mod.rs:LimitedReader::goto_end"]}
{"id": "C21", "title": "ReadReader results do not depend on how the source chunks its data", "statement": "Reading through a std::io::Read that returns data in arbitrary short pieces, with arbitrary Interrupted errors in between, gives the same bytes as reading from one contiguous array.", "quantifier": "every byte string and every schedule of short reads and interruptions", "why_tests_cant": "all schedules", "anchors": ["src/io/std_io/mod.rs:ReadReader"]}
{"id": "C22", "title": "WriteWriter reports success only when everything was accepted", "statement": "Over any std::io::Write schedule (full, short or failing writes), WriteWriter::write/write_all return Ok exactly when the destination accepted the whole buffer in that call; a short write is reported as UnableToWriteData although the accepted prefix has been written.", "quantifier": "every destination behaviour and every buffer", "why_tests_cant": "all schedules of short writes and errors", "anchors": ["src/io/std_io/mod.rs:WriteWriter"]}
{"id": "C23", "title": "Skipping on a seekable source", "statement": "Reader::skip/skip_u64 over Read+Seek succeeds exactly when count bytes remain and then advances by exactly count; when it fails with count > 0 the position is left at the end of the data (so the failure is not all-or-nothing); when position+count exceeds 2^64-1 a debug build panics and a release build may move backwards and report success.", "quantifier": "every content, position, count and both overflow modes", "why_tests_cant": "64-bit overflow region and build-profile dependence", "anchors": ["src/io/std_io/mod.rs:Reader for Read+Seek skip_u64"]}
{"id": "C24", "title": "SizedSeek and seekable writer positions", "statement": "SizedSeek::len leaves the position unchanged and returns the content length; available() is len-offset and underflows when positioned past the end; Writer over Write+Seek writes exactly the buffer at the position.", "quantifier": "every content and position", "why_tests_cant": "unbounded contents and positions", "anchors": ["src/io/std_io/mod.rs:SizedSeek", "src/io/std_io/mod.rs:Writer for Write+Seek"]}
{"id": "C25", "title": "Fixed-width values round trip big-endian", "statement": "For u8..u64, i8..i64, f32, f64 (as bit patterns), write_X writes exactly the big-endian (two's complement) bytes of the value and read_X over those bytes returns the value and consumes exactly its width; read_X on any bytes of that width then write_X reproduces them; shorter input fails.", "quantifier": "every value of every type, every following data, every well-behaved reader", "why_tests_cant": "2^64 values per type", "anchors": ["src/io/data/mod.rs:read_u8..read_f64", "src/io/data/mod.rs:write_u8..write_f64"]}
{"id": "C26", "title": "Strings are accepted exactly when valid UTF-8", "statement": "read_string(n) returns the string whose UTF-8 encoding is the next n bytes exactly when they are valid UTF-8, fails with CorruptedData when they are not, and write_string followed by read_string is the identity.", "quantifier": "every byte string and every string", "why_tests_cant": "unbounded strings", "anchors": ["src/io/data/mod.rs:read_string", "src/io/data/mod.rs:write_string"]}
{"id": "C27", "title": "Implicit/reserved tag classes", "statement": "A tag id is implicit exactly when it is at most 15 and reserved exactly when at most 31; tag_size_to_usize accepts exactly sizes up to 512 MiB and returns them unchanged.", "quantifier": "every u64", "why_tests_cant": "2^64 ids", "anchors": ["src/tags/mod.rs:is_implicit_tag", "src/tags/mod.rs:is_reserved_tag", "src/tags/mod.rs:tag_size_to_usize"]}
{"id": "C28", "title": "size() is the serialized length", "statement": "For every tag (any nesting, any ids) whose serialization is shorter than 2^64 bytes, size() equals the length of to_bytes(), value_size() the length of the bytes serialize_value writes, and computing them does not overflow.", "quantifier": "every tag tree", "why_tests_cant": "unbounded nesting and collections", "anchors": ["src/tags/mod.rs:ILTag::size", "src/tags/mod.rs:ILTag::value_size", "src/tags/standard/explicit/mod.rs:value_size", "src/tags/standard/implicit/mod.rs:value_size"]}
{"id": "C29", "title": "Serialized layout", "statement": "to_bytes always succeeds and yields ILInt(id), then ILInt(value length) exactly when the id is explicit, then the value bytes in the layout of the ILTags standard for the tag type; serialize into any writer performs exactly that byte sequence.", "quantifier": "every tag tree, every writer", "why_tests_cant": "unbounded trees and arbitrary writers", "anchors": ["src/tags/mod.rs:ILTag::serialize", "src/tags/mod.rs:ILTag::to_bytes"]}
{"id": "C30", "title": "Tag round trip", "statement": "from_bytes(to_bytes(t)) returns a tag of the same types and values as t for every tag whose (nested) ids are those the factory maps to its types and whose size is within the 512 MiB limit, with strict and non-strict factories and with custom creators. With the standard factory these are exactly the tags that any bytes at all can be read as.", "quantifier": "every tag tree of any depth, every factory engine", "why_tests_cant": "unbounded trees", "anchors": ["src/tags/standard/factory/mod.rs:ILStandardTagFactory::deserialize", "src/tags/mod.rs:ILTagFactory::from_bytes", "src/tags/mod.rs:ILTag::to_bytes"]}
{"id": "C31", "title": "Tags are self-delimiting in a stream", "statement": "Deserializing from a stream holding the serialization of a tag followed by arbitrary data returns that tag and consumes exactly its bytes; hence any list of tags written one after another is read back in order.", "quantifier": "every list of tags, every following data, every well-behaved reader", "why_tests_cant": "unbounded lists and continuations", "anchors": ["src/tags/standard/factory/mod.rs:deserialize", "src/tags/mod.rs:ILTag::serialize"]}
{"id": "C32", "title": "Serialization is injective", "statement": "Two tags of factory-supported types with the same serialization have the same type, id and value (dictionaries compared as maps), and no serialization is a proper prefix of another.", "quantifier": "every pair of tag trees", "why_tests_cant": "pairs of unbounded trees", "anchors": ["src/tags/mod.rs:ILTag::to_bytes", "src/tags/util/mod.rs:iltag_are_equal"]}
{"id": "C33", "title": "from_bytes rejects trailing bytes", "statement": "If from_bytes succeeds on a byte string then it fails with CorruptedData on that string followed by any non-empty byte string.", "quantifier": "every accepted input, every suffix", "why_tests_cant": "unbounded inputs", "anchors": ["src/tags/mod.rs:ILTagFactory::from_bytes"]}
{"id": "C34", "title": "Truncated input is never accepted", "statement": "No proper prefix of an input accepted by from_bytes is accepted; deserialize on a truncated stream returns an error, never a partial tag.", "quantifier": "every accepted input (canonical or not), every cut point", "why_tests_cant": "every crash/cut point of every input", "anchors": ["src/tags/standard/factory/mod.rs:deserialize", "src/tags/mod.rs:ILTagFactory::from_bytes"]}
{"id": "C35", "title": "Accepted input normalises in one step", "statement": "If from_bytes(bs) = t then to_bytes(t) is at most as long as bs, from_bytes(to_bytes(t)) = t again, and to_bytes is then a fixed point.", "quantifier": "every byte string accepted by the standard factory", "why_tests_cant": "all accepted inputs incl. non-canonical and duplicate-key ones", "anchors": ["src/tags/standard/factory/mod.rs:deserialize", "src/tags/mod.rs:ILTag::to_bytes"]}
{"id": "C36", "title": "Deserialization is total", "statement": "On every byte string the standard factory (strict or not) terminates with Ok or Err: no panic, no infinite loop, even for hostile counts and sizes; termination holds for every reader implementation. A factory with further types and payloads does so too if the code of the creators and payloads does not itself panic or loop.", "quantifier": "every byte string; every reader", "why_tests_cant": "unbounded hostile inputs", "anchors": ["src/tags/standard/factory/mod.rs:deserialize", "src/tags/standard/explicit/mod.rs:deserialize_value"]}
{"id": "C37", "title": "Oversized tags are refused before any work", "statement": "If the header of an explicit tag declares more than 512 MiB the result is TagTooLarge, no value byte is read and no buffer is allocated; no single buffer requested while deserializing anything exceeds 16 bytes times 512 MiB (512 MiB for byte buffers).", "quantifier": "every header and every continuation", "why_tests_cant": "cannot exercise all sizes; allocation bound holds on all paths", "anchors": ["src/tags/mod.rs:tag_size_to_usize", "src/tags/standard/factory/mod.rs:deserialize_tag_size"]}
{"id": "C38", "title": "Dictionary serialization does not depend on hash order", "statement": "Two dictionaries (ILDictTag, ILStrDictTag, nested at any depth) with the same key/value associations serialize to the same bytes and report the same size whatever the iteration order of the maps.", "quantifier": "every map content, every pair of iteration orders, at every nesting depth", "why_tests_cant": "HashMap order is randomised per process; all permutations", "anchors": ["src/tags/standard/explicit/mod.rs:ILDictTag::serialize_value", "src/tags/standard/explicit/mod.rs:ILStrDictTag::serialize_value"]}
{"id": "C39", "title": "Dictionary keys are written sorted; duplicates resolve to the last", "statement": "Keys appear in the serialization in strictly increasing bytewise order, each exactly once with its own value; when input repeats a key the last occurrence wins and the others disappear.", "quantifier": "every map, every input sequence of entries", "why_tests_cant": "all permutations and duplications", "anchors": ["src/tags/standard/explicit/mod.rs:ILDictTag", "src/tags/standard/explicit/mod.rs:ILStrDictTag"]}
{"id": "C40", "title": "String dictionary is binary compatible with dictionary", "statement": "ILStrDictTag writes the same value bytes as an ILDictTag holding the same keys mapped to standard string tags, and each reads the other's value.", "quantifier": "every string map", "why_tests_cant": "unbounded maps", "anchors": ["src/tags/standard/explicit/mod.rs:ILStrDictTag", "src/tags/standard/explicit/mod.rs:ILDictTag"]}
{"id": "C41", "title": "Shared encodings", "statement": "OID and ILInt-array tags share one value encoding, as do raw, byte-array and big-integer tags: one type's value bytes deserialize into the other with the same content.", "quantifier": "every value", "why_tests_cant": "unbounded values", "anchors": ["src/tags/standard/explicit/mod.rs:ILOIDTag", "src/tags/standard/explicit/mod.rs:ILILIntArrayTag", "src/tags/standard/explicit/mod.rs:ILByteArrayTag", "src/tags/standard/explicit/mod.rs:ILBigIntTag", "src/tags/mod.rs:ILRawTag"]}
{"id": "C42", "title": "Unknown tags", "statement": "A strict factory rejects every id without a registered creator with UnknownTag (after checking the size); a non-strict factory turns every unknown explicit id into a raw tag holding exactly the declared value bytes and still rejects unknown implicit ids.", "quantifier": "every id, every value, every engine", "why_tests_cant": "2^64 ids", "anchors": ["src/tags/mod.rs:ILTagCreatorEngine::create_tag", "src/tags/standard/factory/mod.rs:deserialize"]}
{"id": "C43", "title": "Unknown tags survive a pass through the library unchanged", "statement": "With a non-strict factory, for every explicit tag of any (custom) type within the size limit whose id is unregistered, deserialize then serialize reproduces the canonical bytes.", "quantifier": "every custom tag", "why_tests_cant": "unbounded values", "anchors": ["src/tags/mod.rs:ILRawTag", "src/tags/util/mod.rs:iltag_clone"]}
{"id": "C44", "title": "Creator registry behaves as a map", "statement": "After any history of register/deregister, create_tag(id) uses exactly the creator most recently registered for id and not since deregistered; register/deregister return the previous one; other ids are unaffected.", "quantifier": "every history of register/deregister", "why_tests_cant": "all histories", "anchors": ["src/tags/mod.rs:ILTagCreatorEngine"]}
{"id": "C45", "title": "Standard factory covers exactly the standard ids", "statement": "The standard engine creates, for each of the 27 standard ids, the tag type of that id with that id, never panics for any id, and creates nothing else in strict mode.", "quantifier": "every u64 id", "why_tests_cant": "2^64 ids", "anchors": ["src/tags/standard/factory/mod.rs:create_std_engine"]}
{"id": "C46", "title": "A factory never yields a tag with a different id", "statement": "When deserialize returns a tag (engine built from ILDefaultTagCreator/ILDefaultWithIdTagCreator registrations), the tag's id is the id on the wire; a creator registered under a wrong id panics rather than mislabel.", "quantifier": "every engine built from library creators, every input", "why_tests_cant": "all inputs and registrations", "anchors": ["src/tags/mod.rs:ILDefaultTagCreator", "src/tags/mod.rs:ILDefaultWithIdTagCreator", "src/tags/standard/factory/mod.rs:deserialize"]}
{"id": "C47", "title": "deserialize_into equals deserialize", "statement": "For a tag of the type the factory would create, deserialize_into succeeds exactly when deserialize does, leaves the reader at the same place and the tag with the same content, whatever the tag held before.", "quantifier": "every prior content, every input", "why_tests_cant": "all prior states and inputs", "anchors": ["src/tags/standard/factory/mod.rs:deserialize_into"]}
{"id": "C48", "title": "deserialize_into failure effects", "statement": "On an id mismatch deserialize_into returns UnexpectedTagType and leaves the tag untouched; on other failures the id and type are kept but the value may be partially overwritten (not all-or-nothing).", "quantifier": "every tag, every input", "why_tests_cant": "all failure points", "anchors": ["src/tags/standard/factory/mod.rs:deserialize_into", "src/tags/standard/explicit/mod.rs:deserialize_value"]}
{"id": "C49", "title": "A tag's value cannot read beyond its declared size", "statement": "While deserializing a value through the factory, no tag implementation, including arbitrary custom payloads, can consume from the stream more than the declared value size.", "quantifier": "every payload program, every input", "why_tests_cant": "arbitrary user code", "anchors": ["src/tags/standard/factory/mod.rs:deserialize_tag_value_into", "src/io/mod.rs:LimitedReader", "src/tags/payload/mod.rs:ILGenericPayloadTag"]}
{"id": "C50", "title": "Value bytes left over are rejected", "statement": "If a tag other than the two ILInt tags leaves part of its declared value unread the factory reports CorruptedData; for the ILInt tags exactly the ILInt is consumed.", "quantifier": "every input, every tag type", "why_tests_cant": "all inputs", "anchors": ["src/tags/standard/factory/mod.rs:deserialize_tag_value_into"]}
{"id": "C51", "title": "Fixed-size tags accept only their size; bool only 0 and 1", "statement": "Integer, float, bool, null, version tags reject every other value_size with CorruptedData without reading; bool rejects every byte other than 0 and 1.", "quantifier": "every value_size, every byte", "why_tests_cant": "all sizes", "anchors": ["src/tags/standard/implicit/mod.rs:int_iltag_impl", "src/tags/standard/implicit/mod.rs:ILBoolTag", "src/tags/standard/explicit/mod.rs:ILVersionTag"]}
{"id": "C52", "title": "String tag helpers agree with ILStringTag", "statement": "string_tag_size_from_value, serialize_string_tag_from_value and deserialize_string_tag_from_value agree with size(), serialize() and deserialization of ILStringTag with the standard id.", "quantifier": "every string, every input", "why_tests_cant": "unbounded strings", "anchors": ["src/tags/standard/explicit/mod.rs:string_tag_size_from_value", "src/tags/standard/explicit/mod.rs:serialize_string_tag_from_value", "src/tags/standard/explicit/mod.rs:deserialize_string_tag_from_value_into"]}
{"id": "C53", "title": "iltag_are_equal is equality of content", "statement": "iltag_are_equal is an equivalence relation; on factory-supported tags it holds exactly when both have the same type, id and content (maps compared as maps).", "quantifier": "every pair/triple of tags", "why_tests_cant": "unbounded trees", "anchors": ["src/tags/util/mod.rs:iltag_are_equal"]}
{"id": "C54", "title": "Clones are equal to the original", "statement": "Every tag a factory supports is cloned by iltag_clone_with_factory: same type, id and content, and iltag_are_equal to the original. iltag_clone of a tag in which every visible part is standard or has a non-standard explicit id (custom payloads included) succeeds; the custom parts become raw tags with the same bytes and the clone is iltag_are_equal to the original. Tags that are iltag_are_equal have the same clone, and cloning any clone gives an equal tag of the same types.", "quantifier": "every tag, every factory", "why_tests_cant": "unbounded trees", "anchors": ["src/tags/util/mod.rs:iltag_clone", "src/tags/util/mod.rs:iltag_clone_with_factory"]}
{"id": "C55", "title": "Non-container tags never use the factory", "statement": "Deserializing the value of any tag other than sequence, array and dictionary (and custom payloads, whose code may do as it likes) gives the same result for every factory, so it never panics with UntouchbleTagFactory. A container read with UntouchbleTagFactory panics if any factory would find children in it, and behaves as with any other factory unless it panics.", "quantifier": "every non-container tag, every input, every factory", "why_tests_cant": "all factories", "anchors": ["src/tags/util/mod.rs:UntouchbleTagFactory", "src/tags/standard/implicit/mod.rs:deserialize_value", "src/tags/standard/explicit/mod.rs:deserialize_value"]}
{"id": "C56", "title": "Tag scanner reports exact positions on canonical streams", "statement": "Scanning a concatenation of serialized standard-layout tags yields, tag by tag, its id, start offset, header and value sizes; tag_slice and value_slice on the raw bytes return exactly the tag's serialization and value; consecutive tags are contiguous and cover the stream.", "quantifier": "every list of tags, every well-behaved reader", "why_tests_cant": "unbounded lists", "anchors": ["src/tags/raw/mod.rs:RawTagScanner::next_tag", "src/tags/raw/mod.rs:RawTagOffset"]}
{"id": "C57", "title": "Tag scanner and factory advance equally", "statement": "For every factory whose creators return tags with the requested id and an ILInt type for the ids 10 and 14 (the standard factories do): whenever both succeed on the same input (canonical or not), next_tag leaves the reader exactly where deserialize leaves it, and reports the same id; and whatever deserialize accepts (id 15 aside) next_tag accepts. Without the condition on the creators it is false.", "quantifier": "every input, every factory", "why_tests_cant": "all inputs", "anchors": ["src/tags/raw/mod.rs:RawTagScanner::next_tag", "src/tags/standard/factory/mod.rs:deserialize"]}
{"id": "C58", "title": "Tag scanner offsets drift on non-minimal ILInts", "statement": "The reported offset/header size equal the true position for every accepted input: false, they are computed from the minimal encoding, and true exactly when id and size are minimally encoded.", "quantifier": "every input", "why_tests_cant": "needs non-canonical inputs; characterisation over all inputs", "anchors": ["src/tags/raw/mod.rs:RawTagScanner::next_tag"]}
{"id": "C59", "title": "Tag scanner result space", "statement": "next_tag never returns Ok(None) (end of data is an error), rejects id 15, and next_tag_if_id returns the tag exactly when next_tag yields one with that id, otherwise UnexpectedTagType with the tag already consumed.", "quantifier": "every input", "why_tests_cant": "all inputs", "anchors": ["src/tags/raw/mod.rs:RawTagScanner::next_tag_if_id", "src/tags/raw/mod.rs:extract_tag_size"]}
{"id": "C60", "title": "Tag scanner on hostile sizes over seekable sources", "statement": "A declared value size close to 2^64 cannot make the scanner loop: false; in release builds a crafted tag over Read+Seek makes next_tag succeed and move the source backwards, so scanning to the end never finishes; in debug builds it panics. In debug builds, and in release builds for declared sizes below 2^63, a successful next_tag moves the source strictly forward.", "quantifier": "all inputs, both overflow modes", "why_tests_cant": "needs 64-bit overflow and build-profile dependence", "anchors": ["src/tags/raw/mod.rs:RawTagScanner::next_tag", "src/io/std_io/mod.rs:skip_u64"]}
{"id": "C61", "title": "Raw offsets compose", "statement": "map_to_parent_space succeeds exactly when the child ends within the parent's value; then slicing the raw data with the mapped offset equals slicing the parent's value slice with the child's own offset; it fails with CorruptedData otherwise. When the end of the child exceeds 2^64-1 a debug build panics and a release build compares it modulo 2^64, so it may accept a child outside the parent.", "quantifier": "every raw data, parent and child", "why_tests_cant": "all offsets", "anchors": ["src/tags/raw/mod.rs:RawTagOffset::map_to_parent_space", "src/tags/raw/mod.rs:RawTagOffset::tag_slice"]}
{"id": "C62", "title": "Recursion depth is driven by the input", "statement": "Deserialization uses bounded stack: false; for every depth d there is an input of length linear in d that needs at least d nested deserialize calls; and the nesting never exceeds half the input length plus one (the input length plus one for a factory with types and payloads of the user's own).", "quantifier": "every depth, every input", "why_tests_cant": "unbounded depth", "anchors": ["src/tags/standard/explicit/mod.rs:ILTagSeqTag::deserialize_value", "src/tags/standard/factory/mod.rs:deserialize"]}
{"id": "C63", "title": "Buffer allocation is driven by declared size", "statement": "Memory requested is bounded by the data present: false; an input of a few bytes makes the factory request a buffer of the full declared size (up to 512 MiB) before failing.", "quantifier": "every declared size", "why_tests_cant": "needs extreme sizes", "anchors": ["src/tags/serialization/mod.rs:deserialize_bytes_into_vec", "src/tags/mod.rs:ILRawTag::deserialize_value"]}
{"id": "C64", "title": "Reader errors are passed through", "statement": "If the reader fails with error e at any point while deserializing, the result is IOError(e) with that very e and no tag is returned.", "quantifier": "every input, every failure point", "why_tests_cant": "every fault injection point", "anchors": ["src/tags/mod.rs:ErrorKind From<io::ErrorKind>", "src/tags/serialization/mod.rs:deserialize_*", "src/io/data/mod.rs:read_ilint"]}
{"id": "C65", "title": "The result depends only on the bytes", "statement": "Deserializing the same bytes through any two well-behaved readers (array, vector, chunked stream, limited, seekable) gives the same tag or the same failure class and consumes the same bytes.", "quantifier": "every byte string, every pair of well-behaved readers", "why_tests_cant": "all readers", "anchors": ["src/tags/standard/factory/mod.rs:deserialize", "src/io/mod.rs:Reader"]}
{"id": "C66", "title": "Custom payload tags round trip", "statement": "For every payload type whose serialized_size matches what it writes and whose deserialize inverts its serialize, ILGenericPayloadTag round-trips through a factory with its creator registered, also nested in containers, and its size() is right. Payload code that calls skip or skip_u64 on the reader it is given behaves as if it read the bytes and dropped them.", "quantifier": "every lawful payload type and value", "why_tests_cant": "arbitrary payload types", "anchors": ["src/tags/payload/mod.rs:ILGenericPayloadTag", "src/tags/mod.rs:ILDefaultWithIdTagCreator"]}
{"id": "C67", "title": "Downcasts succeed exactly on matching id and type", "statement": "tag_downcast_*, *_with_id, tag_id_downcast_*, assert_tag_id_and_type* succeed exactly when the tag's concrete type (and id where given) match, with UnexpectedTagType/None/the given error otherwise, and return the same tag.", "quantifier": "every tag, id and type", "why_tests_cant": "2^64 ids times all types", "anchors": ["src/tags/mod.rs:tag_downcast_ref", "src/tags/mod.rs:tag_id_downcast_ref", "src/tags/mod.rs:assert_tag_id_and_type_or_error"]}
{"id": "C68", "title": "Serializing into a bounded buffer", "statement": "Serializing into a ByteArrayWriter succeeds exactly when the tag's size fits in the available space; then exactly the serialization is at the cursor; otherwise the result is IOError(UnableToWriteData) and the buffer holds a prefix of the serialization and no byte beyond.", "quantifier": "every tag, every buffer and cursor", "why_tests_cant": "all sizes and boundaries", "anchors": ["src/io/array/mod.rs:ByteArrayWriter", "src/tags/mod.rs:ILTag::serialize"]}
{"id": "C69", "title": "Writer errors stop serialization", "statement": "If the writer fails with e at any write, serialize returns IOError(e) immediately and performs no further writes; the writes performed are a prefix of the serialization. Also for tags with payloads that break their contract or fail by themselves: the calls made are a fixed series, cut off at the first one the writer does not accept.", "quantifier": "every tag, every writer, every failure point", "why_tests_cant": "every fault injection point", "anchors": ["src/tags/mod.rs:ILTag::serialize", "src/tags/serialization/mod.rs:serialize_*"]}
{"id": "C70", "title": "Count fields cannot exceed the value", "statement": "ILInt-array, OID and tag-array values whose declared count exceeds the value size are rejected with CorruptedData before any element is read or memory reserved; on success exactly count elements are stored.", "quantifier": "every count, every input", "why_tests_cant": "2^64 counts", "anchors": ["src/tags/standard/explicit/mod.rs:ILILIntArrayTag::deserialize_value", "src/tags/standard/explicit/mod.rs:ILTagArrayTag::deserialize_value"]}
{"id": "C71", "title": "Readers that implement only read", "statement": "A user-defined Reader that implements only read gets read_all, skip and skip_u64 that deliver/skip exactly the bytes read would deliver and advance past exactly them; tags deserialized through it are the same as from memory. Their inherited read_all and skip are not all-or-nothing: a failing call has consumed everything that was left (against the trait's documentation).", "quantifier": "every source, every count, every input", "why_tests_cant": "arbitrary user readers, all sizes incl. beyond 2^32", "anchors": ["src/io/mod.rs:Reader::read_all", "src/io/mod.rs:Reader::skip", "src/io/mod.rs:Reader::skip_u64"]}
{"id": "C72", "title": "Writers that implement only write", "statement": "A user-defined Writer that implements only write receives, for every write_all and every serialization, exactly the bytes in order, one at a time, up to the first refusal, whose error is returned; if it accepts everything it holds exactly the serialization.", "quantifier": "every writer, every tag", "why_tests_cant": "arbitrary user writers", "anchors": ["src/io/mod.rs:Writer::write_all", "src/tags/mod.rs:ILTag::serialize"]}
{"id": "C73", "title": "Work to measure and serialize a tag", "statement": "size, serialize and to_bytes take work proportional to the output: false; size() evaluates value_size() twice at every explicit level, so for every d an accepted input of at most 6d+10 bytes makes value_size run 2^(d+1)-1 times and to_bytes (hence iltag_are_equal and iltag_clone) at least that often. The number of calls is at most 2^(h+2) times the output length, h being the nesting depth, so it is linear for bounded nesting. Exactly: on a tag that lies in e explicit tags, itself included, size() calls value_size 2^e times, a successful serialize 2^e - 1 times and a successful to_bytes 2^(e+1) - 1 times.", "quantifier": "every nesting depth, every tag", "why_tests_cant": "exponential growth is a statement about all depths", "anchors": ["src/tags/mod.rs:ILTag::size", "src/tags/standard/explicit/mod.rs:ILTagSeqTag::value_size", "src/tags/mod.rs:ILTag::to_bytes"]}
{"id": "C74", "title": "Dictionary tags behave as maps", "statement": "Whatever history of insert, remove, clear, get, len and is_empty is applied to an ILDictTag or ILStrDictTag, every answer is that of a map (newest insertion wins, insert and remove return the previous value, len counts distinct keys), whatever order the hash map keeps its entries in; two histories that end in the same associations give tags that serialize to the same bytes, and reading those bytes gives a tag with the same associations.", "quantifier": "every history of calls, every rearrangement of the hash map between calls", "why_tests_cant": "all histories and hash orders", "anchors": ["src/tags/standard/explicit/mod.rs:ILDictTag", "src/tags/standard/explicit/mod.rs:ILStrDictTag"]}
{"id": "C75", "title": "Declared counts and sizes cannot make deserialization loop", "statement": "Deserializing with any factory makes at most 2n calls on the reader for n bytes delivered (2n+1 if it fails), whatever counts and sizes the input declares, including dictionaries whose count is not checked; hence at most 2n+1 calls on an input of n bytes. Custom payloads must not ask for empty buffers without bound.", "quantifier": "every input, every factory, every reader", "why_tests_cant": "declared counts up to 2^64; all inputs", "anchors": ["src/tags/standard/factory/mod.rs:deserialize", "src/tags/standard/factory/mod.rs:deserialize_into", "src/tags/standard/explicit/mod.rs:ILDictTag::deserialize_value", "src/tags/standard/explicit/mod.rs:ILStrDictTag::deserialize_value"]}
{"id": "C76", "title": "Memory requested in all by deserialization", "statement": "A successful deserialization has requested in all at most 16 bytes of memory for every byte it read. Whether or not it succeeds the total is at most 8 GiB for every byte of input; and that is reached up to a constant: for every d there is an input of 11d bytes (nested tag-array headers) that makes the standard factories request at least 8d GiB before failing.", "quantifier": "every input, every factory, every reader, every nesting depth", "why_tests_cant": "needs all inputs and extreme declared sizes", "anchors": ["src/tags/standard/explicit/mod.rs:ILTagArrayTag::deserialize_value", "src/tags/standard/explicit/mod.rs:ILILIntArrayTag::deserialize_value", "src/tags/serialization/mod.rs:deserialize_bytes_into_vec", "src/tags/standard/factory/mod.rs:deserialize"]}
{"id": "C77", "title": "Exactly which bytes are accepted, and what they mean", "statement": "The standard factory (strict or not) accepts exactly the byte strings of a grammar given by the tables of the standard: id, length unless implicit, value, all ILInts in any valid form (minimal or not), dictionaries with keys in any order and repeated (the last one counts), values of at most 512 MB; it reads each as the tag it stands for. A byte string stands for at most one tag, no form of a tag is a prefix of another, and the serialization of a tag is its shortest form.", "quantifier": "every byte string, every tag, every nesting", "why_tests_cant": "an exact language is a statement about all inputs, accepted and rejected", "anchors": ["src/tags/standard/factory/mod.rs:deserialize", "src/tags/standard/factory/mod.rs:from_bytes", "src/tags/standard/explicit/mod.rs:*::deserialize_value", "src/tags/standard/implicit/mod.rs:*::deserialize_value", "src/ilint/mod.rs:decode_from_reader"]}
{"id": "C78", "title": "Errors of the underlying std stream", "statement": "A ReadReader passes on an error of its source as an i/o error holding that error, and an early end as UnexpectedEof, having consumed exactly what was delivered before. A reader over Read+Seek reports every failed read as UnableToReadData, whatever the cause, with the position moved by what was delivered. A failing seek is reported as EndOfData if it is UnexpectedEof and as a boxed error otherwise, in skip_u64, len, is_empty, offset and available; only when it is the last seek of skip_u64 or len is the position lost: it is left at the end of the data.", "quantifier": "every stream, every schedule of short reads, interruptions and failures, every point at which it fails", "why_tests_cant": "fault schedules cannot be enumerated", "anchors": ["src/io/std_io/mod.rs:ReadReader", "src/io/std_io/mod.rs:impl Reader for T: Read + Seek", "src/io/std_io/mod.rs:SizedSeek", "src/io/mod.rs:impl From<std::io::Error> for ErrorKind"]}
{"id": "C79", "title": "What a factory that knows fewer types does", "statement": "If a factory creates the same tags as another one except for ids unknown to it, then on every reader, whatever its content and faults, it gives exactly the same result and leaves the reader in the same state, or it reports UnknownTag. So whatever it reads the other reads as the same tag; factories that create the same tags are interchangeable; the strict factory accepts a subset of what the non-strict one accepts, with the same meaning; registering a type under an unknown id only adds to what is read. The same for deserialize_into and from_bytes.", "quantifier": "every pair of such factories, every history of registrations, every reader and input", "why_tests_cant": "compares two programs on all inputs", "anchors": ["src/tags/mod.rs:ILTagCreatorEngine", "src/tags/standard/factory/mod.rs:deserialize", "src/tags/standard/factory/mod.rs:deserialize_into", "src/tags/mod.rs:from_bytes"]}
{"id": "C80", "title": "Records of typed values round trip", "statement": "Values of any types the extension traits support (integers, floats, ILInts, signed ILInts, strings, byte arrays), written one after another, append their encodings in order. Read back with the same types they give the same values and leave the reader just behind them, whatever follows. Reading a list of types succeeds exactly when the input begins with encodings of such values; on an input cut inside the encodings it fails with the reader's own error, after delivering every value whose encoding is complete.", "quantifier": "every list of typed values, every well-behaved reader and writer, every continuation and every truncation", "why_tests_cant": "all sequences of types and values", "anchors": ["src/io/data/mod.rs:ValueReader", "src/io/data/mod.rs:ValueWriter", "src/io/data/mod.rs:ILIntReader", "src/io/data/mod.rs:StringValueReader", "src/tags/serialization/mod.rs:ValueDeserializer", "src/tags/serialization/mod.rs:ValueSerializer", "src/tags/serialization/mod.rs:ByteArrayDeserializer", "src/tags/serialization/mod.rs:ByteArraySerializer"]}
{"id": "C81", "title": "Constructors and setters of the tag types", "statement": "new() of every standard type builds the tag that the standard factory creates for that type's id; with_value builds a tag under the same id holding the value given; with_id and with_id_value do the same under the id given. Raw tags, and big decimals under a chosen id, cannot be built under ids 0 to 15: the constructor panics. After any sequence of setter calls each component of a tag is the value last assigned to it, whichever setter assigned it, and the id is unchanged.", "quantifier": "every type, every value, every history of setter calls", "why_tests_cant": "all values and all histories of calls", "anchors": ["src/tags/standard/implicit/mod.rs:ILNullTag", "src/tags/standard/implicit/mod.rs:ILBin128Tag", "src/tags/standard/explicit/mod.rs:ILVersionTag", "src/tags/standard/explicit/mod.rs:ILRangeTag", "src/tags/standard/explicit/mod.rs:ILBigDecTag", "src/tags/standard/explicit/mod.rs:ILStringTag", "src/tags/standard/explicit/mod.rs:ILILIntArrayTag", "src/tags/standard/explicit/mod.rs:ILOIDTag", "src/tags/mod.rs:ILRawTag"]}
{"id": "C82", "title": "deserialize_value called directly", "statement": "Called on a reader without any limit around it, deserialize_value of every standard type except the two ILInt types takes at most value_size bytes from the reader, also when it fails, and exactly value_size bytes when it succeeds; a limit of at least value_size around it changes nothing. So reading a tag with the factory is the same as reading its header and calling deserialize_value of a new tag on the reader. With the standard factory a value is accepted exactly if the input begins with a form of a value of that type and length, and what serialize_value writes is read back by deserialize_value of any tag of the same type and id, whatever it held. With a customised factory whose creators are regular the same holds of the types of the library, the tags inside having the forms of that factory; and the code of a payload that takes just the declared number of bytes does with them what it does with these bytes alone.", "quantifier": "every tag type, every declared size, every reader, every factory", "why_tests_cant": "all readers with all faults, all sizes and all contents", "anchors": ["src/tags/mod.rs:ILTag::deserialize_value", "src/tags/standard/explicit/mod.rs:ILTagArrayTag", "src/tags/standard/explicit/mod.rs:ILDictTag", "src/tags/standard/factory/mod.rs:ILStandardTagFactory"]}
{"id": "C83", "title": "Limits compose", "statement": "A LimitedReader around a LimitedReader behaves, in every operation and while reading a tag with any factory, as one with the smaller of the two limits: the same results, the same use of the underlying reader, and both allowances shrink by the same amount. Reading a tag under a limit succeeds exactly when reading without the limit succeeds and takes no more bytes than the limit; the tag and the state of the reader are the same.", "quantifier": "every reader, every pair of limits, every operation, every factory", "why_tests_cant": "all readers, limits and operation sequences", "anchors": ["src/io/mod.rs:LimitedReader", "src/tags/mod.rs:ILTagFactory::deserialize"]}
{"id": "C84", "title": "Reaching a nested tag without reading the rest", "statement": "Given the bytes of any tags written one after another and a path through nested sequences, a caller who scans the value of each sequence for the wanted child (RawTagScanner on value_slice) and maps it back with map_to_parent_space reaches the tag the path leads to: the final offset has its id, tag_slice of the original bytes is what to_bytes gives for it, value_slice is its value, and from_bytes of the slice gives the tag back. Asking a sequence for a child it does not have is an error.", "quantifier": "every list of tags, every nesting depth, every path, debug and release arithmetic", "why_tests_cant": "unbounded nesting and all paths", "anchors": ["src/tags/raw/mod.rs:RawTagScanner::next_tag", "src/tags/raw/mod.rs:RawTagOffset::map_to_parent_space", "src/tags/raw/mod.rs:RawTagOffset::tag_slice", "src/tags/raw/mod.rs:RawTagOffset::value_slice", "src/tags/mod.rs:ILTagFactory::from_bytes"]}
{"id": "C85", "title": "Platforms with a narrower usize", "statement": "On a platform of any word width a tag that lies in the data is sliced out exactly by tag_slice and value_slice. Where usize has 64 bits a tag that ends beyond the data is never sliced (panic). Where it is narrower this is false: a tag 2^32 bytes further on is silently taken to lie in the data, and unrelated bytes are returned. The value sizes the factory accepts are exact wherever usize has at least 30 bits (not with 16). On any 32-bit platform an input of 11 bytes makes the factory panic, because it asks for 2^31 bytes.", "quantifier": "every word width, every offset and data, both overflow modes", "why_tests_cant": "other platforms and offsets beyond 4 GiB", "anchors": ["src/tags/raw/mod.rs:RawTagOffset::value_start", "src/tags/raw/mod.rs:RawTagOffset::value_end", "src/tags/raw/mod.rs:RawTagOffset::tag_slice", "src/tags/raw/mod.rs:RawTagOffset::value_slice", "src/tags/mod.rs:tag_size_to_usize", "src/tags/standard/explicit/mod.rs:ILILIntArrayTag::deserialize_value"]}
{"id": "C86", "title": "Exactly which bytes are text, and the order of keys", "statement": "read_string, a string tag and every string in a dictionary accept exactly the byte strings that are well-formed in the table of the Unicode standard (Table 3-7: no overlong forms, surrogates, numbers above U+10FFFF, lone or missing continuation bytes) and give the string they encode; everything else is CorruptedData, never replaced or cut. What is written is always well-formed. Dictionary keys are written in the order of their code points.", "quantifier": "every byte string, every string, every reader", "why_tests_cant": "all byte strings of up to 512 MiB", "anchors": ["src/io/data/mod.rs:DataReader::read_string", "src/tags/standard/explicit/mod.rs:ILStringTag::deserialize_value", "src/tags/standard/explicit/mod.rs:deserialize_string_tag_from_value", "src/tags/standard/explicit/mod.rs:ILDictTag::serialize_value"]}
{"id": "C87", "title": "What a failed read leaves in the buffer and in the tag", "statement": "When read_all fails, the buffer still has its size, and only bytes at its beginning, fewer than all, have been replaced: none by the in-memory readers and by a LimitedReader asked for more than its limit; by an inherited read_all the bytes read before the failing read; by the std adapters exactly the bytes taken from the source. So after a failed deserialize_bytes_into_vec, or deserialize_value of a raw tag, byte array, big integer or big decimal, the vector has the new size and is a mixture of new bytes, old bytes and zeros. On success the buffer holds exactly the bytes read, whatever it held before.", "quantifier": "every reader, source schedule, buffer, size and prior value", "why_tests_cant": "all interruptions and prior contents", "anchors": ["src/io/mod.rs:Reader::read_all", "src/io/mod.rs:LimitedReader::read_all", "src/io/array/mod.rs:ByteArrayReader::read_all", "src/io/std_io/mod.rs:ReadReader::read_all", "src/tags/serialization/mod.rs:ByteArrayDeserializer::deserialize_bytes_into_vec", "src/tags/mod.rs:ILRawTag::deserialize_value", "src/tags/standard/explicit/mod.rs:ILBigDecTag::deserialize_value"]}
{"id": "C88", "title": "Cursors and slices as std sources", "statement": "ReadReader over a std::io::Cursor or a byte slice, and a Cursor used as a Reader itself: read_all delivers the next bytes and advances if that many are left; otherwise it fails (IOError(UnexpectedEof), respectively UnableToReadData), changes no byte of the buffer, and leaves the position where it was or at the end, depending on the version of std. Where std leaves the position a failed read has no effect at all and a smaller read still succeeds; where it moves, nothing is left. Any factory reads from them the same tag, or fails alike, as from a ByteArrayReader over the remaining bytes, and skipping is that of any seekable source.", "quantifier": "all contents, positions (also behind the end), both behaviours of std, all buffers, all factories", "why_tests_cant": "unit tests use one std version and two or three reads", "anchors": ["src/io/std_io/mod.rs:ReadReader::read, read_all; impl Reader for Read + Seek"]}
{"id": "C89", "title": "Fixed-size std destinations", "statement": "Serializing a tag into a byte slice or a Cursor over one, through WriteWriter or through the Writer of Write + Seek, succeeds exactly when the tag's size fits behind the position; then the serialization is there and everything else is unchanged. If it does not fit the result is IOError(UnableToWriteData) and exactly the part that fits has been written, up to the last byte. A cursor behind the end accepts nothing and is left alone.", "quantifier": "all tags, all buffers, all positions", "why_tests_cant": "a test tries a few sizes; the point of failure falls inside any field of any tag", "anchors": ["src/io/std_io/mod.rs:WriteWriter::write, write_all; impl Writer for Write + Seek"]}
{"id": "C90", "title": "When a verdict is final", "statement": "A tag that was read stays the result, with the same rest, however much data follows; so does every error other than an i/o error. An i/o error does not by itself mean that data is missing: a nested tag that runs over the end of its container gives one whatever follows. But once the id, the size and that many bytes are there, the verdict is final, i/o errors included, and before that no tag is returned (except the two ILInt tags). So a caller who collects data until the announced size is complete need not try again.", "quantifier": "every input, every continuation, every factory, every pair of well-behaved readers", "why_tests_cant": "all continuations of all inputs", "anchors": ["src/tags/standard/factory/mod.rs:deserialize", "src/io/mod.rs:LimitedReader::read_all", "src/tags/mod.rs:ErrorKind"]}
{"id": "C91", "title": "Replacing a nested tag in place", "statement": "The bytes of any tags written one after another are in a buffer. A tag inside nested sequences is located with the scanner, a ByteArrayWriter over the buffer is set to its offset, and another tag of the same size is serialized there. Then the buffer holds exactly what to_bytes gives for the tags with the nested tag replaced, followed by what followed before, and the patched tag is read back as the tag with the replacement. The headers of the sequences around it remain right.", "quantifier": "every list of tags, every nesting depth and path, every replacement of the same size, debug and release arithmetic", "why_tests_cant": "unbounded nesting and all contents", "anchors": ["src/tags/raw/mod.rs:RawTagOffset::offset", "src/io/array/mod.rs:ByteArrayWriter::set_offset", "src/tags/mod.rs:ILTag::serialize", "src/tags/mod.rs:ILTag::to_bytes"]}
{"id": "C92", "title": "Payloads that misreport their size", "statement": "Whatever a custom payload reports as its size and whatever it writes: to_bytes is the id, the reported size and the bytes written by serialize_value, or what serialize_value fails with. If a factory that returns tags of the requested id accepts those bytes, the tag has the same id and the value written has exactly the reported size (the size fixed by the id, for an implicit id), so a wrong size at the top is never read back. Inside containers this is false: wrong sizes that make up for each other are accepted as different content, and iltag_are_equal calls the two equal.", "quantifier": "every tag with arbitrary payloads, every faithful factory", "why_tests_cant": "arbitrary user code", "anchors": ["src/tags/mod.rs:ILTag::serialize", "src/tags/mod.rs:ILTag::to_bytes", "src/tags/payload/mod.rs:ILGenericPayloadTag", "src/tags/standard/factory/mod.rs:deserialize_tag_value_into", "src/tags/util/mod.rs:iltag_are_equal"]}
{"id": "C93", "title": "Logs of tags survive a crash at any point", "statement": "Tags are serialized one after another to a destination that may fail at any call after taking part of the data, until one serialize fails. Reading what arrived returns every tag whose serialize reported success, in order and with its content, at most one more (the one whose serialize failed, if all its bytes arrived nevertheless), and then an i/o error; never a tag that was not written. For data cut after any number of bytes exactly the whole tags are returned and the reader then holds what is left of the next one. The error itself does not tell a cut from a proper end.", "quantifier": "every list of tags, every failure point of every destination, every cut, every well-behaved reader", "why_tests_cant": "needs every crash point of every history", "anchors": ["src/tags/mod.rs:ILTag::serialize", "src/tags/standard/factory/mod.rs:deserialize", "src/io/std_io/mod.rs:WriteWriter", "src/io/array/mod.rs:ByteArrayWriter", "src/io/array/mod.rs:ByteArrayReader"]}
{"id": "C94", "title": "Tags received in pieces", "statement": "A program keeps what it has received, takes tags from the front of it with deserialize over a ByteArrayReader, drops the bytes up to the reader's offset after each, waits for more on an i/o error and ends on anything else. However the data is cut into pieces, the tags delivered, the bytes kept and the verdict are the same as if all of it had arrived at once. If the data is that of some tags, then after any number of bytes exactly the tags that are whole have been delivered, in order, each once, and what is kept is a proper part of the next one. False, however, that a whole tag is always answered: one whose nested tag runs over its end is waited for forever, whatever arrives, and all of it is kept.", "quantifier": "every data, every way to cut it into pieces, every factory", "why_tests_cant": "all schedules of arrival", "anchors": ["src/tags/standard/factory/mod.rs:deserialize", "src/io/array/mod.rs:ByteArrayReader::offset", "src/io/mod.rs:LimitedReader::read_all", "src/tags/mod.rs:ErrorKind"]}
{"id": "C95", "title": "A log written in sessions, each cut short anywhere", "statement": "A log is written in sessions. Each opens it by reading tags until an i/o error, drops what is behind the last whole tag, and serializes its tags to the end of it with a writer that may fail at any call after part of the data, until one serialize fails. After any number of sessions the log holds, for each of them in order, the tags for which serialize returned Ok and at most one more, the one whose serialize failed, with their content; opening it never fails otherwise; and a tag that was found once is found in every later session. If the rest behind the last whole tag is not dropped this is false: a tag nobody wrote is read.", "quantifier": "every history of sessions, every list of tags, every writer and every point at which it fails", "why_tests_cant": "every crash point of every session of every history", "anchors": ["src/tags/mod.rs:ILTag::serialize", "src/tags/standard/factory/mod.rs:deserialize", "src/io/array/mod.rs:ByteArrayReader::offset", "src/io/std_io/mod.rs:WriteWriter"]}
{"id": "C96", "title": "Exactly what the tag scanner accepts, and how it fails", "statement": "What one call of next_tag does is determined by the bytes in the reader and the count of bytes so far, as given by a reference function: it reports a tag exactly when the bytes start with the layout of a tag (identifier, size and value, whatever the value holds), with the identifier, the length of the shortest header and the length of the value, and leaves the reader behind it. It fails with an i/o error of corrupted data exactly when the identifier or the size field is an ILInt of 2^64 or more, with corrupted data exactly for the implicit tag 15, and with an i/o error when the bytes end within the tag. In a build with overflow checks it panics exactly when identifier and size can be read and the counted end of the tag reaches 2^64; without these checks it never panics. It always returns. A loop that calls it until it no longer reports a tag ends, after at most as many tags as there are bytes.", "quantifier": "all byte strings, all readers over them, all counts so far, both overflow modes", "why_tests_cant": "the outcome depends on identifier, size field, value and length of the input together, over all byte strings", "anchors": ["src/tags/raw/mod.rs:RawTagScanner::next_tag", "src/tags/raw/mod.rs:RawTagScanner::extract_tag_size", "src/tags/raw/mod.rs:RawTagScanner::extract_implicit_ilint_tag_size"]}
{"id": "C97", "title": "Faults of a source never change what is read", "statement": "Deserializing a tag through a reader each of whose calls may fail at any time, for any reason, gives exactly what a reader without faults gives on the same bytes (the same tag, the same bytes left, the same error or panic), or it fails with an i/o error. This holds for ReadReader over any std::io::Read (short reads, interrupts, failures, early ends of file, in any order) and for Read+Seek sources. On a Read+Seek source, after any number of attempts and seeks, failed or not, and a seek back that succeeded, the next attempt gives what the bytes there hold or an i/o error. Without the seek this is false: after an i/o error in the middle of a tag, a new attempt on the same ReadReader may give a tag that nobody wrote.", "quantifier": "every byte string, every factory, every schedule of faults, every history of attempts", "why_tests_cant": "every point at which a source can fail, in every call, over all histories", "anchors": ["src/tags/standard/factory/mod.rs:deserialize", "src/io/std_io/mod.rs:ReadReader", "src/io/std_io/mod.rs:Reader for T: Read + Seek", "src/io/mod.rs:Reader"]}
{"id": "C98", "title": "Writing a tag again after a failure", "statement": "A tag is serialized to a Write+Seek destination at some position and fails at any point, any number of times, each time after a seek back to the position. Then the destination holds what it held, except that a first part of the tag's bytes is at their place; and once an attempt succeeds the destination is exactly as if it had been the first one: the bytes of the tag at the position (a gap before it filled with zeros), everything else as before, the position behind the tag. On a plain std::io::Write there is no way back: a tag written again after a failure may be read back as other tags.", "quantifier": "every tag, every content and position of the destination, every schedule of short, interrupted and failing writes and seeks, every number of attempts", "why_tests_cant": "every crash point of every attempt over all tags and destinations", "anchors": ["src/tags/mod.rs:ILTag::serialize", "src/io/std_io/mod.rs:Writer for T: Write + Seek", "src/io/std_io/mod.rs:WriteWriter"]}
{"id": "C99", "title": "An index made by scanning, and look-ups through it", "statement": "Tags of the standard layouts lie one after another in a source. Scanned from the start through a reader that may fail at any call, the successful calls give the places of the tags in order from the first one on, none missed and none invented, and the next call gives the place of the next tag or an i/o error. On a Read+Seek source the places so found, be it all or only the first ones, can be used for random access: after any use of the source before and after the scan (tags read, tags scanned, bytes read or skipped, seeks, each successful or not), a seek that succeeds to the offset of the i-th place followed by deserialize gives the i-th tag and leaves the source at the tag behind it, or fails with an i/o error.", "quantifier": "every list of tags, every continuation, every schedule of short, interrupted and failing reads and seeks, every history of uses", "why_tests_cant": "every point at which a source can fail, over all histories of use", "anchors": ["src/tags/raw/mod.rs:RawTagScanner::next_tag", "src/tags/raw/mod.rs:RawTagOffset::offset", "src/tags/standard/factory/mod.rs:deserialize", "src/io/std_io/mod.rs:Reader for T: Read + Seek", "src/io/std_io/mod.rs:ReadReader", "src/io/mod.rs:Reader::skip_u64"]}
{"id": "C100", "title": "Editing serialized tags without reading them", "statement": "The bytes of any tags lie one after another. A caller finds the tag that a path through nested sequences leads to with the scanner, puts the bytes of any other tags in its place (one: a replacement of any size; none: a deletion; several: an insertion), and puts the sequences around it together again, from the slices before and behind and with ILRawTag::with_value and to_bytes under the same id. The result is exactly what to_bytes gives for the tags so edited, followed by what followed before, and the standard factory reads the edited tags from it.", "quantifier": "every list of tags, every nesting depth and path, every list of tags put in, debug and release arithmetic", "why_tests_cant": "unbounded nesting and all contents; size fields change their own length at every level", "anchors": ["src/tags/raw/mod.rs:RawTagScanner::next_tag", "src/tags/raw/mod.rs:RawTagOffset::value_slice", "src/tags/raw/mod.rs:RawTagOffset::tag_end", "src/tags/mod.rs:ILRawTag::with_value", "src/tags/mod.rs:ILTag::to_bytes", "src/tags/standard/factory/mod.rs:deserialize"]}
{"id": "C101", "title": "Containers can be read and written piece by piece", "statement": "A caller that reads the header of a sequence itself, puts a LimitedReader of the declared size around the reader and calls deserialize until it is empty gets the tags inside the tag that deserialize of the whole gives, in order, and the reader ends in the same state; deserialize of the whole fails exactly when one of these calls does, with the same error and state. For an array the caller reads the number of elements and makes that many calls, after which the limited reader must be empty. Writing the id, the size of all elements (the number of elements for an array) and then each element is the same as serializing the container, with the same outcome and the same state of the writer.", "quantifier": "every factory that makes a sequence (array) for the id, every reader and writer with any behaviour (faults included), every content, valid or not, up to the size limit", "why_tests_cant": "Needs every content and every fault of the reader at every point, in two programs that put their limits in different places", "anchors": ["src/tags/standard/explicit/mod.rs:ILTagSeqTag", "src/tags/standard/explicit/mod.rs:ILTagArrayTag", "src/tags/standard/factory/mod.rs:ILStandardTagFactory", "src/io/mod.rs:LimitedReader", "src/tags/mod.rs:ILTag"]}
{"id": "C102", "title": "Following a log while it is being written", "statement": "A program reads tags through a ReadReader from a file to which another program is appending the bytes of some tags; the bytes arrive at any time, also between two reads of one tag or within one read_all, and the reads may be short, interrupted or fail. The follower remembers where the next tag starts, goes back there when an attempt fails with an i/o error, and tries again. After any number of attempts it has delivered the first tags written, in order, each once, with their content, and no other; it stands at the start of the next one and has not met any other error. Every tag whose bytes arrive completely is delivered after so many attempts as there are reads that may go wrong and one more for each tag. A follower that does not go back may deliver a tag nobody wrote.", "quantifier": "every list of tags, every interleaving of the appended bytes with the reads of the follower, every schedule of faults, every number of attempts", "why_tests_cant": "all schedules of two programs", "anchors": ["src/tags/standard/factory/mod.rs:deserialize", "src/io/std_io/mod.rs:ReadReader", "src/tags/mod.rs:ILTag::to_bytes", "src/tags/mod.rs:ErrorKind"]}
{"id": "C103", "title": "Several threads append to one log", "statement": "Any number of threads each make the bytes of their tags with to_bytes and hand each tag to a shared destination with one write_all. Whatever the order in which the calls are let through, the log is read back as exactly the tags handed in, in the order of the calls, each of them whole, and the tags of each thread in its order. If the threads call serialize on the shared destination instead this is false, even when each call of the destination is atomic: there is an order of the calls of two threads after which the log is read without an error as tags that nobody wrote.", "quantifier": "every number of threads, every list of tags of each, every schedule, every destination that takes everything", "why_tests_cant": "all schedules of all threads", "anchors": ["src/tags/mod.rs:ILTag::to_bytes", "src/tags/mod.rs:ILTag::serialize", "src/io/mod.rs:Writer::write_all", "src/tags/standard/factory/mod.rs:deserialize"]}
{"id": "C104", "title": "Exactly how every input is judged", "statement": "A validator that goes through the bytes by the tables of the standard, building nothing, says for every byte string where its first tag ends or which fault comes first: bytes missing (from the data or from the tag around), an ILInt of 2^64 or more, a value that is not one of its type, an identifier without a type, a value of more than 512 MiB. The standard factory agrees with it on every byte string and through every reader: it returns a tag and leaves the reader behind it exactly if the validator finds no fault, and else fails with the error of that very fault (an i/o error of the reader or UnableToReadData; IOError(CorruptedData); CorruptedData; UnknownTag; TagTooLarge). from_bytes also answers CorruptedData if bytes are left over. No other error occurs, and the strict mode differs only in the identifiers without a type.", "quantifier": "every byte string, every reader over it, both modes of the standard factory", "why_tests_cant": "the first fault of an input depends on all levels of nesting at once; error codes of all byte strings", "anchors": ["src/tags/standard/factory/mod.rs:ILStandardTagFactory", "src/tags/mod.rs:ILTagFactory::from_bytes", "src/tags/standard/factory/mod.rs:deserialize", "src/tags/mod.rs:ErrorKind", "src/tags/standard/explicit/mod.rs:ILDictTag::deserialize_value", "src/tags/standard/implicit/mod.rs:ILBoolTag::deserialize_value"]}
{"id": "C105", "title": "Canonical bytes are recognized without being read", "statement": "Whether an accepted byte string is exactly what its tag serializes to can be told from the bytes alone: every ILInt in it (identifiers, sizes, counts, numbers) is the shortest one and the keys of every dictionary ascend strictly, bytewise, at every depth - and nothing else matters. So the outputs of to_bytes on tags of the standard factory are exactly the byte strings that have no fault (C104) and pass this check, and two different byte strings that pass it are never read as equal tags (no two spellings: a signature or hash over canonical bytes names one tag).", "quantifier": "every byte string, both modes of the standard factory", "why_tests_cant": "the ways of writing a tag differently multiply over all levels of nesting; absence of further spellings is a statement about all byte strings", "anchors": ["src/tags/mod.rs:ILTagFactory::from_bytes", "src/tags/mod.rs:ILTag::to_bytes", "src/tags/standard/explicit/mod.rs:ILDictTag::serialize_value", "src/tags/standard/explicit/mod.rs:ILDictTag::deserialize_value", "src/ilint/mod.rs:decode", "src/ilint/mod.rs:encode"]}
{"id": "C106", "title": "What a change of bytes can do", "statement": "Replacing any one byte of the serialization of a tag by another value is never without effect: from_bytes refuses the changed bytes or gives a tag of another content. More generally every accepted byte string is at least as long as the serialization of its tag, and if it has the same length it is the same bytes except for the order of the entries of dictionaries, at any level; it is equal if no dictionary in it has two entries. Conversely every byte string that differs from the serialization in the order of the entries of its dictionaries only is accepted as a tag of the same content; so these are exactly the byte strings of at most that length with that content. That is all: bytes that are accepted but not canonical may contain bytes that do not matter (the value of an overwritten entry), and in a log one replaced byte can turn a byte array into any tags that its content spells, read without an error.", "quantifier": "every serialization of a tag of the standard factory, every changed byte or replacement of equal length", "why_tests_cant": "which of the changed inputs are still read, and as what, depends on all bytes together", "anchors": ["src/tags/mod.rs:ILTagFactory::from_bytes", "src/tags/mod.rs:ILTag::to_bytes", "src/tags/standard/explicit/mod.rs:ILDictTag::deserialize_value", "src/ilint/mod.rs:decode"]}
{"id": "C107", "title": "How much a tag that was read holds", "statement": "A tag read from n bytes holds at most n things in all, counting every tag in it, every byte of its byte strings, texts and keys, and every element of its arrays of numbers; and its tags are nested at most n/2 deep. This holds for every reader (n being the bytes taken from it) and is reached up to 6 bytes: for every n up to 512 MiB there are inputs of at most n + 6 bytes that give n + 1 tags, or n bytes of content. Under a customised factory the same holds, with what its payloads hold added, if their code keeps no more (by whatever measure) than it was given bytes.", "quantifier": "every input, every reader, both modes of the standard factory and customised factories", "why_tests_cant": "a bound for all inputs; overwritten dictionary entries and non-minimal numbers must be seen not to add anything", "anchors": ["src/tags/standard/factory/mod.rs:deserialize", "src/tags/mod.rs:ILTagFactory::from_bytes", "src/tags/standard/explicit/mod.rs:ILTagSeqTag::deserialize_value", "src/tags/standard/explicit/mod.rs:ILDictTag::deserialize_value"]}
{"id": "C108", "title": "Filling a buffer of fixed size with tags", "statement": "A caller serializes tags one after another into a ByteArrayWriter over a buffer of fixed size and, whenever one fails, sets the offset back to where that tag was to start and goes on with the next. Then the tags written are exactly those that fit, first come first served by their size(); the buffer keeps its length and all that was before the start; the part from the start up to the final offset holds the serializations of the tags written, in order, whatever the failed attempts left in between; and it is read back as exactly these tags. What is behind the offset is not blank: a tag that did not fit can leave there what is read as a tag that was not offered.", "quantifier": "every list of tags, every buffer and start in it", "why_tests_cant": "every point at which the buffer can end, within any call of any tag, any number of times", "anchors": ["src/io/array/mod.rs:ByteArrayWriter::set_offset", "src/io/array/mod.rs:ByteArrayWriter::offset", "src/tags/mod.rs:ILTag::serialize", "src/tags/mod.rs:ILTag::size", "src/tags/standard/factory/mod.rs:deserialize"]}
{"id": "C109", "title": "Tags have the types registered for their ids, at every depth", "statement": "A factory is built with the creators of the library, custom payload types among them. Whatever bytes it reads through whatever reader, every tag in the result, nested at any depth, has the Rust type that the factory makes for its id; so where a payload type is registered under an id, the downcast of any tag with this id in the result to that type succeeds and gives the payload, and the downcast to any other type fails. The downcasts to payload types succeed exactly on payload tags of that very type (and id). deserialize_into never changes the id and the type of its tag, whatever the outcome.", "quantifier": "every factory made of library creators, every set of payload types and their code, every reader, every input, every depth", "why_tests_cant": "the types of all results over all inputs, factories and payload code", "anchors": ["src/tags/mod.rs:tag_downcast_ref", "src/tags/mod.rs:tag_id_downcast_ref", "src/tags/standard/factory/mod.rs:deserialize", "src/tags/standard/factory/mod.rs:deserialize_into", "src/tags/payload/mod.rs:ILGenericPayloadTag", "src/tags/mod.rs:ILTagCreatorEngine"]}
{"id": "C110", "title": "How much memory is enough", "statement": "The amount of memory decides only between an answer and a panic: on a machine that can serve less memory, deserialize and from_bytes panic or give exactly the result, and leave the reader exactly as, on a machine that can serve more. Whatever bytes are accepted on some machine are accepted, as the same tag, on every machine that can serve sixteen bytes for each byte of input; so to_bytes followed by from_bytes works for every standard tag within that memory, without the 8 GiB the largest single request may need. Sixteen is the smallest such factor up to a constant: an array of n null tags (n + 9 up to 512 MiB) takes n + 11 bytes at most and panics where a buffer of 16 n bytes cannot be served. to_bytes panics if a buffer of the size the tag announces cannot be served; otherwise the amount of memory makes no difference to it.", "quantifier": "all factories and payloads, readers and their failures, byte strings, pairs of machines with any amount of memory; all standard tags; all counts", "why_tests_cant": "A test runs on one machine with one amount of memory; this compares all pairs of machines on all inputs.", "anchors": ["src/tags/mod.rs:ILTagFactory::deserialize", "src/tags/mod.rs:ILTagFactory::from_bytes", "src/tags/mod.rs:ILTag::to_bytes", "src/tags/serialization/mod.rs:ByteArrayDeserializer::deserialize_bytes_into_vec", "src/tags/standard/explicit/mod.rs:ILTagArrayTag::deserialize_value"]}
{"id": "C111", "title": "Debug and release builds agree", "statement": "A build with overflow checks and one without do the same: size, serialize, to_bytes, iltag_are_equal and iltag_clone_with_factory give the same result, the same bytes and the same state of the writer, for every tag whose payloads report their sizes truthfully. With payloads that report anything, a debug build does the same or panics, never something else: to_bytes, size and iltag_clone_with_factory panic exactly if the size reported by the tag, added up without bound, is 2^64 or more, iltag_are_equal if the first tag reports this, or the second one and the first can be serialized; serialize panics, with nothing but the id written, if the value reports that and the id is explicit, and is that of a release build if it reports less. A release build then writes a size field that has wrapped around.", "quantifier": "all tags with arbitrary payloads, all writers, both overflow modes", "why_tests_cant": "Tests run in one mode, and need payloads reporting 2^63 bytes to see the difference.", "anchors": ["src/tags/mod.rs:ILTag::size", "src/tags/mod.rs:ILTag::serialize", "src/tags/mod.rs:ILTag::to_bytes", "src/tags/standard/explicit/mod.rs:ILTagSeqTag::value_size", "src/tags/standard/explicit/mod.rs:ILDictTag::value_size", "src/tags/util/mod.rs:iltag_are_equal", "src/tags/util/mod.rs:iltag_clone_with_factory"]}
{"id": "C112", "title": "Serialized tags as sort keys", "statement": "Comparing the bytes that to_bytes gives, as Rust compares byte slices, orders any two tags by id, then by the length of the value if the id is explicit, then by the bytes of the value. So for tags with the same id: unsigned integers, ILInts, ranges (start, then count) and versions with parts that are not negative are in the order of their values; signed integers of fixed width are not, the negative ones coming last; signed ILInts are ordered by their distance from 0, the negative one of two opposites first; floating point numbers by value if they have no sign, then those with a sign by magnitude; texts by the number of their bytes, then by code points; byte strings by length, then by bytes. Of records of tags serialized one after another the first tag that differs decides.", "quantifier": "all pairs of tags, of values of each type, and of lists of tags a factory supports", "why_tests_cant": "An order of all pairs of values; every boundary between sizes of numbers matters.", "anchors": ["src/tags/mod.rs:ILTag::to_bytes", "src/tags/mod.rs:ILTag::serialize", "src/ilint/mod.rs:encode", "src/ilint/mod.rs:signed_encode", "src/tags/standard/implicit/mod.rs:ILUInt64Tag", "src/tags/standard/implicit/mod.rs:ILSignedILInt64Tag", "src/tags/standard/explicit/mod.rs:ILStringTag", "src/tags/standard/explicit/mod.rs:ILRangeTag", "src/tags/standard/explicit/mod.rs:ILVersionTag"]}
{"id": "C113", "title": "Payload code that handles errors of its reader", "statement": "The code of a payload may look at the errors of its read and read_all calls and go on, for example to read an optional field that older writers did not write. From a reader that holds the whole value it then behaves exactly as the code in which every call beyond the value fails with UnableToReadData and every other succeeds: same result, same payload, same state of the reader. If data is missing, no such code can make the factory accept the value. So with it a factory accepts exactly the values, with exactly the results, of some code that gives up on the first error. This holds for readers that still hold no more than before after a failed call, which all readers of the library do over well-behaved sources; on a source with passing faults code that tries again can get bytes from beyond its value, and nothing reports it.", "quantifier": "all payload code that calls read and read_all and uses the results, all values and sizes, all readers that last", "why_tests_cant": "All programs and all errors at once; a test has one program.", "anchors": ["src/tags/payload/mod.rs:ILTagPayload::deserialize", "src/tags/payload/mod.rs:ILGenericPayloadTag::deserialize_value", "src/tags/standard/factory/mod.rs:deserialize_tag_value_into", "src/io/mod.rs:LimitedReader::read", "src/io/mod.rs:LimitedReader::read_all"]}
{"id": "C114", "title": "Exactly which bytes a customised factory accepts", "statement": "Take any factory whose creators give tags with the id they were asked for and, under the implicit ids, the types of the standard; under explicit ids anything may be registered: library types under ids of the user's choice, custom payloads with their own code, or nothing. It accepts exactly the byte strings of a grammar: id, length unless implicit, value of the type registered for the id (all ILInts in any valid form, dictionary keys in any order and repeated, the last one counting), a payload's value being any bytes its code consumes entirely; at most 512 MB per value. It reads each as the tag it stands for, a byte string stands for at most one tag, no form is a prefix of another, and the same holds when reading from any reader, of which exactly the form is consumed. For the standard factories the grammar is the one of the standard. Creators of the library, registered and removed in any order, make such factories.", "quantifier": "every such factory, every payload code, every byte string, tag, nesting and well-behaved reader", "why_tests_cant": "All registrations and all inputs at once.", "anchors": ["src/tags/mod.rs:ILTagFactory::deserialize", "src/tags/mod.rs:ILTagFactory::from_bytes", "src/tags/mod.rs:ILTagCreatorEngine::register", "src/tags/mod.rs:ILTagCreatorEngine::create_tag", "src/tags/standard/factory/mod.rs:deserialize_tag_value_into", "src/tags/payload/mod.rs:ILGenericPayloadTag::deserialize_value"]}
{"id": "C115", "title": "Relays that know fewer types change nothing for the receiver", "statement": "A relay reads messages with its own factory and writes them again; the receiver reads them with a factory that knows more types (custom payloads, library types under other ids). If for each id of the receiver the relay has the same library type or, being not strict, makes a raw tag, then for every message the receiver can read, canonical or not, the relay reads and writes it without an error, in no more bytes, and the receiver reads the same tag from what the relay wrote as from the original; so for any number of relays with different factories. If the message is what to_bytes gives, each relay passes on exactly the same bytes, whatever is inside the tags it does not know.", "quantifier": "every receiver and relay factory of this kind, any number of relays, every byte string the receiver accepts", "why_tests_cant": "All pairs of factories, all chains and all messages at once, also those no serializer writes.", "anchors": ["src/tags/mod.rs:ILTagFactory::from_bytes", "src/tags/mod.rs:ILTag::to_bytes", "src/tags/mod.rs:ILTagCreatorEngine::create_tag", "src/tags/raw/mod.rs:ILRawTag", "src/tags/standard/explicit/mod.rs:ILTagSeqTag::deserialize_value", "src/tags/standard/explicit/mod.rs:ILDictTag::deserialize_value"]}
{"id": "C116", "title": "The stack that was enough to read a tag is enough for the rest", "statement": "The functions on tags call themselves for the tags inside, so that deep nesting can exhaust the stack. size, value_size and to_bytes of a tag need exactly as many nested calls as the tag has levels (itself, the tags inside it, those inside them, ...), serialize no more, whatever the writer does, and fewer are never enough for it to succeed. deserialize of any factory from any reader: if it returns at all within k nested calls, with a tag or an error, it does what it does with more room, and a tag it gives has at most k levels. So the stack that was enough to read two tags is enough to measure, serialize and compare them and, for the standard factory, to copy them; a tag read from n bytes has at most n/2+1 levels. The standard factory reads bytes within k nested calls exactly if they stand for a tag by a form of at most k levels; the bytes to_bytes gives for a tag it supports need exactly as many as the tag has levels, other bytes may need more, as entries of a dictionary that are overwritten later are read in full. A customised factory, likewise, reads bytes within k nested calls exactly if they have a form of at most k levels, where the code of a payload that has tags read is given what is left; what was read can be copied with the same room if that code reads what it writes with no more nested calls than it needed before, and only under such a condition.", "quantifier": "all tags, all factories and readers, every number of nested calls", "why_tests_cant": "The number of levels is not bounded; a test overflows the stack at one depth on one machine.", "anchors": ["src/tags/mod.rs:ILTag::size", "src/tags/mod.rs:ILTag::serialize", "src/tags/mod.rs:ILTag::to_bytes", "src/tags/mod.rs:ILTagFactory::deserialize", "src/tags/standard/explicit/mod.rs:ILTagSeqTag::value_size", "src/tags/standard/explicit/mod.rs:ILTagSeqTag::serialize_value", "src/tags/standard/explicit/mod.rs:ILDictTag::deserialize_value", "src/tags/util/mod.rs:iltag_are_equal", "src/tags/util/mod.rs:iltag_clone_with_factory"]}
{"id": "C117", "title": "Reading and writing again with customised factories", "statement": "Whatever a customised factory accepts normalises in one step, if the code of its payloads does so for their own bytes: what was read can be serialized, in no more bytes than were read, is read again as the same tag, and gives the same bytes from then on; so the tags it can read are exactly those it can also write and read back. A relay with customised types of its own, payloads included, changes nothing for a receiver with another factory if for each id of the receiver it has the same library type, or makes a raw tag, or has a payload that carries the receiver's (reads whatever the receiver's code reads, and writes something from which that reads the same, in no more bytes): for every message, canonical or not, and any number of relays. Without that condition the receiver can be left with bytes it cannot read.", "quantifier": "every factory and payload code of this kind, every byte string accepted, any number of relays", "why_tests_cant": "All payload codes, factories and messages at once, also messages no serializer writes.", "anchors": ["src/tags/mod.rs:ILTagFactory::from_bytes", "src/tags/mod.rs:ILTag::to_bytes", "src/tags/payload/mod.rs:ILTagPayload", "src/tags/payload/mod.rs:ILGenericPayloadTag::deserialize_value", "src/tags/payload/mod.rs:ILGenericPayloadTag::serialize_value", "src/tags/mod.rs:ILTagCreatorEngine::create_tag"]}
{"id": "C118", "title": "A queue of tags kept in a file", "statement": "Producers append tags made with to_bytes to a file, one write each; consumers take tags with deserialize from a common position, which is saved now and then. A write may be cut short anywhere, and then nobody writes until the program is started again; starting drops what is behind the last whole tag and goes back to the position saved. In whatever order all this happens, the queue behaves like a list in memory: the same consumers get the same tags in the same order and reading never fails other than for want of data; tags once in the file stay there; every tag in the file has been given out after as many attempts as there are tags in it; and the tags given out are the first tags in the file, each exactly once, if the position had been saved since the last tag was taken whenever the program ended. Otherwise a tag may be given out twice.", "quantifier": "every history of writes, cuts, takes, saves and restarts, any number of producers and consumers, all tags the factory can read", "why_tests_cant": "The histories are the interleavings of any number of threads with failures at any byte and restarts at any moment.", "anchors": ["src/tags/mod.rs:ILTag::to_bytes", "src/tags/standard/factory/mod.rs:deserialize", "src/io/array/mod.rs:ByteArrayReader::offset", "src/io/mod.rs:Writer::write_all"]}
{"id": "C119", "title": "Ledgers: the hash of the last record fixes all of them", "statement": "A ledger is a list of tags in which every record, a sequence of a body and a byte array, carries the hash of the serialization (to_bytes) of the record before, and the first a fixed value. Whatever the hash function: the checks and the hash of the last record depend only on the content of the tags, not on the order in which dictionaries hold their entries; records written to a log and read back through any reader pass the same checks with the same hash; and two ledgers with the same beginning and the same last hash have equally many records of the same content one by one, or among their serializations there are two different ones with the same hash (or one with the hash of the beginning). This covers whatever the standard factory reads from a log of which any bytes were changed. It is false if the bytes received are hashed instead of the serialization of the tag: an accepted record can have other bytes than to_bytes gives.", "quantifier": "every hash function, every list of tags the factory can read, every replacement of the bytes of the log, every reader", "why_tests_cant": "The claim is about all pairs of ledgers and all changes of a log; tests can only try some.", "anchors": ["src/tags/mod.rs:ILTag::to_bytes", "src/tags/mod.rs:ILTagFactory::from_bytes", "src/tags/standard/factory/mod.rs:deserialize", "src/tags/standard/explicit/mod.rs:ILDictTag::serialize_value"]}
{"id": "C120", "title": "What a change of bytes can do under customised factories", "statement": "As for the standard factory, of the byte strings that a factory with types of its own, payloads included, reads as some tag, the serialization of the tag is the shortest, and those of its length differ from it only by the order of entries of dictionaries; these are all accepted and have the same content. So a change of bytes of a serialization that keeps the length, in particular of a single byte, is refused or gives a tag of another content, or moves entries of a dictionary, whichever of such factories reads it. This needs that the code of the payloads normalises and accepts only one form of the least length for its own bytes; a payload that ignores a bit of a byte normalises, but that bit can be changed without effect.", "quantifier": "every factory and payload code of this kind, every serialization, every changed byte or replacement of equal length", "why_tests_cant": "All payload codes, and all single changes of all serializations.", "anchors": ["src/tags/mod.rs:ILTagFactory::from_bytes", "src/tags/mod.rs:ILTag::to_bytes", "src/tags/payload/mod.rs:ILTagPayload", "src/tags/payload/mod.rs:ILGenericPayloadTag::deserialize_value", "src/tags/mod.rs:ILTagCreatorEngine::create_tag"]}
{"id": "C121", "title": "Ledgers with customised records, and relays on the way", "statement": "The tags a customised factory (whose payloads normalise) can read are exactly those of which every part has the type the factory makes for its id and can be written and read back, so a ledger may contain records of customised types: two such ledgers read from any bytes, with the same beginning and the same hash of the last record, have the same content record by record or show a collision of the hash function. If the messages pass through any number of relays with other factories, the receiver reads records of the same content from what arrives and its checks have the same result as without relays, also for messages that are not canonical. A relay that knows sequences and byte arrays, but not what is inside the bodies, can check a ledger of records as they were written, too: what the receiver finds right it finds right, with the same hash. For records that are accepted but not canonical this last is false.", "quantifier": "every hash function, every such factory and payload code, every list of messages the receiver can read, any number of relays, every reader", "why_tests_cant": "Holds for all hash functions, factories, payload codes and messages at once.", "anchors": ["src/tags/mod.rs:ILTag::to_bytes", "src/tags/mod.rs:ILTagFactory::from_bytes", "src/tags/standard/factory/mod.rs:deserialize", "src/tags/payload/mod.rs:ILTagPayload", "src/tags/mod.rs:ILTagCreatorEngine::create_tag"]}
{"id": "C122", "title": "Tags over the limit are written but never read", "statement": "Serializing does not check the limit of 512 MiB per value. A tag with an explicit id whose value is longer is written without error into any writer that takes the bytes, but no factory reads it, from whatever reader and whatever follows: the answer is TagTooLarge. In a file of tags it shuts off everything behind it: reading gives the tags before it, then TagTooLarge, and no number of reads gives more; the tag scanner is not stopped by it and finds the tags behind it. One test before writing avoids this: a tag of standard types can be read again with the standard factory exactly if value_size of the tag itself is at most 512 MiB, whatever is nested in it, and then to_bytes gives bytes that are read back as the same content.", "quantifier": "every tag shorter than 2^64 bytes, every factory, reader and writer, any tags before and any bytes behind", "why_tests_cant": "Tests do not write tags of this size, and the equivalence is about all tags at all levels of nesting.", "anchors": ["src/tags/mod.rs:ILTag::serialize", "src/tags/mod.rs:ILTag::value_size", "src/tags/mod.rs:MAX_TAG_SIZE", "src/tags/standard/factory/mod.rs:deserialize", "src/tags/util/mod.rs:RawTagScanner::next_tag"]}
{"id": "C123", "title": "Payloads made of fields keep every promise", "statement": "A user implements ILTagPayload for a struct the usual way: its parts are numbers, floats, ILInts, texts and byte strings of fixed size, texts kept as string tags, byte strings and lists kept with their length, options kept with a flag, enums kept with a byte for the variant and its fields (layouts that depend on a version number in front are of this kind), and structs of these, nested in any way; serialize writes them in order with the functions of the library, deserialize reads them in the same order, serialized_size adds up their sizes. Any number of such types, registered under explicit ids beside the standard types, meets every condition that the properties of customised factories ask for (C114, C117, C120). In particular: reading a value succeeds exactly on its forms (every ILInt of any valid form, the rest one way), through every reader; trees of standard tags and such payloads are read back as they were and size() is the number of bytes; whatever is read holds values of the types registered, and is written again in no more bytes, with the same meaning and then without further change; no change of one byte of such bytes is read as the same tag; and no input makes reading panic or go on for ever.", "quantifier": "every struct type of this kind, every set of them under explicit ids, every value, every tree, every byte string, reader and writer, both modes of the standard factory", "why_tests_cant": "It is a statement about all user-defined types of this kind, not about one.", "anchors": ["src/tags/payload/mod.rs:ILTagPayload", "src/tags/payload/mod.rs:ILGenericPayloadTag", "src/tags/serialization/mod.rs:ValueDeserializer", "src/tags/serialization/mod.rs:ValueSerializer", "src/tags/serialization/mod.rs:ILIntDeserializer", "src/tags/serialization/mod.rs:ByteArrayDeserializer", "src/tags/standard/explicit/mod.rs:deserialize_string_tag_from_value", "src/tags/mod.rs:tag_size_to_usize"]}
{"id": "C124", "title": "A payload type with more fields is never misread", "statement": "Two versions of a program register payload types made of fields (C123) under the same ids; under some of them the newer version has more fields at the end, each new part taking at least one byte. From every reader, whatever it holds and whatever faults it has, both versions read the same tag and leave the reader at the same place, or one of them does not succeed. If what one of them reads is, or contains at any depth, a tag whose type has changed, the other one does not read it: from_bytes reports an error, never a tag with fields missing or taken from bytes behind the payload. Everything else that is read by one is read by the other as the same tag or refused. So what one version writes with a changed payload anywhere in it, the other refuses, in both directions, because the factory checks that the whole payload, and nothing else, has been read.", "quantifier": "every pair of such versions (any number of types, of added fields, with other default values), every tree, every byte string, every reader with any faults, both modes", "why_tests_cant": "It is about all types, all additions to them, and all positions in trees of any depth.", "anchors": ["src/tags/standard/factory/mod.rs:deserialize_tag_value_into", "src/tags/standard/factory/mod.rs:deserialize", "src/tags/payload/mod.rs:ILTagPayload", "src/tags/payload/mod.rs:ILGenericPayloadTag", "src/io/mod.rs:LimitedReader", "src/tags/mod.rs:ILTagFactory::from_bytes"]}
{"id": "C125", "title": "A payload type with more variants reads all old data", "statement": "Two versions of a program register payload types made of fields (C123). In the newer one, enums in these types, at any place in them, may have more variants (a new layout under a new version number in front is one), and where the older one refuses an id the newer one may have a payload. Then upgrading loses nothing: whatever the older version reads, from any reader whatsoever, the newer one reads as a tag of the same content, taking the same bytes. Tags of the same content have the same size and are written by the same calls to every writer, in whichever version's types they are held; so what the newer version writes is read back by the older one as long as it holds only what the older one could hold. And something new is never taken for something else: bytes the newer version reads are read by the older one with the same content, or it reports an error; it does report one if there is, at any depth, a payload the older version has no value or no type for.", "quantifier": "every pair of such versions (any number of types, of new variants at any place, of new types, with any defaults), every tree, every byte string, every reader with any faults, every writer, both modes", "why_tests_cant": "It is about all types, all additions to them, and all positions in trees of any depth.", "anchors": ["src/tags/standard/factory/mod.rs:deserialize_tag_value_into", "src/tags/standard/factory/mod.rs:deserialize", "src/tags/payload/mod.rs:ILTagPayload", "src/tags/payload/mod.rs:ILGenericPayloadTag", "src/tags/serialization/mod.rs:ValueDeserializer", "src/tags/mod.rs:ILTagFactory::from_bytes", "src/tags/mod.rs:ILTag::to_bytes"]}
{"id": "C126", "title": "Programs whose payload types have developed apart never disagree", "statement": "Any number of programs use payload types made of fields (C123) under the same ids, in versions that have developed independently: each may have variants of its own in its enums, at any place, as long as no two use the same byte for different things; each may have more fields at the end of a payload, or of a variant that ends it (each new part taking at least one byte); and where one refuses an id another may have a payload. Neither version needs to be the newer one; the changes of C124 and C125 are of this kind. Then from every reader whatsoever, two of them that both read a tag read the same content and take the same bytes; for any bytes both read the same content or one reports an error. And data handed on among them is never altered: if one of them reads a tag and writes it, and the bytes then go through any others in any order and any number of times, each reading and writing them, the bytes stay as the first one wrote them; that one reads them as the tag it had, and everyone who can read them reads that content.", "quantifier": "every such family of versions, every sequence of programs, every tree, every byte string, every reader with any faults, both modes", "why_tests_cant": "It is about all types, all independent changes of them, and all ways through any number of programs.", "anchors": ["src/tags/standard/factory/mod.rs:deserialize_tag_value_into", "src/tags/standard/factory/mod.rs:deserialize", "src/tags/payload/mod.rs:ILTagPayload", "src/tags/payload/mod.rs:ILGenericPayloadTag", "src/io/mod.rs:LimitedReader", "src/tags/mod.rs:ILTagFactory::from_bytes", "src/tags/mod.rs:ILTag::to_bytes"]}
{"id": "C127", "title": "Payloads that end with the rest of the bytes", "statement": "A payload type made of fields (C123) may have a last field that takes the rest: deserialize reads the fields and then, with deserialize_bytes, as many bytes as value_size exceeds the sizes of the fields, computed as serialized_size computes them. Inside a tag this subtraction never goes below 0, whatever the bytes, so it needs no check. Such types, in any number beside types without a rest and the standard ones, meet every condition the properties of customised factories ask of payloads. Everything written is read back as it was and size() is the number of bytes written. What is read is known exactly: the fields in their shortest form and then any bytes at all. A number in a longer form, which is accepted in a payload without a rest, is refused in front of one (the bytes counted for it are fewer than those read, so more is asked for than there is); it is never taken with a shifted rest. Reading never panics nor fails to end, on any bytes, and whatever is read is written again in no more bytes, which are read as the same.", "quantifier": "every struct type with and without a rest, every set of them under explicit ids, every value and rest, every tree, every byte string and reader, both modes of the standard factory", "why_tests_cant": "It is about all types of this kind and all byte strings, among them the rarely met longer forms of numbers.", "anchors": ["src/tags/payload/mod.rs:ILTagPayload", "src/tags/payload/mod.rs:ILGenericPayloadTag", "src/tags/serialization/mod.rs:ByteArrayDeserializer", "src/tags/serialization/mod.rs:ILIntDeserializer", "src/io/mod.rs:LimitedReader", "src/tags/standard/factory/mod.rs:deserialize_tag_value_into"]}
{"id": "C128", "title": "Tags of the same content cannot be told apart", "statement": "A HashMap lists its entries in an order that differs from run to run, so the same dictionary is held in many ways. No program can see in which: two tags (with whatever is in them) are of the same type, id and content at every level, maps being compared as maps, if and only if no program, however long and however it goes on from the answers it gets, ever gets another answer from any call on tags and factories because one of its variables holds the one instead of the other. The calls are those that make tags, give type, id, sizes, accessors, numbers of items and entries, take items and entries out, put them in, replace, remove or clear them, write, compare, clone, read and read into tags, with any factory; all answers, including errors, and all tags held at the end agree. (The order in which a HashMap lists its entries is the one thing a program could ask for that is not among them.) In particular what comes back from the bytes of a tag, or a clone of it, does for every program as well as the tag itself. The same holds at the level of single calls with any reader and writer, faulty ones included: tags of the same content make the same calls to every writer, also with payloads that break their contract or sizes beyond 2^64, and deserialize_into takes the same bytes, has the same outcome, and leaves the same content behind, also if it fails half-way.", "quantifier": "every program (of any length, reacting to every answer), every factory, every pair of tags with any content and payloads, every other tag the program holds, every reader and writer", "why_tests_cant": "It is about all programs that use the library, not about single calls, and about an order no test can choose.", "anchors": ["src/tags/mod.rs:ILTag", "src/tags/mod.rs:ILTagFactory", "src/tags/standard/explicit/mod.rs:ILDictTag", "src/tags/standard/explicit/mod.rs:ILStrDictTag", "src/tags/standard/explicit/mod.rs:ILTagSeqTag", "src/tags/standard/explicit/mod.rs:ILTagArrayTag", "src/tags/util/mod.rs:iltag_are_equal", "src/tags/util/mod.rs:iltag_clone_with_factory", "src/tags/standard/factory/mod.rs:deserialize_into"]}
{"id": "C129", "title": "Of what a factory makes only the type matters", "statement": "What a creator puts into the tags it makes never shows in what is read. Two factories whose tags are of the same type and id for every id (custom payloads: of types that read in the same way), and that fail alike where they have none, do the same on every reader, whatever its content and faults: deserialize, deserialize_into and from_bytes give the same result, the same tag and the same state of the reader, and every program that goes on from the answers of the API gets the same answers with either and holds the same tags. In particular a creator may be exchanged for another that makes tags of the same type. Nothing less will do: factories that make library tags with the ids they were asked for, under implicit ids of the standard types, read all byte strings alike exactly if they have the same type, or the same error, for every id.", "quantifier": "all pairs of factories, all readers and inputs, all programs", "why_tests_cant": "Tests use the creators of the library, which make empty tags; that no leftover of a user's creator ever comes through, at any depth and after any failure, concerns all creators and all inputs.", "anchors": ["src/tags/mod.rs:ILTagFactory", "src/tags/mod.rs:ILTag::deserialize_value", "src/tags/standard/factory/mod.rs:deserialize", "src/tags/standard/factory/mod.rs:deserialize_tag_value_into", "src/tags/mod.rs:ILTagCreatorEngine"]}
{"id": "C130", "title": "Code that reads sees nothing but the bytes", "statement": "Take any code of a user that is given a reader and calls, in any order and depending on all it has read so far, read, read_all, deserialize_ilint, deserialize_signed_ilint, deserialize_bytes, deserialize_string_tag_from_value, deserialize and deserialize_into of any factories, deserialize_value of any tags, and other such code on a LimitedReader around its reader, giving up on the first failing call. On two well-behaved readers that hold the same bytes it has the same result (i/o errors may differ in detail) and leaves the same bytes. On a reader that may fail at any call it has the result it has without faults and stands at the same place, or it fails with an i/o error. On any reader at all it makes no call after one that failed and reports that failure, and if no call fails the bytes delivered alone decide the result. Under two limits, one inside the other, it does what it does under the smaller one, and it succeeds under a limit exactly if it succeeds without one and takes no more bytes than the limit. With less memory it does the same, or a request of memory is refused.", "quantifier": "all code of this kind, all readers, all contents, faults and limits", "why_tests_cant": "It concerns programs that are not written yet, on every kind of reader and with a fault at any point; tests run a few programs on a few readers.", "anchors": ["src/io/mod.rs:Reader", "src/io/mod.rs:LimitedReader", "src/tags/mod.rs:ILTagFactory::deserialize", "src/tags/mod.rs:ILTagFactory::deserialize_into", "src/tags/mod.rs:ILTag::deserialize_value", "src/tags/serialization/mod.rs:deserialize_bytes"]}
{"id": "C131", "title": "An interrupted conversion has written a prefix of the right output", "statement": "Take any code of a user that reads from a reader (in the ways of C130) and writes to a writer as it goes, with write, write_all, serialize_ilint, serialize_signed_ilint, serialize_string_tag_from_value, serialize and serialize_value of any tags, what it writes depending on all it has read, and that gives up on the first failing call. On a reader that may fail at any call and a writer of any kind, either no fault shows, and the result, the output and the place in the input are those of a run without faults on the same bytes; or the code ends with the first failure of its reader or writer, and the bytes the writer accepted are a prefix of the right output. Input that arrives only in part gives the result and the output of the whole, or an i/o error after a prefix of the output of the whole. A second conversion that reads what an interrupted first one has written does what it does on the right output, or fails with an i/o error after a prefix of that.", "quantifier": "all code of this kind, all readers and writers, all inputs, every point of failure of either side", "why_tests_cant": "The code is not known, and the failures may come at any call on either side; tests try a few.", "anchors": ["src/io/mod.rs:Reader", "src/io/mod.rs:Writer", "src/tags/mod.rs:ILTag::serialize", "src/tags/mod.rs:ILTag::serialize_value", "src/tags/mod.rs:ILTagFactory::deserialize", "src/tags/serialization/mod.rs:serialize_ilint"]}
{"id": "C132", "title": "Code that skips and scans cannot tell apart readers that answer alike", "statement": "Take any code of a user that reads from a reader in the ways of C130 and may also call skip, skip_u64 and RawTagScanner::next_tag, hand a LimitedReader to other such code, and go to the end of one with goto_end, giving up on the first failing call. If a reader (possibly one written by the user) answers each single call as another one does, or with an error, then the code has the same outcome on it as on the other, or fails with an i/o error; if both answer alike, the outcome is the same on both (i/o errors may differ in detail), and what is left of them answers alike again. In particular the outcome on any two of byte arrays, vectors and streams without failures depends on nothing but the bytes, and a stream with short reads, interrupts, failures and early ends gives the outcome of an array of the same bytes or an i/o error. Seekable sources are not among them: for sizes near 2^64 they panic or go backwards where the others fail (C23, C60). On one with faults of any kind the outcome in a debug build is that on an array of the bytes that follow, an i/o error, or a panic; and where the code succeeds in a debug build it does the same on it in a release build.", "quantifier": "all code of this kind, all pairs of readers that answer single calls alike, all inputs, schedules and faults", "why_tests_cant": "It reduces all programs to single calls; tests run a few programs, on the readers of the library.", "anchors": ["src/io/mod.rs:Reader::skip", "src/io/mod.rs:Reader::skip_u64", "src/io/mod.rs:LimitedReader::goto_end", "src/tags/raw/mod.rs:RawTagScanner::next_tag"]}
{"id": "C133", "title": "Code that handles errors sees neither the kind of memory, nor the pieces of a stream, nor the build", "statement": "Take any code of a user as in C132 that in addition handles the errors of what it calls: it goes on after any failure, from the error it got, on the reader (or limited reader, whose available() it may look at) as the failed call left it. If a reader answers each single call exactly as another one does, errors included, then the code has exactly the same outcome on both, and leaves them in states that answer alike again. In particular it makes no difference whether the bytes are in a slice or in a vector, and none in which pieces a stream without failures delivers them and how often it is interrupted: results, errors and what is left are the same. And code that does not panic in a debug build does exactly the same in a release build, on any reader, among them seekable sources with faults of any kind.", "quantifier": "all code of this kind, all pairs of readers that answer single calls exactly alike, all inputs and schedules, both builds", "why_tests_cant": "It concerns all ways to recover from an error, in programs that are not known, and all ways to cut a stream into pieces.", "anchors": ["src/io/mod.rs:Reader", "src/io/mod.rs:LimitedReader", "src/io/array/mod.rs:ByteArrayReader", "src/io/array/mod.rs:VecReader", "src/io/std_io/mod.rs:ReadReader", "src/tags/raw/mod.rs:RawTagScanner::next_tag"]}
{"id": "C134", "title": "Conversions that handle errors do the same on readers and writers that answer alike", "statement": "Take any code of a user that reads from a reader as in C133 and writes to a writer with write, write_all, serialize_ilint, serialize_signed_ilint, serialize_string_tag_from_value, serialize and serialize_value of any tags, and that handles all errors of both sides itself, going on from any of them in any way. On a reader and a writer that answer each single call exactly as others do, errors included, it has exactly the outcome it has on the others, and leaves all of them in states that answer alike again. In particular nothing depends on whether the input is in a slice or in a vector and whether the vector written to is owned or borrowed; nothing on the pieces in which a stream without failures delivers the input; a destination that accepts everything gets what a new vector would; and code that does not panic in a debug build does exactly the same in a release build, on any reader and any writer, with faults of any kind.", "quantifier": "all code of this kind, all pairs of readers and writers that answer single calls exactly alike, all inputs and schedules, both builds", "why_tests_cant": "It concerns all programs and all ways to recover from errors of either side.", "anchors": ["src/io/mod.rs:Reader", "src/io/mod.rs:Writer", "src/io/array/mod.rs:VecWriter", "src/io/array/mod.rs:BorrowedVecWriter", "src/io/std_io/mod.rs:WriteWriter", "src/tags/mod.rs:ILTag::serialize"]}
