#!/usr/bin/env python3
"""Writes the per-property table of DESIGN.md from PLAN below, between the markers."""
PLAN = {
1:"Model of encode over class Writer and decode over class Reader. Proof: arithmetic of big-endian digits; stated for every reader that has a View (see below).",
2:"Direct from the encoder model and the specification of length.",
3:"Spec/ILInt.lean gives the wire form over Nat (minimal byte count, big-endian digits); encoder = spec by case split on the eight thresholds.",
4:"decode_from_bytes model with checked additions (overflow = panic value); iff-characterisation against big-endian value over Nat.",
5:"Both decoder models related through View; equality of outcome for every byte string.",
6:"From the wire form: first byte determines the length; then list lemmas; induction on lists of values.",
7:"Nat inequalities on thresholds; lexicographic order via first byte then equal-length big-endian comparison.",
8:"Int64/UInt64 shifts modelled literally; proof by BitVec/Int arithmetic.",
9:"From C01+C08 and monotonicity.",
10:"From C04; negation of uniqueness with witness and partial uniqueness for v < 248.",
11:"Cursor specification (data, position) with an interpreter of operation histories; simulation by induction on the history.",
12:"Bisimulation over histories.",
13:"Induction on the chunk loop; usize::MAX is a parameter of skip_u64.",
14:"File-with-cursor specification; simulation by induction on the history.",
15:"Induction on the buffer.",
16:"Invariant over histories of write/write_all; underflow witness after set_offset.",
17:"Invariant over histories.",
18:"Arbitrary Reader instance (no laws); invariant consumed + available = limit by induction on histories.",
19:"Positive lemmas for read/read_all/short skip, negation with a 600/700 witness for skip.",
20:"View of the source.",
21:"std Read modelled as data + schedule of (chunk size | Interrupted); read_exact loop; induction on schedule; yields a View so every reader theorem applies.",
22:"std Write modelled as a schedule of answers; exact characterisation.",
23:"Cursor-like seekable source (content, position as u64); arithmetic mode checked/wrapping as parameter.",
24:"Same source model.",
25:"Models of read_*/write_* over View / writer trace; one generic big-endian lemma.",
26:"Rust String = Lean String (UTF-8 validated bytes); from_utf8 = String.fromUTF8?.",
27:"Direct.",
28:"Structural induction on tags against Spec bytes; wrapping u64 sums shown equal to the Nat sums; checked variant shown not to panic.",
29:"Spec/Tag.lean defines the byte layout independently; serialize is shown to perform, on every writer, a trace of writes whose concatenation is that layout.",
30:"Induction on tags, for every reader with a View; engine conditions stated as: the creator registered for each (nested) id produces that type. Result is the tag with dictionaries in sorted order, which is the same map.",
31:"Stream form of C30, then induction on the list.",
32:"From C31.",
33:"List-level parser: success is stable under extension.",
34:"Same stability lemma: if a proper prefix were accepted, the longer input would leave a remainder.",
35:"Soundness: every accepted input yields a tag satisfying the round-trip conditions and length(re-encoding) <= length(input).",
36:"Fuel-based model; fuel shown sufficient for every reader (limit strictly decreases); panic shown unreachable through the list-level parser.",
37:"Allocation limit is a parameter (allocMax); exceeding it is a panic value; theorem: no panic when allocMax >= 16*512MiB.",
38:"HashMap = duplicate-free association list in arbitrary order; sort produces the unique sorted permutation.",
39:"Sortedness of output keys; lookup after inserting a list of entries = last occurrence.",
40:"Byte equality by induction; cross-deserialization.",
41:"Value encoders equal; deserializers equal.",
42:"Engine model + factory model.",
43:"Instance of C30 for raw tags.",
44:"History of register/deregister interpreted against a function-update specification.",
45:"Table by case split over ids.",
46:"Invariant: deserialize_value preserves id and type.",
47:"deserialize_value result does not depend on prior content when it succeeds.",
48:"Direct + invariant + witness of partial overwrite.",
49:"Arbitrary payload programs over LimitedReader; invariant by induction on programs.",
50:"Direct from factory model.",
51:"Direct from tag models, any reader.",
52:"Equality of traces/results.",
53:"Equality of bytes + C32.",
54:"C30 + from_bytes.",
55:"Tag model splits atoms (no factory argument at all) from containers; stated on the dispatching function for arbitrary factories including the panicking one.",
56:"Induction on the list of tags.",
57:"Soundness lemma of both on the same View.",
58:"Negation with witness and iff-characterisation.",
59:"Case analysis.",
60:"Seekable source model with wrapping mode; explicit cyclic witness; positive theorem under no-overflow hypothesis.",
61:"List take/drop arithmetic.",
62:"Family of inputs by induction on depth; fuel lower bound = number of nested calls; upper bound by measure.",
63:"Witness family with allocMax parameter.",
64:"Fault-injecting reader; error provenance invariant.",
65:"Both equal to the list-level parser.",
66:"C30 with abstract payload class and law hypothesis.",
67:"Case analysis over type tags (Kind).",
68:"Trace of writes folded over ByteArrayWriter.",
69:"Trace of writes over arbitrary writer.",
70:"Direct from model.",
71:"A type class with `read` only, the trait's default methods on top; refinement of the list reader by induction on the count.",
72:"A type class with `write` only; induction over the bytes of each call.",
73:"The size and serialization functions once more with a call counter, proved equal to the originals; recurrence on nesting for the lower bound, structural induction for the upper bound; the exact count is a sum over the tags weighed by the explicit tags around them (Spec/Weigh), by structural induction.",
74:"The map operations of the two dictionary types on an association list; a history is an inductive relation that permits any reordering after each call; the answers are compared with a look-up in the list of calls, newest first.",
75:"A counting reader around any reader; a potential (calls minus twice the bytes) composed over every step of every deserializer, by induction on nesting; counting proved transparent.",
76:"The deserializers written as explicit trees of reader calls and memory requests (Model/Requests), proved to be the code for every reader and amount of memory; a potential (rate per byte delivered minus requests) over every path of the tree, instantiated twice; the nested-array family by induction on the depth.",
77:"Grammar as a relation between tags and bytes (Spec/Grammar), independent of the model; every list-level parser shown to accept exactly its clause (Proof/Grammar), induction on depth; maps as a separate relation (last occurrence wins), closed under reordering (Proof/Language).",
78:"Schedules of the underlying stream as lists of events; induction on the events before the failing one; seeks stepped one by one.",
79:"Relation between two computations: equal, or the first reports an unknown tag; closed under every construct of the model (Proof/Agree); induction on the depth.",
80:"Each type's codec (C25, C26, ILInt) as one interface: accepts its encodings, only those, fails on strict prefixes; induction on the list of fields.",
81:"Objects with constructors and setters (Model/Construct); the fold of a history equals the last assignment, by induction on the history.",
82:"Ex n m (Proof/Nested): an action needs n bytes and no limit of n or more shows; composed over the value deserializers. The language half from the parser characterisation of C77, the round trip from that of C30. For customised factories the characterisation of C114 takes the place of that of C77.",
83:"Deserializers are trees of reader calls (Spec/Prog); nested limits by induction on the tree, skip by induction on the count.",
84:"The caller's program (Spec/Access): induction on the path from the positions of C56, the mapping of C61 and the round trip of C30.",
85:"The conversions with the width as a parameter (Model/Width); arithmetic modulo 2^bits; the panic from C63 with 8 bytes per ILInt.",
86:"Spec/Utf8: the rows of Table 3-7 as an inductive predicate; every row is the encoding of a character and conversely (arithmetic); order by comparing encodings of two characters.",
87:"read_all once more with the buffer in the state (Model/Buffer), for every reader; same result and reader as readAll by induction over the buffer or the schedule; then the vector and the tags.",
88:"Cursor as content, position and what a failed read_exact does (Model/Cursor); direct computation, a View for both adapters, then C65; skips equal to those of the seekable stream.",
89:"Fixed destination as content and position; every call writes what fits; induction over the calls of serialization (C69).",
90:"The parser that models `deserialize` (C65) depends only on what it consumes (`Local`); `limited n` looks at the first n bytes only once they are there. Negation with witness for i/o errors.",
91:"The offset that the caller of C84 finds is pinned to the position of the tag in the serialized form (`startOf`); a replacement of the same length keeps all headers; C68 for the writing.",
92:"`Props/Lying`: no assumption on payloads. The calls of `serialize_value` are a fixed list with a fixed result for every writer, so `to_bytes` is header ++ what the value writes; the layout of what any faithful factory accepts then forces the length. The counterexample for nested tags is a concrete sequence, checked by the kernel.",
93:"`Spec/Journal`: what a writer that may fail still promises (its content grows by a prefix of the data of each call, by all of it on success); `WriteWriter` over every schedule and `ByteArrayWriter` are instances. From C69 what a sequence of `serialize` calls leaves is a prefix of the encodings; induction on the list with C31 and C34 gives what is read back.",
94:"`Spec/Consumer`: the receiving loop as a function of the pieces. With the parser view (`Local.top`: a success depends on the bytes used only, a definite failure on nothing that follows) feeding two pieces equals feeding their concatenation; induction on the pieces. Delivery is then C93 for the concatenation; the stall is C90.",
95:"`Spec/Log`: histories of sessions as an inductive relation, each with its own `Journal` writer. Invariant by induction on the history: the log is the encodings of the tags kept, then nothing or a proper prefix of an encoding; opening it is C94, a session C69 and C93. The negation is a witness.",
96:"`Spec/Scan`: a reference scanner, pure functions on byte strings without reader, state or fixed-width arithmetic (`headILInt`, `headSize`, `scanHead`), with its five outcomes. The call on any reader over the bytes gives the outcome of the reference scanner, by simulation of its three steps; the equivalence with the layout of C58 is a separate theorem; the end of the loop by induction on the number of bytes left.",
97:"`Spec/Faults`: `FaultyView`, a reader each of whose calls delivers the next bytes or fails, with nothing said about the state after a failure, and `Attempts`, histories of reads and seeks. Deserialization is a `Prog` (C37); induction on it compares a run with faults and one without. `ReadReader` and `SeekStream` with arbitrary schedules are such readers. No call changes the content of a seekable source, so a history with a seek at its end is a fresh start. Witness for the case without seek.",
98:"`WriteAttempts` in `Spec/Faults`. Serialization is a fixed list of writer calls that stops at the first failure (C69), each writes a prefix of its data at the position (C24), so an attempt writes a prefix of the encoding; overwriting with prefixes of the same bytes; induction on the history. Witness for plain writers.",
99:"`FaultySkipView` and `Uses` in `Spec/Index`. `next_tag` up to the skip is a tree of reader requests, so C97's argument applies to it; the skip moves by what was asked or fails; induction over the scan with the positions of C56. Content of the source is kept by every use (invariant through every action); then C97 and C31 at the position of the entry. Instances for `ReadReader` (skip in chunks) and for seekable sources (skip by seeks).",
100:"`splice` (the caller) and `spliceAt` (the tags it should give) in `Spec/Splice`. Induction over the path with the scanner's positions (C84) and the serialized form of a raw tag (C29); then C31 for reading.",
101:"`Pieces` and `CountedPieces` (the caller's loops) and `writeAll` in `Spec/Pieces`. Reading: the limit of `deserialize` around the value does not show (C82), the loop of the container is unrolled call by call, and each successful call takes a byte, so the fuel of the loop is enough on every reader. Writing: sizes are lengths (C28).",
102:"`LiveFile` (a file that grows before each `std` read) and `Follower` in `Spec/Follow`. What the file will hold never changes, so the file is a source with faults over it (C97); each attempt uses up one coming read, and once nothing is coming an attempt cannot fail on a whole tag.",
103:"`turns` (whose call is next) in `Spec/Threads`. With one call per tag the log is a concatenation of serializations (C31); for `serialize` the calls are recorded (C69) and an order of the calls of two threads is the witness.",
104:"`verdict` in `Spec/Verdict`: a validator over bytes with its own fault type, written with the tables only (no tags, no readers). The pure parser that every reader follows (C16) is compared with it construct by construct, by induction on the depth; panics and divergence are excluded by C33.",
105:"`canonical` in `Spec/Canonical`: a check over bytes that never builds a tag. Against the grammar of C77: if it passes, the form is the encoding (by induction on the depth of the form), and it passes on every encoding (by induction on the size).",
106:"Against the grammar of C77: every form is at least as long as the encoding, and a permutation of it if it is not longer, by induction on the depth (numbers, counts and overwritten entries each cost bytes); replacing one byte changes the multiset of bytes. `Shuffled` (Spec/Change) says which bytes differ in the order of entries only; forms of the length of the encoding are such (by induction on the depth, `formAt_shuffled`) and these are forms (`shuffled_form`). Witnesses for the limits.",
107:"`content` in `Spec/Bulk`; both measures are bounded by the encoding, by induction on the tag, and that by the input (C35). Customised factories: by induction over the forms of C114, with an encoding that writes a payload as so many zeros as it holds.",
108:"The program is in `Spec/Pack`; induction on the tags with the exact effect of one serialize on a bounded buffer (C68), reading back by C31. Witness for what is left behind the offset.",
109:"`Model/PayloadTypes` splits `P` into Rust types, which payload code cannot change; induction on the nesting: the top tag keeps the type its creator gave it, and what is put into containers was returned by the factory.",
 110:"Two environments side by side. `deserialize` is a tree of reader calls and memory requests (C76): a tree run with less memory panics or agrees with the run with more, by induction; if the sum of its requests is served the runs agree, and the sum is at most 16 for every byte delivered when the run succeeds (C76). The round trip follows from C30 on a large machine. Sharpness: the parser on the encoding of an array of n nulls reaches the request of 16 n bytes.",
111:"`Model/Modes` is `serialize`/`to_bytes`/`iltag_are_equal`/clone over the sizes of `Model/Size`, in either mode. Induction on the tag: each step gives the wrapped result or panics in checked mode. `Spec/Reported` is the reported size over `Nat`; the checked sums are that size or a panic from 2^64 on.",
112:"`Spec/SortKey` has the orders of the values; the order of the bytes follows from that of ILInts (C07), from prefix-freeness (C06, C32) and from the order of big-endian digits; the magnitude of a floating point number is shown to grow strictly with its bits.",
113:"`Model/Handler` has payload code as a tree that branches on the result of every read, and the code without errors it amounts to (`HProg.plain`). Induction on the tree, against any well-behaved reader. A witness for the limit.",
114:"`Spec/Custom` states the grammar of any factory, with the payload's own code as the meaning of payload values. The parser of the factory accepts exactly this (`Acc`, as in C77), by induction on the depth; the depth of calls is shown not to matter. Lemmas say which factories are of this kind.",
115:"Induction over the forms of C114: a part the relay knows is written again in its shortest form, a part it does not know byte by byte, and both are forms of the same tag for the receiver. Chains by induction. For canonical bytes the tag the relay makes has the same encoding, by induction over the tag.",
116:"The functions of the model are given a second form with room for k nested calls (Model/Depth.lean). Equal to the first form if the tag has at most k levels, by induction over k; below that by induction over the tag. Reading: the relation \"where the first returns, the second does the same\" is closed under all the combinators of the model (Proof/Upto.lean), and the tags read inside a value are given by the nested calls (Proof/Types.lean). Canonical bytes: the form of C77 with the least number of levels. Customised factories: `CustomFormIn` (Spec/CustomDepth.lean) indexes the forms of C114 by the room left for the code of payloads; copying by the argument of C117 at one depth.",
117:"The induction of C115 over the forms of C114 with one more case, a payload that both sides know, and lengths instead of permutations; normalisation is the case of a relay with the factory of the receiver.",
118:"A small transition system on the bytes of the file (Spec/Queue), using to_bytes, deserialize and the opening of C95, and another on a list; a simulation invariant between them by induction on the history; the exactly-once and at-least-once claims are invariants of the list carried over.",
119:"followChain (Spec/Chain) goes along the records with to_bytes and an arbitrary function as hash. Content: C38 record by record. Fixed: induction from the last record backwards, with the injectivity of C32 where the bytes are equal and the collision exhibited where they are not. Read back and tampered: C31, and the tags the standard factory can read (C30).",
120:"The proof of C106 over the forms of C114: by induction over the depth of a form, a form is no shorter than the encoding and one of equal length is a shuffled encoding, the payloads being as Tidy and Brief (Spec/Brief) say; and back, every shuffled encoding of an accepted tag is a form of it.",
121:"C117_supported turns what a customised factory reads into the Supported of C30 to C32 (by the forms of C114), so C119_fixed applies to any two lists read from logs. Relays: C117 message by message and C119_content. A relay that checks: the body is an Echo (C115) with the same encoding, the record around it is read by the relay as a sequence with the same byte array, and both serialize to the same bytes. The negative case is a concrete message.",
122:"A tag inside another has a value that is no longer (induction over Within), so the condition of C30 at every level is that at the top. Header (C37) from the encoding through any View; after it TagTooLarge. ReadSeq is deterministic, so a failing read bounds all sequences of reads. The scanner half is C56, which has no limit.",
123:"Schema, a type of shapes of structs; from it the code with library calls (read, write, size) and the payload as a program of reader and writer calls; Runs: the program does what the calls do (congruence under bind). Reads: the calls read exactly a language, closed under bind, repetition and choice. Forms against the bytes written: Snug of C118. Then Tidy, Brief and Regular, and C30, C117, C120 for these factories. Out of reach here: structs that read nested tags (dictionaries have no order, so equality of payloads is too strict for the general conditions), and a size check up front as in the tests of the repository, which changes only the error.",
124:"Spec/Evolve: Grown (more fields at the end, each addition never empty on the wire), Versions. Fork, a relation between two computations (the same, or one does not succeed) closed under bind and all the wrappers, as Wk of C79; with a limited reader that has nothing left no part with at least one byte can be read (code_dry), so a payload read to its end by one version fails in the other; fuel induction. The types in the result by C109. No assumption on the reader.",
125:"Spec/Upgrade: the content of a value without its type (Plain), Later (more variants at any place), the tag with its payloads replaced (mapTag). Reading: what the older factory does with success, step by step, the newer one does with tags of the same content (inversion of binds, fuel induction; read_later by induction on Later for the structs). Writing: size and calls depend on the content only. Refusals: what is read is typed (C123_typed, from the forms of C114), so a content without an old value contradicts a reading.",
126:"Spec/Kin: Akin (where both use a variant byte they agree on it), Kin (also more fields at the end), Passed (handing on through a list of programs). MeetF: what both factories read has the same content and leaves the reader alike; inversion of both runs, fuel induction; read_akin and read_kin by induction on the relations, with read_dry of C124 for added fields. Handing on: C123_normal for the first, agreement and C125_writes for every other, by induction on the list.",
127:"Model/Tailed: a struct of C123 with an optional last field, the user's code as library calls and as a program; the subtraction's failure is a parameter, shown to be irrelevant (the fields take at least their computed size, which is at most the limit). Spec/Tailed: TailedForm. Reads.tailed: the accepted forms, the shortest form following from structForm_snug; then the general theorems for Regular, Tidy and Brief factories (C30, C36, C114, C117, C120).",
128:"Model/Client: programs as trees that branch on answers, over variables that hold tags; 27 kinds of calls, those that would need a borrow are copies. Spec/Client: Indistinguishable. Proof/Client: sizes and serialization factor through the canonical form (canon) for every writer; deserialize_value of two such tags either gives the same value or leaves both alone (Level); what is read has proper maps with any creators (Sets, by induction on the nesting); congruence of each call, then induction on the program. Converse by induction on the tag with programs that look at type, id, value, items and entries.",
129:"`SameTypes` compares what two engines make by kind and id only; the fuelled readers are equal by induction on the fuel, since filling a tag does not depend on what it held (Proof/Prior, the device of C47). For the converse every made tag, emptied (`Tag.bare`), is read back by its own factory (round trip), and an id without a tag is reached by some header (a scratch factory shows one exists).",
130:"`ReadCode` (Model/ReadCode) is the tree of calls of such code; `skip` is left out, since seekable sources answer it without looking at their data (C23), and so is the handling of errors (C113 has it for payloads). By induction on the code it equals a `Prog` of reader calls on every reader (Proof/ReadCode, from the trees of C37 and `Prog.limit` for limited parts); the theorems are then those about all `Prog`s behind C64, C65, C83 and C97.",
131:"`ConvCode` (Model/ConvCode) alternates reading code of C130 and writing. Everything that can be written is a fixed series of writer calls, for every tag and payload (`IsOps`, Proof/ConvCode, which also frees C69 of its last hypothesis). `Noted` (Spec/Noted) watches a writer of any kind. Induction on the code, with C130 for the reading steps; a reader that holds a part of the input is a faulty reader of the whole (`cutView`).",
132:"`SkipCode` (Model/SkipCode) adds skips, scans and `goto_end` to the code of C130. `Follows` and `Alike` (Spec/Follows) are about single calls of a reader only. A simulation that allows the first reader to fail at any call, kept by limited readers and by the default skips, and induction on the code (Proof/SkipCode). The simulation may also let the first reader panic, for seekable sources in debug builds.",
133:"`TryCode` (Model/TryCode) calls code of C132 and goes on from its result, value or error. `Mirror` (Spec/Mirror) is about single calls of a reader: the same results and related states after all of them, failed ones included. It is kept by limited readers and default skips; induction on the code (Proof/TryCode).",
134:"`HandleCode` (Model/HandleCode) alternates reading code of C133 and writing calls and goes on from every result. `WriterMirror` (Spec/WriterMirror) is about single calls of a writer. What is written is a fixed series of writer calls (C131), so a mirror of single calls is one of whole tags; induction on the code (Proof/HandleCode).",
}
import re
D="/verif/DESIGN.md"
s=open(D).read()
rows="\n".join("- **C%02d** %s"%(k,v) for k,v in sorted(PLAN.items()))
s=re.sub(r"<!-- PLAN -->.*?<!-- /PLAN -->","<!-- PLAN -->\n"+rows.replace("\\","\\\\")+"\n<!-- /PLAN -->",s,flags=re.S)
open(D,"w").write(s)
