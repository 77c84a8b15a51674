# quick-protobuf in Lean 4: design

The model is in `lean/Verif/Model`, independent specifications in `lean/Verif/Spec`, lemmas in `lean/Verif/Proofs` (and next
to the theorems), the theorems named in `MANIFEST.json` in `lean/Verif/Props`. Build: `cd lean && lake build`.

## Layers

1. **Runtime crate** (`quick-protobuf/src`): bytes in, bytes out.
2. **Generated code**: pb-rs emits Rust text; what is modelled is the *meaning* of the text emitted by
   `Field::write_*`, `OneOf::write_*`, `Message::write_*` in `pb-rs/src/types.rs`, as functions of the
   field descriptors (an interpreter of descriptors that calls the runtime model).
3. **pb-rs passes**: parser, names, name resolution, cycle breaking, checks, defaults, lifetimes, `mod.rs` maintenance.
4. **Printer and runs**: the text of the generated files, and what a run does to the disk.
5. **Meaning of the text**: syntax trees for the fragment of Rust that pb-rs prints, how they are written down, and an evaluator
   for them. The printed text is the text of the trees (C77), the evaluated trees do what layer 2 says (C78).

The layers are composed: `C65_roundtrip` speaks of the messages of a schema as parsed, compiled by the passes of layer 3, whose
output is the schema of layer 2, whose functions call layer 1. `C54_*` puts the text of the schema in front, `C68_roundtrip` the files.
`C79_run_partial` goes from the files on the disk to the text of the generated file, to its meaning as a program, to the bytes and back.

## What is modelled, and where

| Lean module (`Verif/Model/`) | source | 
|---|---|
| `Basic` | Rust results, panics, `usize` arithmetic, target (word size, overflow checks, endianness) |
| `Reader` | `reader.rs`: `BytesReader` (all methods), `Reader`, `deserialize_from_slice` |
| `Utf8` | `core::str::from_utf8` (external; its algorithm) |
| `Writer` | `writer.rs`: `Writer` (all methods), `WriterBackend` for `BytesWriter` and for any `std::io::Write`, `serialize_into_slice`, `serialize_into_vec`; `message.rs` |
| `Sizeofs` | `sizeofs.rs` |
| `File` | `reader.rs` 647-665: `Reader::from_reader`, `from_file`; the source is any sequence of `read` answers (`io::Read::read_exact` is external, its documented loop) |
| `PackedFixed` | `reader.rs` 716-963: `PackedFixed`, its iterators, conversions |
| `Gen` | what the generated `from_reader`, `get_size`, `write_message`, `From<i32>`, `Default` do |
| `Owned` | the generated `FooOwned` wrappers, `TryFrom` |
| `OwnedMemory` | the same wrappers with the allocations they point into, and what safe code can do with them (only strings, byte strings and packed buffers; the borrow checker is modelled by what its signatures accept) |
| `Pbrs/Types` | descriptors: `FieldType`, `Frequency`, `Field`, `OneOf`, `Message`, `Enumerator`, `FileDescriptor` and their simple methods |
| `Pbrs/Nom`, `Pbrs/Parser` | nom 7 combinators as documented; all of `parser.rs`; the start of `read_proto` |
| `Pbrs/Imports` | `read_proto`, `fetch_imports`, `get_file_stem`, `set_imported`, and `write_proto` up to printing; the file system is a function |
| `Pbrs/Names` | `keywords.rs`, `sanitize_keyword`, `sanitize_names`, module names |
| `Pbrs/Resolve` | `set_package`, `get_full_names`, `resolve_types` |
| `Pbrs/Scc`, `Pbrs/Cycles` | `scc.rs` (Tarjan), `break_cycles` |
| `Pbrs/Passes` | `sanity_checks`, `convert_field_types`, `set_defaults`, `sanitize_defaults`, and `write_proto`'s order of passes (`FileDescriptor.compile`) |
| `Pbrs/Lifetime` | `has_lifetime`, the lifetimes of the printed types |
| `Pbrs/ModFile` | `update_mod_file` |
| `Pbrs/Doc`, `Pbrs/Emit` | all `write_*` functions of `types.rs` (and the functions for types, tags, read/size/write calls they use): the *text* of the generated file |
| `Pbrs/Run` | `write_proto` with its effects on the disk, the loop over files of `run`, `ConfigBuilder` (which files become which jobs) |
| `Pbrs/Services` | the hooks of a `Config`: `custom_rpc_generator` (a closure with arbitrary effects on a state of its own) and `custom_includes` |
| `Cost`, `WriteCost`, `Equality` | the work done by decoding and encoding; the derived `PartialEq` |
| `Pbrs/Steps` | `write_proto` and `update_mod_file` system call by system call (with the parts of `writeln!`, the `BufWriter` and its drop), failing calls, and several runs under a scheduler |
| `Pbrs/Cli` | `main.rs`: the options, `extension_matches`, the exit code; the setters of `ConfigBuilder` |
| `Rust/Syntax` | the fragment of Rust that occurs in generated functions: expressions, patterns, statements, types, and how they are written. Types that Rust infers (type arguments of `read_enum`, `None`, `Vec::new()`) are kept in the trees and not written |
| `Rust/Trees` | the trees of the generated `from_reader`, `get_size`, `write_message`, `default`, struct fields and variants (not: `MessageInfo`, owned wrappers, which have only the text of `Emit`) |
| `Rust/Enums` | enums without fields, `impl Default`, `From<i32>`, `From<&str>`: text, meaning, acceptance |
| `Rust/Getters` | default constants and getters: text and meaning |
| `Rust/Literals` | the meaning of Rust literals (integers, floating-point numbers, strings, byte strings), after the Rust reference; decimal rounding is a parameter, `\u{…}` and strings over several lines are left out |
| `Rust/Eval` | meaning of the fragment: a dynamically typed evaluator (every value carries its Rust type; ill-typed code is stuck) on top of the runtime model. Lifetimes and moves are not checked, auto-dereferencing is followed where the printed code uses it |

Types: `Spec/Typing` has declarative type rules for the same fragment (C108); they are a specification, independent of the evaluator.

`Verif/Conformance/*` checks the transcription of the text: for the ten generated files committed under
`/repo/quick-protobuf/examples`, kernel-checked theorems say that the model's generator, run on the committed `.proto` files,
yields the committed text, character by character. These are tests of the model (of the parser, all passes and the printer), not claims.

Not modelled:

* `rustc` beyond `Rust/Eval` and the name resolution of `Spec/Modules` (paths in a tree of modules, `use super::*`): type inference, borrow checking, lifetimes (but see `Pbrs/Lifetime`). In C78 and C79 the items of imported files are
  assumed to be printed from the same view of the schema as the items of the file itself; that nothing is defined twice (`Distinct`) and what
  custom defaults mean as Rust expressions (`Literals`) are hypotheses;
* changes of files while pb-rs reads them, non-UTF-8 files, Windows paths; what `clap` makes of the command line; paths are texts
  (no symbolic links, `..` is a name like others), packages beginning with a dot are not modelled faithfully; what a failed print has left in the output
  is an arbitrary text;
* `message_extends` after parsing (they are parsed and then not used by pb-rs);
* stack depth: recursion of the parser, of the passes and of the generated code never overflows the stack in the model (C92 bounds the depth
  of the recursion of decoding);
* memory: allocation never fails; `Vec` capacities are ignored; a slice has at most `isize::MAX` bytes;
* borrows: outside `OwnedMemory` a decoded value has the bytes it borrows (no addresses, no lifetimes); the unsoundness of `proto_mut` of the
  owned wrappers is visible in `OwnedMemory` (C102) only;
* `std::io::Write` is any state machine obeying the documented contract; a panic in it is not considered.

## Modelling decisions

* Integers of fixed width are `BitVec n`; casts are `setWidth` (zero extension / truncation) and
  `signExtend`, shifts and masks are the BitVec operations, as in the source.
* `usize` is a `Nat` with explicit wrap-around/overflow: `Target.usizeBits`, `Target.overflowChecks`
  (debug panics, release wraps) and `Target.bigEndian` are parameters of the model.
* A result is `Out α = ok | err | panic | ub | timeout`. `panic` is a Rust panic, `ub` an out-of-bounds access
  inside an `unsafe` block, `timeout` means "still looping after the given number of iterations".
  Every function on `&mut self` returns the new state *also on error*, so what a failed call leaves behind is visible.
* Loops take fuel; theorems are stated for every fuel above an explicit bound (or, for divergence, for every fuel).
* Floats are their bit patterns; `x == 0.0` is the IEEE comparison on bit patterns.
* `&str` is a byte list satisfying `utf8Valid` in layers 1 and 2, a list of characters in layer 3.
* `HashMap` is an association list in iteration order; insertion replaces or appends.
* A property that is false of the code is kept in full in `properties.jsonl`, has the status `partial`, a theorem with the suffix
  `_partial` for the part that holds, and one with `refuted` in its name that proves the failure of the model (universally where
  possible, otherwise by a concrete run). The refutations are findings about the code, listed below.

## Trusted base

* Lean 4.33 kernel; the axioms `propext`, `Classical.choice`, `Quot.sound` only (per-theorem listing at the end).
  No axioms were added; no `native_decide`, no `bv_decide`.
* The reading of the Rust source documented next to each definition (file and lines).
* External code taken as specified: `byteorder` little-endian read/write, `core::str::from_utf8` (algorithm copied, and proved to be
  the standard's definition of UTF-8: C10), `Vec`/slice/`HashMap` basics, `std::io::Write::write_all` (either all bytes or an error after a prefix),
  nom 7 combinators, `str::trim`, `str::parse::<i32>/<bool>`.


## Plan per property, and what became of it

| id | property | what is modelled and how it is proved | result |
|---|---|---|---|
| C01 | Varint writer emits the protobuf base-128 encoding | `Writer.write_varint` (loop on BitVec 64) vs `Spec.varint : Nat -> List Byte`; induction on the value. | proved: On every backend write_varint emits exactly Spec.varint; canonical encodings are unique. |
| C02 | sizeof_* equals the number of bytes written | each `sizeof_*` vs length of the ops emitted by the matching writer; case analysis on the ten ranges. | proved:  |
| C03 | Varint round trip at any offset | corollary of 1 and 4. | proved:  |
| C04 | read_varint64 is fully specified on arbitrary bytes | unrolled reader vs `Spec.varintPrefix` (take bytes up to the first one with high bit clear); case analysis per byte. | proved:  |
| C05 | read_varint32 is read_varint64 truncated | same characterisation for the 32-bit reader, then comparison. | proved:  |
| C06 | Varint-typed scalars round trip | corollaries of 3/4/5 plus BitVec sign-extension and zigzag lemmas. | proved:  |
| C07 | sint32/sint64 use minimal ZigZag varints | `Spec.zigzag : Int -> Nat`. True for sint64; false for sint32 (sign extension of the i32 before varint coding): witness + partial theorem for \|v\| < 2^30. | partial: Full statement is false: write_sint32 sign-extends the zigzag image, so \|v\| >= 2^30 takes ten bytes (C07_sint32_refuted). Proved: sint64 completely, sint32 when the image is below 2^31, and the exact form otherwise. |
| C08 | Fixed-width values round trip little-endian | `Spec.le n k`; reader slice `bytes.get(start..start+len)`. | proved:  |
| C09 | bytes and string round trip | via `read_len` model. | proved: For payloads below 2^32 bytes, as the quantifier says. |
| C10 | read_string only returns valid UTF-8 | `utf8Valid` is a concrete validator (core::str::from_utf8 is an external function; its acceptance set is specified). | proved:  |
| C11 | A written length prefix is never silently truncated on read | false: prefix is read by read_varint32; theorem states the exact truncation for every length, partial theorem < 2^32. | partial: False for lengths of 2^32 and more: the prefix is read modulo 2^32 (C11_length_truncated). Proved below 2^32. |
| C12 | Packed repeated fields round trip for any element codec | generic element codec contract, induction on list; loop fuel. | proved:  |
| C13 | Packed fixed fields round trip | PackedFixed model with raw bytes; target endianness is a parameter; partial for little-endian, witness for big-endian. | partial: Proved on little-endian targets; refuted on big-endian ones. |
| C14 | Map entries round trip and tolerate any field order | entry loop model. | proved:  |
| C15 | read_unknown skips exactly one field | case analysis on wire type. | proved:  |
| C16 | Reads never look outside the remaining buffer | suffix-locality relation proved for each operation. | proved: With overflow checks and a 64-bit usize (Roomy). |
| C17 | Scalar reads never panic and never run past the buffer | case analysis using 4, 5, 8. | proved: 64-bit targets; on 32-bit targets with overflow checks read_bytes can panic (C17_panics_on_32_bit). |
| C18 | Nested reads restore the enclosing limit | direct on `read_len`. | proved: For decoders that propagate errors; a decoder swallowing an error breaks it (C18_swallowing_decoder). |
| C19 | A failed nested read leaves the reader usable | false: witness; partial: what does hold (start <= ... and limit = start+len on failure). | partial: Full statement is false: the ? in read_len returns before self.end is restored (C19_limit_lost). |
| C20 | Fields of a nested message cannot reach beyond it | false: witness. | partial: Full statement is false: most reads test only the end of the buffer (C20_reads_beyond_parent). |
| C21 | Over-long length prefixes are rejected | false: witnesses (unit message; unknown fixed field); partial for bytes/strings. | partial: False for messages (C21_overlong_message_accepted); proved for strings, bytes, packed scalars and packed fixed. |
| C22 | Decoding untrusted bytes never panics | false: witnesses (read_packed_fixed slice panic; read_unknown subtraction). Partial: messages without nested messages; all schemas on inputs whose nested messages are complete (`Spec/Intact`), by `Takes` (takes exactly the piece, or an error) composed over pieces, the top level by soundness of the decoder (63), release by 83. | partial: Full statement is false: nested messages and wrong length prefixes panic (C22_slice_panic in every profile, C22_underflow_panic with overflow checks, C22_framed_panic). Proved, both profiles: for every message type without nested messages and every input; for every schema and every input whose nested messages are complete (Spec/Intact.lean), so panics come only from nested lengths that run over the end or cut a field in two. |
| C23 | Decoding always terminates | true with overflow checks on (proved for all schemas), false in wrapping builds: witness input for which every fuel is exhausted. | partial: Proved with overflow checks for every schema and input, and in release for messages without nested messages and for inputs whose nested messages are complete; without overflow checks it is false: 15 bytes make the decoder loop forever (C23_release_diverges). |
| C24 | Writer output does not depend on the backend | writer programs are runs of a list of primitive backend calls; laws of an arbitrary `io::Write`; prefix theorem by induction on the list. | proved:  |
| C25 | BytesWriter stays in bounds | invariant cursor <= len, frame condition, by induction on calls. | proved:  |
| C26 | serialize_into_slice succeeds iff the buffer is large enough | from 24/25. | proved:  |
| C27 | serialize_into_vec and serialize_into_slice agree | from 24/25. | proved:  |
| C28 | Framed messages and streams round trip | `MessageImpl` record with contract; stream loop by induction. | proved: Messages below 4 GiB (the limit of the 32-bit length read, see C11). |
| C29 | PackedFixed behaves like the vector of its numbers | abstraction map `PackedFixed.toList`. | proved: In release builds an out-of-range at() whose byte offset wraps does not panic (C29_at_wraps_in_release); excluded explicitly. |
| C30 | PackedFixed is memory safe | model outcome `ub`; false for From<&[u8]> with ragged length: witness; partial: never for aligned values, and decoding only creates aligned ones. | partial: False for From<&[u8]> with a ragged length (heap overflow) and for types with invalid bit patterns; proved for whole-element buffers of plain types, which is all that decoding produces. |
| C31 | Reader is a BytesReader over its own buffer | Reader state machine vs BytesReader. | proved:  |
| C32 | Generated get_size is exact | interpretive semantics of the code pb-rs emits, per field descriptor; induction on values. | proved: Every schema satisfying SchemaOk, every well-typed value; usize sums in get_size are assumed not to overflow. |
| C33 | Generated messages round trip | same semantics; round trip by induction on values with the loop unrolled over emitted fields. | proved: Every schema satisfying SchemaOk and every well-typed value without the excluded default values (C37, C38); messages below 4 GiB. |
| C34 | Unknown fields are skipped wherever they occur | fold semantics of the decode loop over wire fields. | proved: Top level: whatever follows, even undecodable bytes. Any depth (nested messages, map values): any profile. Groups are not supported by the crate. |
| C35 | Field order on the wire does not matter | commutation of field updates. | proved: The variants of a oneof count as one field. |
| C36 | Repeated occurrences: last singular value wins, repeated fields append, concatenation continues | fold semantics. | proved:  |
| C37 | proto3 zero values are elided and restored | partial; witness for custom defaults in proto3. | partial: Full statement is false: a default option on a proto3 field is used when writing but not when reading (C37_custom_default_lost), and -0.0 is elided (C38). |
| C38 | Floating point fields keep their bits | partial; witness -0.0 in implicit-presence fields. | partial: Full statement is false: -0.0 in a field without presence becomes +0.0 (C38_negative_zero_lost). Proved for every other bit pattern. |
| C39 | Enum fields: declared values survive, undeclared become the default | From<i32> semantics. | proved:  |
| C40 | Packed and unpacked encodings of a repeated scalar are both accepted | false: witness. | partial: Full statement is false: the other encoding is silently skipped as an unknown field (C40_other_packing_skipped for every schema, C40_refuted). |
| C41 | Several packed chunks concatenate | false: witness (overwrite) and exact theorem (last chunk wins). | partial: Full statement is false: only the last chunk counts (C41_last_chunk for every schema, C41_refuted). |
| C42 | Deprecated fields vanish without breaking the rest | visibility filter. | proved:  |
| C43 | At most one member of a oneof is set | fold semantics. | proved:  |
| C44 | Owned wrappers are faithful | Owned wrapper as composition. | proved:  |
| C45 | Decoding then re-encoding is stable | decoded values are well typed + 33. | partial: Proved for every schema and decodable input up to the sign of floating point zeros in fields without presence (unsign). The literal statement is false: C45_negative_zero. |
| C46 | Tags identify field number and wire type | bit arithmetic on tag; partial for numbers < 2^29, witness beyond. | partial: Proved for all field numbers below 2^29 (the protobuf limit). pb-rs accepts any i32, and number << 3 then loses bits: C46_refuted (fields 1 and 536870913 share a tag). |
| C47 | Sanitized names are never reserved and never clash | finite table membership + string lemma; witness for clash. | partial: Full statement is false: 'type' and 'type_pb' clash (C47_refuted_clash) and async, await, dyn, try, macro are not in the list (C47_refuted_keywords), nor are some names the generated code uses (C47_refuted_names). Proved: never a listed keyword, so never another keyword of the Rust reference or one of usedNames (Spec/Words.lean), idempotent, other names unchanged (C47_exact says which words are changed, without reference to the list of pb-rs), injective away from names ending in <keyword>_pb. |
| C48 | sccs() returns the strongly connected components | Tarjan's algorithm as a fuelled recursive function; invariant proof. | proved: Tarjan's algorithm as written, on the message graph; hypothesis IndexOk is what get_full_names establishes (C52) |
| C49 | Generated structs have finite size | from 48 (mutually reachable => same component) + positional argument. | proved: also: only fields inside a component change, and by boxing/making optional only; the Default impls of the result terminate |
| C50 | error_cycle rejects exactly the unsound schemas | false positive witness on repeated recursion; partial soundness. | partial: The English claim is false: C50_refuted_repeated (repeated self reference rejected) and C50_refuted_optional (optional+required cycle rejected), and, on whole runs, CycleTextExample.C50_refuted_oneof (a proto2 message with itself in a oneof is rejected, the same in proto3 is not: the parser calls the fields of a oneof required in proto2). Proved: acceptance implies soundness, cycles of required fields are rejected, the exact condition of rejection |
| C51 | A struct gets a lifetime parameter iff it can borrow | reachability via simple paths. | partial: C51_written_partial is about the text of the generated file: each struct and oneof enum is declared with the parameter iff the type of one of its fields, as printed, has a lifetime in it, and each use of a type has the parameter iff its declaration does. Proved for every message graph (cyclic too) without dont_use_cow and with packed only on repeated fields. The full claim is false: with dont_use_cow references get <'a> but definitions do not (C51_refuted_dont_use_cow); packed on a singular fixed field declares an unused parameter (C51_refuted_packed). |
| C52 | Type names resolve to the innermost enclosing scope | candidate list order. | proved: Scopes are Spec/Scopes.lean. Where two declarations share a full name the theorem allows either. |
| C53 | Reserved numbers and names are enforced | witnesses (two reserved statements, nested message) + partial. | partial: Proved for the messages of the file, through the whole pipeline. False for nested messages, which are never checked (C53_refuted_nested), and for all but the last reserved statement of a message (C53_overwrite_refuted). |
| C54 | Parsing a printed schema gives the schema back | nom combinators as functions on List Char; printer; round trip by induction. | proved: For every text (any layout of blanks and comments) of every schema in the grammar of Spec/Grammar.lean; what the grammar leaves out is said there. C54_print: a printer for every printable schema. |
| C55 | The syntax statement decides proto2/proto3 wherever comments precede it | witness + partial. | partial: Holds if the statement is the very beginning of the file. False whenever a blank or comment precedes it (C55_refuted, for every such file): the statements are then read as proto2. |
| C56 | Field numbers and enum values may be decimal or hexadecimal | witness (field numbers) + theorem for enum values/decimal. | partial: Both notations for enum values that are not negative; decimal only for fields: every file with a field number in 0x notation is rejected (C56_refuted), and so is every file with a negative enum value (C56_refuted_negative, C56_refuted_negative_nested). |
| C57 | Option lists are parsed without crashing | witness (panic) + partial. | partial: The parser panics only on the three kinds of text of Spec/Panics.lean, and it does panic on them (C57_refuted, C57_bare): packed or deprecated whose text up to the next ] is not true or false, e.g. any option list beginning with them; a bare syntax statement. |
| C58 | Type names may start with the name of a scalar type | witness + partial. | partial: Holds for names that do not begin with the name of a scalar type. False for all that do (C58_refuted): a syntax error. |
| C59 | mod.rs updates are idempotent and never touch foreign files | file as list of lines. | partial: Proved: every history of a file pb-rs created, append-only on every file, foreign files (non-empty, header missing from the first line) untouched, idempotent on files ending with a line end. The full claim is false for files without final newline, for empty files, for a bare 'pub mod ' line (panic), for commented declarations, and after a crash inside the write. |
| C60 | proto3 repeated scalars are packed by default everywhere | witness for nested + partial for top level. | partial: Proved for the messages of the file. False for nested messages: C60_refuted_nested; C60_nested_partial says exactly what happens there. |
| C61 | Package names split at the last dot | list lemma. | proved:  |
| C62 | Generated code writes standard protobuf | `Spec/Message.lean` (`encMsg`: the encoding guide) vs `Gen.write_message`; induction on values, for every backend. | proved:  |
| C63 | Generated decoders accept exactly the wire grammar | `Spec/Decode.lean` (records of a byte string) vs `Gen.from_reader`; both directions by induction on fuel / on the records. | proved: The grammar is Spec/Decode.lean. Completeness in every profile; the equivalence with overflow checks (in release builds lengths can wrap, C23). |
| C64 | dont_use_cow removes every borrowed type | `convert_field_types` over the tree of messages. | proved: Parsed is what the parser produces |
| C65 | Whatever pb-rs accepts round-trips | stages of `compile` related by invariants on descriptors (`Proofs/Compile`, `Ready`), composed with 33. | proved: The end-to-end statement: pipeline (resolve, cycles, checks, cow, defaults, names) composed with the codec theorems. Hypotheses on the .proto file: legal distinct numbers (pb-rs does not check them, C46) and, in nested messages, packed only on scalars (C60 refuted). |
| C66 | Defaults of enum fields are enum values | as 53. | partial: Proved for the messages of the file; false for nested messages (C66_refuted_nested). |
| C67 | Legal schemas compile, illegal ones give an error | each pass shown to succeed under the stated conditions; panics traced to their cause. | partial: Completeness proved for all schemas (with error_cycle off); panics occur only on bool defaults other than true/false, and there they do: C67_refuted_panic. |
| C68 | From files to bytes and back | post-conditions of the parser (`Proofs/ParserPost`) composed with 65. | proved: For files without nested maps (pb-rs fails to print code for those), with the conditions on numbers of C65. |
| C69 | Imported declarations keep the package of the file that declares them | origin of every declaration by induction on the depth of imports; witness for files without packages. | partial: Nothing is lost, always (C69_complete). Packages and modules are kept if all imported files have packages. False otherwise: a file without a package, imported by one with a package that is imported by a third, gets the package and module of the second (C69_refuted). |
| C70 | Import cycles are reported | fuel is monotone; accessibility of the import relation gives enough of it; infinite chains exhaust any. | partial: Files on a cycle are never accepted, and reading ends if there is no infinite chain of imports. But no error is reported: on a cycle of first imports the recursion never ends (C70_refuted). |
| C71 | A run of pb-rs touches only its outputs | `Pbrs/Run` makes `write_proto` a function on disks; frame condition by cases on where it stops. | proved: The disk is a function from paths to texts and a set of directories. |
| C72 | A failing run leaves the disk as it was | as 71; witness at print time. | partial: Holds for all errors in reading, parsing and the passes. False for schemas that cannot be printed (a map in a oneof, a map of maps): the output is truncated by File::create before the error is found (C72_refuted). |
| C73 | After success the output is there and reachable | composition with `update_mod_file`; witness. | partial: False for directories that exist already: they are never declared (C73_refuted). |
| C74 | All outputs of a run over several files are present | later outputs do not touch earlier ones (induction); witness. | partial: Holds if the output paths are distinct. False for two files of the same package: the second replaces the first (C74_refuted). |
| C75 | Generation can be repeated and interrupted | replay lemma: each step finds its result in place; witness for a crash point. | partial: Repeating is idempotent (if the mod.rs files end with a line end), and interruptions after the directories were made are harmless. False for a crash between making a directory and declaring it (C75_refuted), and for a crash between the parts of a line of mod.rs (writeln! makes several system calls): if `pub mod ` is the end of the file, every later run in that directory panics, for ever (C75_refuted_killed). |
| C76 | --no-output writes nothing | direct; witness. | partial: Nothing but mod.rs files is written, and nothing at all for packages of at most one part. False otherwise (C76_refuted). |
| C77 | The generated file has a struct and codec for every message | trees of the generated functions (`Rust/Trees`), `doc` of the trees = what `Emit` prints, by structural induction; occurrence in the file by composition. | proved: Trees: Model/Rust/Trees.lean; texts: Spec/Printed.lean. For messages without nested maps (which are not printed at all). |
| C78 | The generated functions do what the schema says | evaluator of the fragment (`Rust/Eval`); simulation between evaluated trees and `Gen`, by cases on field kinds and induction on nesting/fuel. | proved: For descriptors that meet SchemaOk (C65) and without packed fixed-size fields under --dont_use_cow (C79_refuted_cow). Generates: Spec/Generated.lean; example: C79_example. |
| C79 | What the generated program writes it reads back | 77 + 78 + 33 + 65 + 73, existence of the program from distinct paths; witness for `--dont_use_cow`. | partial: For all runs without packed fixed-size fields under --dont_use_cow, with names that do not clash (Distinct) and literal defaults of the right type (Literals). Missing: with --dont_use_cow, packed fixed-size fields give code that does not compile (C79_refuted_cow). C79_example: a run with all kinds of members meets the hypotheses. |
| C80 | Generated enums mean what the schema says | enums as a Rust-generic item (`Rust/Enums`), its meaning by table lookup; occurrence of its text in the output as for 77; acceptance characterised by an iff; witnesses for keywords, aliases. | partial: Text: for all runs. Accepted by the compiler iff names and numbers do not clash and neither the name of the enum nor its first value is a keyword (C80_refuted_keyword, C80_refuted_alias). From<&str> looks up the renamed names, so declared names that are keywords are not found (C80_refuted_str). |
| C81 | A truncated frame is never accepted | `Cut` (pointwise monotonicity in the buffer) for every reader by composition; `TornAs`/`TornAll` (proper prefixes are rejected) by composition over the wire form of typed values, induction on nesting. | proved: All profiles, 64 bit. Two findings: the panic is real (C81_err_refuted: three bytes of a seven byte frame), and a frame whose last record is an unknown field may be cut inside that record and still decodes (C81_unknown_refuted), which the property allows since the value is the same. |
| C82 | A log of messages cut short by a crash is recovered up to the last complete message | 24 (any sink holds a prefix) + prefixes of a concatenation + 81 at every position. | proved: Sinks: Model/Writer.lean Device (any schedule of partial writes, interruptions, failures). fuel: larger than the messages. |
| C83 | Release builds do what debug builds do | `Follows` (equal unless the checked run panics) is preserved by bind, loops, limits; each reader by cases on whether an addition or subtraction wraps; induction on nesting. | proved: 32 and 64 bit. The converse is false: C83_panic_refuted, an input on which only the debug build panics. get_size adds up natural numbers in the model (no value in memory makes the sum exceed usize). |
| C84 | The generated types hold exactly the values of the schema | Values of Rust types by recursion on types, structs and enums through the program (Spec/RustTypes.lean); both inclusions by induction on nesting and cases on the kinds of fields; then 78, 45, 63. | proved: Values of Rust types: Spec/RustTypes.lean, which knows nothing about protobuf. C84_run_partial is C84_roundtrip for the program of a run (same exclusions as C79: clashing names, packed fixed-size fields under --dont_use_cow do not compile). C84_decoded: with overflow checks, Resolved schemas. C84_example meets the hypotheses. |
| C85 | Where imports are looked for | Paths as lists of components (Spec/Search.lean: `parts`, `Place`), independent of how pb-rs joins texts; `candidate` is shown to be the place, and the search for imports is shown to take the first place that exists, by induction over the nesting of `read_proto`. | proved: The working directory is not searched (C85_refuted_working_directory): a relative -I entry that has the file from the working directory is of no use, and a file that imports another by its path from the working directory, as protoc wants it, is rejected. |
| C86 | The command line does what its help text says | `ConfigBuilder` and `main` modelled function by function (Model/Pbrs/Run.lean, Model/Pbrs/Cli.lean); the conditions in Spec/Invocation.lean (`Allowed`, `Complaint`, `Promised`, paths by components); the checks by cases, the output paths by the lemmas about components of C85, the texts by C74. | partial: The last sentence is false of files with a package (C86_refuted_package: -o out/code.rs is ignored, the code is in out/p.rs) and of file names that are not identifiers (C86_refuted_name: three-a.proto gives three_a.rs); C86_written_partial and C86_cli_partial prove it for files without package, or with --single-mod, whose names are identifiers and no keywords. Everything else is proved. What clap makes of the arguments is given. |
| C87 | Custom defaults of optional fields | Model/Rust/Getters.lean has the syntax, text and meaning of constants and getters; Spec/Getters.lean says which there are. Proved: the printed text is that of these items, by cases on the type of the field; what a call returns, by evaluation, using that the fields of the struct have different names. | partial: Text: for all runs (a proto2 file with labels of proto3, possible only with two contradicting syntax statements, is excluded). Meaning: for all values of the struct. "The generated code compiles" is false: a field `size` with a default gives a getter get_size, which hides MessageWrite::get_size (C87_refuted_get_size). The C79 theorems exclude such names (Distinct). |
| C88 | Nothing but what is expected is in a generated file | Spec/Layout.lean lists the entries of a file; Spec/Modules.lean says how entries are written. Proved by recursion over messages, each printing function being compared to its entry; C77, C80, C83 and C87 give the parts. | proved: The whole file, entry by entry, equals the text of Spec/Layout.lean (whose parts for functions and types are those of C77, C80, C83, C87), whenever pb-rs succeeds; the one condition is that the file does not contradict itself with two syntax statements (OneSyntax, Spec/Labels.lean; protobuf allows one, at the start). Service stubs are written by a user-supplied generator: without one, a line per service. |
| C89 | Paths in generated code name the types that are meant | Spec/Modules.lean defines what a path denotes in a tree of modules, Spec/Paths.lean and Spec/Links.lean the conditions. Proved: the modules that set_package notes are those where Spec/Layout.lean has the code (induction over the path of the message, through resolution, cycle breaking and renaming), and use super::* leads there; imported declarations by C69. Refuted for eight kinds of names by compiling examples and evaluating. | partial: Proved for types of the file and for imported types, under conditions on names each of which is needed: no message with declarations in it is renamed (C89_refuted_renamed: message Result { enum Code }), the first name of the path is not hidden on the way (C89_refuted_package: package foo with message foo; C89_refuted_shadowed: without a package a nested type hides one of the file), the package is a module path (C89_refuted_keyword; with --single-mod, one part: C89_refuted_single), no name twice in a module (C89_refuted_imported_name: message MessageInfo; C89_refuted_oneof_name; C89_refuted_owned_name). Files imported by imported files must have packages (C69_refuted). Name resolution is that of Spec/Modules.lean (nested modules, glob imports of super; one namespace for types and modules). |
| C90 | Custom traits are derived | Read off the text of the file by C88: the struct of each message with its attributes is in the file. The derive line is compared with the list of traits, once and for all lists. The refutation holds for every list of traits and every schema, not only for an example. | partial: True when no traits are asked for and for messages with a written impl Default; false for every other message whatever the traits are (C90_refuted: the last trait and Default are joined to one word, HashDefault). |
| C91 | Decoding takes memory proportional to the input | Amortised analysis (potential method): every read pays for what it builds with the bytes it passes, K per byte; combinators for bind, if, read_len and the loops, then every arm of the generated match. The refutation runs the loop of the nested message any number of times by induction. | partial: Proved for every input in builds with overflow checks, and in builds without them for all inputs on which the checked build does not panic. False in general without overflow checks (C91_refuted: fifteen bytes; read_unknown adds a length that wraps around, the reader goes back, and the loop of the nested message pushes N strings for every N). The weight counts the parts of the returned value, not the capacity that Vec or HashMap reserve. |
| C92 | Decoding has a bounded stack | A copy of the decoder with the stack depth as separate parameter (proved equal to the decoder when both are large enough). Bounded: along the open calls the messages are pairwise distinct (else there is a cycle), so the pigeonhole principle bounds them. Unbounded: an input is built by induction on N along a cycle, wrapping it in one field (or map entry) per level; that it is a message follows from the grammar of C63, that N calls are too few by following the decoder into it. | partial: A dichotomy. Messages that cannot contain themselves: never more open calls than the schema has messages, for every input. All other messages, of every well-formed schema: no limit at all (C92_refuted: for every N a valid message of at most 16*N bytes needs more than N calls); the crate has no recursion limit as other protobuf implementations do. The bytes of stack a call takes are not modelled. |
| C93 | Programs built from different versions of a schema understand each other | Spec/Versions.lean says what may change and what the reader then gets. The writer's bytes are the concatenation of records (C62); each record is, in the reader's grammar (C63), a record of the field with that number with the converted value, or an unknown record; by induction on the depth the concatenation denotes a value whose members are folded from these records, which is what Carried says. | partial: Proved for all schemas related by Versions. Missing, because the code fails there: sint32 read as sint64 (C93_refuted_sint: write_sint32 sign-extends the zigzag code), int64 or uint64 read as bool (C93_refuted_bool), a repeated field that changes between packed and unpacked (C40). bytes read as string can fail and is not claimed. The writer is little endian. |
| C94 | The default of a field is the value that its declaration gives | Model/Rust/Literals.lean is the meaning of Rust literals after the Rust reference, Spec/Defaults.lean that of protobuf constants after the language specification; neither mentions pb-rs. compile_fields says which text the compiled field has; plain_literal compares the two meanings, by induction on digits and on the characters of strings. | partial: Proved for the constants PlainDefault: no octal numbers, a digit on both sides of a decimal point, only the escapes that both languages have. Otherwise the code copies the text and it is false: C94_refuted_octal (010 becomes 10) and C94_refuted_escape ("\01" becomes two characters) silently, C94_refuted_syntax with a file that does not compile. Enum defaults are C95. Decimal rounding is a parameter, the same for both languages. |
| C95 | Enum defaults name the value that is meant | Spec/EnumDefaults.lean says which variant a text names (path of the enum, as its type is written or from the crate, then a variant). readProtoFile_qualified is an invariant of reading; compile_fields gives the text of defaults; C88/C89 give what paths denote. | partial: Proved if pb-rs changes none of the names (EnumKept) and the output is in the module named after its package, or without one after the input file. Otherwise it is false: values and enums named like words of Rust (C95_refuted_value, C95_refuted_name), an output file with another name (C95_refuted_file), --single-mod (C95_refuted_single) give files that do not compile. With C95_literals the round trip of a whole run (C95_run_partial) needs no assumption about what the printed defaults mean. |
| C96 | Every library name in generated code is in scope | Spec/InScope.lean collects the names in the trees of C84 and says, from the lines of the module tree of C88, which names are in scope in which module. Proofs/InScope.lean shows for every generator which names it uses; Props/InScope.lean matches these with the conditions of write_common_uses. | partial: Proved for runs in which no type of the schema has the name of something of the library (otherwise false, C96_refuted_clash: a message WriterBackend; names such as Writer are renamed by pb-rs), and, with nostd, without dont_use_cow (false: C96_refuted_string, C96_refuted_toOwned) and, without hashbrown, without maps in a message whose Default is written out (false: C96_refuted_hashMap). The names of derived traits are not among the names considered. |
| C97 | The iteration order of maps does not matter | Spec/MapOrder.lean: an inductive relation between values that differ in the order of map entries. Typing and get_size are invariant by induction on the depth; C33 applied to both values does the rest. | proved: C97_size for every value, typed or not. C97_order under the conditions of C33 (no -0.0 and no custom default in fields without presence, below 4 GiB, little endian). C97_deterministic for any asymmetric order of the keys. C97_not_deterministic: a HashMap with two entries has two encodings. |
| C98 | Concatenating encodings merges the messages | Spec/Merge.lean: the merge of the guide, and the simpler overlay that the code does. Each record of an encoded value is shown to be read as what was written (the typing of C93 with the same schema on both sides), so the records of a member in the concatenation are those of the first value, then those of the second; what they make of the member is C36, and C33 says what each of the two parts makes of it alone. The guide's merge coincides where the values are apart. | partial: C98_merge_partial: the merge of the guide, if the two values do not both have a message in the same singular field or oneof field, nor both elements in the same packed field. C98_overlay says exactly what happens for every two values: there the later message, and the later packed elements, replace the earlier ones. C98_refuted_message, C98_refuted_packed: the full claim is false (a child message of the first part is lost, where the guide has it merged; packed elements of the first part are lost, see C41). Under the conditions of C33 (no -0.0 and no custom default in fields without presence, below 4 GiB, little endian). |
| C99 | Loading a file or a stream | Model/File.lean: read_exact of std call by call over an arbitrary source (a state machine that gets the buffer), memory cells that may be uninitialised, metadata and open as two separate looks at the file. Induction on the number of calls, with the number of interruptions still to come as measure. | partial: C99_from_reader: for every source that delivers a fixed text, in any portions and with any (finitely many) interruptions; C99_honest: for every source that keeps the contract of Read the buffer is exactly what was delivered, with no panic and no uninitialised byte. from_file: proved for files that are there, fit into usize and do not change (C99_from_file_partial), or become shorter (C99_shrunk). False otherwise: a missing file panics (C99_refuted_missing: metadata().unwrap()), a file that grows meanwhile is loaded in part without an error (C99_refuted_grown), of a file of 4 GiB or more a 32 bit program silently loads the length modulo 2^32 (C99_refuted_large), and a source written in safe code that breaks the contract of Read obtains a reader over uninitialised memory (C99_refuted_contract: set_len on an uninitialised vector). |
| C100 | A field is on the wire if and only if it is set | Spec/Presence.lean counts the records that a member should have by its label and value. The records of an encoding are those of C98; the reading part is C63 and C36. | partial: C100_written: the records of an encoding, counted for each member. C100_read_partial: what is set after decoding, for every input that is a sequence of records (by C63 the ones that are accepted). What is missing is false: C100_refuted_required (for every message of every schema: the empty input is accepted as the default, so no required field is ever demanded), C100_refuted_cycle (a required field on a cycle of messages becomes optional, even when an optional field already breaks the cycle, and can be left out when writing). |
| C101 | Decoding borrows: every string in a decoded message is a part of the input | Spec/Slices.lean lists the strings and borrowed buffers of a value. A predicate on successful results is carried through each read function (no assumption on the reader's state), then by induction on the nesting depth; defaults by induction on the size of the default value. | proved: On the generated from_reader, for any state of the reader, without assuming the schema well formed. C101_slice is deserialize_from_slice, C101_reader is Reader::read. IsDefault says what Default is; NoGhosts that types that do not exist have no strings. |
| C102 | Owned wrappers are memory safe | Model/OwnedMemory.lean has allocations, wrappers as a buffer and strings that point into allocations, and one step for each operation; Spec/OwnedMemory.lean the same operations on plain values. Proved by an invariant: each wrapper points only into its own buffer, which is live, not a variable of the program and not shared. | partial: C102_safe_partial: for every program that does not store, through proto_mut, borrows of locals or of other wrappers, the machine with pointers refines the one with plain values, and no read is undefined behaviour. C102_try_from: the pointers that the model gives to a decoded message exist, by C101. The full statement is false, because proto_mut<'a>(&'a mut self) -> &'a mut Foo<'a> shortens the lifetime of the message behind a mutable reference: C102_refuted_local (every schema: assign a borrow of a local, drop the local, read), C102_refuted_swap (every message type with a string in some input: mem::swap of two wrappers' messages, drop one, read the other). |
| C103 | Names in generated files are identifiers of Rust | Spec/Legal.lean: identifiers of Rust, the names in a file. The parser theorem (names read are words) is carried through imports (read_nameIn) and through compile (compile_nameIn: the names afterwards are the sanitized names before); sanitize maps usual words to identifiers; induction on the nesting of the entries of the file (made_file): whatever is declared is one of these names with one of four fixed affixes, or KVMap. | partial: Proved for a run of pb-rs from the text of the .proto files to the entries of the generated file (the layout theorem C88 connects the entries with the text): if no name of the input is `_`, `macro` or one of the keywords added after 2015, every name declared in any module of the file is an identifier, and so are the names of the fields and variants. The full statement is false: `_` (C103_refuted_underscore) and the newer keywords (C103_refuted_keyword) are left as they are, the directories of the package and the name of the file are not sanitized and give `pub mod type;` and `pub mod 2x;` (C103_refuted_module, C103_refuted_file). Two fields with the same name are accepted and give a struct with a field twice (C103_refuted_twice). |
| C104 | MessageInfo::PATH is the path of the message | The layout theorem C88 lists the entries of the generated file; C89_located gives the modules that the compiler noted. Names on the way to a message determine its place (along_inj: induction on the place, from the distinctness of the names in every module). | partial: Proved for runs of pb-rs if no message in which something is declared has a name that pb-rs changes, and (for uniqueness) no module of the output declares a name twice; the package is taken as the module of the file. False otherwise: the path of a message in a message that is renamed names a module that does not exist (C104_refuted_nested: x.mod_type.Inner, but the module is mod_type_pb), so does that of a message in a package that is renamed (C104_refuted_package), and two messages of the same name are accepted (C104_refuted_same). |
| C105 | Files generated one by one fit together | Imports are complete: everything that an imported file declares, with the files it imports, is in the schema of the main file (complete: induction on the depth of the import recursion). The two schemas therefore have twins of the same messages, name resolution picks twins (means_same), and the compiled descriptors correspond (compile_corresponds); the reachability property Borrows is invariant under that correspondence. | partial: Proved for runs of pb-rs if all imported files have a package and the same syntax, every full name is declared once and no name used in an imported file can mean something of the importing file only. False otherwise: pb-rs applies the syntax of the main file to the imported messages too, so a proto3 file that imports a proto2 file with a repeated fixed-size field writes b::M<'a> for a struct M without parameter (C105_refuted_syntax), and a proto2 file that imports a proto3 file leaves the parameter out (C105_refuted_reverse); a type name in an imported file may be captured by a declaration of the importing file (C105_refuted_captured). The generated files do not compile together. |
| C106 | Several runs of pb-rs at the same time | Model/Pbrs/Steps.lean turns a run into a program of system calls with continuations, and several runs into a scheduler's turns; `solo` proves that a run that is alone does what Model/Pbrs/Run.lean says. What is touched, kept and delivered are predicates on the remaining program that hold for all answers of the system, preserved by every turn (Proofs/Turns.lean). Non-interference (Proofs/Steps.lean): an invariant couples the shared disk with one private disk for each run, which agree on all that the run looks at or changes. Refutations are explicit schedules evaluated by the kernel. | partial: Proved for every schedule: what is touched, that an existing mod.rs is only added to, that there is always a way to the end, that successful runs with different outputs have written them completely; and that runs have the results and effects that they have alone if none changes what another one looks at or changes (C106_apart_partial), which is so if the package directories are there and the runs write to different directories or their modules are declared already (C106_again_partial: generating again in parallel is safe). False in general, because update_mod_file reads, decides and writes without a lock: two runs that succeed may lose one module declaration (C106_refuted_lost), interleave their lines so that mod.rs is not Rust (C106_refuted_garbled, C106_refuted_mixed), or declare a directory twice (C106_refuted_twice); and a run may panic on the half-written line of another (C106_refuted_panic). |
| C107 | Success means that the output is on the disk | The predicate Delivers on the remaining program says that, for all answers of the system but a failure at a write whose result is not looked at, a successful end finds the output complete; it is preserved by every turn, of the run itself and of others (Proofs/Turns.lean). | partial: Proved if no failure strikes the last write, and that every other failing call is reported as an error. False there: write_proto never calls flush, so the last part of the text (all of it, if it is shorter than 8 KiB) is written when the BufWriter is dropped, and the error is ignored: with a full disk pb-rs reports success and leaves an empty file (C107_refuted). |
| C108 | The generated functions type-check | The rules are written after the Rust reference, as inductive relations over the syntax trees that C77 ties to the printed text. By cases on the field type and the shape of the field (FieldShape) every printed tree has a derivation (Proofs/Typing); what the descriptor promises (boxed fields are optional messages, packed fields primitive, ...) comes from the passes (C65), the texts of defaults from C94 and C95. The conditions are necessary by inversion: the rules are syntax-directed. | partial: Proved for every run whose schema has only hashable keys of maps, defaults that are literals of Rust, no packed fixed-size fields with --dont_use_cow, distinct names and numbers in range. The first three conditions are necessary for every message (C108_keys_needed, C108_default_needed, C108_cow_needed) and false of files that pb-rs accepts: map<float, int32> (C108_refuted_key, which protoc rejects), default = .5 (C108_refuted_default), packed fixed32 with --dont_use_cow (C108_refuted_cow): the generated file does not compile. The type rules are a specification (Spec/Typing) of the fragment of Rust that occurs in the functions; lifetimes and borrow checking are not part of them (C93 is about lifetimes). |
| C109 | Options of the generator do not change the format | compile is split where options come in: resolving and breaking cycles do the same in both runs (with --error-cycle it does nothing else if it does not fail), and what follows is one function of a field (finish) that depends on the options only in the type of strings and bytes and the text of the default. From this the descriptors agree up to Cow (SameCtx), by induction on depth the functions of the model are equal, and C78 carries this to the printed programs. | proved: C109_programs: for the programs whose items are in the two printed files. C109_functions: the same for the model of the generated codecs, also where pb-rs prints a file that does not compile (packed fixed-size fields with --dont_use_cow, C108_refuted_cow, are excluded in C109_programs). That the defaults of the schema mean the same in both programs is a condition, SameDefaults; it is proved for literals (C109_literals, C109_same_defaults); for names of enum values it follows from C95. C109_deprecated: with --add-deprecated-fields it would be false, the option changes which fields exist. Owned wrappers (--owned) are C44 and C102. |
| C110 | == on messages, and decoding gives back an equal one | == sees only what can be observed of a value (eqMsg_obs), and does not see the sign of zeros in fields without presence (eqMsg_unsign); with C33_roundtrip_any this gives the round trip. The meaning is by induction on the depth; for maps, entries of one side are found by key in the other, and a list of distinct keys that is contained in one of the same length is a permutation of it. | proved: The derived PartialEq is Rust's; it is modelled from its documentation (Model/Equality.lean), as is == of HashMap. Fields without presence must not have a default option (protoc rejects it; C37), and map keys must not be messages. C110_nan_refuted: without the condition on NaN a message read back is not equal to the one written. The PackedFixed impl is code of this crate: C110_packed. |
| C111 | Decoding takes time proportional to the input | Model/Cost.lean follows the run of the decoder (Model/Gen.lean) and counts units of work: one for each number, tag, length, test for the end, map insertion and skipped field; the length of each string, bytes or packed fixed field; the number of tags for each match; the parts of each default value. Proofs/Cost.lean is an amortised argument: every byte passed is worth K units, a read that succeeds pays with the bytes it passes, one that fails with those left. Proofs/Counts.lean: what is built was counted. Release builds follow checked ones (as for C83) with the same work. | partial: Proved with overflow checks for every schema and every input and outcome (C111_linear_partial); without them for every input on which the checked build does not panic (C111_release_partial). C111_counts: the counter is at least the number of parts of the decoded value. Refuted in general without overflow checks (C111_refuted): the work on the fifteen bytes of C23 exceeds every bound. A HashMap insertion counts as one unit (its expected cost; the BTreeMap of --nostd would cost a logarithm). |
| C112 | Encoding takes time proportional to the value | Model/WriteCost.lean follows the generated get_size and write_message and counts units of work. Induction on the nesting gives the bound depth * weight; a typed value of a non-recursive message is no deeper than there are messages (pigeonhole on the path of messages, as for C92). A family of values (a chain of nodes) refutes linearity in general. | partial: get_size is linear (C112_get_size). write_message is linear for messages that cannot contain themselves (C112_linear_partial), and at most proportional to the value times its depth for all (C112_depth_partial). The full statement is false: nodes nested in one another take quadratic time (C112_refuted: more than any multiple of the value and of its encoding), as write_message calls get_size of the whole subtree at every level. C112_counts: the counter is at least a tenth of the bytes written. |
| C113 | The service generator of a Config gets every service, once, in order | Model/Pbrs/Services.lean models the two hooks of a Config that a build script can set: the generator is a function with an arbitrary state and an arbitrary result per call. Spec/Services.lean says what it means to call a generator once for each service of a list. The run with hooks is characterised once (Proofs/Services.lean: writeProtoWith_spec, writeBefore_spec compares the printed text with and without included lines); the properties follow by cases, the one about several files by induction on the list of files, using that a run does not change .proto files. | partial: QP.Pbrs.C113_written_partial is the property for runs that succeed, with the exception for the lines to include that the code makes; C113_file_partial identifies the services with those of a file in the language of Spec/Grammar.lean; C113_recorded_partial is about runs over several files; C113_failed says which calls a failing run has made and that an error of the generator leaves mod.rs alone; C113_default ties these runs to the runs of all other properties. Refuted: lines to include are dropped, without an error, when all messages of the file (and of its imports) are empty, although the services are generated (C113_refuted_includes); a file with nothing but services, or with services and imports of nothing but services, is rejected before the generator is called (C113_refuted_only_services); the names of argument and result types are given as written, not resolved, so that they need not be the names of the generated types (C113_refuted_names). |
| C114 | The derived traits can be derived | Spec/Traits.lean states which types implement which traits: the rules of the standard library and of PackedFixed, relative to what structs and enums derive. Induction on field types; the structs and oneofs are those of the program that the file is (Generates, C77-C79). | partial: Holds for all schemas whose map keys are integers, booleans, strings or bytes, as the language demands (C114_derives_partial; C114_run_partial connects it to the derive lines of the written file, under the conditions of C84). pb-rs accepts every type as a key: a struct with a map whose keys are floating-point numbers, enums or messages is never accepted by rustc (C114_refuted), but pb-rs reports success (C114_refuted_accepted). Traits that are asked for on the command line are not considered (C90). |
| C115 | Conversions into oneofs (feature generateImplFromForEnums) | Model/Pbrs/FromImpls.lean models the loop of the feature; Spec/FromImpls.lean states when Rust accepts a set of such items and what `into` then does. Induction over the members with the list of handled types. | partial: What is written is proved for all oneofs (C115_written: one conversion per type, into the first member); that rustc accepts it for those without borrowed and without boxed members (C115_accepted_partial). The full statement is false: the conversion of a boxed (recursive) member passes a T where Box<T> is expected (C115_refuted_boxed), and for a oneof with a lifetime no conversion is accepted, since 'a is not declared (C115_refuted_lifetime). Types are compared as pb-rs compares them, as text. |
| C116 | Equal messages are written alike | Induction on the nesting depth: == is equality field by field (C110_meaning), sizes are sums that do not depend on the order of entries, and the wire form (C62) depends only on the numbers in a PackedFixed, not on who owns them. Spec/EqualBytes.lean says which values are excluded. | partial: Sizes and lengths are the same for all equal messages (C116_size, C116_length). The bytes are the same if there is no negative zero and no map with two or more entries in either (C116_bytes_partial); in general they are not: the order of the entries of a map (C116_refuted_order) and the sign of zero (C116_refuted_zero) are seen in the bytes and not by ==. |
| C117 | Errors of the decoder say what is wrong | A predicate `all errors of this program satisfy E`, closed under the monad operations, loops and length limits; induction on the fuel of the generated decoder. The bytes of a varint come from C04 and C05. | partial: Proved for all errors but two. Varint is misleading: an unknown field that is cut off is reported as a bad varint (C117_refuted_varint), so Reason has this case too. For UnexpectedEndOfBuffer nothing is claimed (every input is too short for some continuation); C17, C21, C63 and C81 are about it. Payloads of errors (the inner Utf8Error, the text of Deprecated) are in Model/ErrorText.lean (C119), not here. |
| C118 | Maps where protobuf does not allow them are rejected | Code of a message exists only if there is a syntax tree for the reading function (derives_written), and trees exist only for maps of plain types; the types are followed back through the passes of the compiler (compile_via, ResolvesTo). | partial: Proved: maps of maps and maps in oneofs, for all messages that the file declares, at any depth, and all fields for which there is code (deprecated fields may be left out). Condition: OneSyntax, the file says which syntax it has at most once. False of the other two: labels of maps are ignored (C118_refuted_label) and any type can be a key (C118_refuted_float, C118_refuted_message; the generated code needs keys to be Hash and Eq, so rustc rejects it). |
| C119 | Errors keep what they say | Model/ErrorText.lean: the error type with payloads as a mutual inductive type with io::Error. Induction on the number of conversions; injectivity of decimal notation and of the formats; sizes of errors decrease along sources. C117 gives which errors the decoder has. | partial: All of it but one: an error of variant Io has the text of what is in it, so that it is not told apart from that by its text (C119_refuted_io); all others are (C119_distinct_partial), so those of the decoder (C119_decoder, with C117). io::Error and Utf8Error are modelled after the documentation of the standard library. The full type is in Model/ErrorText.lean; the codec models have it without payloads (Error.bare). |
| C120 | Field numbers are legal and distinct | The range is a postcondition of the parser, carried through imports with the other facts about parsed files (MessageOut). The loss: the first arm with the tag of a record is taken, so no step of the loop changes the shadowed member; invariant of the loop. | partial: Proved: negative numbers and those that do not fit into i32 are rejected (C120_range_partial). False of the rest: duplicates, 0, 2^29 and more, 19000 are accepted (C120_refuted). What then happens is proved for every schema and input: of two fields with the same number and wire type the second is never set by decoding (C120_refuted_lost; C120_lost for oneofs too), without an error. Schemas with legal and distinct numbers round trip (C65). |
| C121 | What is generated depends on the files that are read, and not on where they are | Induction on the depth of imports; for the move a simulation between the two trees, in which the places where imports are looked for correspond (C85_place). | proved: C121_read and C121_frame are equalities, errors included; C121_run is about the files that two successful runs leave. C121_moved: imports and include path are relative paths of files, the new directory may be absolute. Paths are texts, read as lists of components (C85). |
| C122 | Layout, comments and what pb-rs does not use do not matter | C54 (every text of the grammar is read as what it declares) for both texts, then induction on the depth of imports. | proved: SameMeaning is over the grammar of Spec/Grammar.lean (whose omissions are C55 to C58, where texts that protoc accepts are not read or misread). C122_example has a text with comments, an unknown file option, an unknown field option and a leading zero, derived in the grammar, that gives what the plain text gives; and a third text that gives something else. |
| C123 | Adding declarations leaves the generated code of the others unchanged | Each stage commutes with adding enums (Proofs/AddEnums.lean); each printing function gives the same text (Proofs/AddEmit.lean). The refutation evaluates the model on two files and compares common prefix and suffix. | partial: Proved for enums: at the end of a file without imports, and for the import of a file of enums into a file without others; all stages (name resolution with its nested scopes, cycle breaking, defaults, sanitizing, every printing function) are shown not to notice the new enums. False for messages (C123_refuted): in a file where A, B and C are in a cycle, adding the message D { optional B b = 1; }, which nothing names, changes the type of the field c of B from Option<Box<C>> to Option<C>, because the cycle breaking depends on the order in which cycles are searched. C123_printed_partial locates this: the printing stage is innocent, whatever messages and enums a compiled schema has in addition (before them only the header and the use lines may change). Missing: files with other imports (where the new enums come before the imported ones) and what remains true for messages. |
| C124 | Names are not on the wire | Proofs/OptionsSame.lean relates two schemas field by field (same_pairs); schemas with the same nameless form are so related, and the functions and programs are compared as in C109. | proved: FileDescriptor.nameless (Spec/Nameless.lean) erases every name; types of fields refer to messages and enums by place, so two compiled schemas with the same nameless form declare the same up to names, in the same order. C124_functions is about the functions of the model, for contexts that may also have other options; C124_programs about the programs in the two files that two runs write, with the conditions of C109_programs for each. The premise on defaults (SameDefaults) is needed because the default of an enum field names an enum value. C124_example: the schema of C109_example and the same with all names changed, keywords among the new ones, and a package. Renaming is compared after compiling: that the renamed file resolves to the same places is a premise, checked in the example. |

## Findings (properties of the list that the code does not have)

Each is proved of the model by the theorem named; the theorems with `_partial` say what does hold.
* **C07** sint32/sint64 use minimal ZigZag varints: `C07_sint32_refuted`
* **C40** Packed and unpacked encodings of a repeated scalar are both accepted: `C40_refuted`
* **C41** Several packed chunks concatenate: `C41_refuted`
* **C46** Tags identify field number and wire type: `C46_refuted`
* **C47** Sanitized names are never reserved and never clash: `C47_refuted_clash`, `C47_refuted_keywords`, `C47_refuted_names`
* **C50** error_cycle rejects exactly the unsound schemas: `C50_refuted_oneof`
* **C51** A struct gets a lifetime parameter iff it can borrow: `C51_refuted_dont_use_cow`, `C51_refuted_packed`
* **C53** Reserved numbers and names are enforced: `C53_refuted_nested`, `C53_overwrite_refuted`
* **C55** The syntax statement decides proto2/proto3 wherever comments precede it: `C55_refuted`
* **C56** Field numbers and enum values may be decimal or hexadecimal: `C56_refuted`, `C56_refuted_negative`, `C56_refuted_negative_nested`
* **C57** Option lists are parsed without crashing: `C57_refuted`
* **C58** Type names may start with the name of a scalar type: `C58_refuted`
* **C59** mod.rs updates are idempotent and never touch foreign files: `C59_refuted_no_newline`, `C59_refuted_empty`, `C59_refuted_panic`, `C59_refuted_comment`, `C59_refuted_crash`
* **C60** proto3 repeated scalars are packed by default everywhere: `C60_refuted_nested`
* **C66** Defaults of enum fields are enum values: `C66_refuted_nested`
* **C67** Legal schemas compile, illegal ones give an error: `C67_refuted_panic`
* **C69** Imported declarations keep the package of the file that declares them: `C69_refuted`
* **C70** Import cycles are reported: `C70_refuted`
* **C72** A failing run leaves the disk as it was: `C72_refuted`
* **C73** After success the output is there and reachable: `C73_refuted`
* **C74** All outputs of a run over several files are present: `C74_refuted`
* **C75** Generation can be repeated and interrupted: `C75_refuted`, `C75_refuted_killed`
* **C76** --no-output writes nothing: `C76_refuted`
* **C79** What the generated program writes it reads back: `C79_refuted_cow`
* **C80** Generated enums mean what the schema says: `C80_refuted_str`, `C80_refuted_keyword`, `C80_refuted_alias`
* **C81** A truncated frame is never accepted: `C81_err_refuted`, `C81_unknown_refuted`
* **C83** Release builds do what debug builds do: `C83_panic_refuted`
* **C85** Where imports are looked for: `C85_refuted_working_directory`
* **C86** The command line does what its help text says: `C86_refuted_package`, `C86_refuted_name`
* **C87** Custom defaults of optional fields: `C87_refuted_get_size`
* **C89** Paths in generated code name the types that are meant: `C89_refuted_renamed`, `C89_refuted_package`, `C89_refuted_single`, `C89_refuted_keyword`, `C89_refuted_shadowed`, `C89_refuted_imported_name`, `C89_refuted_oneof_name`, `C89_refuted_owned_name`
* **C90** Custom traits are derived: `C90_refuted`
* **C91** Decoding takes memory proportional to the input: `C91_refuted`
* **C92** Decoding has a bounded stack: `C92_refuted`
* **C93** Programs built from different versions of a schema understand each other: `C93_refuted_sint`, `C93_refuted_bool`
* **C94** The default of a field is the value that its declaration gives: `C94_refuted_octal`, `C94_refuted_escape`, `C94_refuted_syntax`
* **C95** Enum defaults name the value that is meant: `C95_refuted_value`, `C95_refuted_name`, `C95_refuted_file`, `C95_refuted_single`
* **C96** Every library name in generated code is in scope: `C96_refuted_string`, `C96_refuted_toOwned`, `C96_refuted_hashMap`, `C96_refuted_clash`
* **C98** Concatenating encodings merges the messages: `C98_refuted_message`, `C98_refuted_packed`
* **C99** Loading a file or a stream: `C99_refuted_missing`, `C99_refuted_grown`, `C99_refuted_large`, `C99_refuted_contract`
* **C100** A field is on the wire if and only if it is set: `C100_refuted_required`, `C100_refuted_cycle`
* **C102** Owned wrappers are memory safe: `C102_refuted_local`, `C102_refuted_swap`
* **C103** Names in generated files are identifiers of Rust: `C103_refuted_underscore`, `C103_refuted_keyword`, `C103_refuted_module`, `C103_refuted_file`, `C103_refuted_twice`
* **C104** MessageInfo::PATH is the path of the message: `C104_refuted_nested`, `C104_refuted_package`, `C104_refuted_same`
* **C105** Files generated one by one fit together: `C105_refuted_syntax`, `C105_refuted_reverse`, `C105_refuted_captured`
* **C106** Several runs of pb-rs at the same time: `C106_refuted_lost`, `C106_refuted_garbled`, `C106_refuted_panic`, `C106_refuted_mixed`, `C106_refuted_twice`
* **C107** Success means that the output is on the disk: `C107_refuted`
* **C108** The generated functions type-check: `C108_refuted_key`, `C108_refuted_cow`, `C108_refuted_default`
* **C110** == on messages, and decoding gives back an equal one: `C110_nan_refuted`
* **C111** Decoding takes time proportional to the input: `C111_refuted`
* **C112** Encoding takes time proportional to the value: `C112_refuted`
* **C113** The service generator of a Config gets every service, once, in order: `C113_refuted_names`, `C113_refuted_includes`, `C113_refuted_only_services`
* **C114** The derived traits can be derived: `C114_refuted`, `C114_refuted_accepted`
* **C115** Conversions into oneofs (feature generateImplFromForEnums): `C115_refuted_boxed`, `C115_refuted_lifetime`
* **C116** Equal messages are written alike: `C116_refuted_order`, `C116_refuted_zero`
* **C117** Errors of the decoder say what is wrong: `C117_refuted_varint`
* **C118** Maps where protobuf does not allow them are rejected: `C118_refuted_label`, `C118_refuted_float`, `C118_refuted_message`
* **C119** Errors keep what they say: `C119_refuted_io`
* **C120** Field numbers are legal and distinct: `C120_refuted`, `C120_refuted_lost`
* **C123** Adding declarations leaves the generated code of the others unchanged: `C123_refuted`

## Axioms

As printed by `#print axioms` for the theorems of `MANIFEST.json`:

* propext, Classical.choice, Quot.sound: `C01_write_varint_canonical`, `C02_sizeof_exact`, `C03_varint_roundtrip`, `C06_scalars_roundtrip`, `C07_sint64_zigzag`, `C07_sint32_zigzag_partial`, `C07_sint32_ten_bytes`, `C07_sint32_refuted`, `C08_fixed_roundtrip`, `C09_bytes_roundtrip`, `C10_read_string_spec`, `C11_length_kept_partial`, `C11_length_truncated`, `C12_packed_roundtrip`, `C13_packed_fixed_roundtrip_partial`, `C13_big_endian`, `C14_map_roundtrip`, `C14_map_other_field`, `C29_packedFixed_is_list`, `C29_faithful_numbers`, `C29_eq_f32`, `C29_eq_f64`, `C30_packedFixed_safe_partial`, `C15_unknown_skipped`, `C15_unknown_only_skips`, `C15_unknown_rejected`, `C15_fixed_too_short`, `C16_reads_orderly_local`, `C20_limit_tested_partial`, `C25_bytes_writer`, `C26_slice_iff_fits`, `C27_vec_slice_agree`, `C28_framed_roundtrip`, `C28_stream_roundtrip`, `Gen.C32_get_size_exact`, `Gen.C33_roundtrip`, `Gen.C33_roundtrip_unframed`, `Gen.C33_roundtrip_any`, `Gen.C62_wire_format`, `Gen.C22_flat_safe_partial`, `Gen.C22_nested_safe_partial`, `Gen.C22_slice_panic`, `Gen.C22_underflow_panic`, `Gen.C22_framed_panic`, `Gen.C23_terminates_partial`, `Gen.C23_release_diverges`, `Gen.C63_decode_complete`, `Gen.C63_decode_iff`, `Gen.C34_unknown_field_ignored`, `Gen.C34_unknown_field_any_depth`, `Gen.C35_field_order`, `Gen.C35_swap`, `Gen.C36_last_wins`, `Gen.C36_appends`, `Gen.C36_map_inserts`, `Gen.C36_absent`, `Gen.C36_concat`, `Gen.C37_elided_iff`, `Gen.C37_zero_restored_partial`, `Gen.C37_custom_default_lost`, `Gen.C38_bits_survive_partial`, `Gen.C38_negative_zero_lost`, `Gen.C39_enum_decode`, `Gen.C40_declared_encoding_partial`, `Gen.C40_other_packing_skipped`, `Gen.C40_refuted`, `Gen.C41_single_chunk_partial`, `Gen.C41_last_chunk`, `Gen.C41_refuted`, `Gen.C42_deprecated_ignored`, `Gen.C43_oneof_last`, `Gen.C43_oneof_any_input`, `Gen.C43_oneof_writes_one`, `Gen.C44_try_into`, `Gen.C45_reencode_partial`, `Gen.C45_decoded_is_encodable_partial`, `Gen.C45_negative_zero`, `Pbrs.C48_strongly_connected`, `Pbrs.C48_order`, `Pbrs.C49_finite_size`, `Gen.C49_defaults_exist`, `Pbrs.C50_ok_sound_partial`, `Pbrs.C50_rejects_partial`, `Pbrs.C50_error_reason_partial`, `Pbrs.C50_error_iff_partial`, `Pbrs.CycleTextExample.C50_refuted_oneof`, `Pbrs.C46_tag_partial`, `Pbrs.C46_injective_partial`, `Pbrs.C47_not_listed_partial`, `Pbrs.C47_words_partial`, `Pbrs.C47_idempotent_partial`, `Pbrs.C47_unchanged_partial`, `Pbrs.C47_exact`, `Pbrs.C47_injective_partial`, `Pbrs.C47_refuted_clash`, `Pbrs.C47_refuted_keywords`, `Pbrs.C47_refuted_names`, `Pbrs.C52_resolves`, `Pbrs.C52_positions`, `Pbrs.C52_error`, `Pbrs.C52_undeclared`, `Pbrs.C52_full_name`, `Pbrs.C52_enum_name`, `Pbrs.C51_reachable_partial`, `Pbrs.C51_struct_partial`, `Pbrs.C51_consistent_partial`, `Rust.C51_written_partial`, `Rust.C51_types`, `Rust.C51_example`, `Pbrs.C51_refuted_dont_use_cow`, `Pbrs.C51_refuted_packed`, `Pbrs.C53_top_partial`, `Pbrs.C53_reason`, `Pbrs.C53_refuted_nested`, `Pbrs.C60_top_partial`, `Pbrs.C60_nested_partial`, `Pbrs.C60_refuted_nested`, `Pbrs.C64_no_cow`, `Pbrs.C64_otherwise`, `Pbrs.C65_compiled`, `Gen.C65_schema_ok`, `Gen.C65_roundtrip`, `Pbrs.C66_top_partial`, `Pbrs.C66_refuted_nested`, `Pbrs.C67_accepts`, `Pbrs.C67_panic_reason`, `Pbrs.C67_refuted_panic`, `Pbrs.C59_history`, `Pbrs.C59_foreign`, `Pbrs.C59_append_only`, `Pbrs.C59_idempotent_partial`, `Pbrs.C59_refuted_no_newline`, `Pbrs.C59_refuted_empty`, `Pbrs.C59_refuted_panic`, `Pbrs.C59_refuted_comment`, `Pbrs.C59_refuted_crash`, `Pbrs.C54_parse`, `Pbrs.C54_unambiguous`, `Pbrs.C54_print`, `Pbrs.C54_rest`, `Pbrs.C54_trailing`, `Pbrs.C55_first_partial`, `Pbrs.C55_refuted`, `Pbrs.C56_field_partial`, `Pbrs.C56_enum_partial`, `Pbrs.C56_refuted`, `Pbrs.C56_refuted_negative`, `Pbrs.C56_refuted_negative_nested`, `Pbrs.C57_panics_partial`, `Pbrs.C57_refuted`, `Pbrs.C57_bare`, `Pbrs.C58_name_partial`, `Pbrs.C58_refuted`, `Pbrs.C68_parsed`, `Pbrs.C68_read`, `Gen.C68_roundtrip`, `Pbrs.C69_sources_partial`, `Pbrs.C69_complete`, `Pbrs.C69_refuted`, `Pbrs.C70_accepted_partial`, `Pbrs.C70_ends_partial`, `Pbrs.C70_refuted`, `Pbrs.C71_one`, `Pbrs.C71_out`, `Pbrs.C71_run`, `Pbrs.C72_unchanged_partial`, `Pbrs.C72_reported`, `Pbrs.C72_refuted`, `Pbrs.C73_written`, `Pbrs.C73_declared`, `Pbrs.C73_dirs_partial`, `Pbrs.C73_refuted`, `Pbrs.C74_all_present_partial`, `Pbrs.C74_refuted`, `Pbrs.C75_again_partial`, `Pbrs.C75_interrupted_partial`, `Pbrs.C75_refuted`, `Pbrs.C75_refuted_killed`, `Pbrs.C76_no_output_partial`, `Pbrs.C76_refuted`, `Rust.C77_file`, `Rust.C77_written`, `Rust.C78_write`, `Rust.C78_read`, `Rust.C78_default`, `Rust.C79_roundtrip`, `Rust.C79_run_partial`, `Rust.C79_refuted_cow`, `Rust.C80_written`, `Rust.C80_accepted`, `Rust.C80_default`, `Rust.C80_from_i32`, `Rust.C80_as_i32`, `Rust.C80_from_str_partial`, `Rust.C80_model`, `Rust.C80_no_empty`, `Rust.C80_refuted_str`, `Rust.C80_refuted_keyword`, `Rust.C80_refuted_alias`, `Gen.C81_torn_frame`, `Gen.C81_never_other`, `Gen.C81_err_refuted`, `Gen.C81_unknown_refuted`, `Gen.C82_log_recovery`, `Gen.C83_panic_refuted`, `Rust.C84_values`, `Rust.C84_decoded`, `Rust.C84_roundtrip`, `Rust.C84_run_partial`, `Pbrs.C85_first`, `Pbrs.C85_missing`, `Pbrs.C85_beside`, `Pbrs.SearchExample.C85_example`, `Pbrs.SearchExample.C85_refuted_working_directory`, `Pbrs.C86_refused`, `Pbrs.C86_jobs`, `Pbrs.C86_written_partial`, `Pbrs.C86_extension`, `Pbrs.C86_main`, `Pbrs.C86_cli_partial`, `Pbrs.InvocationExample.C86_example`, `Pbrs.InvocationExample.C86_refuted_package`, `Pbrs.InvocationExample.C86_refuted_name`, `Rust.C87_file`, `Rust.C87_written_partial`, `Rust.C87_getter`, `Rust.GettersExample.C87_example`, `Rust.C87_refuted_get_size`, `Rust.C88_layout`, `Rust.PathsExample.C88_example`, `Rust.C89_located`, `Rust.C89_message_partial`, `Rust.C89_enum_partial`, `Rust.C89_nested_enum_partial`, `Rust.C89_oneof_partial`, `Rust.C89_imported_partial`, `Rust.C89_imported_enum_partial`, `Rust.C89_imported_nested_enum_partial`, `Rust.PathsExample.C89_example`, `Rust.C89_refuted_renamed`, `Rust.C89_refuted_package`, `Rust.C89_refuted_single`, `Rust.C89_refuted_keyword`, `Rust.C89_refuted_shadowed`, `Rust.C89_refuted_imported_name`, `Rust.C89_refuted_oneof_name`, `Rust.C89_refuted_owned_name`, `Rust.C90_written_partial`, `Rust.C90_refuted`, `Rust.C90_example`, `Gen.C91_linear_partial`, `Gen.C91_release_partial`, `Gen.C91_refuted`, `Gen.C92_bounded_partial`, `Gen.C92_decode_partial`, `Gen.C92_refuted`, `Gen.C93_versions_partial`, `Gen.C93_unframed_partial`, `Gen.carries_same`, `Gen.Later.C93_example`, `Gen.C93_refuted_sint`, `Gen.C93_refuted_bool`, `Rust.C94_value_partial`, `Rust.C94_getter_partial`, `Rust.C94_capitals`, `Rust.C94_capitals_example`, `Rust.plain_literal`, `Rust.DefaultsExample.C94_example`, `Rust.C94_refuted_octal`, `Rust.C94_refuted_escape`, `Rust.C94_refuted_syntax`, `Rust.C95_standard_partial`, `Rust.C95_custom_partial`, `Rust.C95_value_partial`, `Rust.C95_denotes_partial`, `Rust.C95_denotes_nested_partial`, `Rust.C95_literals`, `Rust.C95_run_partial`, `Rust.EnumDefaultsExample.C95_example`, `Rust.C95_refuted_value`, `Rust.C95_refuted_name`, `Rust.C95_refuted_file`, `Rust.C95_refuted_single`, `Rust.C96_message_partial`, `Rust.C96_run_partial`, `Rust.InScopeExample.C96_example`, `Rust.InScopeExample.C96_refuted_string`, `Rust.InScopeExample.C96_refuted_toOwned`, `Rust.InScopeExample.C96_refuted_hashMap`, `Rust.InScopeExample.C96_refuted_clash`, `Gen.C97_order`, `Gen.C97_example`, `Gen.C97_not_deterministic`, `Gen.C98_merge_partial`, `Gen.C98_overlay`, `Gen.C98_example`, `Gen.C98_refuted_message`, `Gen.C98_refuted_packed`, `C99_from_file_partial`, `C99_from_reader`, `C99_shrunk`, `C99_example`, `C99_refuted_grown`, `C99_refuted_large`, `Gen.C100_written`, `Gen.C100_read_partial`, `Gen.C100_example`, `Gen.C100_refuted_required`, `Gen.C100_refuted_cycle`, `Gen.C101_zero_copy`, `Gen.C101_slice`, `Gen.C101_reader`, `Gen.SlicesExample.C101_example`, `Gen.C102_try_from`, `Gen.OwnedExample.C102_example`, `Gen.C102_refuted_swap`, `Rust.C103_run_partial`, `Rust.C103_example`, `Rust.C103_refuted_underscore`, `Rust.C103_refuted_keyword`, `Rust.C103_refuted_module`, `Rust.C103_refuted_file`, `Rust.C103_refuted_twice`, `Rust.C104_path_partial`, `Rust.C104_example`, `Rust.C104_refuted_nested`, `Rust.C104_refuted_package`, `Rust.C104_refuted_same`, `Rust.C105_lifetime_partial`, `Rust.C105_example`, `Rust.C105_refuted_syntax`, `Rust.C105_refuted_reverse`, `Rust.C105_refuted_captured`, `Pbrs.C106_touched`, `Pbrs.C106_kept`, `Pbrs.C106_outputs_partial`, `Pbrs.C106_apart_partial`, `Pbrs.C106_again_partial`, `Pbrs.solo`, `Pbrs.C106_refuted_lost`, `Pbrs.C106_refuted_garbled`, `Pbrs.C106_refuted_panic`, `Pbrs.C106_refuted_mixed`, `Pbrs.C106_refuted_twice`, `Pbrs.C107_heard_partial`, `Pbrs.C107_reported_partial`, `Pbrs.C107_refuted`, `Rust.C108_run_partial`, `Rust.TypingExample.C108_example`, `Rust.TypingExample.C108_refuted_key`, `Rust.TypingExample.C108_refuted_cow`, `Rust.TypingExample.C108_refuted_default`, `Rust.C109_programs`, `Rust.C109_functions`, `Rust.C109_names`, `Rust.C109_literals`, `Rust.C109_same_defaults`, `Rust.OptionsExample.C109_example`, `Rust.OptionsExample.C109_deprecated`, `Gen.C110_meaning`, `Gen.C110_laws`, `Gen.C110_self`, `Gen.C110_roundtrip`, `Gen.C110_same_bytes`, `Gen.C110_packed`, `Gen.Example.C110_example`, `Gen.Example.C110_example_roundtrip`, `Gen.Example.C110_nan_refuted`, `Gen.C111_linear_partial`, `Gen.C111_release_partial`, `Gen.C111_refuted`, `Gen.C112_linear_partial`, `Gen.C112_refuted`, `Pbrs.C113_default`, `Pbrs.C113_default_run`, `Pbrs.C113_written_partial`, `Pbrs.C113_file_partial`, `Pbrs.C113_recorded_partial`, `Pbrs.C113_failed`, `Pbrs.C113_no_output`, `Pbrs.C113_touches`, `Pbrs.C113_example`, `Pbrs.C113_example_failing`, `Pbrs.C113_refuted_names`, `Pbrs.C113_refuted_includes`, `Pbrs.C113_refuted_only_services`, `Rust.C114_run_partial`, `Rust.C114_example`, `Rust.C114_refuted_accepted`, `Rust.C115_accepted_partial`, `Rust.C115_example`, `Rust.C115_refuted_boxed`, `Gen.C116_size`, `Gen.C116_length`, `Gen.C116_bytes_partial`, `Gen.Example.C116_example`, `Gen.Example.C116_refuted_order`, `Gen.Example.C116_refuted_zero`, `Gen.C117_reason`, `Gen.C117_framed`, `Gen.C117_never`, `Gen.Example.C117_example`, `Gen.Example.C117_refuted_varint`, `Rust.C118_maps_partial`, `Rust.C118_example`, `Rust.C118_refuted_label`, `Rust.C118_refuted_float`, `Rust.C118_refuted_message`, `Fault.C119_distinct_partial`, `Fault.C119_decoder`, `Fault.C119_example`, `Pbrs.C120_range_partial`, `Pbrs.C120_example`, `Pbrs.C120_refuted`, `Gen.C120_refuted_lost`, `Gen.C120_lost`, `Pbrs.C121_read`, `Pbrs.C121_frame`, `Pbrs.C121_run`, `Pbrs.C121_moved`, `Pbrs.C121_example`, `Pbrs.C122_read`, `Pbrs.C122_text`, `Pbrs.C122_run`, `Pbrs.MeaningExample.C122_example`, `Pbrs.C123_enum_partial`, `Pbrs.C123_import_partial`, `Pbrs.AddedExample.C123_refuted`, `Pbrs.AddedExample.C123_example`, `Pbrs.AddedExample.C123_import_example`, `Rust.C124_functions`, `Rust.C124_programs`, `Rust.NamelessExample.C124_example`
* propext, Quot.sound: `C01_canonical_unique`, `C04_read_varint64_spec`, `C04_exhaustive`, `C05_varint32_truncates`, `C08_fixed_short`, `C13_size_with_tag_partial`, `C29_at_wraps_in_release`, `C29_eq_int`, `C30_reader_gives_whole`, `C30_ragged_into_vec`, `C30_ragged_into_vec_all`, `C30_ragged_at`, `C30_write_size_with_tag_ub`, `C17_scalar_reads_safe`, `C17_panics_on_32_bit`, `C18_nested_restores`, `C18_own_operations`, `C18_swallowing_decoder`, `C19_prefix_error_partial`, `C19_error_state`, `C19_limit_lost`, `C20_last_message_partial`, `C20_reads_beyond_parent`, `C21_overlong_rejected_partial`, `C21_overlong_message_accepted`, `C24_backend_prefix`, `C24_accepting_sink`, `C25_primitive_all_or_nothing`, `C31_reader_is_bytes_reader`, `Gen.insertKV_find`, `Gen.decodeInto_default`, `Gen.C39_enum_total`, `Gen.C42_not_generated`, `Gen.C42_generated`, `Gen.C44_try_from`, `Gen.C44_proto_total`, `Gen.C44_try_from_slice`, `Pbrs.C46_refuted`, `Pbrs.C52_unambiguous`, `Pbrs.C51_terminates`, `Gen.C83_decode`, `Gen.C83_encode`, `Pbrs.C85_place`, `Pbrs.C85_absolute_import`, `Pbrs.C86_allowed`, `Gen.readDeep_iff`, `Rust.C96_unit`, `Rust.C96_oneof_partial`, `Gen.C97_size`, `Gen.C97_deterministic`, `C99_honest`, `C99_refuted_contract`, `Gen.C102_safe_partial`, `Gen.C102_refuted_local`, `Pbrs.C106_ends`, `Rust.C108_functions_partial`, `Rust.C108_keys_needed`, `Rust.C108_cow_needed`, `Rust.C108_default_needed`, `Gen.C111_counts`, `Gen.C112_get_size`, `Gen.C112_depth_partial`, `Gen.C112_counts`, `Rust.C114_derives_partial`, `Rust.C114_refuted`, `Rust.C115_written`, `Rust.C115_refuted_lifetime`, `Fault.C119_kept`, `Fault.C119_kind`, `Fault.C119_sources`, `Pbrs.C123_printed_partial`, `Pbrs.PrintedExample.C123_printed_example`
* propext: `C29_faithful_bool`, `C30_invalid_bool`, `C16_suffix_only`, `Pbrs.C61_split_package`, `Pbrs.C61_segments`, `Pbrs.C53_overwrite_refuted`, `Pbrs.C86_search`, `Pbrs.C86_options`, `C99_refuted_missing`, `Fault.C119_text`, `Fault.C119_back`, `Fault.C119_passed`, `Fault.C119_refuted_io`
* none: `C29_eq_bool`, `Rust.C95_imported`
