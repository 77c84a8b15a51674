{"id": "C01", "title": "Varint writer emits the protobuf base-128 encoding", "statement": "For every u64 v, Writer::write_varint(v) emits exactly the canonical little-endian base-128 encoding of v: 1 to 10 bytes, continuation bit set on all but the last byte, no redundant trailing zero group.", "quantifier": "all u64 values, all states of the output", "why_tests_cant": "the domain is 2^64 values (or unbounded byte strings); tests sample it", "anchors": ["quick-protobuf/src/writer.rs: Writer::write_varint, write_tag, write_uint64"]}
{"id": "C02", "title": "sizeof_* equals the number of bytes written", "statement": "For every value, sizeof_varint / sizeof_int32 / int64 / uint32 / uint64 / sint32 / sint64 / bool / enum / sizeof_len return exactly the number of bytes the corresponding Writer method emits.", "quantifier": "all values of each scalar type, all byte strings for sizeof_len", "why_tests_cant": "the domain is 2^64 values (or unbounded byte strings); tests sample it", "anchors": ["quick-protobuf/src/sizeofs.rs: sizeof_varint, sizeof_len, sizeof_int32, sizeof_sint32, sizeof_sint64, sizeof_bool, sizeof_enum", "quick-protobuf/src/writer.rs: write_*"]}
{"id": "C03", "title": "Varint round trip at any offset", "statement": "Bytes produced by write_varint(v), placed anywhere in any buffer, are read back by read_varint64 as v, and the reader stops exactly after them (read_varint32 likewise for values below 2^32 and for sign-extended i32).", "quantifier": "all u64, all prefixes and suffixes of the buffer, all reader limits", "why_tests_cant": "the domain is 2^64 values (or unbounded byte strings); tests sample it", "anchors": ["quick-protobuf/src/reader.rs: BytesReader::read_varint64, read_varint32", "quick-protobuf/src/writer.rs: Writer::write_varint"]}
{"id": "C04", "title": "read_varint64 is fully specified on arbitrary bytes", "statement": "On any buffer and position, read_varint64 returns Ok of the base-128 value modulo 2^64 and advances past the terminating byte if one of the next ten bytes has its high bit clear; returns Err(Varint) after consuming ten bytes if all ten have it set; returns Err(UnexpectedEndOfBuffer) if the buffer ends first. Nothing else can happen.", "quantifier": "all buffers, all positions", "why_tests_cant": "the domain is 2^64 values (or unbounded byte strings); tests sample it", "anchors": ["quick-protobuf/src/reader.rs: BytesReader::read_varint64, read_u8"]}
{"id": "C05", "title": "read_varint32 is read_varint64 truncated", "statement": "On any buffer and position read_varint32 succeeds exactly when read_varint64 does, consumes the same bytes, fails with the same error, and its value is the 64-bit value modulo 2^32.", "quantifier": "all buffers, all positions", "why_tests_cant": "the domain is 2^64 values (or unbounded byte strings); tests sample it", "anchors": ["quick-protobuf/src/reader.rs: BytesReader::read_varint32, read_varint64"]}
{"id": "C06", "title": "Varint-typed scalars round trip", "statement": "int32, int64, uint32, uint64, sint32, sint64, bool and enum values written by Writer are read back unchanged by the matching BytesReader method, at any offset, leaving the reader exactly after the value.", "quantifier": "all values of each type, all contexts", "why_tests_cant": "the domain is 2^64 values (or unbounded byte strings); tests sample it", "anchors": ["quick-protobuf/src/reader.rs: read_int32..read_enum", "quick-protobuf/src/writer.rs: write_int32..write_enum"]}
{"id": "C07", "title": "sint32/sint64 use minimal ZigZag varints", "statement": "sint32 and sint64 values are written as the varint of their ZigZag image (0,-1,1,-2,... -> 0,1,2,3,...), so a sint32 never takes more than 5 bytes.", "quantifier": "all i32 and i64 values", "why_tests_cant": "the domain is 2^64 values (or unbounded byte strings); tests sample it", "anchors": ["quick-protobuf/src/writer.rs: write_sint32, write_sint64", "quick-protobuf/src/sizeofs.rs: sizeof_sint32, sizeof_sint64"]}
{"id": "C08", "title": "Fixed-width values round trip little-endian", "statement": "fixed32/64, sfixed32/64, float and double are written as exactly 4 or 8 little-endian bytes and read back bit for bit (every NaN payload and signed zero included); a short buffer gives Err(UnexpectedEndOfBuffer) and does not move the reader.", "quantifier": "all 2^32 / 2^64 bit patterns, all buffers", "why_tests_cant": "the domain is 2^64 values (or unbounded byte strings); tests sample it", "anchors": ["quick-protobuf/src/reader.rs: read_fixed, read_fixed64, read_fixed32, read_sfixed64, read_sfixed32, read_float, read_double", "quick-protobuf/src/writer.rs: write_fixed64.., BytesWriter::pb_write_*"]}
{"id": "C09", "title": "bytes and string round trip", "statement": "A byte string (or str) written by write_bytes/write_string is read back identically by read_bytes/read_string anywhere in a buffer, and the reader stops exactly after it.", "quantifier": "all byte strings shorter than 2^32 bytes, all contexts", "why_tests_cant": "unbounded lengths and contexts", "anchors": ["quick-protobuf/src/reader.rs: read_bytes, read_string, read_len_varint, read_len", "quick-protobuf/src/writer.rs: write_bytes, write_string"]}
{"id": "C10", "title": "read_string only returns valid UTF-8", "statement": "read_string succeeds iff the length-prefixed payload lies inside the buffer and is valid UTF-8, returns exactly that payload, and otherwise returns Err(Utf8) or Err(UnexpectedEndOfBuffer).", "quantifier": "all buffers, positions and payloads", "why_tests_cant": "all byte strings", "anchors": ["quick-protobuf/src/reader.rs: read_string, read_bytes"]}
{"id": "C11", "title": "A written length prefix is never silently truncated on read", "statement": "Whatever length write_bytes/write_message put in the prefix, reading back either returns that many bytes or fails.", "quantifier": "all lengths up to usize::MAX", "why_tests_cant": "needs payloads of 4 GiB or more, which tests never build", "anchors": ["quick-protobuf/src/reader.rs: read_len_varint, read_varint32", "quick-protobuf/src/writer.rs: write_bytes, write_message"]}
{"id": "C12", "title": "Packed repeated fields round trip for any element codec", "statement": "For any element writer/size/reader that agree on each element, write_packed followed by read_packed returns the same list, and the prefix equals the payload size; an empty list writes nothing.", "quantifier": "all element codecs, all lists", "why_tests_cant": "higher-order and unbounded", "anchors": ["quick-protobuf/src/reader.rs: read_packed, is_eof", "quick-protobuf/src/writer.rs: write_packed, write_packed_with_tag"]}
{"id": "C13", "title": "Packed fixed fields round trip", "statement": "write_packed_fixed_with_tag then next_tag + read_packed_fixed yields the same sequence of numbers, encoded little-endian as the wire format demands.", "quantifier": "all lists of 4- and 8-byte numbers, all target endiannesses", "why_tests_cant": "unbounded lists and per-target behaviour", "anchors": ["quick-protobuf/src/reader.rs: read_packed_fixed, PackedFixed", "quick-protobuf/src/writer.rs: write_packed_fixed, write_packed_fixed_with_tag"]}
{"id": "C14", "title": "Map entries round trip and tolerate any field order", "statement": "read_map returns the (key,value) written by write_map; accepts value before key; a missing key or value is the type default; the last occurrence wins; a field other than 1 or 2 is Err(Map).", "quantifier": "all keys, values, codecs and entry bytes", "why_tests_cant": "unbounded and higher-order", "anchors": ["quick-protobuf/src/reader.rs: read_map", "quick-protobuf/src/writer.rs: write_map"]}
{"id": "C15", "title": "read_unknown skips exactly one field", "statement": "After a tag, read_unknown advances by exactly the payload the wire type announces (varint, 8, 4 or length-prefixed bytes), fails with Deprecated on groups and UnknownWireType on 6 and 7, and otherwise leaves the limit alone.", "quantifier": "all tags, payloads, buffers", "why_tests_cant": "unbounded", "anchors": ["quick-protobuf/src/reader.rs: read_unknown"]}
{"id": "C16", "title": "Reads never look outside the remaining buffer", "statement": "The outcome of any read depends only on the buffer bytes from the current position on, and (with overflow checks) never moves the position backwards.", "quantifier": "all read operations, all buffers, all states, 64-bit targets with overflow checks", "why_tests_cant": "a property of every pair of buffers agreeing on a suffix", "anchors": ["quick-protobuf/src/reader.rs: BytesReader::*"]}
{"id": "C17", "title": "Scalar reads never panic and never run past the buffer", "statement": "read_u8, varints, fixed, bool, enum, bytes and string reads return Ok or Err for every buffer and every reader state whose indices are in range; after Ok the position is at most the buffer length.", "quantifier": "all buffers, all positions, both overflow-check profiles, 64-bit targets", "why_tests_cant": "all byte strings", "anchors": ["quick-protobuf/src/reader.rs: read_u8, read_varint*, read_fixed, read_bytes, read_string"]}
{"id": "C18", "title": "Nested reads restore the enclosing limit", "statement": "When read_message / read_message_by_len / read_packed / read_map / read_bytes / read_string succeeds, the reader's limit is what it was before and the position is exactly start + declared length, whatever the nested decoder did (provided it propagates the errors of the reads it makes).", "quantifier": "all nested decoders that propagate errors, all buffers and states", "why_tests_cant": "quantifies over arbitrary user decoders", "anchors": ["quick-protobuf/src/reader.rs: read_len, read_len_varint, read_message, read_message_by_len"]}
{"id": "C19", "title": "A failed nested read leaves the reader usable", "statement": "If a length-delimited read fails, the reader's limit is unchanged so that remaining data can still be delimited.", "quantifier": "all failing inputs", "why_tests_cant": "all malformed inputs", "anchors": ["quick-protobuf/src/reader.rs: read_len"]}
{"id": "C20", "title": "Fields of a nested message cannot reach beyond it", "statement": "No read inside a nested message returns data lying beyond the length its parent declared.", "quantifier": "all inputs", "why_tests_cant": "all malformed inputs", "anchors": ["quick-protobuf/src/reader.rs: read_len, read_u8, read_fixed, read_bytes"]}
{"id": "C21", "title": "Over-long length prefixes are rejected", "statement": "A message, string or packed block whose declared length exceeds the bytes present is rejected with an error.", "quantifier": "all truncated inputs, all message types", "why_tests_cant": "every truncation point of every message", "anchors": ["quick-protobuf/src/reader.rs: read_len, read_unknown, read_to_end, read_packed_fixed, deserialize_from_slice"]}
{"id": "C22", "title": "Decoding untrusted bytes never panics", "statement": "deserialize_from_slice / from_reader of any generated message returns Ok or Err for every input; no panic, no out-of-bounds access.", "quantifier": "all schemas, all byte strings", "why_tests_cant": "all malformed inputs", "anchors": ["quick-protobuf/src/reader.rs: read_unknown, read_packed_fixed, len, read_len", "pb-rs/src/types.rs: Message::write_impl_message_read"]}
{"id": "C23", "title": "Decoding always terminates", "statement": "Decoding any input with any generated message type terminates after at most one loop iteration per input byte.", "quantifier": "all schemas, all byte strings, both overflow-check profiles", "why_tests_cant": "all malformed inputs; non-termination cannot be observed by a finite test", "anchors": ["quick-protobuf/src/reader.rs: read_unknown, read_packed, read_map, is_eof", "pb-rs/src/types.rs: Message::write_impl_message_read"]}
{"id": "C24", "title": "Writer output does not depend on the backend", "statement": "For any std::io::Write backend, after writing a value either everything succeeded and the sink received exactly the encoding, or an error is returned and the sink received a prefix of it (any crash point).", "quantifier": "all backends, all failure points, all messages", "why_tests_cant": "all failure schedules of an I/O device", "anchors": ["quick-protobuf/src/writer.rs: WriterBackend, impl for W: std::io::Write, Writer::*"]}
{"id": "C25", "title": "BytesWriter stays in bounds", "statement": "Writing through BytesWriter never writes outside the buffer, never touches bytes at or beyond its cursor that it did not report as written, succeeds iff the data fits, and each primitive write is all-or-nothing.", "quantifier": "all buffers, all write sequences", "why_tests_cant": "all sequences of writes", "anchors": ["quick-protobuf/src/writer.rs: BytesWriter"]}
{"id": "C26", "title": "serialize_into_slice succeeds iff the buffer is large enough", "statement": "For a message whose get_size is exact, serialize_into_slice returns Ok iff the slice has at least sizeof_len(get_size) bytes, then holds the framed encoding followed by its old tail; otherwise it returns OutputBufferTooSmall and leaves the slice unchanged.", "quantifier": "all messages, all slices", "why_tests_cant": "all messages and buffer sizes", "anchors": ["quick-protobuf/src/writer.rs: serialize_into_slice", "quick-protobuf/src/sizeofs.rs: sizeof_len"]}
{"id": "C27", "title": "serialize_into_vec and serialize_into_slice agree", "statement": "serialize_into_vec yields exactly sizeof_len(get_size) bytes, and these are the bytes serialize_into_slice stores.", "quantifier": "all messages with exact get_size", "why_tests_cant": "all messages", "anchors": ["quick-protobuf/src/writer.rs: serialize_into_vec, serialize_into_slice"]}
{"id": "C28", "title": "Framed messages and streams round trip", "statement": "deserialize_from_slice inverts serialize_into_vec for every correct MessageRead/MessageWrite pair, and a concatenation of framed messages is read back as the same list by the documented read_message-until-eof loop.", "quantifier": "all message types satisfying the trait contract, all message lists", "why_tests_cant": "quantifies over user implementations and unbounded streams", "anchors": ["quick-protobuf/src/reader.rs: deserialize_from_slice, read_message, is_eof", "quick-protobuf/src/writer.rs: serialize_into_vec, write_message"]}
{"id": "C29", "title": "PackedFixed behaves like the vector of its numbers", "statement": "len, is_empty, at, iteration (by value and by reference), into_vec, own, to_slice and == of a PackedFixed agree with the list of numbers it denotes, whatever its variant; own never changes what is observed.", "quantifier": "all PackedFixed values obtained from Vec<T> or by decoding", "why_tests_cant": "all values and operation sequences", "anchors": ["quick-protobuf/src/reader.rs: PackedFixed, PackedFixedIntoIter, PackedFixedRefIter"]}
{"id": "C30", "title": "PackedFixed is memory safe", "statement": "No safe call on a PackedFixed reads or writes outside its allocation.", "quantifier": "all PackedFixed values constructible through the safe API, including From<&[u8]>", "why_tests_cant": "undefined behaviour is not reliably observable by tests", "anchors": ["quick-protobuf/src/reader.rs: PackedFixed::at, own, into_vec, From<&[u8]>", "quick-protobuf/src/writer.rs: write_packed_fixed_size_with_tag"]}
{"id": "C31", "title": "Reader is a BytesReader over its own buffer", "statement": "Reader::from_bytes(v).read(f) gives what f gives on BytesReader::from_bytes(&v), and successive reads continue where the previous one stopped; the buffer never changes. from_reader reads exactly the announced number of bytes or fails.", "quantifier": "all buffers, all sequences of reads", "why_tests_cant": "all sequences", "anchors": ["quick-protobuf/src/reader.rs: Reader::from_bytes, read, inner, buffer, from_reader, from_file"]}
{"id": "C32", "title": "Generated get_size is exact", "statement": "For every message value of every schema, get_size returns exactly the number of bytes write_message emits.", "quantifier": "all schemas accepted by pb-rs, all message values", "why_tests_cant": "all schemas and values, arbitrarily nested", "anchors": ["pb-rs/src/types.rs: Field::write_get_size, Field::write_write, FieldType::get_size, FieldType::get_write, OneOf::write_get_size, OneOf::write_write"]}
{"id": "C33", "title": "Generated messages round trip", "statement": "Decoding what write_message produced gives an equal message.", "quantifier": "all schemas with distinct field numbers, all well-typed message values (arbitrarily nested, any frequency, maps, oneofs, packed)", "why_tests_cant": "all schemas and values", "anchors": ["pb-rs/src/types.rs: Message::write_impl_message_read, write_write_message, Field::write_match_tag, OneOf::write_match_tag"]}
{"id": "C34", "title": "Unknown fields are skipped wherever they occur", "statement": "Inserting any well-formed field that the schema does not know between fields of an encoded message does not change the decoded value (forward compatibility).", "quantifier": "all schemas, all encodings, all insertion points, all unknown fields", "why_tests_cant": "all positions and payloads", "anchors": ["quick-protobuf/src/reader.rs: read_unknown", "pb-rs/src/types.rs: Message::write_impl_message_read"]}
{"id": "C35", "title": "Field order on the wire does not matter", "statement": "Permuting the encodings of different fields of a message does not change the decoded value.", "quantifier": "all schemas, all permutations of distinct fields", "why_tests_cant": "all permutations", "anchors": ["pb-rs/src/types.rs: Field::write_match_tag, Message::write_impl_message_read"]}
{"id": "C36", "title": "Repeated occurrences: last singular value wins, repeated fields append, concatenation continues", "statement": "If a singular field occurs several times the last occurrence wins; unpacked repeated fields accumulate in order; decoding the concatenation of two encodings equals decoding the second starting from the result of the first.", "quantifier": "all schemas, all encodings", "why_tests_cant": "all sequences of fields", "anchors": ["pb-rs/src/types.rs: Field::write_match_tag"]}
{"id": "C37", "title": "proto3 zero values are elided and restored", "statement": "A proto3 implicit-presence field equal to its default is not written, anything else is written, and an absent field decodes to the value that was elided.", "quantifier": "all proto3 schemas, all values, including fields carrying a default option", "why_tests_cant": "all values", "anchors": ["pb-rs/src/types.rs: Field::has_presence, write_write, get_field_default, must_generate_impl_default"]}
{"id": "C38", "title": "Floating point fields keep their bits", "statement": "Float and double fields of generated messages survive a round trip bit for bit.", "quantifier": "all 2^32/2^64 bit patterns, all presence modes", "why_tests_cant": "2^64 values; needs the right bit pattern", "anchors": ["pb-rs/src/types.rs: Field::write_write, write_get_size"]}
{"id": "C39", "title": "Enum fields: declared values survive, undeclared become the default", "statement": "Decoding an enum field yields the declared variant with that number, or the first declared variant when the number is not declared; it never fails.", "quantifier": "all enum definitions, all i32", "why_tests_cant": "2^32 values times all enums", "anchors": ["pb-rs/src/types.rs: Enumerator::write_from_i32, write_impl_default", "quick-protobuf/src/reader.rs: read_enum"]}
{"id": "C40", "title": "Packed and unpacked encodings of a repeated scalar are both accepted", "statement": "A decoder for a repeated scalar field accepts both the packed and the unpacked encoding (protobuf language guide).", "quantifier": "all schemas, all values", "why_tests_cant": "interoperability with encoders tests do not have", "anchors": ["pb-rs/src/types.rs: Field::tag, write_match_tag"]}
{"id": "C41", "title": "Several packed chunks concatenate", "statement": "If a packed field occurs more than once, the decoded list is the concatenation of the chunks (protobuf encoding spec).", "quantifier": "all schemas, all chunk lists", "why_tests_cant": "all splits", "anchors": ["pb-rs/src/types.rs: Field::write_match_tag"]}
{"id": "C42", "title": "Deprecated fields vanish without breaking the rest", "statement": "With add_deprecated_fields off, deprecated fields are neither written nor sized nor read; data carrying them decodes as if they were unknown.", "quantifier": "all schemas, all values, all inputs", "why_tests_cant": "all schemas", "anchors": ["pb-rs/src/types.rs: Field::write_definition, write_match_tag, write_get_size, write_write, OneOf::*"]}
{"id": "C43", "title": "At most one member of a oneof is set", "statement": "After decoding any input, a oneof holds the last member seen (or None) and encoding emits at most one member.", "quantifier": "all schemas, all inputs", "why_tests_cant": "all sequences of members", "anchors": ["pb-rs/src/types.rs: OneOf::write_match_tag, write_write"]}
{"id": "C44", "title": "Owned wrappers are faithful", "statement": "FooOwned::try_from(buf) succeeds iff Foo decodes buf, exposes that value and that buffer, and try_into emits the value's encoding.", "quantifier": "all schemas, all buffers", "why_tests_cant": "all buffers", "anchors": ["pb-rs/src/types.rs: Message::write_impl_owned, write_impl_try_from"]}
{"id": "C45", "title": "Decoding then re-encoding is stable", "statement": "For any input that decodes (however non-canonical), encoding the decoded value and decoding again gives the same value.", "quantifier": "all schemas, all decodable inputs", "why_tests_cant": "all non-canonical encodings", "anchors": ["pb-rs/src/types.rs: Message::write_impl_message_read, write_write_message"]}
{"id": "C46", "title": "Tags identify field number and wire type", "statement": "Distinct (field number, wire type) pairs get distinct tags, the wire type and number can be recovered from the tag, and the tag fits one u32 varint.", "quantifier": "all field numbers pb-rs accepts, all field types", "why_tests_cant": "all numbers", "anchors": ["pb-rs/src/types.rs: tag, Field::tag, FieldType::wire_type_num, wire_type_num_non_packed, sizeof_varint"]}
{"id": "C47", "title": "Sanitized names are never reserved and never clash", "statement": "After sanitize_keyword no dot-separated segment is a Rust keyword or a name the generated code relies on; the function is idempotent, leaves other names alone, and different names stay different.", "quantifier": "all identifiers and dotted paths", "why_tests_cant": "all strings", "anchors": ["pb-rs/src/keywords.rs: sanitize_keyword, RUST_KEYWORDS"]}
{"id": "C48", "title": "sccs() returns the strongly connected components", "statement": "FileDescriptor::sccs partitions all messages; two messages are in the same component iff each reaches the other through unboxed, non-repeated message fields.", "quantifier": "all message graphs", "why_tests_cant": "all graphs", "anchors": ["pb-rs/src/scc.rs: scc, sccs, flatten_messages"]}
{"id": "C49", "title": "Generated structs have finite size", "statement": "After break_cycles (error_cycle off) no message contains itself through unboxed singular message fields, so every generated struct is Sized.", "quantifier": "all message graphs", "why_tests_cant": "all graphs", "anchors": ["pb-rs/src/types.rs: FileDescriptor::break_cycles", "pb-rs/src/scc.rs: scc"]}
{"id": "C50", "title": "error_cycle rejects exactly the unsound schemas", "statement": "With error_cycle on, break_cycles fails exactly when some cycle consists of required (non-optional, non-repeated) message fields.", "quantifier": "all message graphs", "why_tests_cant": "all graphs", "anchors": ["pb-rs/src/types.rs: FileDescriptor::break_cycles"]}
{"id": "C51", "title": "A struct gets a lifetime parameter iff it can borrow", "statement": "has_lifetime is true iff a visible borrowed field (string, bytes, packed fixed) is reachable through visible message or map fields, including in recursive schemas.", "quantifier": "all message graphs, all deprecation/packing flags", "why_tests_cant": "all graphs incl. cyclic", "anchors": ["pb-rs/src/types.rs: FieldType::has_lifetime, Message::has_lifetime"]}
{"id": "C52", "title": "Type names resolve to the innermost enclosing scope", "statement": "resolve_types binds a relative type name to the declaration found in the innermost enclosing scope that declares it, and a leading dot makes the name absolute; unresolvable names are an error.", "quantifier": "all packages, nestings and names", "why_tests_cant": "all scopes", "anchors": ["pb-rs/src/types.rs: resolve_types, get_full_names, set_package"]}
{"id": "C53", "title": "Reserved numbers and names are enforced", "statement": "A schema with a field whose number or name is reserved in its message is rejected.", "quantifier": "all schemas, any number of reserved statements, nested messages too", "why_tests_cant": "all schemas", "anchors": ["pb-rs/src/types.rs: Message::sanity_checks, FileDescriptor::sanity_checks", "pb-rs/src/parser.rs: reserved_nums, reserved_names, num_range, message"]}
{"id": "C54", "title": "Parsing a printed schema gives the schema back", "statement": "file_descriptor applied to the textual form of a schema returns that schema with no input left.", "quantifier": "all schemas in the supported subset, all layouts of whitespace", "why_tests_cant": "all schemas and layouts", "anchors": ["pb-rs/src/parser.rs: file_descriptor, message, message_field, field_type, enumerator"]}
{"id": "C55", "title": "The syntax statement decides proto2/proto3 wherever comments precede it", "statement": "A file declaring syntax proto3 is treated as proto3 throughout, whatever comments or blanks come before the statement.", "quantifier": "all files", "why_tests_cant": "all layouts", "anchors": ["pb-rs/src/parser.rs: scan_syntax, file_descriptor"]}
{"id": "C56", "title": "Field numbers and enum values may be decimal or hexadecimal", "statement": "A field number n, or the number n of an enum value (which may be negative), parses to n both in decimal and in 0x notation.", "quantifier": "all numbers", "why_tests_cant": "all numbers", "anchors": ["pb-rs/src/parser.rs: integer, hex_integer, field_generic, enum_field"]}
{"id": "C57", "title": "Option lists are parsed without crashing", "statement": "A field followed by any bracketed option list is parsed or rejected with an error.", "quantifier": "all option lists", "why_tests_cant": "all option lists", "anchors": ["pb-rs/src/parser.rs: key_val, field_generic"]}
{"id": "C58", "title": "Type names may start with the name of a scalar type", "statement": "A field whose message type is named e.g. stringList or boolean resolves to that message.", "quantifier": "all type names", "why_tests_cant": "all identifiers", "anchors": ["pb-rs/src/parser.rs: field_type, qualifiable_name"]}
{"id": "C59", "title": "mod.rs updates are idempotent and never touch foreign files", "statement": "update_mod_file adds one pub mod line for the module, keeps all other lines, does nothing the second time, and never modifies a mod.rs lacking the generated header.", "quantifier": "all file contents, all module names, all call sequences", "why_tests_cant": "all histories", "anchors": ["pb-rs/src/types.rs: update_mod_file, MAGIC_HEADER"]}
{"id": "C60", "title": "proto3 repeated scalars are packed by default everywhere", "statement": "In a proto3 schema every repeated scalar field without a packed option is packed and no non-scalar field is, in nested messages as well.", "quantifier": "all schemas and nestings", "why_tests_cant": "all nestings", "anchors": ["pb-rs/src/types.rs: set_defaults, set_repeated_as_packed, unset_packed_non_primitives"]}
{"id": "C61", "title": "Package names split at the last dot", "statement": "split_package(p) returns (prefix, last) with p = prefix.last, last containing no dot.", "quantifier": "all package names", "why_tests_cant": "all strings", "anchors": ["pb-rs/src/types.rs: split_package, get_modules"]}
{"id": "C62", "title": "Generated code writes standard protobuf", "statement": "For every schema and value the bytes written by the generated write_message are the protobuf encoding of the message: for each present field in declaration order its tag (number and wire type) followed by the payload prescribed for its type by the protobuf encoding guide.", "quantifier": "all schemas, all values, all backends", "why_tests_cant": "all schemas and values", "anchors": ["pb-rs/src/types.rs: write_write, get_write, wire_type_num, tag"]}
{"id": "C63", "title": "Generated decoders accept exactly the wire grammar", "statement": "For every schema, decoding a byte string with a generated from_reader returns Ok(v) exactly when the byte string is a sequence of records (field tag and a payload denoting a value of the field's type, or an unknown tag and a payload of its wire type) whose collected values are v; everything else is an error or a panic.", "quantifier": "all schemas, all byte strings", "why_tests_cant": "all schemas, all inputs, both directions", "anchors": ["pb-rs/src/types.rs: write_from_reader, write_match_tag", "quick-protobuf/src/reader.rs: BytesReader"]}
{"id": "C64", "title": "dont_use_cow removes every borrowed type", "statement": "With the option dont_use_cow no field of the compiled schema, in nested messages, oneofs, map keys and map values too, has a Cow type; without it every field has exactly the type its name means.", "quantifier": "all schemas, all nestings", "why_tests_cant": "all schemas and nestings", "anchors": ["pb-rs/src/types.rs: convert_field_types, write_proto"]}
{"id": "C65", "title": "Whatever pb-rs accepts round-trips", "statement": "If write_proto accepts a .proto file (legal, distinct field numbers), the compiled descriptor has correct positions, no dangling references and finite-size structs, and every value of every generated message type survives serialize_into_vec followed by deserialize_from_slice.", "quantifier": "all accepted schemas, all options, all values", "why_tests_cant": "all schemas and values", "anchors": ["pb-rs/src/types.rs: write_proto, resolve_types, break_cycles, set_defaults, sanitize_names", "quick-protobuf/src/writer.rs: serialize_into_vec", "quick-protobuf/src/reader.rs: deserialize_from_slice"]}
{"id": "C66", "title": "Defaults of enum fields are enum values", "statement": "A schema with an enum field whose default is not the name of one of the values of the enum is rejected.", "quantifier": "all schemas, nested messages too", "why_tests_cant": "all schemas", "anchors": ["pb-rs/src/types.rs: Message::sanity_checks, FileDescriptor::sanity_checks"]}
{"id": "C67", "title": "Legal schemas compile, illegal ones give an error", "statement": "After parsing, pb-rs accepts every schema with at least one declaration, declared names, no reserved or badly defaulted fields; it rejects others with an error and never panics.", "quantifier": "all schemas", "why_tests_cant": "all schemas", "anchors": ["pb-rs/src/types.rs: write_proto, sanitize_default, sanity_checks, break_cycles, resolve_types"]}
{"id": "C68", "title": "From files to bytes and back", "statement": "If pb-rs accepts a .proto file together with everything it imports (legal, distinct field numbers), every value of every generated message type survives serialize_into_vec followed by deserialize_from_slice.", "quantifier": "all file systems, include paths, accepted files, options, values", "why_tests_cant": "all files and values", "anchors": ["pb-rs/src/types.rs: read_proto, fetch_imports, write_proto"]}
{"id": "C69", "title": "Imported declarations keep the package of the file that declares them", "statement": "Reading a file yields its own declarations and those of every file it imports, directly or through others, each with the package and module it has in the file that declares it; nothing is lost and nothing else appears.", "quantifier": "all file systems, include paths, import graphs", "why_tests_cant": "all import graphs", "anchors": ["pb-rs/src/types.rs: fetch_imports, set_package, set_imported"]}
{"id": "C70", "title": "Import cycles are reported", "statement": "Reading a file always ends; a file that imports itself, directly or through other files, is rejected with an error.", "quantifier": "all import graphs", "why_tests_cant": "all graphs; non-termination", "anchors": ["pb-rs/src/types.rs: read_proto, fetch_imports"]}
{"id": "C71", "title": "A run of pb-rs touches only its outputs", "statement": "Whatever happens during a run (success, error, panic), generating code for a file changes nothing on the disk but the generated file (always a Rust source file, never a mod.rs) and files called mod.rs, to which text is only added at the end; no file or directory is removed and no .proto file is changed.", "quantifier": "all disks, all lists of input files, all configurations, all failures", "why_tests_cant": "all disks and failure points", "anchors": ["pb-rs/src/types.rs: FileDescriptor::write_proto, write, update_mod_file", "pb-rs/src/lib.rs: ConfigBuilder", "pb-rs/src/types.rs: FileDescriptor::run"]}
{"id": "C72", "title": "A failing run leaves the disk as it was", "statement": "When pb-rs reports an error for a file, the disk is unchanged: the output of an earlier successful run is still there.", "quantifier": "all disks, inputs and causes of failure", "why_tests_cant": "all failure points", "anchors": ["pb-rs/src/types.rs: FileDescriptor::write_proto, write, update_mod_file", "pb-rs/src/lib.rs: ConfigBuilder", "pb-rs/src/types.rs: FileDescriptor::run"]}
{"id": "C73", "title": "After success the output is there and reachable", "statement": "After a successful run the output file has exactly the generated text, the mod.rs beside it declares its module, and every directory of the package is declared in the mod.rs above it.", "quantifier": "all disks, all inputs", "why_tests_cant": "all disks and packages", "anchors": ["pb-rs/src/types.rs: FileDescriptor::write_proto, write, update_mod_file", "pb-rs/src/lib.rs: ConfigBuilder", "pb-rs/src/types.rs: FileDescriptor::run"]}
{"id": "C74", "title": "All outputs of a run over several files are present", "statement": "After a successful run over several files, the generated text of each of them is on the disk.", "quantifier": "all lists of files", "why_tests_cant": "all lists of inputs", "anchors": ["pb-rs/src/types.rs: FileDescriptor::write_proto, write, update_mod_file", "pb-rs/src/lib.rs: ConfigBuilder", "pb-rs/src/types.rs: FileDescriptor::run"]}
{"id": "C75", "title": "Generation can be repeated and interrupted", "statement": "Running pb-rs again changes nothing; a run that was interrupted at any point can be repeated and gives the result of an uninterrupted run.", "quantifier": "all disks, all crash points", "why_tests_cant": "all crash points", "anchors": ["pb-rs/src/types.rs: FileDescriptor::write_proto, write, update_mod_file", "pb-rs/src/lib.rs: ConfigBuilder", "pb-rs/src/types.rs: FileDescriptor::run"]}
{"id": "C76", "title": "--no-output writes nothing", "statement": "With no_output (used to check a schema) the disk is unchanged.", "quantifier": "all disks and inputs", "why_tests_cant": "all disks", "anchors": ["pb-rs/src/types.rs: FileDescriptor::write_proto, write, update_mod_file", "pb-rs/src/lib.rs: ConfigBuilder", "pb-rs/src/types.rs: FileDescriptor::run"]}
{"id": "C77", "title": "The generated file has a struct and codec for every message", "statement": "After a successful run, the generated file contains, for every message of the file (nested ones too), a struct with a field for every non-suppressed field and oneof, of the declared type, the enum of every oneof, and well-formed functions from_reader, get_size, write_message and default for it: the text is exactly the rendering of their syntax trees.", "quantifier": "all files, configurations and messages, at any nesting", "why_tests_cant": "all schemas", "anchors": ["pb-rs/src/types.rs: Message::write, Field::write_match_tag, write_get_size, write_write, get_type, get_field_default, OneOf::write_*", "pb-rs/src/types.rs: FileDescriptor::write_proto", "quick-protobuf/src/message.rs: MessageWrite, MessageRead"]}
{"id": "C78", "title": "The generated functions do what the schema says", "statement": "Executed as Rust, the text of the generated get_size, write_message, from_reader and default of a message computes the sizes, bytes, values and defaults that the schema prescribes (those of the codec model, C33, C62, C63), for every value and every input, valid or not.", "quantifier": "all schemas, all values, all inputs", "why_tests_cant": "all schemas and inputs", "anchors": ["pb-rs/src/types.rs: Message::write, Field::write_match_tag, write_get_size, write_write, get_type, get_field_default, OneOf::write_*", "pb-rs/src/types.rs: FileDescriptor::write_proto", "quick-protobuf/src/message.rs: MessageWrite, MessageRead"]}
{"id": "C79", "title": "What the generated program writes it reads back", "statement": "For every run of pb-rs: the program whose items are printed in the file has default values, and every value of every message type, serialized with the printed write_message and deserialized with the printed from_reader, comes back.", "quantifier": "all files, configurations, values", "why_tests_cant": "all schemas and values", "anchors": ["pb-rs/src/types.rs: Message::write, Field::write_match_tag, write_get_size, write_write, get_type, get_field_default, OneOf::write_*", "pb-rs/src/types.rs: FileDescriptor::write_proto", "quick-protobuf/src/message.rs: MessageWrite, MessageRead"]}
{"id": "C80", "title": "Generated enums mean what the schema says", "statement": "For every enum that the file declares, at any depth, the generated file has a Rust enum with one variant per declared value and the declared numbers; it is accepted by the compiler; default() is the first declared value, From<i32> maps the number of each value to its variant and unknown numbers to the default, `as i32` gives the number back, and From<&str> maps each declared name to its variant and other texts to the default.", "quantifier": "all files, enums, numbers and texts", "why_tests_cant": "all schemas, all 32-bit numbers, all texts", "anchors": ["pb-rs/src/types.rs: Enumerator::write, write_definition, write_impl_default, write_from_i32, write_from_str", "pb-rs/src/parser.rs: enumerator, enum_field"]}
{"id": "C81", "title": "A truncated frame is never accepted", "statement": "For every schema and value: none of the proper prefixes of what serialize_into_vec writes is decoded to a value by deserialize_from_slice; each is an error (a panic is possible only if the schema has packed fields of fixed-size numbers). For any buffer that decodes to a value, every prefix gives the same value or is rejected, never another value.", "quantifier": "all schemas, values, cut points, build profiles; all input buffers", "why_tests_cant": "every cut point of every encoding, inside nested messages, map entries, packed fields and length prefixes", "anchors": ["quick-protobuf/src/reader.rs: deserialize_from_slice, BytesReader::read_len_varint, read_packed, read_packed_fixed, read_map, read_unknown", "pb-rs/src/types.rs: generated from_reader"]}
{"id": "C82", "title": "A log of messages cut short by a crash is recovered up to the last complete message", "statement": "Write messages one frame after the other to a sink that accepts bytes in any pieces and fails at any point. Reading what the sink has received with read_message, again and again, returns exactly the messages whose frames were completely written, in order, and then reaches the end or rejects the incomplete frame.", "quantifier": "all schemas, message lists, sinks, crash points", "why_tests_cant": "every crash point and every way a sink can split writes", "anchors": ["quick-protobuf/src/writer.rs: Writer::write_message", "quick-protobuf/src/reader.rs: BytesReader::read_message, is_eof", "pb-rs/src/types.rs: generated write_message, from_reader"]}
{"id": "C83", "title": "Release builds do what debug builds do", "statement": "Whatever a build with overflow checks (debug) does without panicking, a build without them (release) does exactly: for every schema, message and input, from any reader state, the same value or error and the same reader position; generated encoders do the same in both. So a release build panics only where the debug build panics.", "quantifier": "all schemas, inputs, reader states, both profiles", "why_tests_cant": "a difference needs an input that makes unchecked usize arithmetic wrap without a panic; tests run one profile on a few inputs", "anchors": ["quick-protobuf/src/reader.rs: BytesReader::read_len, read_fixed, read_packed_fixed, read_unknown, len", "pb-rs/src/types.rs: generated from_reader, write_message, get_size"]}
{"id": "C84", "title": "The generated types hold exactly the values of the schema", "statement": "In a generated program that compiles, the values of the struct of a message (as its declared Rust type says: Option, Box, Vec, Cow, PackedFixed, KVMap, enums, nested structs) are exactly the values the schema describes. So whatever a user can construct is written by the generated functions and read back (up to the sign of floating point zeros in fields without presence), and whatever decoding returns is such a value.", "quantifier": "all schemas, all runs of pb-rs, all values of the printed types, all inputs", "why_tests_cant": "tests construct a few values of a few types; the claim is about all values of all types", "anchors": ["pb-rs/src/types.rs: Message::write_definition, Field::get_type, FieldType::rust_type, OneOf::write_definition", "pb-rs/src/types.rs: write_impl_message_read, write_impl_message_write"]}
{"id": "C85", "title": "Where imports are looked for", "statement": "An import that is accepted means the first file that exists on the include path: an absolute entry is that directory, a relative entry (the default is `.`) is relative to the directory of the importing file, whether that is the input or itself an import; an absolute import path means itself. InvalidImport is reported only for an import of the input, or of a file it imports directly or indirectly, that no entry of the include path has.", "quantifier": "all contents of the file system, include paths, input files and nestings of imports", "why_tests_cant": "the order of the include path, the directory of each importing file and the depth of the nesting are unbounded", "anchors": ["pb-rs/src/types.rs: FileDescriptor::fetch_imports", "pb-rs/src/types.rs: FileDescriptor::read_proto"]}
{"id": "C86", "title": "The command line does what its help text says", "statement": "An invocation of pb-rs is refused exactly if it has no input, an input does not exist, both --output and --output_directory are given, --output is given with several inputs, or the output directory is not a directory; it is then refused with the error that says so, exit code 1, and an untouched disk. Otherwise every input is compiled, in order, with the options given; the include path is the given one followed by `.`. If pb-rs exits with 0, the code generated for each input is in --output, in --output_directory under the name of the input with extension rs, or beside the input with extension rs.", "quantifier": "all command lines (as clap parses them), all contents of the disk, all paths", "why_tests_cant": "the paths, the number of inputs and the contents of the disk are unbounded", "anchors": ["pb-rs/src/lib.rs: ConfigBuilder::new, build", "pb-rs/src/main.rs: run, extension_matches, path_vec", "pb-rs/src/types.rs: FileDescriptor::run, write_proto"]}
{"id": "C87", "title": "Custom defaults of optional fields", "statement": "For every optional proto2 field of a scalar or enum type with a [default = x] option that is not left out as deprecated, the generated struct has an associated constant DEFAULT_<field> of the type of the field (&str, &[u8] for owned strings and bytes) whose value is x; with --generate-getters it also has a method get_<field>, which returns the value of the field if it is set and the custom default otherwise. No other field has a constant or a getter, and the generated code compiles.", "quantifier": "every .proto file and configuration pb-rs accepts, every message of the file (nested ones too), every field, every value of the generated struct", "why_tests_cant": "The generated text differs by field type, lifetime and Cow setting, the default texts are arbitrary, and what a getter returns depends on the value of the struct.", "anchors": ["pb-rs/src/types.rs: Field::{must_generate_custom_default_const, must_generate_getter, write_getter, can_write_default_const, write_custom_default, rust_type_incl_non_cow}, Message::{write_default_consts, write_getters}"]}
{"id": "C88", "title": "Nothing but what is expected is in a generated file", "statement": "The file that pb-rs writes consists of, in this order: a header comment and attributes (unless switched off), imports from the runtime crate, use super::* (one super per part of the package), then for each enum and message that the file declares (not for imported ones) exactly its definition, its implementations (custom default constants, getters, Default, MessageRead, MessageWrite, MessageInfo with --gen-info, the owned wrapper or TryFrom with --owned), and a module mod_<name> with what is declared in the message: its nested messages in the same way, its enums, its oneofs, with the imports that code needs. Each is there once, with the attributes and derives that the options ask for, and there is nothing else.", "quantifier": "every .proto file without contradicting syntax statements, its imports, every configuration and disk for which pb-rs succeeds", "why_tests_cant": "The text is arbitrarily long and nested; tests compile some schemas and compare a few outputs, but cannot show that for all schemas and options nothing is missing, repeated or added.", "anchors": ["pb-rs/src/types.rs: FileDescriptor::{write, write_headers, write_package_start, write_uses, write_imports, write_enums, write_messages}, Message::{write, write_common_uses, write_definition, write_impl_message_info, write_impl_owned, write_impl_message_read, write_impl_message_write, write_impl_default, is_unit}, Enumerator::write, OneOf::write"]}
{"id": "C89", "title": "Paths in generated code name the types that are meant", "statement": "Wherever the generated code names the type of a message, enum or oneof, Rust resolves the path that is written there to the item that was generated for that message, enum or oneof: in the same file, at whatever depth of nesting, and for imported types in the module tree that the package of the imported file says. No two items of a module have the same name, and no item has the name of something the file imports.", "quantifier": "every .proto file and its imports, every place in the generated code where types are named, every type", "why_tests_cant": "Whether a path resolves depends on all names on the way, in this file and in all imported ones; the tests compile a fixed set of schemas.", "anchors": ["pb-rs/src/types.rs: Message::{set_package, get_modules, write, sanitize_names, set_imported}, Enumerator::{set_package, get_modules}, OneOf::get_modules, FieldType::rust_type, FileDescriptor::{fetch_imports, write_imports, write_package_start, write_proto}, MessageIndex"]}
{"id": "C90", "title": "Custom traits are derived", "statement": "Every struct generated for a message derives the traits that --custom_struct_derive asks for, besides Debug, PartialEq and Clone, and has Default: derived, unless a required field has a default value, in which case impl Default is written out.", "quantifier": "every .proto file, every list of custom traits, every message at every depth", "why_tests_cant": "Whether the list is right depends on each message (whether it needs a written impl Default) and on the list of traits; the tests generate without custom traits.", "anchors": ["pb-rs/src/types.rs: Message::write_definition (1585-1601), Message::must_generate_impl_default, Message::write_impl_default, Config::custom_struct_derive", "pb-rs/src/main.rs: run (122-127)"]}
{"id": "C91", "title": "Decoding takes memory proportional to the input", "statement": "For every schema there is a constant K such that decoding n bytes as any message of the schema gives a value of at most K*(n+1) parts (numbers, bytes of strings, containers): no input makes a small message blow up in memory, neither by nesting, nor by lengths that lie, nor by having bytes read twice.", "quantifier": "every compiled schema, every message type, every input of any length and content (valid or hostile), both entry points, both arithmetic profiles", "why_tests_cant": "A decompression-bomb input is one among all byte strings; tests only decode messages that the same library wrote.", "anchors": ["quick-protobuf/src/reader.rs: BytesReader::read_len, read_packed, read_packed_fixed, read_map, read_unknown, deserialize_from_slice", "pb-rs/src/types.rs: Field::write_match_tag, Message::write_impl_message_read"]}
{"id": "C92", "title": "Decoding has a bounded stack", "statement": "Decoding opens only so many nested calls of from_reader, a number that depends on the schema and not on the input, so that no input makes the stack overflow (which aborts the process and cannot be caught).", "quantifier": "every resolved schema, every message type, every input of any length and nesting, both arithmetic profiles", "why_tests_cant": "The depth is a function of the input; tests decode messages nested a few levels, and a bound or its absence is a statement about all of them.", "anchors": ["pb-rs/src/types.rs: Message::write_impl_message_read (1664-1718)", "quick-protobuf/src/reader.rs: BytesReader::read_message, read_len, read_map, deserialize_from_slice"]}
{"id": "C93", "title": "Programs built from different versions of a schema understand each other", "statement": "If a schema is changed by adding and removing fields, reordering or relabelling them, moving them into or out of a oneof, or changing a type to a compatible one, a program generated from one version reads what a program generated from the other writes: fields both have keep their values (converted to the new type), fields the reader does not know are ignored, fields the writer does not know are left at their defaults, at every level of nesting.", "quantifier": "every pair of well-formed schemas related by such changes, every value of every message, both arithmetic profiles of the reader, framed and unframed", "why_tests_cant": "It relates two arbitrary schemas and an arbitrary value; tests use one schema on both sides.", "anchors": ["pb-rs/src/types.rs: Message::write_impl_message_read, Message::write_impl_message_write, Field::write_match_tag, Field::write_write", "quick-protobuf/src/reader.rs: BytesReader::read_unknown, read_varint32, read_bool, deserialize_from_slice", "quick-protobuf/src/writer.rs: write_sint32, serialize_into_vec"]}
{"id": "C94", "title": "The default of a field is the value that its declaration gives", "statement": "The Rust expression that pb-rs writes for [default = c] (in the DEFAULT_ constants, in the getters' fallback and in impl Default) is a literal of the type needed there, and its value is the one the protocol buffer language gives to the constant c for a field of that type: the same integer, the number rounded the same way, the same bytes of a string.", "quantifier": "every file, every field with a default of a scalar type, every constant of the language, borrowed and owned types, every rounding of decimals", "why_tests_cant": "Constants are arbitrary text, in which two languages with different lexical rules must agree; tests try a few numbers.", "anchors": ["pb-rs/src/types.rs: Field::sanitize_default, Message::write_definition, Field::get_type", "pb-rs/src/parser.rs: default_value, message_field"]}
{"id": "C95", "title": "Enum defaults name the value that is meant", "statement": "The Rust expressions that pb-rs writes for values of enums (the first value, which proto3 fields and required fields start at and are compared with, and custom defaults) are paths that denote, from every place of the generated file, the variant of the generated enum with the name and the number that the schema gives.", "quantifier": "every file with its imports, every enum (top-level, nested, imported), every field that holds one, every option, every place of the file", "why_tests_cant": "The paths combine packages, modules of the messages around, sanitized names and the place of the output; tests look at a few layouts.", "anchors": ["pb-rs/src/types.rs: Enumerator::set_package, Field::sanitize_default, FieldType::regular_default, Enumerator::write_impl_default", "pb-rs/src/types.rs: FileDescriptor::read_proto"]}
{"id": "C96", "title": "Every library name in generated code is in scope", "statement": "Whatever the options (nostd, hashbrown, owned, dont_use_cow, gen-info), every name of the prelude, of alloc/std/core and of quick_protobuf that occurs in the code generated for a message or a oneof (types, functions, traits, impls, constants, getters, owned variants) is available where it occurs: it is in the prelude, or imported in that module, or in one around it from which `use super::*` brings it in.", "quantifier": "every schema file, every combination of options, every message and oneof at every depth", "why_tests_cant": "What is imported is decided module by module from conditions on the fields, separately from the code that uses the names; each combination of field kinds, nesting and options is a separate case, and the test schemas are compiled with a handful of option sets.", "anchors": ["pb-rs/src/types.rs: Message::write_common_uses, Message::is_unit, Message::has_bytes_and_string, FileDescriptor::write_headers, FileDescriptor::write_imports", "pb-rs/src/types.rs: Message::write, Message::write_impl_default, Message::write_impl_owned"]}
{"id": "C97", "title": "The iteration order of maps does not matter", "statement": "HashMap iterates in an arbitrary order, which may differ between runs and between equal maps. Whatever order the maps in a message (at any depth) are iterated in, the message has the same size, is written with the same number of bytes, and is read back as an equal message. With ordered maps (nostd: BTreeMap) equal messages also have the same bytes; with HashMap they need not.", "quantifier": "every well-formed schema, every value, every order of the entries of every map in it, nested maps' values included", "why_tests_cant": "The order is chosen by the hasher, randomly per process: a test sees one order per run, and there are factorially many.", "anchors": ["pb-rs/src/types.rs: Field::write_write, Field::write_get_size, FieldType::write_fn, Message::write_common_uses", "quick-protobuf/src/writer.rs: Writer::write_map", "quick-protobuf/src/reader.rs: BytesReader::read_map"]}
{"id": "C98", "title": "Concatenating encodings merges the messages", "statement": "As the protobuf encoding guide promises: decoding the encodings of two messages of the same type, one after the other, gives the merge of the two messages. Singular fields have the later value if it is set, repeated fields the elements of both, maps the entries of both (the later one counts for a key), oneofs the later choice; message fields that both have are merged recursively.", "quantifier": "every well-formed schema, every two values of a message of it, nested to any depth", "why_tests_cant": "The merge is decided field by field by label, type, presence and packing for every pair of values; a test has one pair.", "anchors": ["pb-rs/src/types.rs: Field::write_match_tag, Message::write_from_reader, Message::write_write_message", "quick-protobuf/src/reader.rs: BytesReader::read_packed, BytesReader::read_packed_fixed, BytesReader::read_message, BytesReader::read_map"]}
{"id": "C99", "title": "Loading a file or a stream", "statement": "Reader::from_file loads the whole file, whatever portions the operating system delivers it in, or returns an error (file missing, too large, changed meanwhile). Reader::from_reader takes exactly the announced number of bytes from the source, or returns an error; every byte of the buffer is one that the source delivered.", "quantifier": "every file content, every sequence of short reads and interruptions, every change of the file between the two system calls, every implementation of std::io::Read, every width of usize", "why_tests_cant": "A test reads small regular files, which arrive in one portion and do not change; sources with short reads, interruptions, or a file that is being written are schedules of the environment.", "anchors": ["quick-protobuf/src/reader.rs: Reader::from_reader, Reader::from_file, Reader::from_bytes"]}
{"id": "C100", "title": "A field is on the wire if and only if it is set", "statement": "Writing: a required field has exactly one record, an optional field or a oneof one if it is set and else none, a proto3 field without presence one unless it has its default, a packed field one unless it is empty, other repeated fields and maps one for each element. Reading: an optional field or oneof is set in the result if and only if the input has a record for it, other fields without a record have their default, and an input without a record for a required field is rejected.", "quantifier": "every well-formed schema, every value of a message of it, and every input", "why_tests_cant": "Ranges over every schema, value and input; the label, type, packing and default of each field and whether it is on a cycle of messages decide.", "anchors": ["pb-rs/src/types.rs: Field::write_write, Field::write_match_tag, Field::has_presence, Message::write_from_reader, FileDescriptor::break_cycles"]}
{"id": "C101", "title": "Decoding borrows: every string in a decoded message is a part of the input", "statement": "Every string, byte string and packed fixed-size buffer in a decoded message, at any nesting depth and in maps and oneofs, is a contiguous part of the input bytes, or a [default = ...] of the schema; so it can be borrowed from the input, and decoding never mixes, reorders or invents string data.", "quantifier": "every schema, every target and build profile (with or without overflow checks), every input, every position and limit of the reader, every message type", "why_tests_cant": "Ranges over all inputs, including corrupt ones that are still accepted, and all schemas; a slice with one wrong bound would need an input with the right lengths.", "anchors": ["quick-protobuf/src/reader.rs: read_string, read_bytes, read_packed_fixed, read_map, read_message, deserialize_from_slice, Reader::read", "pb-rs/src/types.rs: Message::write_from_reader, Field::write_match_tag"]}
{"id": "C102", "title": "Owned wrappers are memory safe", "statement": "Whatever a program in safe Rust does with FooOwned wrappers (try_from, from, proto_mut and assigning to the message, exchanging messages, moving, dropping, allocating and freeing in between), proto(), Debug and try_into never read freed memory, buf() is the vector given, and the strings read are those last decoded or assigned.", "quantifier": "every schema, every message type, every sequence of operations, every input", "why_tests_cant": "Undefined behaviour after a free usually shows the old bytes; the order of moves, drops and allocations is unbounded.", "anchors": ["pb-rs/src/types.rs: Message::write_impl_owned (1780-1898)"]}
{"id": "C103", "title": "Names in generated files are identifiers of Rust", "statement": "Every name that a generated file declares - structs, fields, oneofs and their variants, enums and their values, modules, owned wrappers - is an identifier that Rust accepts: letters, digits and underscores, not starting with a digit, not `_`, not a keyword.", "quantifier": "every input file with its imports, every disk, every configuration, messages nested to any depth", "why_tests_cant": "The tests of pb-rs compile a handful of schemas; whether every schema yields legal names is a statement about all names and all nestings.", "anchors": ["pb-rs/src/keywords.rs: sanitize_keyword", "pb-rs/src/types.rs: FileDescriptor::sanitize_names, Message::write, Enumerator::write, OneOf::write, update_mod_file"]}
{"id": "C104", "title": "MessageInfo::PATH is the path of the message", "statement": "With --gen-info every generated struct implements MessageInfo, and PATH (documented as the full message path, Module.Message) is the module path of the struct followed by its name; the owned wrapper has the same PATH as the struct, and two messages of a file never have the same PATH, so it can be used as a key.", "quantifier": "every input file with its imports, every disk, every configuration with gen_info, messages nested to any depth", "why_tests_cant": "No test looks at PATH; that it is right and unique is a statement about all nestings and all names.", "anchors": ["pb-rs/src/types.rs: Message::write_impl_message_info, Message::set_package, FileDescriptor::set_module", "quick-protobuf/src/message.rs: MessageInfo"]}
{"id": "C105", "title": "Files generated one by one fit together", "statement": "If a file and the files it imports are generated one by one with the same options, the generated files fit together: the importing file writes the lifetime parameter <'a> behind the name of an imported struct if and only if that struct is declared with <'a> in the file generated from the .proto that declares it.", "quantifier": "every set of files with their (transitive) imports, every disk, every configuration without --dont_use_cow, messages nested to any depth and arbitrarily recursive", "why_tests_cant": "Whether a struct borrows is a reachability property of the whole message graph, and each run of pb-rs sees a different part of that graph; that all runs come to the same answer is a statement about all import graphs.", "anchors": ["pb-rs/src/types.rs: Message::has_lifetime, Field::has_lifetime, FileDescriptor::set_defaults, FileDescriptor::get_proto_contents (imports), FileDescriptor::resolve_types"]}
{"id": "C106", "title": "Several runs of pb-rs at the same time", "statement": "Several runs of pb-rs that are under way at the same time (as the build scripts of several crates or a parallel make start them) do not disturb each other: however their system calls are interleaved, each run has the result and the effects that it has alone; nothing but outputs and mod.rs files is ever changed, an existing mod.rs is only added to, the outputs of successful runs are complete, and no run waits for another.", "quantifier": "every number of runs with any options, every disk, every schedule of their system calls, every way in which BufWriter cuts the text, runs killed at any point, and (for the first and second part) any calls failing", "why_tests_cant": "A test observes one or a few interleavings; the claim is about all of them, for all schemas, and about every point at which a run can be stopped.", "anchors": ["pb-rs/src/types.rs: FileDescriptor::write_proto, update_mod_file, FileDescriptor::write"]}
{"id": "C107", "title": "Success means that the output is on the disk", "statement": "If pb-rs reports success, the output file has the whole generated text, whichever system calls failed (a full disk, an I/O error) and whatever other runs with other outputs do at the same time.", "quantifier": "every schema, disk and configuration, every number of concurrent runs with different outputs, every schedule, every choice of failing calls, every way in which BufWriter cuts the text", "why_tests_cant": "Errors can strike at any of the system calls of a run, and in any combination; fault injection samples them.", "anchors": ["pb-rs/src/types.rs: FileDescriptor::write_proto (BufWriter dropped without flush), update_mod_file"]}
{"id": "C108", "title": "The generated functions type-check", "statement": "Every function that pb-rs generates for a message (get_size, write_message, from_reader, default) satisfies the type rules of Rust: every expression has a type, arguments have the types that the reader, writer and standard library methods demand (up to coercions of references), every match is exhaustive, values that are taken can be copied or moved, `?` is used where a Result is returned, and the body has the type that MessageWrite, MessageRead or Default demands.", "quantifier": "every schema pb-rs accepts (all field types, rules, nesting, recursion through boxes, oneofs, maps, packed fields, defaults), every configuration", "why_tests_cant": "Each combination of type, rule (required, optional, repeated, packed, map, boxed, oneof), syntax and option prints other dereferences, borrows, casts and unwraps; compiling generated examples covers the combinations that occur in them.", "anchors": ["pb-rs/src/types.rs: FieldType::read_fn, FieldType::get_size, FieldType::get_write, Field::write_match, Field::write_get_size, Field::write_write, Field::write_impl_default_entry, OneOf::write_match, OneOf::write_get_size, OneOf::write_write, Message::write_impl_message_read, Message::write_impl_message_write, Message::write_impl_default", "quick-protobuf/src/reader.rs, writer.rs, sizeofs.rs, message.rs: signatures"]}
{"id": "C109", "title": "Options of the generator do not change the format", "statement": "Whatever options pb-rs is run with (--dont_use_cow, --error-cycle, getters, single module, headers, custom derives and repr, --owned, --nostd, hashbrown, --gen-info; not --add-deprecated-fields), two programs generated from the same schema are interchangeable: they have the same messages, fields and numbers, the same values, the same Default, write every value as the same bytes, and read every input as the same value or fail in the same way. Programs built with different options can therefore exchange data.", "quantifier": "every schema, every two runs with different options that both succeed, every message, value and input (of any length, valid or not), every target", "why_tests_cant": "The options form combinations, and each changes other parts of the printed code (types of strings and bytes, conversions of defaults, paths, wrappers); equality on all values and all inputs is not a matter of samples.", "anchors": ["pb-rs/src/types.rs: Config, FileDescriptor::write_proto, convert_field_types, set_defaults, break_cycles", "pb-rs/src/lib.rs: ConfigBuilder"]}
{"id": "C110", "title": "== on messages, and decoding gives back an equal one", "statement": "`==` on generated messages compares them field by field (numbers as numbers, strings and bytes by content whether borrowed or not, lists in order, maps as sets of entries, oneofs by variant and content), at any depth; it is symmetric and transitive, and a message equals itself exactly if there is no NaN in it. What is read back from the bytes of a message cannot be told from it by `==`: it is equal to the same messages, hence to the original itself unless that contains a NaN. Two messages written as the same bytes cannot be told apart either.", "quantifier": "every schema satisfying the rules of protobuf, every message type and every value of it (any depth, up to 4 GiB), every other value it is compared with; little-endian targets", "why_tests_cant": "assert_eq! in a round trip test compares one value; -0.0 in fields without presence, NaNs, the order of map entries and borrowed lists make `==` and equality of the data different relations.", "anchors": ["pb-rs/src/types.rs: Message::write_definition (derive PartialEq), OneOf::write_definition, Enumerator::write_definition", "quick-protobuf/src/reader.rs: PartialEq for PackedFixed"]}
{"id": "C111", "title": "Decoding takes time proportional to the input", "statement": "For every schema there is a constant K such that decoding n bytes as any message of the schema, with or without a length in front, does at most K*(n+1) units of work, whether it succeeds, fails or panics: no input, however nested, overlapping or malformed, makes the decoder do more (no quadratic behaviour, no re-reading of bytes, no time spent on a length that is only declared).", "quantifier": "all schemas (resolved), all messages of the schema, all byte strings of any length that leave room in the address space, every outcome of decoding", "why_tests_cant": "A test measures some inputs; a decoder that is linear on well-formed data can be quadratic or worse on a crafted one (lengths that lie, nesting, overlapping reads), and only an argument over all inputs excludes it. Here the release build indeed loops forever on fifteen bytes.", "anchors": ["quick-protobuf/src/reader.rs: read_len, read_len_varint, read_packed, read_packed_fixed, read_map, read_unknown", "pb-rs/src/types.rs: generated from_reader"]}
{"id": "C112", "title": "Encoding takes time proportional to the value", "statement": "For every schema, get_size and write_message (and so serialize_into_vec, serialize_into_slice and Writer::write_message) of a value do work at most proportional to the size of the value, whatever its shape: however many fields, entries and elements, and however deeply messages are nested.", "quantifier": "all schemas, all messages, all values of their types, of any size and depth", "why_tests_cant": "Benchmarks fix the shape of the values. Whether some family of values makes the encoder superlinear is a statement about all of them; here nesting does, since the size of each nested message is recomputed for every message around it.", "anchors": ["quick-protobuf/src/writer.rs: write_message, write_with_tag, write_packed_with_tag, write_map", "pb-rs/src/types.rs: generated get_size and write_message"]}
{"id": "C113", "title": "The service generator of a Config gets every service, once, in order", "statement": "If a Config has a custom_rpc_generator, then code generation for a .proto file that succeeds has called it exactly once for every service of this file, in the order of the file, with the service's name and all its functions as written, and never for a service of an imported file; what it wrote stands at the end of the generated file in the same order, and the rest of the file is what would have been generated without it, plus the lines of custom_includes after the use lines. If it returns an error, generation stops with that error: it is not called again and the file is not added to mod.rs. With no_output it is not called. With the generator that ConfigBuilder installs nothing changes.", "quantifier": "all generators with arbitrary effects and arbitrary results (per call), all lists of lines to include, all options, all disks, input files and lists of input files", "why_tests_cant": "The generator is an arbitrary closure of the user and the schema is arbitrary; tests in the repository install no generator at all.", "anchors": ["pb-rs/src/types.rs: RpcService::write_definition, RpcGeneratorFunction, FileDescriptor::write_rpc_services, write_uses, write, write_proto", "pb-rs/src/lib.rs: ConfigBuilder::build", "pb-rs/src/parser.rs: rpc_service, rpc_function_declaration"]}
{"id": "C114", "title": "The derived traits can be derived", "statement": "For every schema that pb-rs accepts, the types of the fields of every generated struct implement Debug, PartialEq, Clone and Default, and those of every variant of a generated oneof Debug, PartialEq and Clone, so that rustc accepts the derive attributes; the elements of PackedFixed fields are Copy and PartialEq, and the keys of maps can be looked up in the map type that the options choose (Eq + Hash for HashMap, Ord for BTreeMap).", "quantifier": "all schemas that pb-rs accepts, all their messages, oneofs and fields, all options (std, --nostd, --hashbrown, with and without Cow)", "why_tests_cant": "Field types are built from frequencies, boxing, packing, maps, enums and (mutually recursive) messages in arbitrary combination; tests compile a few schemas.", "anchors": ["pb-rs/src/types.rs: Message::write_definition, OneOf::write_definition, Enumerator::write_definition, write_common_uses, FieldType::rust_type, Field::get_type", "quick-protobuf/src/reader.rs: PackedFixed"]}
{"id": "C115", "title": "Conversions into oneofs (feature generateImplFromForEnums)", "statement": "Built with the feature generateImplFromForEnums, pb-rs writes for every oneof one `impl From<T>` per type T of its members, never two for one type; rustc accepts them, and converting a T gives the first member of the oneof with this type.", "quantifier": "all schemas, all oneofs and their members (scalar, message, enum, string, bytes, recursive), all options", "why_tests_cant": "Which members have the same Rust type depends on all of them together, and on options; the project has no test that turns the feature on.", "anchors": ["pb-rs/src/types.rs: OneOf::generate_impl_from_for_enums, OneOf::write_definition", "pb-rs/Cargo.toml: features"]}
{"id": "C116", "title": "Equal messages are written alike", "statement": "If two messages compare equal with ==, get_size gives the same number for both, and both are written as the same bytes, so that serialized messages can be compared, hashed or signed in place of the messages.", "quantifier": "all schemas without message-valued map keys, all pairs of values of all messages at any nesting depth", "why_tests_cant": "All pairs of equal values: borrowed and owned data, every iteration order of maps, signed zeros.", "anchors": ["pb-rs/src/types.rs: Message::write_definition (derive PartialEq), Field::write_write, Field::write_get_size", "quick-protobuf/src/reader.rs: impl PartialEq for PackedFixed", "quick-protobuf/src/sizeofs.rs"]}
{"id": "C117", "title": "Errors of the decoder say what is wrong", "statement": "When decoding fails, the error fits the input: Utf8 only if a length-delimited part of the input is not UTF-8 (and the schema has strings), Map(n) only if a byte with field number n, neither 1 nor 2, is there (and the schema has maps), Deprecated only for unknown fields that are groups, UnknownWireType(t) only for unknown fields with wire type t, 6 or 7, Varint only for varints longer than ten bytes, UnexpectedEndOfBuffer if the input ends too early; and never an error about input/output or about a buffer for writing.", "quantifier": "all schemas, all messages, all input bytes, all states of the reader, debug and release builds", "why_tests_cant": "All byte strings: an error can come from any depth of nesting and any of a dozen reading functions.", "anchors": ["quick-protobuf/src/reader.rs: BytesReader::read_varint32, read_varint64, read_string, read_map, read_unknown, deserialize_from_slice", "quick-protobuf/src/errors.rs: Error", "pb-rs/src/types.rs: Message::write_impl_message_read"]}
{"id": "C118", "title": "Maps where protobuf does not allow them are rejected", "statement": "pb-rs writes no code for a schema with a map in a place where protobuf allows none: a map as key or value of a map, a map in a oneof, a map field with a label (repeated, optional, required), or a map whose keys are floating-point numbers, byte strings or messages.", "quantifier": "all .proto files, all import graphs, all configurations, all contents of the disk", "why_tests_cant": "All schemas: a map may be at any depth of nested messages, and the rejection only happens while code is printed, after passes which rewrite all types.", "anchors": ["pb-rs/src/parser.rs: map_field, field_type, one_of", "pb-rs/src/types.rs: FieldType::read_fn, Field::write_match_tag, OneOf::write_message, FileDescriptor::write_proto", "pb-rs/src/errors.rs: Error::ReadFnMap"]}
{"id": "C119", "title": "Errors keep what they say", "statement": "An error that is passed on with `?` between functions that return std::io::Result and functions that return this crate's Result, however often, keeps its text and its kind, is wrapped at most once, and can be told from what it became; the io::Error of a text that is not UTF-8, and no other error of this crate, has the kind InvalidData. Errors are told apart by their texts: two errors with the same text are the same error, with the same payload. The texts about wire types and map tags are true of the input. Following the sources of an error ends.", "quantifier": "all errors with all payloads, any number of conversions, all chains of sources; for the texts of the decoder all schemas, inputs and builds", "why_tests_cant": "Payloads are unbounded (texts, nested io errors) and so is the number of conversions and the length of chains of sources; that no two texts coincide is about all pairs.", "anchors": ["quick-protobuf/src/errors.rs: Error, From<Error> for io::Error, From<io::Error> for Error, Error::source, Display for Error"]}
{"id": "C120", "title": "Field numbers are legal and distinct", "statement": "pb-rs writes no code for a schema with a field whose number is not between 1 and 2^29 - 1, or is reserved for implementations (19000 to 19999), or is also the number of another field of the message. (Otherwise data would be lost: what is written in one of two fields of the same number is read as the other.)", "quantifier": "all .proto files; for the consequence all schemas, all inputs of the decoder, all states of the reader", "why_tests_cant": "All schemas, and for the loss all inputs: no record, wherever it is in the input, sets the second field.", "anchors": ["pb-rs/src/parser.rs: integer, hex_integer, field_generic", "pb-rs/src/types.rs: Message::sanity_checks, Field::tag, Field::write_match_tag, Message::write_impl_message_read"]}
{"id": "C121", "title": "What is generated depends on the files that are read, and not on where they are", "statement": "The text that pb-rs generates (or that it fails to read the schema) depends only on the options and on what is at the places where it looks: the input file, and for every import of a file it reads the places along the include path up to the first file there is. Other files, older outputs, and the directory in which the tree of files lies have no influence: moved as a whole, with relative imports and include path, it gives the same text.", "quantifier": "all disks that agree at these places, all jobs, all directories to which files are moved, all import graphs of any depth", "why_tests_cant": "All pairs of disks and all import graphs; a test compares two.", "anchors": ["pb-rs/src/types.rs: FileDescriptor::write_proto, read_proto, fetch_imports, get_file_stem"]}
{"id": "C122", "title": "Layout, comments and what pb-rs does not use do not matter", "statement": "If input file and imported files are rewritten into other texts of the protobuf language that declare the same (package, imports, messages, enums, services), pb-rs generates the same text to the same path, or reports the same error. So blanks and comments, leading zeros of numbers, options that pb-rs does not know, extend blocks, extension ranges, the order of nested statements of different kinds and everything else that is not part of the declarations have no influence.", "quantifier": "all pairs of collections of files whose texts, path by path, are equal or are in the grammar and declare the same; all jobs; all import graphs", "why_tests_cant": "Every file has infinitely many ways to be written; a test compares two of them.", "anchors": ["pb-rs/src/parser.rs: file_descriptor, comment, block_comment, option_ignore, message, key_val", "pb-rs/src/types.rs: FileDescriptor::write_proto, read_proto, fetch_imports"]}
{"id": "C123", "title": "Adding declarations leaves the generated code of the others unchanged", "statement": "If an enum that no field mentions is added to a file, the text that pb-rs generates is the old one with text inserted in one place: every other declaration keeps its code. Importing a file that declares only enums that no field mentions changes nothing. The same is expected of messages that nothing names, so that adding one is a compatible change of the generated module.", "quantifier": "all files of the grammar, all lists of added declarations, all configurations for which the old file is accepted", "why_tests_cant": "A test adds one declaration to one file; what changes depends on every name, every cycle and every type of the file.", "anchors": ["pb-rs/src/types.rs: FileDescriptor::resolve_types, get_full_names, break_cycles, set_defaults, write_enums, write_messages", "pb-rs/src/scc.rs: MessageDescriptorScc"]}
{"id": "C124", "title": "Names are not on the wire", "statement": "Renaming fields, oneofs, messages, enums, enum values, packages or files does not change the format: programs generated from schemas that differ only in names, message for message, write the same bytes for the same value, read every input as the same value or fail in the same way, and have the same defaults (provided that the defaults written in the schema have the same meaning).", "quantifier": "all pairs of files whose compiled schemas have the same structure, types by place, numbers, labels and enum numbers; all values, all inputs, both profiles", "why_tests_cant": "A test compares one renamed schema on some values; a dependence on names could hide in the order of fields, in name resolution or in the sanitizing of some particular name.", "anchors": ["pb-rs/src/types.rs: Message::write_impl_message_write, write_impl_message_read, Field::write_match_tag, sanitize_names, FileDescriptor::write", "quick-protobuf/src/writer.rs: Writer::write_with_tag"]}
