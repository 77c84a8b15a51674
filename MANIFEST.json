{
 "claims": [
  {
   "property": "C01",
   "status": "proved",
   "theorems": [
    "QP.C01_write_varint_canonical",
    "QP.C01_canonical_unique"
   ],
   "note": "On every backend write_varint emits exactly Spec.varint; canonical encodings are unique."
  },
  {
   "property": "C02",
   "status": "proved",
   "theorems": [
    "QP.C02_sizeof_exact"
   ],
   "note": ""
  },
  {
   "property": "C03",
   "status": "proved",
   "theorems": [
    "QP.C03_varint_roundtrip"
   ],
   "note": ""
  },
  {
   "property": "C04",
   "status": "proved",
   "theorems": [
    "QP.C04_read_varint64_spec",
    "QP.C04_exhaustive"
   ],
   "note": ""
  },
  {
   "property": "C05",
   "status": "proved",
   "theorems": [
    "QP.C05_varint32_truncates"
   ],
   "note": ""
  },
  {
   "property": "C06",
   "status": "proved",
   "theorems": [
    "QP.C06_scalars_roundtrip"
   ],
   "note": ""
  },
  {
   "property": "C07",
   "status": "partial",
   "theorems": [
    "QP.C07_sint64_zigzag",
    "QP.C07_sint32_zigzag_partial",
    "QP.C07_sint32_ten_bytes",
    "QP.C07_sint32_refuted"
   ],
   "note": "Full statement is false: write_sint32 sign-extends the zigzag image, so |v| >= 2^30 takes ten bytes (C07_sint32_refuted). Proved: sint64 completely, sint32 when the image is below 2^31, and the exact form otherwise."
  },
  {
   "property": "C08",
   "status": "proved",
   "theorems": [
    "QP.C08_fixed_roundtrip",
    "QP.C08_fixed_short"
   ],
   "note": ""
  },
  {
   "property": "C09",
   "status": "proved",
   "theorems": [
    "QP.C09_bytes_roundtrip"
   ],
   "note": "For payloads below 2^32 bytes, as the quantifier says."
  },
  {
   "property": "C10",
   "status": "proved",
   "theorems": [
    "QP.C10_read_string_spec"
   ],
   "note": ""
  },
  {
   "property": "C11",
   "status": "partial",
   "theorems": [
    "QP.C11_length_kept_partial",
    "QP.C11_length_truncated"
   ],
   "note": "False for lengths of 2^32 and more: the prefix is read modulo 2^32 (C11_length_truncated). Proved below 2^32."
  },
  {
   "property": "C12",
   "status": "proved",
   "theorems": [
    "QP.C12_packed_roundtrip"
   ],
   "note": ""
  },
  {
   "property": "C13",
   "status": "partial",
   "theorems": [
    "QP.C13_packed_fixed_roundtrip_partial",
    "QP.C13_size_with_tag_partial",
    "QP.C13_big_endian"
   ],
   "note": "Proved on little-endian targets; refuted on big-endian ones."
  },
  {
   "property": "C14",
   "status": "proved",
   "theorems": [
    "QP.C14_map_roundtrip",
    "QP.C14_map_other_field"
   ],
   "note": ""
  },
  {
   "property": "C29",
   "status": "proved",
   "theorems": [
    "QP.C29_packedFixed_is_list",
    "QP.C29_at_wraps_in_release",
    "QP.C29_faithful_numbers",
    "QP.C29_faithful_bool",
    "QP.C29_eq_int",
    "QP.C29_eq_bool",
    "QP.C29_eq_f32",
    "QP.C29_eq_f64"
   ],
   "note": "In release builds an out-of-range at() whose byte offset wraps does not panic (C29_at_wraps_in_release); excluded explicitly."
  },
  {
   "property": "C30",
   "status": "partial",
   "theorems": [
    "QP.C30_packedFixed_safe_partial",
    "QP.C30_reader_gives_whole",
    "QP.C30_ragged_into_vec",
    "QP.C30_ragged_into_vec_all",
    "QP.C30_ragged_at",
    "QP.C30_invalid_bool",
    "QP.C30_write_size_with_tag_ub"
   ],
   "note": "False for From<&[u8]> with a ragged length (heap overflow) and for types with invalid bit patterns; proved for whole-element buffers of plain types, which is all that decoding produces."
  },
  {
   "property": "C15",
   "status": "proved",
   "theorems": [
    "QP.C15_unknown_skipped",
    "QP.C15_unknown_only_skips",
    "QP.C15_unknown_rejected",
    "QP.C15_fixed_too_short"
   ],
   "note": ""
  },
  {
   "property": "C16",
   "status": "proved",
   "theorems": [
    "QP.C16_reads_orderly_local",
    "QP.C16_suffix_only"
   ],
   "note": "With overflow checks and a 64-bit usize (Roomy)."
  },
  {
   "property": "C17",
   "status": "proved",
   "theorems": [
    "QP.C17_scalar_reads_safe",
    "QP.C17_panics_on_32_bit"
   ],
   "note": "64-bit targets; on 32-bit targets with overflow checks read_bytes can panic (C17_panics_on_32_bit)."
  },
  {
   "property": "C18",
   "status": "proved",
   "theorems": [
    "QP.C18_nested_restores",
    "QP.C18_own_operations",
    "QP.C18_swallowing_decoder"
   ],
   "note": "For decoders that propagate errors; a decoder swallowing an error breaks it (C18_swallowing_decoder)."
  },
  {
   "property": "C19",
   "status": "partial",
   "theorems": [
    "QP.C19_prefix_error_partial",
    "QP.C19_error_state",
    "QP.C19_limit_lost"
   ],
   "note": "Full statement is false: the ? in read_len returns before self.end is restored (C19_limit_lost)."
  },
  {
   "property": "C20",
   "status": "partial",
   "theorems": [
    "QP.C20_limit_tested_partial",
    "QP.C20_last_message_partial",
    "QP.C20_reads_beyond_parent"
   ],
   "note": "Full statement is false: most reads test only the end of the buffer (C20_reads_beyond_parent)."
  },
  {
   "property": "C21",
   "status": "partial",
   "theorems": [
    "QP.C21_overlong_rejected_partial",
    "QP.C21_overlong_message_accepted"
   ],
   "note": "False for messages (C21_overlong_message_accepted); proved for strings, bytes, packed scalars and packed fixed."
  },
  {
   "property": "C24",
   "status": "proved",
   "theorems": [
    "QP.C24_backend_prefix",
    "QP.C24_accepting_sink"
   ],
   "note": ""
  },
  {
   "property": "C25",
   "status": "proved",
   "theorems": [
    "QP.C25_bytes_writer",
    "QP.C25_primitive_all_or_nothing"
   ],
   "note": ""
  },
  {
   "property": "C26",
   "status": "proved",
   "theorems": [
    "QP.C26_slice_iff_fits"
   ],
   "note": ""
  },
  {
   "property": "C27",
   "status": "proved",
   "theorems": [
    "QP.C27_vec_slice_agree"
   ],
   "note": ""
  },
  {
   "property": "C28",
   "status": "proved",
   "theorems": [
    "QP.C28_framed_roundtrip",
    "QP.C28_stream_roundtrip"
   ],
   "note": "Messages below 4 GiB (the limit of the 32-bit length read, see C11)."
  },
  {
   "property": "C31",
   "status": "proved",
   "theorems": [
    "QP.C31_reader_is_bytes_reader"
   ],
   "note": ""
  },
  {
   "property": "C32",
   "status": "proved",
   "theorems": [
    "QP.Gen.C32_get_size_exact"
   ],
   "note": "Every schema satisfying SchemaOk, every well-typed value; usize sums in get_size are assumed not to overflow."
  },
  {
   "property": "C33",
   "status": "proved",
   "theorems": [
    "QP.Gen.C33_roundtrip",
    "QP.Gen.C33_roundtrip_unframed",
    "QP.Gen.C33_roundtrip_any"
   ],
   "note": "Every schema satisfying SchemaOk and every well-typed value without the excluded default values (C37, C38); messages below 4 GiB."
  },
  {
   "property": "C62",
   "status": "proved",
   "theorems": [
    "QP.Gen.C62_wire_format"
   ],
   "note": ""
  },
  {
   "property": "C22",
   "status": "partial",
   "theorems": [
    "QP.Gen.C22_flat_safe_partial",
    "QP.Gen.C22_nested_safe_partial",
    "QP.Gen.C22_slice_panic",
    "QP.Gen.C22_underflow_panic",
    "QP.Gen.C22_framed_panic"
   ],
   "note": "Full statement is false: nested messages and wrong length prefixes panic (C22_slice_panic in every profile, C22_underflow_panic with overflow checks, C22_framed_panic). Proved, both profiles: for every message type without nested messages and every input; for every schema and every input whose nested messages are complete (Spec/Intact.lean), so panics come only from nested lengths that run over the end or cut a field in two."
  },
  {
   "property": "C23",
   "status": "partial",
   "theorems": [
    "QP.Gen.C23_terminates_partial",
    "QP.Gen.C23_release_diverges",
    "QP.Gen.C22_flat_safe_partial",
    "QP.Gen.C22_nested_safe_partial"
   ],
   "note": "Proved with overflow checks for every schema and input, and in release for messages without nested messages and for inputs whose nested messages are complete; without overflow checks it is false: 15 bytes make the decoder loop forever (C23_release_diverges)."
  },
  {
   "property": "C63",
   "status": "proved",
   "theorems": [
    "QP.Gen.C63_decode_complete",
    "QP.Gen.C63_decode_iff"
   ],
   "note": "The grammar is Spec/Decode.lean. Completeness in every profile; the equivalence with overflow checks (in release builds lengths can wrap, C23)."
  },
  {
   "property": "C34",
   "status": "proved",
   "theorems": [
    "QP.Gen.C34_unknown_field_ignored",
    "QP.Gen.C34_unknown_field_any_depth"
   ],
   "note": "Top level: whatever follows, even undecodable bytes. Any depth (nested messages, map values): any profile. Groups are not supported by the crate."
  },
  {
   "property": "C35",
   "status": "proved",
   "theorems": [
    "QP.Gen.C35_field_order",
    "QP.Gen.C35_swap"
   ],
   "note": "The variants of a oneof count as one field."
  },
  {
   "property": "C36",
   "status": "proved",
   "theorems": [
    "QP.Gen.C36_last_wins",
    "QP.Gen.C36_appends",
    "QP.Gen.C36_map_inserts",
    "QP.Gen.insertKV_find",
    "QP.Gen.C36_absent",
    "QP.Gen.C36_concat",
    "QP.Gen.decodeInto_default"
   ],
   "note": ""
  },
  {
   "property": "C37",
   "status": "partial",
   "theorems": [
    "QP.Gen.C37_elided_iff",
    "QP.Gen.C37_zero_restored_partial",
    "QP.Gen.C37_custom_default_lost"
   ],
   "note": "Full statement is false: a default option on a proto3 field is used when writing but not when reading (C37_custom_default_lost), and -0.0 is elided (C38)."
  },
  {
   "property": "C38",
   "status": "partial",
   "theorems": [
    "QP.Gen.C38_bits_survive_partial",
    "QP.Gen.C38_negative_zero_lost"
   ],
   "note": "Full statement is false: -0.0 in a field without presence becomes +0.0 (C38_negative_zero_lost). Proved for every other bit pattern."
  },
  {
   "property": "C39",
   "status": "proved",
   "theorems": [
    "QP.Gen.C39_enum_decode",
    "QP.Gen.C39_enum_total"
   ],
   "note": ""
  },
  {
   "property": "C40",
   "status": "partial",
   "theorems": [
    "QP.Gen.C40_declared_encoding_partial",
    "QP.Gen.C40_other_packing_skipped",
    "QP.Gen.C40_refuted"
   ],
   "note": "Full statement is false: the other encoding is silently skipped as an unknown field (C40_other_packing_skipped for every schema, C40_refuted)."
  },
  {
   "property": "C41",
   "status": "partial",
   "theorems": [
    "QP.Gen.C41_single_chunk_partial",
    "QP.Gen.C41_last_chunk",
    "QP.Gen.C41_refuted"
   ],
   "note": "Full statement is false: only the last chunk counts (C41_last_chunk for every schema, C41_refuted)."
  },
  {
   "property": "C42",
   "status": "proved",
   "theorems": [
    "QP.Gen.C42_not_generated",
    "QP.Gen.C42_generated",
    "QP.Gen.C42_deprecated_ignored"
   ],
   "note": ""
  },
  {
   "property": "C43",
   "status": "proved",
   "theorems": [
    "QP.Gen.C43_oneof_last",
    "QP.Gen.C43_oneof_any_input",
    "QP.Gen.C43_oneof_writes_one"
   ],
   "note": ""
  },
  {
   "property": "C44",
   "status": "proved",
   "theorems": [
    "QP.Gen.C44_try_from",
    "QP.Gen.C44_proto_total",
    "QP.Gen.C44_try_into",
    "QP.Gen.C44_try_from_slice"
   ],
   "note": ""
  },
  {
   "property": "C45",
   "status": "partial",
   "theorems": [
    "QP.Gen.C45_reencode_partial",
    "QP.Gen.C45_decoded_is_encodable_partial",
    "QP.Gen.C45_negative_zero"
   ],
   "note": "Proved for every schema and decodable input up to the sign of floating point zeros in fields without presence (unsign). The literal statement is false: C45_negative_zero."
  },
  {
   "property": "C48",
   "status": "proved",
   "theorems": [
    "QP.Pbrs.C48_strongly_connected",
    "QP.Pbrs.C48_order"
   ],
   "note": "Tarjan's algorithm as written, on the message graph; hypothesis IndexOk is what get_full_names establishes (C52)"
  },
  {
   "property": "C49",
   "status": "proved",
   "theorems": [
    "QP.Pbrs.C49_finite_size",
    "QP.Gen.C49_defaults_exist"
   ],
   "note": "also: only fields inside a component change, and by boxing/making optional only; the Default impls of the result terminate"
  },
  {
   "property": "C50",
   "status": "partial",
   "theorems": [
    "QP.Pbrs.C50_ok_sound_partial",
    "QP.Pbrs.C50_rejects_partial",
    "QP.Pbrs.C50_error_reason_partial",
    "QP.Pbrs.C50_error_iff_partial",
    "QP.Pbrs.CycleTextExample.C50_refuted_oneof"
   ],
   "note": "The English claim is false: C50_refuted_repeated (repeated self reference rejected) and C50_refuted_optional (optional+required cycle rejected), and, on whole runs, CycleTextExample.C50_refuted_oneof (a proto2 message with itself in a oneof is rejected, the same in proto3 is not: the parser calls the fields of a oneof required in proto2). Proved: acceptance implies soundness, cycles of required fields are rejected, the exact condition of rejection"
  },
  {
   "property": "C46",
   "status": "partial",
   "theorems": [
    "QP.Pbrs.C46_tag_partial",
    "QP.Pbrs.C46_injective_partial",
    "QP.Pbrs.C46_refuted"
   ],
   "note": "Proved for all field numbers below 2^29 (the protobuf limit). pb-rs accepts any i32, and number << 3 then loses bits: C46_refuted (fields 1 and 536870913 share a tag)."
  },
  {
   "property": "C47",
   "status": "partial",
   "theorems": [
    "QP.Pbrs.C47_not_listed_partial",
    "QP.Pbrs.C47_words_partial",
    "QP.Pbrs.C47_idempotent_partial",
    "QP.Pbrs.C47_unchanged_partial",
    "QP.Pbrs.C47_exact",
    "QP.Pbrs.C47_injective_partial",
    "QP.Pbrs.C47_refuted_clash",
    "QP.Pbrs.C47_refuted_keywords",
    "QP.Pbrs.C47_refuted_names"
   ],
   "note": "Full statement is false: 'type' and 'type_pb' clash (C47_refuted_clash) and async, await, dyn, try, macro are not in the list (C47_refuted_keywords), nor are some names the generated code uses (C47_refuted_names). Proved: never a listed keyword, so never another keyword of the Rust reference or one of usedNames (Spec/Words.lean), idempotent, other names unchanged (C47_exact says which words are changed, without reference to the list of pb-rs), injective away from names ending in <keyword>_pb."
  },
  {
   "property": "C52",
   "status": "proved",
   "theorems": [
    "QP.Pbrs.C52_resolves",
    "QP.Pbrs.C52_positions",
    "QP.Pbrs.C52_error",
    "QP.Pbrs.C52_undeclared",
    "QP.Pbrs.C52_unambiguous",
    "QP.Pbrs.C52_full_name",
    "QP.Pbrs.C52_enum_name"
   ],
   "note": "Scopes are Spec/Scopes.lean. Where two declarations share a full name the theorem allows either."
  },
  {
   "property": "C61",
   "status": "proved",
   "theorems": [
    "QP.Pbrs.C61_split_package",
    "QP.Pbrs.C61_segments"
   ],
   "note": ""
  },
  {
   "property": "C51",
   "status": "partial",
   "theorems": [
    "QP.Pbrs.C51_terminates",
    "QP.Pbrs.C51_reachable_partial",
    "QP.Pbrs.C51_struct_partial",
    "QP.Pbrs.C51_consistent_partial",
    "QP.Rust.C51_written_partial",
    "QP.Rust.C51_types",
    "QP.Rust.C51_example",
    "QP.Pbrs.C51_refuted_dont_use_cow",
    "QP.Pbrs.C51_refuted_packed"
   ],
   "note": "C51_written_partial is about the text of the generated file: each struct and oneof enum is declared with the parameter iff the type of one of its fields, as printed, has a lifetime in it, and each use of a type has the parameter iff its declaration does. Proved for every message graph (cyclic too) without dont_use_cow and with packed only on repeated fields. The full claim is false: with dont_use_cow references get <'a> but definitions do not (C51_refuted_dont_use_cow); packed on a singular fixed field declares an unused parameter (C51_refuted_packed)."
  },
  {
   "property": "C53",
   "status": "partial",
   "theorems": [
    "QP.Pbrs.C53_top_partial",
    "QP.Pbrs.C53_reason",
    "QP.Pbrs.C53_refuted_nested",
    "QP.Pbrs.C53_overwrite_refuted"
   ],
   "note": "Proved for the messages of the file, through the whole pipeline. False for nested messages, which are never checked (C53_refuted_nested), and for all but the last reserved statement of a message (C53_overwrite_refuted)."
  },
  {
   "property": "C60",
   "status": "partial",
   "theorems": [
    "QP.Pbrs.C60_top_partial",
    "QP.Pbrs.C60_nested_partial",
    "QP.Pbrs.C60_refuted_nested"
   ],
   "note": "Proved for the messages of the file. False for nested messages: C60_refuted_nested; C60_nested_partial says exactly what happens there."
  },
  {
   "property": "C64",
   "status": "proved",
   "theorems": [
    "QP.Pbrs.C64_no_cow",
    "QP.Pbrs.C64_otherwise"
   ],
   "note": "Parsed is what the parser produces"
  },
  {
   "property": "C65",
   "status": "proved",
   "theorems": [
    "QP.Pbrs.C65_compiled",
    "QP.Gen.C65_schema_ok",
    "QP.Gen.C65_roundtrip"
   ],
   "note": "The end-to-end statement: pipeline (resolve, cycles, checks, cow, defaults, names) composed with the codec theorems. Hypotheses on the .proto file: legal distinct numbers (pb-rs does not check them, C46) and, in nested messages, packed only on scalars (C60 refuted)."
  },
  {
   "property": "C66",
   "status": "partial",
   "theorems": [
    "QP.Pbrs.C66_top_partial",
    "QP.Pbrs.C66_refuted_nested"
   ],
   "note": "Proved for the messages of the file; false for nested messages (C66_refuted_nested)."
  },
  {
   "property": "C67",
   "status": "partial",
   "theorems": [
    "QP.Pbrs.C67_accepts",
    "QP.Pbrs.C67_panic_reason",
    "QP.Pbrs.C67_refuted_panic"
   ],
   "note": "Completeness proved for all schemas (with error_cycle off); panics occur only on bool defaults other than true/false, and there they do: C67_refuted_panic."
  },
  {
   "property": "C59",
   "status": "partial",
   "theorems": [
    "QP.Pbrs.C59_history",
    "QP.Pbrs.C59_foreign",
    "QP.Pbrs.C59_append_only",
    "QP.Pbrs.C59_idempotent_partial",
    "QP.Pbrs.C59_refuted_no_newline",
    "QP.Pbrs.C59_refuted_empty",
    "QP.Pbrs.C59_refuted_panic",
    "QP.Pbrs.C59_refuted_comment",
    "QP.Pbrs.C59_refuted_crash"
   ],
   "note": "Proved: every history of a file pb-rs created, append-only on every file, foreign files (non-empty, header missing from the first line) untouched, idempotent on files ending with a line end. The full claim is false for files without final newline, for empty files, for a bare 'pub mod ' line (panic), for commented declarations, and after a crash inside the write."
  },
  {
   "property": "C54",
   "status": "proved",
   "theorems": [
    "QP.Pbrs.C54_parse",
    "QP.Pbrs.C54_unambiguous",
    "QP.Pbrs.C54_print",
    "QP.Pbrs.C54_rest",
    "QP.Pbrs.C54_trailing"
   ],
   "note": "For every text (any layout of blanks and comments) of every schema in the grammar of Spec/Grammar.lean; what the grammar leaves out is said there. C54_print: a printer for every printable schema."
  },
  {
   "property": "C55",
   "status": "partial",
   "theorems": [
    "QP.Pbrs.C55_first_partial",
    "QP.Pbrs.C55_refuted"
   ],
   "note": "Holds if the statement is the very beginning of the file. False whenever a blank or comment precedes it (C55_refuted, for every such file): the statements are then read as proto2."
  },
  {
   "property": "C56",
   "status": "partial",
   "theorems": [
    "QP.Pbrs.C56_field_partial",
    "QP.Pbrs.C56_enum_partial",
    "QP.Pbrs.C56_refuted",
    "QP.Pbrs.C56_refuted_negative",
    "QP.Pbrs.C56_refuted_negative_nested"
   ],
   "note": "Both notations for enum values that are not negative; decimal only for fields: every file with a field number in 0x notation is rejected (C56_refuted), and so is every file with a negative enum value (C56_refuted_negative, C56_refuted_negative_nested)."
  },
  {
   "property": "C57",
   "status": "partial",
   "theorems": [
    "QP.Pbrs.C57_panics_partial",
    "QP.Pbrs.C57_refuted",
    "QP.Pbrs.C57_bare"
   ],
   "note": "The parser panics only on the three kinds of text of Spec/Panics.lean, and it does panic on them (C57_refuted, C57_bare): packed or deprecated whose text up to the next ] is not true or false, e.g. any option list beginning with them; a bare syntax statement."
  },
  {
   "property": "C58",
   "status": "partial",
   "theorems": [
    "QP.Pbrs.C58_name_partial",
    "QP.Pbrs.C58_refuted"
   ],
   "note": "Holds for names that do not begin with the name of a scalar type. False for all that do (C58_refuted): a syntax error."
  },
  {
   "property": "C68",
   "status": "proved",
   "theorems": [
    "QP.Pbrs.C68_parsed",
    "QP.Pbrs.C68_read",
    "QP.Gen.C68_roundtrip"
   ],
   "note": "For files without nested maps (pb-rs fails to print code for those), with the conditions on numbers of C65."
  },
  {
   "property": "C69",
   "status": "partial",
   "theorems": [
    "QP.Pbrs.C69_sources_partial",
    "QP.Pbrs.C69_complete",
    "QP.Pbrs.C69_refuted"
   ],
   "note": "Nothing is lost, always (C69_complete). Packages and modules are kept if all imported files have packages. False otherwise: a file without a package, imported by one with a package that is imported by a third, gets the package and module of the second (C69_refuted)."
  },
  {
   "property": "C70",
   "status": "partial",
   "theorems": [
    "QP.Pbrs.C70_accepted_partial",
    "QP.Pbrs.C70_ends_partial",
    "QP.Pbrs.C70_refuted"
   ],
   "note": "Files on a cycle are never accepted, and reading ends if there is no infinite chain of imports. But no error is reported: on a cycle of first imports the recursion never ends (C70_refuted)."
  },
  {
   "property": "C71",
   "status": "proved",
   "theorems": [
    "QP.Pbrs.C71_one",
    "QP.Pbrs.C71_out",
    "QP.Pbrs.C71_run"
   ],
   "note": "The disk is a function from paths to texts and a set of directories."
  },
  {
   "property": "C72",
   "status": "partial",
   "theorems": [
    "QP.Pbrs.C72_unchanged_partial",
    "QP.Pbrs.C72_reported",
    "QP.Pbrs.C72_refuted"
   ],
   "note": "Holds for all errors in reading, parsing and the passes. False for schemas that cannot be printed (a map in a oneof, a map of maps): the output is truncated by File::create before the error is found (C72_refuted)."
  },
  {
   "property": "C73",
   "status": "partial",
   "theorems": [
    "QP.Pbrs.C73_written",
    "QP.Pbrs.C73_declared",
    "QP.Pbrs.C73_dirs_partial",
    "QP.Pbrs.C73_refuted"
   ],
   "note": "False for directories that exist already: they are never declared (C73_refuted)."
  },
  {
   "property": "C74",
   "status": "partial",
   "theorems": [
    "QP.Pbrs.C74_all_present_partial",
    "QP.Pbrs.C74_refuted"
   ],
   "note": "Holds if the output paths are distinct. False for two files of the same package: the second replaces the first (C74_refuted)."
  },
  {
   "property": "C75",
   "status": "partial",
   "theorems": [
    "QP.Pbrs.C75_again_partial",
    "QP.Pbrs.C75_interrupted_partial",
    "QP.Pbrs.C75_refuted",
    "QP.Pbrs.C75_refuted_killed"
   ],
   "note": "Repeating is idempotent (if the mod.rs files end with a line end), and interruptions after the directories were made are harmless. False for a crash between making a directory and declaring it (C75_refuted), and for a crash between the parts of a line of mod.rs (writeln! makes several system calls): if `pub mod ` is the end of the file, every later run in that directory panics, for ever (C75_refuted_killed)."
  },
  {
   "property": "C76",
   "status": "partial",
   "theorems": [
    "QP.Pbrs.C76_no_output_partial",
    "QP.Pbrs.C76_refuted"
   ],
   "note": "Nothing but mod.rs files is written, and nothing at all for packages of at most one part. False otherwise (C76_refuted)."
  },
  {
   "property": "C77",
   "status": "proved",
   "theorems": [
    "QP.Rust.C77_file",
    "QP.Rust.C77_written"
   ],
   "note": "Trees: Model/Rust/Trees.lean; texts: Spec/Printed.lean. For messages without nested maps (which are not printed at all)."
  },
  {
   "property": "C78",
   "status": "proved",
   "theorems": [
    "QP.Rust.C78_write",
    "QP.Rust.C78_read",
    "QP.Rust.C78_default"
   ],
   "note": "For descriptors that meet SchemaOk (C65) and without packed fixed-size fields under --dont_use_cow (C79_refuted_cow). Generates: Spec/Generated.lean; example: C79_example."
  },
  {
   "property": "C79",
   "status": "partial",
   "theorems": [
    "QP.Rust.C79_roundtrip",
    "QP.Rust.C79_run_partial",
    "QP.Rust.C79_refuted_cow"
   ],
   "note": "For all runs without packed fixed-size fields under --dont_use_cow, with names that do not clash (Distinct) and literal defaults of the right type (Literals). Missing: with --dont_use_cow, packed fixed-size fields give code that does not compile (C79_refuted_cow). C79_example: a run with all kinds of members meets the hypotheses."
  },
  {
   "property": "C80",
   "status": "partial",
   "theorems": [
    "QP.Rust.C80_written",
    "QP.Rust.C80_accepted",
    "QP.Rust.C80_default",
    "QP.Rust.C80_from_i32",
    "QP.Rust.C80_as_i32",
    "QP.Rust.C80_from_str_partial",
    "QP.Rust.C80_model",
    "QP.Rust.C80_no_empty",
    "QP.Rust.C80_refuted_str",
    "QP.Rust.C80_refuted_keyword",
    "QP.Rust.C80_refuted_alias"
   ],
   "note": "Text: for all runs. Accepted by the compiler iff names and numbers do not clash and neither the name of the enum nor its first value is a keyword (C80_refuted_keyword, C80_refuted_alias). From<&str> looks up the renamed names, so declared names that are keywords are not found (C80_refuted_str)."
  },
  {
   "property": "C81",
   "status": "proved",
   "theorems": [
    "QP.Gen.C81_torn_frame",
    "QP.Gen.C81_never_other",
    "QP.Gen.C81_err_refuted",
    "QP.Gen.C81_unknown_refuted"
   ],
   "note": "All profiles, 64 bit. Two findings: the panic is real (C81_err_refuted: three bytes of a seven byte frame), and a frame whose last record is an unknown field may be cut inside that record and still decodes (C81_unknown_refuted), which the property allows since the value is the same."
  },
  {
   "property": "C82",
   "status": "proved",
   "theorems": [
    "QP.Gen.C82_log_recovery"
   ],
   "note": "Sinks: Model/Writer.lean Device (any schedule of partial writes, interruptions, failures). fuel: larger than the messages."
  },
  {
   "property": "C83",
   "status": "proved",
   "theorems": [
    "QP.Gen.C83_decode",
    "QP.Gen.C83_encode",
    "QP.Gen.C83_panic_refuted"
   ],
   "note": "32 and 64 bit. The converse is false: C83_panic_refuted, an input on which only the debug build panics. get_size adds up natural numbers in the model (no value in memory makes the sum exceed usize)."
  },
  {
   "property": "C84",
   "status": "proved",
   "theorems": [
    "QP.Rust.C84_values",
    "QP.Rust.C84_decoded",
    "QP.Rust.C84_roundtrip",
    "QP.Rust.C84_run_partial"
   ],
   "note": "Values of Rust types: Spec/RustTypes.lean, which knows nothing about protobuf. C84_run_partial is C84_roundtrip for the program of a run (same exclusions as C79: clashing names, packed fixed-size fields under --dont_use_cow do not compile). C84_decoded: with overflow checks, Resolved schemas. C84_example meets the hypotheses."
  },
  {
   "property": "C85",
   "status": "proved",
   "theorems": [
    "QP.Pbrs.C85_place",
    "QP.Pbrs.C85_absolute_import",
    "QP.Pbrs.C85_first",
    "QP.Pbrs.C85_missing",
    "QP.Pbrs.C85_beside",
    "QP.Pbrs.SearchExample.C85_example",
    "QP.Pbrs.SearchExample.C85_refuted_working_directory"
   ],
   "note": "The working directory is not searched (C85_refuted_working_directory): a relative -I entry that has the file from the working directory is of no use, and a file that imports another by its path from the working directory, as protoc wants it, is rejected."
  },
  {
   "property": "C86",
   "status": "partial",
   "theorems": [
    "QP.Pbrs.C86_allowed",
    "QP.Pbrs.C86_refused",
    "QP.Pbrs.C86_search",
    "QP.Pbrs.C86_jobs",
    "QP.Pbrs.C86_written_partial",
    "QP.Pbrs.C86_extension",
    "QP.Pbrs.C86_main",
    "QP.Pbrs.C86_cli_partial",
    "QP.Pbrs.C86_options",
    "QP.Pbrs.InvocationExample.C86_example",
    "QP.Pbrs.InvocationExample.C86_refuted_package",
    "QP.Pbrs.InvocationExample.C86_refuted_name"
   ],
   "note": "The last sentence is false of files with a package (C86_refuted_package: -o out/code.rs is ignored, the code is in out/p.rs) and of file names that are not identifiers (C86_refuted_name: three-a.proto gives three_a.rs); C86_written_partial and C86_cli_partial prove it for files without package, or with --single-mod, whose names are identifiers and no keywords. Everything else is proved. What clap makes of the arguments is given."
  },
  {
   "property": "C87",
   "status": "partial",
   "theorems": [
    "QP.Rust.C87_file",
    "QP.Rust.C87_written_partial",
    "QP.Rust.C87_getter",
    "QP.Rust.GettersExample.C87_example",
    "QP.Rust.C87_refuted_get_size"
   ],
   "note": "Text: for all runs (a proto2 file with labels of proto3, possible only with two contradicting syntax statements, is excluded). Meaning: for all values of the struct. \"The generated code compiles\" is false: a field `size` with a default gives a getter get_size, which hides MessageWrite::get_size (C87_refuted_get_size). The C79 theorems exclude such names (Distinct)."
  },
  {
   "property": "C88",
   "status": "proved",
   "theorems": [
    "QP.Rust.C88_layout",
    "QP.Rust.PathsExample.C88_example"
   ],
   "note": "The whole file, entry by entry, equals the text of Spec/Layout.lean (whose parts for functions and types are those of C77, C80, C83, C87), whenever pb-rs succeeds; the one condition is that the file does not contradict itself with two syntax statements (OneSyntax, Spec/Labels.lean; protobuf allows one, at the start). Service stubs are written by a user-supplied generator: without one, a line per service."
  },
  {
   "property": "C89",
   "status": "partial",
   "theorems": [
    "QP.Rust.C89_located",
    "QP.Rust.C89_message_partial",
    "QP.Rust.C89_enum_partial",
    "QP.Rust.C89_nested_enum_partial",
    "QP.Rust.C89_oneof_partial",
    "QP.Rust.C89_imported_partial",
    "QP.Rust.C89_imported_enum_partial",
    "QP.Rust.C89_imported_nested_enum_partial",
    "QP.Rust.PathsExample.C89_example",
    "QP.Rust.C89_refuted_renamed",
    "QP.Rust.C89_refuted_package",
    "QP.Rust.C89_refuted_single",
    "QP.Rust.C89_refuted_keyword",
    "QP.Rust.C89_refuted_shadowed",
    "QP.Rust.C89_refuted_imported_name",
    "QP.Rust.C89_refuted_oneof_name",
    "QP.Rust.C89_refuted_owned_name"
   ],
   "note": "Proved for types of the file and for imported types, under conditions on names each of which is needed: no message with declarations in it is renamed (C89_refuted_renamed: message Result { enum Code }), the first name of the path is not hidden on the way (C89_refuted_package: package foo with message foo; C89_refuted_shadowed: without a package a nested type hides one of the file), the package is a module path (C89_refuted_keyword; with --single-mod, one part: C89_refuted_single), no name twice in a module (C89_refuted_imported_name: message MessageInfo; C89_refuted_oneof_name; C89_refuted_owned_name). Files imported by imported files must have packages (C69_refuted). Name resolution is that of Spec/Modules.lean (nested modules, glob imports of super; one namespace for types and modules)."
  },
  {
   "property": "C90",
   "status": "partial",
   "theorems": [
    "QP.Rust.C90_written_partial",
    "QP.Rust.C90_refuted",
    "QP.Rust.C90_example"
   ],
   "note": "True when no traits are asked for and for messages with a written impl Default; false for every other message whatever the traits are (C90_refuted: the last trait and Default are joined to one word, HashDefault)."
  },
  {
   "property": "C91",
   "status": "partial",
   "theorems": [
    "QP.Gen.C91_linear_partial",
    "QP.Gen.C91_release_partial",
    "QP.Gen.C91_refuted"
   ],
   "note": "Proved for every input in builds with overflow checks, and in builds without them for all inputs on which the checked build does not panic. False in general without overflow checks (C91_refuted: fifteen bytes; read_unknown adds a length that wraps around, the reader goes back, and the loop of the nested message pushes N strings for every N). The weight counts the parts of the returned value, not the capacity that Vec or HashMap reserve."
  },
  {
   "property": "C92",
   "status": "partial",
   "theorems": [
    "QP.Gen.C92_bounded_partial",
    "QP.Gen.C92_decode_partial",
    "QP.Gen.C92_refuted",
    "QP.Gen.readDeep_iff"
   ],
   "note": "A dichotomy. Messages that cannot contain themselves: never more open calls than the schema has messages, for every input. All other messages, of every well-formed schema: no limit at all (C92_refuted: for every N a valid message of at most 16*N bytes needs more than N calls); the crate has no recursion limit as other protobuf implementations do. The bytes of stack a call takes are not modelled."
  },
  {
   "property": "C93",
   "status": "partial",
   "theorems": [
    "QP.Gen.C93_versions_partial",
    "QP.Gen.C93_unframed_partial",
    "QP.Gen.carries_same",
    "QP.Gen.Later.C93_example",
    "QP.Gen.C93_refuted_sint",
    "QP.Gen.C93_refuted_bool"
   ],
   "note": "Proved for all schemas related by Versions. Missing, because the code fails there: sint32 read as sint64 (C93_refuted_sint: write_sint32 sign-extends the zigzag code), int64 or uint64 read as bool (C93_refuted_bool), a repeated field that changes between packed and unpacked (C40). bytes read as string can fail and is not claimed. The writer is little endian."
  },
  {
   "property": "C94",
   "status": "partial",
   "theorems": [
    "QP.Rust.C94_value_partial",
    "QP.Rust.C94_getter_partial",
    "QP.Rust.C94_capitals",
    "QP.Rust.C94_capitals_example",
    "QP.Rust.plain_literal",
    "QP.Rust.DefaultsExample.C94_example",
    "QP.Rust.C94_refuted_octal",
    "QP.Rust.C94_refuted_escape",
    "QP.Rust.C94_refuted_syntax"
   ],
   "note": "Proved for the constants PlainDefault: no octal numbers, a digit on both sides of a decimal point, only the escapes that both languages have. Otherwise the code copies the text and it is false: C94_refuted_octal (010 becomes 10) and C94_refuted_escape (\"\\01\" becomes two characters) silently, C94_refuted_syntax with a file that does not compile. Enum defaults are C95. Decimal rounding is a parameter, the same for both languages."
  },
  {
   "property": "C95",
   "status": "partial",
   "theorems": [
    "QP.Rust.C95_standard_partial",
    "QP.Rust.C95_custom_partial",
    "QP.Rust.C95_value_partial",
    "QP.Rust.C95_denotes_partial",
    "QP.Rust.C95_denotes_nested_partial",
    "QP.Rust.C95_imported",
    "QP.Rust.C95_literals",
    "QP.Rust.C95_run_partial",
    "QP.Rust.EnumDefaultsExample.C95_example",
    "QP.Rust.C95_refuted_value",
    "QP.Rust.C95_refuted_name",
    "QP.Rust.C95_refuted_file",
    "QP.Rust.C95_refuted_single"
   ],
   "note": "Proved if pb-rs changes none of the names (EnumKept) and the output is in the module named after its package, or without one after the input file. Otherwise it is false: values and enums named like words of Rust (C95_refuted_value, C95_refuted_name), an output file with another name (C95_refuted_file), --single-mod (C95_refuted_single) give files that do not compile. With C95_literals the round trip of a whole run (C95_run_partial) needs no assumption about what the printed defaults mean."
  },
  {
   "property": "C96",
   "status": "partial",
   "theorems": [
    "QP.Rust.C96_unit",
    "QP.Rust.C96_message_partial",
    "QP.Rust.C96_oneof_partial",
    "QP.Rust.C96_run_partial",
    "QP.Rust.InScopeExample.C96_example",
    "QP.Rust.InScopeExample.C96_refuted_string",
    "QP.Rust.InScopeExample.C96_refuted_toOwned",
    "QP.Rust.InScopeExample.C96_refuted_hashMap",
    "QP.Rust.InScopeExample.C96_refuted_clash"
   ],
   "note": "Proved for runs in which no type of the schema has the name of something of the library (otherwise false, C96_refuted_clash: a message WriterBackend; names such as Writer are renamed by pb-rs), and, with nostd, without dont_use_cow (false: C96_refuted_string, C96_refuted_toOwned) and, without hashbrown, without maps in a message whose Default is written out (false: C96_refuted_hashMap). The names of derived traits are not among the names considered."
  },
  {
   "property": "C97",
   "status": "proved",
   "theorems": [
    "QP.Gen.C97_size",
    "QP.Gen.C97_order",
    "QP.Gen.C97_deterministic",
    "QP.Gen.C97_example",
    "QP.Gen.C97_not_deterministic"
   ],
   "note": "C97_size for every value, typed or not. C97_order under the conditions of C33 (no -0.0 and no custom default in fields without presence, below 4 GiB, little endian). C97_deterministic for any asymmetric order of the keys. C97_not_deterministic: a HashMap with two entries has two encodings."
  },
  {
   "property": "C98",
   "status": "partial",
   "theorems": [
    "QP.Gen.C98_merge_partial",
    "QP.Gen.C98_overlay",
    "QP.Gen.C98_example",
    "QP.Gen.C98_refuted_message",
    "QP.Gen.C98_refuted_packed"
   ],
   "note": "C98_merge_partial: the merge of the guide, if the two values do not both have a message in the same singular field or oneof field, nor both elements in the same packed field. C98_overlay says exactly what happens for every two values: there the later message, and the later packed elements, replace the earlier ones. C98_refuted_message, C98_refuted_packed: the full claim is false (a child message of the first part is lost, where the guide has it merged; packed elements of the first part are lost, see C41). Under the conditions of C33 (no -0.0 and no custom default in fields without presence, below 4 GiB, little endian)."
  },
  {
   "property": "C99",
   "status": "partial",
   "theorems": [
    "QP.C99_from_file_partial",
    "QP.C99_from_reader",
    "QP.C99_honest",
    "QP.C99_shrunk",
    "QP.C99_example",
    "QP.C99_refuted_missing",
    "QP.C99_refuted_grown",
    "QP.C99_refuted_large",
    "QP.C99_refuted_contract"
   ],
   "note": "C99_from_reader: for every source that delivers a fixed text, in any portions and with any (finitely many) interruptions; C99_honest: for every source that keeps the contract of Read the buffer is exactly what was delivered, with no panic and no uninitialised byte. from_file: proved for files that are there, fit into usize and do not change (C99_from_file_partial), or become shorter (C99_shrunk). False otherwise: a missing file panics (C99_refuted_missing: metadata().unwrap()), a file that grows meanwhile is loaded in part without an error (C99_refuted_grown), of a file of 4 GiB or more a 32 bit program silently loads the length modulo 2^32 (C99_refuted_large), and a source written in safe code that breaks the contract of Read obtains a reader over uninitialised memory (C99_refuted_contract: set_len on an uninitialised vector)."
  },
  {
   "property": "C100",
   "status": "partial",
   "theorems": [
    "QP.Gen.C100_written",
    "QP.Gen.C100_read_partial",
    "QP.Gen.C100_example",
    "QP.Gen.C100_refuted_required",
    "QP.Gen.C100_refuted_cycle"
   ],
   "note": "C100_written: the records of an encoding, counted for each member. C100_read_partial: what is set after decoding, for every input that is a sequence of records (by C63 the ones that are accepted). What is missing is false: C100_refuted_required (for every message of every schema: the empty input is accepted as the default, so no required field is ever demanded), C100_refuted_cycle (a required field on a cycle of messages becomes optional, even when an optional field already breaks the cycle, and can be left out when writing)."
  },
  {
   "property": "C101",
   "status": "proved",
   "theorems": [
    "QP.Gen.C101_zero_copy",
    "QP.Gen.C101_slice",
    "QP.Gen.C101_reader",
    "QP.Gen.SlicesExample.C101_example"
   ],
   "note": "On the generated from_reader, for any state of the reader, without assuming the schema well formed. C101_slice is deserialize_from_slice, C101_reader is Reader::read. IsDefault says what Default is; NoGhosts that types that do not exist have no strings."
  },
  {
   "property": "C102",
   "status": "partial",
   "theorems": [
    "QP.Gen.C102_safe_partial",
    "QP.Gen.C102_try_from",
    "QP.Gen.OwnedExample.C102_example",
    "QP.Gen.C102_refuted_local",
    "QP.Gen.C102_refuted_swap"
   ],
   "note": "C102_safe_partial: for every program that does not store, through proto_mut, borrows of locals or of other wrappers, the machine with pointers refines the one with plain values, and no read is undefined behaviour. C102_try_from: the pointers that the model gives to a decoded message exist, by C101. The full statement is false, because proto_mut<'a>(&'a mut self) -> &'a mut Foo<'a> shortens the lifetime of the message behind a mutable reference: C102_refuted_local (every schema: assign a borrow of a local, drop the local, read), C102_refuted_swap (every message type with a string in some input: mem::swap of two wrappers' messages, drop one, read the other)."
  },
  {
   "property": "C103",
   "status": "partial",
   "theorems": [
    "QP.Rust.C103_run_partial",
    "QP.Rust.C103_example",
    "QP.Rust.C103_refuted_underscore",
    "QP.Rust.C103_refuted_keyword",
    "QP.Rust.C103_refuted_module",
    "QP.Rust.C103_refuted_file",
    "QP.Rust.C103_refuted_twice"
   ],
   "note": "Proved for a run of pb-rs from the text of the .proto files to the entries of the generated file (the layout theorem C88 connects the entries with the text): if no name of the input is `_`, `macro` or one of the keywords added after 2015, every name declared in any module of the file is an identifier, and so are the names of the fields and variants. The full statement is false: `_` (C103_refuted_underscore) and the newer keywords (C103_refuted_keyword) are left as they are, the directories of the package and the name of the file are not sanitized and give `pub mod type;` and `pub mod 2x;` (C103_refuted_module, C103_refuted_file). Two fields with the same name are accepted and give a struct with a field twice (C103_refuted_twice)."
  },
  {
   "property": "C104",
   "status": "partial",
   "theorems": [
    "QP.Rust.C104_path_partial",
    "QP.Rust.C104_example",
    "QP.Rust.C104_refuted_nested",
    "QP.Rust.C104_refuted_package",
    "QP.Rust.C104_refuted_same"
   ],
   "note": "Proved for runs of pb-rs if no message in which something is declared has a name that pb-rs changes, and (for uniqueness) no module of the output declares a name twice; the package is taken as the module of the file. False otherwise: the path of a message in a message that is renamed names a module that does not exist (C104_refuted_nested: x.mod_type.Inner, but the module is mod_type_pb), so does that of a message in a package that is renamed (C104_refuted_package), and two messages of the same name are accepted (C104_refuted_same)."
  },
  {
   "property": "C105",
   "status": "partial",
   "theorems": [
    "QP.Rust.C105_lifetime_partial",
    "QP.Rust.C105_example",
    "QP.Rust.C105_refuted_syntax",
    "QP.Rust.C105_refuted_reverse",
    "QP.Rust.C105_refuted_captured"
   ],
   "note": "Proved for runs of pb-rs if all imported files have a package and the same syntax, every full name is declared once and no name used in an imported file can mean something of the importing file only. False otherwise: pb-rs applies the syntax of the main file to the imported messages too, so a proto3 file that imports a proto2 file with a repeated fixed-size field writes b::M<'a> for a struct M without parameter (C105_refuted_syntax), and a proto2 file that imports a proto3 file leaves the parameter out (C105_refuted_reverse); a type name in an imported file may be captured by a declaration of the importing file (C105_refuted_captured). The generated files do not compile together."
  },
  {
   "property": "C106",
   "status": "partial",
   "theorems": [
    "QP.Pbrs.C106_touched",
    "QP.Pbrs.C106_kept",
    "QP.Pbrs.C106_ends",
    "QP.Pbrs.C106_outputs_partial",
    "QP.Pbrs.C106_apart_partial",
    "QP.Pbrs.C106_again_partial",
    "QP.Pbrs.solo",
    "QP.Pbrs.C106_refuted_lost",
    "QP.Pbrs.C106_refuted_garbled",
    "QP.Pbrs.C106_refuted_panic",
    "QP.Pbrs.C106_refuted_mixed",
    "QP.Pbrs.C106_refuted_twice"
   ],
   "note": "Proved for every schedule: what is touched, that an existing mod.rs is only added to, that there is always a way to the end, that successful runs with different outputs have written them completely; and that runs have the results and effects that they have alone if none changes what another one looks at or changes (C106_apart_partial), which is so if the package directories are there and the runs write to different directories or their modules are declared already (C106_again_partial: generating again in parallel is safe). False in general, because update_mod_file reads, decides and writes without a lock: two runs that succeed may lose one module declaration (C106_refuted_lost), interleave their lines so that mod.rs is not Rust (C106_refuted_garbled, C106_refuted_mixed), or declare a directory twice (C106_refuted_twice); and a run may panic on the half-written line of another (C106_refuted_panic)."
  },
  {
   "property": "C107",
   "status": "partial",
   "theorems": [
    "QP.Pbrs.C107_heard_partial",
    "QP.Pbrs.C107_reported_partial",
    "QP.Pbrs.C107_refuted"
   ],
   "note": "Proved if no failure strikes the last write, and that every other failing call is reported as an error. False there: write_proto never calls flush, so the last part of the text (all of it, if it is shorter than 8 KiB) is written when the BufWriter is dropped, and the error is ignored: with a full disk pb-rs reports success and leaves an empty file (C107_refuted)."
  },
  {
   "property": "C108",
   "status": "partial",
   "theorems": [
    "QP.Rust.C108_functions_partial",
    "QP.Rust.C108_run_partial",
    "QP.Rust.TypingExample.C108_example",
    "QP.Rust.C108_keys_needed",
    "QP.Rust.C108_cow_needed",
    "QP.Rust.C108_default_needed",
    "QP.Rust.TypingExample.C108_refuted_key",
    "QP.Rust.TypingExample.C108_refuted_cow",
    "QP.Rust.TypingExample.C108_refuted_default"
   ],
   "note": "Proved for every run whose schema has only hashable keys of maps, defaults that are literals of Rust, no packed fixed-size fields with --dont_use_cow, distinct names and numbers in range. The first three conditions are necessary for every message (C108_keys_needed, C108_default_needed, C108_cow_needed) and false of files that pb-rs accepts: map<float, int32> (C108_refuted_key, which protoc rejects), default = .5 (C108_refuted_default), packed fixed32 with --dont_use_cow (C108_refuted_cow): the generated file does not compile. The type rules are a specification (Spec/Typing) of the fragment of Rust that occurs in the functions; lifetimes and borrow checking are not part of them (C93 is about lifetimes)."
  },
  {
   "property": "C109",
   "status": "proved",
   "theorems": [
    "QP.Rust.C109_programs",
    "QP.Rust.C109_functions",
    "QP.Rust.C109_names",
    "QP.Rust.C109_literals",
    "QP.Rust.C109_same_defaults",
    "QP.Rust.OptionsExample.C109_example",
    "QP.Rust.OptionsExample.C109_deprecated"
   ],
   "note": "C109_programs: for the programs whose items are in the two printed files. C109_functions: the same for the model of the generated codecs, also where pb-rs prints a file that does not compile (packed fixed-size fields with --dont_use_cow, C108_refuted_cow, are excluded in C109_programs). That the defaults of the schema mean the same in both programs is a condition, SameDefaults; it is proved for literals (C109_literals, C109_same_defaults); for names of enum values it follows from C95. C109_deprecated: with --add-deprecated-fields it would be false, the option changes which fields exist. Owned wrappers (--owned) are C44 and C102."
  },
  {
   "property": "C110",
   "status": "proved",
   "theorems": [
    "QP.Gen.C110_meaning",
    "QP.Gen.C110_laws",
    "QP.Gen.C110_self",
    "QP.Gen.C110_roundtrip",
    "QP.Gen.C110_same_bytes",
    "QP.Gen.C110_packed",
    "QP.Gen.Example.C110_example",
    "QP.Gen.Example.C110_example_roundtrip",
    "QP.Gen.Example.C110_nan_refuted"
   ],
   "note": "The derived PartialEq is Rust's; it is modelled from its documentation (Model/Equality.lean), as is == of HashMap. Fields without presence must not have a default option (protoc rejects it; C37), and map keys must not be messages. C110_nan_refuted: without the condition on NaN a message read back is not equal to the one written. The PackedFixed impl is code of this crate: C110_packed."
  },
  {
   "property": "C111",
   "status": "partial",
   "theorems": [
    "QP.Gen.C111_linear_partial",
    "QP.Gen.C111_release_partial",
    "QP.Gen.C111_counts",
    "QP.Gen.C111_refuted"
   ],
   "note": "Proved with overflow checks for every schema and every input and outcome (C111_linear_partial); without them for every input on which the checked build does not panic (C111_release_partial). C111_counts: the counter is at least the number of parts of the decoded value. Refuted in general without overflow checks (C111_refuted): the work on the fifteen bytes of C23 exceeds every bound. A HashMap insertion counts as one unit (its expected cost; the BTreeMap of --nostd would cost a logarithm)."
  },
  {
   "property": "C112",
   "status": "partial",
   "theorems": [
    "QP.Gen.C112_get_size",
    "QP.Gen.C112_depth_partial",
    "QP.Gen.C112_linear_partial",
    "QP.Gen.C112_counts",
    "QP.Gen.C112_refuted"
   ],
   "note": "get_size is linear (C112_get_size). write_message is linear for messages that cannot contain themselves (C112_linear_partial), and at most proportional to the value times its depth for all (C112_depth_partial). The full statement is false: nodes nested in one another take quadratic time (C112_refuted: more than any multiple of the value and of its encoding), as write_message calls get_size of the whole subtree at every level. C112_counts: the counter is at least a tenth of the bytes written."
  },
  {
   "property": "C113",
   "status": "partial",
   "theorems": [
    "QP.Pbrs.C113_default",
    "QP.Pbrs.C113_default_run",
    "QP.Pbrs.C113_written_partial",
    "QP.Pbrs.C113_file_partial",
    "QP.Pbrs.C113_recorded_partial",
    "QP.Pbrs.C113_failed",
    "QP.Pbrs.C113_no_output",
    "QP.Pbrs.C113_touches",
    "QP.Pbrs.C113_example",
    "QP.Pbrs.C113_example_failing",
    "QP.Pbrs.C113_refuted_names",
    "QP.Pbrs.C113_refuted_includes",
    "QP.Pbrs.C113_refuted_only_services"
   ],
   "note": "QP.Pbrs.C113_written_partial is the property for runs that succeed, with the exception for the lines to include that the code makes; C113_file_partial identifies the services with those of a file in the language of Spec/Grammar.lean; C113_recorded_partial is about runs over several files; C113_failed says which calls a failing run has made and that an error of the generator leaves mod.rs alone; C113_default ties these runs to the runs of all other properties. Refuted: lines to include are dropped, without an error, when all messages of the file (and of its imports) are empty, although the services are generated (C113_refuted_includes); a file with nothing but services, or with services and imports of nothing but services, is rejected before the generator is called (C113_refuted_only_services); the names of argument and result types are given as written, not resolved, so that they need not be the names of the generated types (C113_refuted_names)."
  },
  {
   "property": "C114",
   "status": "partial",
   "theorems": [
    "QP.Rust.C114_derives_partial",
    "QP.Rust.C114_run_partial",
    "QP.Rust.C114_example",
    "QP.Rust.C114_refuted",
    "QP.Rust.C114_refuted_accepted"
   ],
   "note": "Holds for all schemas whose map keys are integers, booleans, strings or bytes, as the language demands (C114_derives_partial; C114_run_partial connects it to the derive lines of the written file, under the conditions of C84). pb-rs accepts every type as a key: a struct with a map whose keys are floating-point numbers, enums or messages is never accepted by rustc (C114_refuted), but pb-rs reports success (C114_refuted_accepted). Traits that are asked for on the command line are not considered (C90)."
  },
  {
   "property": "C115",
   "status": "partial",
   "theorems": [
    "QP.Rust.C115_written",
    "QP.Rust.C115_accepted_partial",
    "QP.Rust.C115_example",
    "QP.Rust.C115_refuted_boxed",
    "QP.Rust.C115_refuted_lifetime"
   ],
   "note": "What is written is proved for all oneofs (C115_written: one conversion per type, into the first member); that rustc accepts it for those without borrowed and without boxed members (C115_accepted_partial). The full statement is false: the conversion of a boxed (recursive) member passes a T where Box<T> is expected (C115_refuted_boxed), and for a oneof with a lifetime no conversion is accepted, since 'a is not declared (C115_refuted_lifetime). Types are compared as pb-rs compares them, as text."
  },
  {
   "property": "C116",
   "status": "partial",
   "theorems": [
    "QP.Gen.C116_size",
    "QP.Gen.C116_length",
    "QP.Gen.C116_bytes_partial",
    "QP.Gen.Example.C116_example",
    "QP.Gen.Example.C116_refuted_order",
    "QP.Gen.Example.C116_refuted_zero"
   ],
   "note": "Sizes and lengths are the same for all equal messages (C116_size, C116_length). The bytes are the same if there is no negative zero and no map with two or more entries in either (C116_bytes_partial); in general they are not: the order of the entries of a map (C116_refuted_order) and the sign of zero (C116_refuted_zero) are seen in the bytes and not by ==."
  },
  {
   "property": "C117",
   "status": "partial",
   "theorems": [
    "QP.Gen.C117_reason",
    "QP.Gen.C117_framed",
    "QP.Gen.C117_never",
    "QP.Gen.Example.C117_example",
    "QP.Gen.Example.C117_refuted_varint"
   ],
   "note": "Proved for all errors but two. Varint is misleading: an unknown field that is cut off is reported as a bad varint (C117_refuted_varint), so Reason has this case too. For UnexpectedEndOfBuffer nothing is claimed (every input is too short for some continuation); C17, C21, C63 and C81 are about it. Payloads of errors (the inner Utf8Error, the text of Deprecated) are in Model/ErrorText.lean (C119), not here."
  },
  {
   "property": "C118",
   "status": "partial",
   "theorems": [
    "QP.Rust.C118_maps_partial",
    "QP.Rust.C118_example",
    "QP.Rust.C118_refuted_label",
    "QP.Rust.C118_refuted_float",
    "QP.Rust.C118_refuted_message"
   ],
   "note": "Proved: maps of maps and maps in oneofs, for all messages that the file declares, at any depth, and all fields for which there is code (deprecated fields may be left out). Condition: OneSyntax, the file says which syntax it has at most once. False of the other two: labels of maps are ignored (C118_refuted_label) and any type can be a key (C118_refuted_float, C118_refuted_message; the generated code needs keys to be Hash and Eq, so rustc rejects it)."
  },
  {
   "property": "C119",
   "status": "partial",
   "theorems": [
    "QP.Fault.C119_text",
    "QP.Fault.C119_back",
    "QP.Fault.C119_passed",
    "QP.Fault.C119_kept",
    "QP.Fault.C119_kind",
    "QP.Fault.C119_distinct_partial",
    "QP.Fault.C119_decoder",
    "QP.Fault.C119_sources",
    "QP.Fault.C119_refuted_io",
    "QP.Fault.C119_example"
   ],
   "note": "All of it but one: an error of variant Io has the text of what is in it, so that it is not told apart from that by its text (C119_refuted_io); all others are (C119_distinct_partial), so those of the decoder (C119_decoder, with C117). io::Error and Utf8Error are modelled after the documentation of the standard library. The full type is in Model/ErrorText.lean; the codec models have it without payloads (Error.bare)."
  },
  {
   "property": "C120",
   "status": "partial",
   "theorems": [
    "QP.Pbrs.C120_range_partial",
    "QP.Pbrs.C120_example",
    "QP.Pbrs.C120_refuted",
    "QP.Gen.C120_refuted_lost",
    "QP.Gen.C120_lost"
   ],
   "note": "Proved: negative numbers and those that do not fit into i32 are rejected (C120_range_partial). False of the rest: duplicates, 0, 2^29 and more, 19000 are accepted (C120_refuted). What then happens is proved for every schema and input: of two fields with the same number and wire type the second is never set by decoding (C120_refuted_lost; C120_lost for oneofs too), without an error. Schemas with legal and distinct numbers round trip (C65)."
  },
  {
   "property": "C121",
   "status": "proved",
   "theorems": [
    "QP.Pbrs.C121_read",
    "QP.Pbrs.C121_frame",
    "QP.Pbrs.C121_run",
    "QP.Pbrs.C121_moved",
    "QP.Pbrs.C121_example"
   ],
   "note": "C121_read and C121_frame are equalities, errors included; C121_run is about the files that two successful runs leave. C121_moved: imports and include path are relative paths of files, the new directory may be absolute. Paths are texts, read as lists of components (C85)."
  },
  {
   "property": "C122",
   "status": "proved",
   "theorems": [
    "QP.Pbrs.C122_read",
    "QP.Pbrs.C122_text",
    "QP.Pbrs.C122_run",
    "QP.Pbrs.MeaningExample.C122_example"
   ],
   "note": "SameMeaning is over the grammar of Spec/Grammar.lean (whose omissions are C55 to C58, where texts that protoc accepts are not read or misread). C122_example has a text with comments, an unknown file option, an unknown field option and a leading zero, derived in the grammar, that gives what the plain text gives; and a third text that gives something else."
  },
  {
   "property": "C123",
   "status": "partial",
   "theorems": [
    "QP.Pbrs.C123_enum_partial",
    "QP.Pbrs.C123_import_partial",
    "QP.Pbrs.C123_printed_partial",
    "QP.Pbrs.PrintedExample.C123_printed_example",
    "QP.Pbrs.AddedExample.C123_refuted",
    "QP.Pbrs.AddedExample.C123_example",
    "QP.Pbrs.AddedExample.C123_import_example"
   ],
   "note": "Proved for enums: at the end of a file without imports, and for the import of a file of enums into a file without others; all stages (name resolution with its nested scopes, cycle breaking, defaults, sanitizing, every printing function) are shown not to notice the new enums. False for messages (C123_refuted): in a file where A, B and C are in a cycle, adding the message D { optional B b = 1; }, which nothing names, changes the type of the field c of B from Option<Box<C>> to Option<C>, because the cycle breaking depends on the order in which cycles are searched. C123_printed_partial locates this: the printing stage is innocent, whatever messages and enums a compiled schema has in addition (before them only the header and the use lines may change). Missing: files with other imports (where the new enums come before the imported ones) and what remains true for messages."
  },
  {
   "property": "C124",
   "status": "proved",
   "theorems": [
    "QP.Rust.C124_functions",
    "QP.Rust.C124_programs",
    "QP.Rust.NamelessExample.C124_example"
   ],
   "note": "FileDescriptor.nameless (Spec/Nameless.lean) erases every name; types of fields refer to messages and enums by place, so two compiled schemas with the same nameless form declare the same up to names, in the same order. C124_functions is about the functions of the model, for contexts that may also have other options; C124_programs about the programs in the two files that two runs write, with the conditions of C109_programs for each. The premise on defaults (SameDefaults) is needed because the default of an enum field names an enum value. C124_example: the schema of C109_example and the same with all names changed, keywords among the new ones, and a package. Renaming is compared after compiling: that the renamed file resolves to the same places is a premise, checked in the example."
  }
 ]
}