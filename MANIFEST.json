{
 "claims": [
  {
   "property": "C01",
   "status": "partial",
   "theorems": [
    "Verif.C01_round_trip_partial",
    "Verif.C01_round_trip_copying_partial",
    "Verif.C01_round_trip_stream_partial",
    "Verif.C01_false_transparent",
    "Verif.C01_false_panic",
    "Verif.C01_false_empty_struct",
    "Verif.C01_false_exhausted",
    "Verif.C01_C40_false_skip",
    "Verif.C01_false_peek",
    "Verif.C01_false_reference",
    "Verif.C01_false_reference_elements",
    "Verif.C01_any_value_partial",
    "Verif.C01_any_value_stream_partial",
    "Verif.C01_exact_partial",
    "Verif.C01_false_set_skip",
    "Verif.C01_peek_exact",
    "Verif.C01_peek_exact_copying",
    "Verif.C01_peek_exact_stream"
   ],
   "note": "For all regular types and canonical values; the excluded types and values really fail (see DESIGN.md, disagreements). The `_false` theorems give concrete counterexamples for the excluded cases (PropsBugs.lean). For enums with peek_tag and tags of a fixed size the condition is exact: the encoding begins with the tag (C01_peek_exact)."
  },
  {
   "property": "C02",
   "status": "partial",
   "theorems": [
    "Verif.C02_format_little_host_partial",
    "Verif.C02_format_partial",
    "Verif.C02_host_independent_partial",
    "Verif.C02_ipv6_depends_on_host"
   ],
   "note": "Ipv6Addr is written in host order on big-endian hosts: proved false there."
  },
  {
   "property": "C03",
   "status": "partial",
   "theorems": [
    "Verif.C03_bytes_needed_vec_partial",
    "Verif.C03_bytes_needed_stream_partial",
    "Verif.C03_bytes_needed_buffer_partial",
    "Verif.C03_C04_false",
    "Verif.C03_false_time",
    "Verif.C03_C04_false_overflow"
   ],
   "note": "Regular types; encodings of at most usize::MAX bytes. The _false theorems give concrete counterexamples for the excluded cases (PropsBugs.lean, PropsRefuse.lean)."
  },
  {
   "property": "C04",
   "status": "partial",
   "theorems": [
    "Verif.C04_same_bytes",
    "Verif.C04_same_bytes_partial",
    "Verif.C04_fail_together_partial",
    "Verif.C03_C04_false",
    "Verif.C03_C04_false_overflow"
   ],
   "note": "Same bytes: all types and values, whenever write_to_vec succeeds. Failing together: regular types and encodings of at most usize::MAX bytes; false otherwise."
  },
  {
   "property": "C05",
   "status": "proved",
   "theorems": [
    "Verif.C05_write_to_buffer_bounds"
   ],
   "note": "All types and values."
  },
  {
   "property": "C06",
   "status": "partial",
   "theorems": [
    "Verif.C06_self_delimiting_partial",
    "Verif.C06_self_delimiting_copying_partial",
    "Verif.C06_self_delimiting_reader_partial",
    "Verif.C06_false_zst",
    "Verif.C06_false_vecs"
   ],
   "note": "Regular types, canonical values. The `_false` theorems give concrete counterexamples for the excluded cases (PropsBugs.lean). For vectors of elements without a size the negation is proved for all such types and inputs."
  },
  {
   "property": "C07",
   "status": "partial",
   "theorems": [
    "Verif.C07_truncated_partial",
    "Verif.C07_truncated_copying_partial",
    "Verif.C07_truncated_stream_partial",
    "Verif.C07_false_eof",
    "Verif.C07_false_rest"
   ],
   "note": "Regular types, canonical values. The `_false` theorems give concrete counterexamples for the excluded cases (PropsBugs.lean)."
  },
  {
   "property": "C08",
   "status": "partial",
   "theorems": [
    "Verif.C08_minimum_buffer_partial",
    "Verif.C08_minimum_stream_partial",
    "Verif.C08_minimum_reader_partial",
    "Verif.C08_false",
    "Verif.C08_false_transparent",
    "Verif.C08_computed",
    "Verif.C08_computed_read_partial"
   ],
   "note": "For buffers, arbitrary streams and any orderly reader; false for enums with peek_tag whose variants are smaller than the tag and for arrays/Cow of repr(transparent) structs with attributes (negations proved)."
  },
  {
   "property": "C09",
   "status": "partial",
   "theorems": [
    "Verif.C09_reported_length_partial",
    "Verif.C09_reported_length_copying_partial",
    "Verif.C09_false"
   ],
   "note": "All buffers, also with anything else following; excludes types for which it is false (negation proved for peek_tag enums with unit variants)."
  },
  {
   "property": "C10",
   "status": "partial",
   "theorems": [
    "Verif.C10_buffers_partial",
    "Verif.C10_copying_agrees_partial",
    "Verif.C10_false",
    "Verif.C10_false_32",
    "Verif.C10_false_empty",
    "Verif.C10_false_prefix",
    "Verif.C10_false_panic"
   ],
   "note": "Equality of results, errors and lengths for all owned types at any addresses, except Cow<[T]> with the element types excluded by lendable; for each of these classes the negation is proved."
  },
  {
   "property": "C11",
   "status": "partial",
   "theorems": [
    "Verif.C11_unbuffered_agrees_partial",
    "Verif.C11_false_peek",
    "Verif.C11_false_zst",
    "Verif.C11_false_eof"
   ],
   "note": "All splittings; excludes types for which it is false (negations proved)."
  },
  {
   "property": "C12",
   "status": "partial",
   "theorems": [
    "Verif.C12_buffered_agrees_partial"
   ],
   "note": "All splittings and growth policies; same exclusions as C11."
  },
  {
   "property": "C13",
   "status": "partial",
   "theorems": [
    "Verif.C13_exact_position_partial",
    "Verif.C13_false"
   ],
   "note": "Unbuffered reading leaves the stream right after the encoding, for all split patterns; false for peek_tag (witness), and the exceptions of C01"
  },
  {
   "property": "C14",
   "status": "proved",
   "theorems": [
    "Verif.C14_circular_buffer_is_a_queue",
    "Verif.C14_first_in_first_out"
   ],
   "note": ""
  },
  {
   "property": "C15",
   "status": "partial",
   "theorems": [
    "Verif.C15_peek_shows_read",
    "Verif.C15_peek_invisible_buffer",
    "Verif.C15_peek_invisible_stream",
    "Verif.C15_peek_varint_partial",
    "Verif.C15_false"
   ],
   "note": "peek_u64_varint is wrong for values from 128 on: proved false."
  },
  {
   "property": "C16",
   "status": "proved",
   "theorems": [
    "Verif.C16_varint_round_trip"
   ],
   "note": ""
  },
  {
   "property": "C17",
   "status": "proved",
   "theorems": [
    "Verif.C17_varint_length",
    "Verif.C17_varint_minimal",
    "Verif.C17_varint_monotone"
   ],
   "note": ""
  },
  {
   "property": "C18",
   "status": "proved",
   "theorems": [
    "Verif.C18_varint_reading_total",
    "Verif.C18_nine_bytes"
   ],
   "note": ""
  },
  {
   "property": "C19",
   "status": "partial",
   "theorems": [
    "Verif.C19_zigzag_partial",
    "Verif.C19_injective_partial",
    "Verif.C19_short_partial",
    "Verif.C19_false_exactly"
   ],
   "note": "The conversion back is wrong; exactly when is proved."
  },
  {
   "property": "C20",
   "status": "partial",
   "theorems": [
    "Verif.C20_too_long",
    "Verif.C20_too_long_field",
    "Verif.C20_entry_partial",
    "Verif.C20_read_back",
    "Verif.C20_u7",
    "Verif.C52_false"
   ],
   "note": "write_to with any writer: Err(OutOfRangeLength) in the standard and the attributed field case, nothing written; a length which fits is read back. Missing: write_to_vec and write_to_buffer call bytes_needed first, which has undefined behaviour for 2^63 - 1 elements (C52_false)."
  },
  {
   "property": "C21",
   "status": "partial",
   "theorems": [
    "Verif.C21_tags",
    "Verif.C21_accepted",
    "Verif.getFields_declOk",
    "Verif.C21_unknown_reader_partial",
    "Verif.C21_unknown_buffer_partial",
    "Verif.C21_unknown_stream_partial",
    "Verif.C21_only_own_tag",
    "Verif.C21_false",
    "Verif.C21_attributes"
   ],
   "note": "Tags of accepted enums are distinct, in range and as declared; unknown tags give InvalidEnumVariant on every reader; missing: peek_tag with varint tags above 127, where C21_false shows the code reads another number."
  },
  {
   "property": "C22",
   "status": "partial",
   "theorems": [
    "Verif.C22_written",
    "Verif.C22_required",
    "Verif.C22_different",
    "Verif.C22_buffer",
    "Verif.C22_false"
   ],
   "note": "Written before the field, required on reading. False for elements of sequences of repr(transparent) structs (C22_false)."
  },
  {
   "property": "C23",
   "status": "partial",
   "theorems": [
    "Verif.C23_complete",
    "Verif.C23_not_masked",
    "Verif.C23_default_partial",
    "Verif.C23_cut_buffer_partial",
    "Verif.C23_cut_copying_partial",
    "Verif.C23_cut_stream_partial",
    "Verif.C23_false"
   ],
   "note": "Complete inputs and other errors: in full. Defaults: except fields with length = expr and fields readable from nothing, whose custom default is not used (C23_false)."
  },
  {
   "property": "C24",
   "status": "partial",
   "theorems": [
    "Verif.C24_mismatch",
    "Verif.C24_written_partial",
    "Verif.C24_read_partial"
   ],
   "note": "Exceptions of bulk copies whose size overflows usize and C01's exclusions."
  },
  {
   "property": "C25",
   "status": "partial",
   "theorems": [
    "Verif.C25_same",
    "Verif.C25_no_bytes",
    "Verif.C25_read_partial",
    "Verif.C25_read_stream_partial",
    "Verif.C25_false",
    "Verif.C01_any_value_partial"
   ],
   "note": "False for elements copied in bulk (C25_false)."
  },
  {
   "property": "C26",
   "status": "partial",
   "theorems": [
    "Verif.C26_last_wins_partial",
    "Verif.C26_last_wins_stream_partial",
    "Verif.C26_set_partial",
    "Verif.C26_set_stream_partial",
    "Verif.C26_any_order_partial",
    "Verif.C26_any_input"
   ],
   "note": "Exceptions of C01 (types whose bulk copies are irregular)."
  },
  {
   "property": "C27",
   "status": "partial",
   "theorems": [
    "Verif.C27_write_partial",
    "Verif.C27_vec_partial",
    "Verif.C27_cow_partial",
    "Verif.C27_set_partial",
    "Verif.C27_array_partial",
    "Verif.C27_map_partial",
    "Verif.C27_false"
   ],
   "note": "Writing and reading in bulk agree with one element at a time, for all readers, hosts and byte orders. Missing: transparent structs with attributes, and structs containing transparent structs in the other byte order, where it is false (C27_false); sizes above isize::MAX."
  },
  {
   "property": "C28",
   "status": "partial",
   "theorems": [
    "Verif.C28_memory_partial",
    "Verif.C28_encoding_partial",
    "Verif.C28_false_packed",
    "Verif.C28_false_transparent",
    "Verif.C28_forced",
    "Verif.C28_false_forced",
    "Verif.C28_declared",
    "Verif.C28_seen"
   ],
   "note": "Proved for all layouts which satisfy the reference's guarantees and keep the order of fields of repr(packed) structs; without the latter it is false (C28_false_packed). The title is false for transparent structs with attributes (C28_false_transparent). With unsafe_is_primitive = always the promise is the user's: kept, it is one of these structs (C28_forced). Which structs the macro takes for ones with a fixed layout is decided from the attributes: only those with a #[repr(..)] which says so (C28_declared, C28_seen)."
  },
  {
   "property": "C29",
   "status": "partial",
   "theorems": [
    "Verif.C29_reservations_partial",
    "Verif.C29_backed_partial",
    "Verif.C29_false",
    "Verif.C29_huge_vec",
    "Verif.C29_huge_string"
   ],
   "note": "All reservations in any run on a buffer, for all types but Cow slices whose elements claim to need more bytes than their memory has (transparent structs with a prefix), for which it is false. The bytes are still left, or have just been borrowed and are being copied because of their alignment."
  },
  {
   "property": "C30",
   "status": "proved",
   "theorems": [
    "Verif.C30_buffer_accesses_inside",
    "Verif.C30_copying_accesses_inside",
    "Verif.C30_ref_slice",
    "Verif.C30_cow_slice",
    "Verif.C30_rest_slice"
   ],
   "note": "Accesses of the readers, for arbitrary programs; and all elements of slices which refer to the input."
  },
  {
   "property": "C31",
   "status": "partial",
   "theorems": [
    "Verif.C31_valid_buffer_partial",
    "Verif.C31_valid_reader_partial",
    "Verif.C31_valid_stream_partial",
    "Verif.C31_false",
    "Verif.C31_false_reference"
   ],
   "note": "All readers including failing streams; false for Vec of a zero-sized type without values, and for a derived field `&'a [T]`, which takes bytes for values of any type T (negations proved)."
  },
  {
   "property": "C32",
   "status": "partial",
   "theorems": [
    "Verif.C32_no_panic_buffer_partial",
    "Verif.C32_no_panic_stream_partial",
    "Verif.C32_false_duration",
    "Verif.C32_false_capacity",
    "Verif.C32_false_capacity64",
    "Verif.C32_false_empty",
    "Verif.C32_false_loop",
    "Verif.C32_false_sets",
    "Verif.C32_false_maps",
    "Verif.C32_false_cows"
   ],
   "note": "All inputs and streams, for types excluding the panicking ones; panics and the endless loop are proved as negations. The panics for elements without a size are proved for all such types and all inputs."
  },
  {
   "property": "C33",
   "status": "proved",
   "theorems": [
    "Verif.C33_failing_stream_prefix",
    "Verif.C33_interruptions",
    "Verif.C33_failing_stream_prefix_partial"
   ],
   "note": "All types and values; the encoding is what a working stream receives. The _partial theorem relates it to write_to_vec for regular types."
  },
  {
   "property": "C34",
   "status": "partial",
   "theorems": [
    "Verif.C34_write_to_file_partial",
    "Verif.C34_false"
   ],
   "note": "All types and values. A failing flush on drop is not reported: proved false; true when no write fails, and otherwise at most the last 8192 bytes are missing."
  },
  {
   "property": "C35",
   "status": "partial",
   "theorems": [
    "Verif.C35_is_eof_partial",
    "Verif.C35_conversion",
    "Verif.C35_false"
   ],
   "note": "InputBufferIsTooSmall / OutputBufferIsTooSmall are not is_eof."
  },
  {
   "property": "C36",
   "status": "proved",
   "theorems": [
    "Verif.C36_skip",
    "Verif.C36_skip_readers"
   ],
   "note": ""
  },
  {
   "property": "C37",
   "status": "partial",
   "theorems": [
    "Verif.C37_last",
    "Verif.C37_round_trip_partial",
    "Verif.C37_round_trip_copying_partial",
    "Verif.C37_round_trip_stream_partial",
    "Verif.C37_terminates_partial",
    "Verif.C37_terminates_map_partial",
    "Verif.C37_false"
   ],
   "note": "Missing: elements which may be read from nothing (false: C37_false) and the exceptions of C01."
  },
  {
   "property": "C38",
   "status": "partial",
   "theorems": [
    "Verif.C38_interruptions_retried_partial",
    "Verif.C38_reported_partial",
    "Verif.C38_false"
   ],
   "note": "Proved for unbuffered reading of all types without peek_tag and all inputs; false for buffered reading and peek_tag (witness), where an interruption may be returned as an error, but never changes a value (C38_reported_partial)."
  },
  {
   "property": "C39",
   "status": "partial",
   "theorems": [
    "Verif.C39_duration",
    "Verif.C39_system_time",
    "Verif.C39_before_epoch",
    "Verif.C39_normalised_partial",
    "Verif.C39_normalised_time_partial",
    "Verif.C39_false"
   ],
   "note": "Everything except denormalised input whose seconds overflow, where reading panics (C39_false)."
  },
  {
   "property": "C40",
   "status": "partial",
   "theorems": [
    "Verif.C40_prefix_free_partial",
    "Verif.C40_injective_partial",
    "Verif.C01_C40_false_skip",
    "Verif.C40_exact_partial"
   ],
   "note": "Regular types, canonical values. The `_false` theorems give concrete counterexamples for the excluded cases (PropsBugs.lean)."
  },
  {
   "property": "C41",
   "status": "partial",
   "theorems": [
    "Verif.C41_messages_written_partial",
    "Verif.C41_messages_stream_partial",
    "Verif.C41_messages_buffer_partial"
   ],
   "note": "Lists of messages of arbitrary types; the exceptions of C01 and, on streams, peek_tag are excluded"
  },
  {
   "property": "C42",
   "status": "proved",
   "theorems": [
    "Verif.C42_no_wrong_value",
    "Verif.C42_cause",
    "Verif.C42_failure_surfaces",
    "Verif.C42_interrupted_failure"
   ],
   "note": "All types without end-of-input sensitive fields, all sources (any pieces, any failures), both stream readers"
  },
  {
   "property": "C43",
   "status": "partial",
   "theorems": [
    "Verif.C43_same_length",
    "Verif.C43_same_length_vec_partial",
    "Verif.C43_bytes_only_partial",
    "Verif.C43_swapped_partial",
    "Verif.C43_false"
   ],
   "note": "Same length for all types. The big-endian encoding is the little-endian one with the bytes of numbers reversed (all types but IPv6 addresses and sliceOk). Equality for types of single bytes, flags, varints and strings with one-byte or varint lengths; false for strings with the usual length prefix (C43_false)."
  },
  {
   "property": "C44",
   "status": "partial",
   "theorems": [
    "Verif.C44_written_partial",
    "Verif.C44_round_trip_partial",
    "Verif.C44_round_trip_copying_partial",
    "Verif.C44_round_trip_stream_partial",
    "Verif.C44_minimum"
   ],
   "note": "Groups of any number of types which contain themselves and each other are templates unrolled to any depth; conditions are checked for two unrollings (group_ok decides them) and hold for all. Missing: the exceptions of C01."
  },
  {
   "property": "C45",
   "status": "partial",
   "theorems": [
    "Verif.C45_cow",
    "Verif.C45_ref_partial",
    "Verif.C45_false"
   ],
   "note": "False for &[T] and &[T; N] (C45_false): the address is that of the next byte (C45_ref_partial). Proved for what Cow borrows (C45_cow)."
  },
  {
   "property": "C46",
   "status": "partial",
   "theorems": [
    "Verif.C46_borrows_partial",
    "Verif.C46_only_when",
    "Verif.C46_right_part",
    "Verif.C46_copying",
    "Verif.C46_who_copies",
    "Verif.C46_decode",
    "Verif.C46_str_decode",
    "Verif.C46_str",
    "Verif.C46_str_copying",
    "Verif.C46_false"
   ],
   "note": "Proved in both directions for read_cow and Cow<str>. False for length = .. (always copied) and for lengths whose product with the size wraps around (C46_false)."
  },
  {
   "property": "C47",
   "status": "partial",
   "theorems": [
    "Verif.C47_count_partial",
    "Verif.C47_prefix_partial",
    "Verif.C47_false"
   ],
   "note": "False for Cow<[T]> whose size overflows usize (C47_false)."
  },
  {
   "property": "C48",
   "status": "partial",
   "theorems": [
    "Verif.C48_no_loss_partial",
    "Verif.C48_in_order",
    "Verif.C48_false"
   ],
   "note": "A failing read_exact loses bytes: proved false after a failing read."
  },
  {
   "property": "C49",
   "status": "partial",
   "theorems": [
    "Verif.C49_date_time",
    "Verif.C49_date_time_panics",
    "Verif.C49_bvec_read",
    "Verif.C49_bvec_write",
    "Verif.C49_regex_rejected",
    "Verif.C49_regex",
    "Verif.C49_index_map_partial"
   ],
   "note": "False for DateTime (C49_date_time_panics). IndexMap under the conditions of C01; SmallVec, IndexSet and glam vectors are types covered by C01."
  },
  {
   "property": "C50",
   "status": "proved",
   "theorems": [
    "Verif.C50_convert",
    "Verif.C50_checked",
    "Verif.C50_not_eof"
   ],
   "note": "For every reader, without assumptions about it."
  },
  {
   "property": "C51",
   "status": "partial",
   "theorems": [
    "Verif.C51_vec_defined_partial",
    "Verif.C51_vec_partial",
    "Verif.C51_array",
    "Verif.C51_false_zst",
    "Verif.C51_capacity_false",
    "Verif.C51_refused"
   ],
   "note": "Arrays: completely. Vectors: elements of non-zero size, and with_capacity reserving exactly what is asked for; false otherwise. A panic while reading an element of a vector leaks the elements read before it."
  },
  {
   "property": "C52",
   "status": "partial",
   "theorems": [
    "Verif.C52_write_to",
    "Verif.C52_stream",
    "Verif.C52_file",
    "Verif.C52_bytes_needed_partial",
    "Verif.C52_vec_partial",
    "Verif.C52_buffer_partial",
    "Verif.C52_false",
    "Verif.C03_C04_false_overflow"
   ],
   "note": "Complete for write_to, streams and files. bytes_needed, write_to_vec and write_to_buffer: containers of fewer than 2^63 - 1 items (false otherwise); UnexpectedEndOfOutputBuffer remains for the cases in which bytes_needed is too small (C03)."
  },
  {
   "property": "C53",
   "status": "partial",
   "theorems": [
    "Verif.C53_file_round_trip_partial",
    "Verif.C53_no_other_value_partial",
    "Verif.C53_platforms_agree_partial",
    "Verif.C53_unmapped",
    "Verif.C53_os_errors",
    "Verif.C53_false",
    "Verif.C53_not_opened",
    "Verif.C53_too_large"
   ],
   "note": "False for files whose size is reported as zero (pipes, /proc) on Linux. Otherwise the exceptions of C01, C10, C12; the file does not change while it is being read."
  },
  {
   "property": "C54",
   "status": "partial",
   "theorems": [
    "Verif.C54_written",
    "Verif.C54_read_partial",
    "Verif.C54_read_buffer_partial",
    "Verif.C54_own_size",
    "Verif.C54_vec_partial",
    "Verif.C54_false_vec",
    "Verif.C54_false"
   ],
   "note": "Streams and reading: complete up to the exceptions of C01. False for write_to_vec and write_to_buffer with the default bytes_needed, for every implementation which looks at the context (C54_false_vec)."
  },
  {
   "property": "C55",
   "status": "proved",
   "theorems": [
    "Verif.C55_written",
    "Verif.C55_read",
    "Verif.C55_truncated",
    "Verif.C55_distinct",
    "Verif.C55_readers_agree",
    "Verif.C55_valid",
    "Verif.C55_no_panic"
   ],
   "note": "Plain data as described by the predicate plain; layoutOk and declOk are what the compiler and the macro guarantee. lengthsFit and ample spell out the two provisos of the statement."
  },
  {
   "property": "C56",
   "status": "partial",
   "theorems": [
    "Verif.C56_portable_partial",
    "Verif.C56_portable_plain",
    "Verif.C56_never_disagree",
    "Verif.C56_no_other_value",
    "Verif.C56_false"
   ],
   "note": "Proved for plain data, and the round trip for all types admitted by C01, without Ipv6Addr or between machines of the same byte order; false for Ipv6Addr (C56_false)."
  },
  {
   "property": "C57",
   "status": "partial",
   "theorems": [
    "Verif.C57_spelling",
    "Verif.C57_same_format_partial",
    "Verif.C57_read_partial",
    "Verif.C57_plain",
    "Verif.C57_accepted",
    "Verif.C57_false",
    "Verif.synFields_raw",
    "Verif.parseOpt_meaning"
   ],
   "note": "Formats agree for regular types; fields with default_on_eof may be read differently when the input is cut (C57_false)."
  },
  {
   "property": "C58",
   "status": "partial",
   "theorems": [
    "Verif.C58_returns_partial",
    "Verif.C58_result",
    "Verif.C58_enum",
    "Verif.C58_value",
    "Verif.C58_false",
    "Verif.program_unrolls",
    "Verif.C58_trusted"
   ],
   "note": "Types with a value in which no array of length zero has elements without a value; for those the code calls itself without end (C58_false)."
  },
  {
   "property": "C59",
   "status": "proved",
   "theorems": [
    "Verif.C59_utf8",
    "Verif.C59_distinct",
    "Verif.C59_only_text",
    "Verif.C59_only_chars",
    "Verif.C59_read",
    "Verif.C59_read_char",
    "Verif.C59_written",
    "Verif.C59_round_trip"
   ],
   "note": "&str can only be read with readers which can borrow (Borrows)."
  },
  {
   "property": "C60",
   "status": "partial",
   "theorems": [
    "Verif.C60_stream_partial",
    "Verif.C60_program_partial",
    "Verif.C60_vec",
    "Verif.C60_same_model",
    "Verif.C60_false",
    "Verif.C60_false_seen"
   ],
   "note": "Writing: completely. Reading: all streams which keep the contract of Read; false for others (C60_false, C60_false_seen)."
  },
  {
   "property": "C61",
   "status": "proved",
   "theorems": [
    "Verif.C61_replay",
    "Verif.C61_read"
   ],
   "note": "All streams meeting the two conditions, all types and also hand-written readers. Consequences, with the conditions of C11, C13 and C42: a value read is that which read_from_buffer returns for the bytes delivered (C61_value_partial), without buffering no other byte is asked for (C61_exact_partial), and errors have one of three causes (C61_error)."
  },
  {
   "property": "C62",
   "status": "proved",
   "theorems": [
    "Verif.C62_read",
    "Verif.C62_buffer",
    "Verif.C62_buffer_copying",
    "Verif.C62_stream",
    "Verif.C62_strict",
    "Verif.C62_lax",
    "Verif.C62_contract",
    "Verif.C62_panic"
   ],
   "note": "For all error types which satisfy the contract (or types which never ask for the end of the input), all readers and states, and the entry points. C62_contract shows that the contract is needed. Errors which a hand-written implementation makes itself, in the user's type, are not modelled."
  },
  {
   "property": "C63",
   "status": "proved",
   "theorems": [
    "Verif.C63_calls",
    "Verif.C63_writer",
    "Verif.C63_replay",
    "Verif.C63_ends",
    "Verif.C63_endless",
    "Verif.C63_accepted"
   ],
   "note": "All write programs, hence all types and values; C63_replay reduces any implementation of write to a Sink. write_all is that of the standard library (a stream may also override it: C63_calls)."
  },
  {
   "property": "C64",
   "status": "partial",
   "theorems": [
    "Verif.C64_closed",
    "Verif.C64_needed",
    "Verif.C64_needed_params",
    "Verif.C64_no_params",
    "Verif.C64_read_partial",
    "Verif.C64_write_partial",
    "Verif.C64_header_partial",
    "Verif.C64_variant_partial",
    "Verif.C64_false_option",
    "Verif.C64_false_reference",
    "Verif.C64_false_skip",
    "Verif.C64_false_const",
    "Verif.C64_false_variant"
   ],
   "note": "All declarations, up to those for which it is false (negations proved): Option of a parameter, borrowed slices of a parameter in structs which may be plain memory, skip in transparent structs and in variants, constant parameters. Bounds with other traits (Hash, Ord, Clone, Default) are the user's and left out."
  },
  {
   "property": "C65",
   "status": "partial",
   "theorems": [
    "Verif.C65_calls_partial",
    "Verif.C65_buffer_partial",
    "Verif.C65_stream_partial",
    "Verif.C65_six_partial",
    "Verif.C65_recursive_partial",
    "Verif.C65_nested_partial",
    "Verif.C65_false_default",
    "Verif.C65_false_peek"
   ],
   "note": "False for elements which need not take bytes (all fields default_on_eof, peek_tag). Recursive types with all attributes are covered, with constants which do not depend on the depth. Calls of the Reader interface are counted; loops which call nothing (elements without memory) are not counted."
  },
  {
   "property": "C66",
   "status": "partial",
   "theorems": [
    "Verif.C66_same_bytes_partial",
    "Verif.C66_same_bytes_copying_partial",
    "Verif.C66_same_bytes_stream_partial",
    "Verif.C66_flags_partial",
    "Verif.C66_typed_partial",
    "Verif.C66_again_partial",
    "Verif.C66_normal_partial",
    "Verif.C66_false_flag",
    "Verif.C66_false_varint",
    "Verif.C66_false_set",
    "Verif.C66_false_map",
    "Verif.C66_false_duration",
    "Verif.C66_false_default",
    "Verif.C66_false_refused",
    "Verif.C66_false_peek"
   ],
   "note": "Exact for types with one representation of each value, up to flags with bool/Option/Result, and up to one round for all agreeable types without peek_tag. The code violates it for the types of the _false theorems."
  },
  {
   "property": "C67",
   "status": "partial",
   "theorems": [
    "Verif.C67_declared",
    "Verif.C67_written_partial",
    "Verif.C67_old_data_partial",
    "Verif.C67_old_data_stream_partial",
    "Verif.C67_new_data_partial",
    "Verif.C67_any_input_partial",
    "Verif.C67_any_input_stream_partial",
    "Verif.C67_unknown_partial",
    "Verif.C67_unknown_stream_partial",
    "Verif.C67_false_middle",
    "Verif.C67_false_only"
   ],
   "note": "For regular (any input: agreeable) types. False for Vec of a one-variant enum without fields."
  },
  {
   "property": "C68",
   "status": "partial",
   "theorems": [
    "Verif.C68_read_partial",
    "Verif.C68_read_copying_partial",
    "Verif.C68_pointers",
    "Verif.C68_stream_partial",
    "Verif.C68_bytes_needed_only_partial",
    "Verif.C68_vec_only_partial",
    "Verif.C68_bytes_needed_partial",
    "Verif.C68_vec_partial",
    "Verif.C68_buffer_partial",
    "Verif.C68_false_read",
    "Verif.C68_false_write",
    "Verif.C68_false_assert",
    "Verif.C68_minimum_partial",
    "Verif.C68_minimum_read_partial",
    "Verif.C68_false_minimum"
   ],
   "note": "False as stated (C68_false_*). Reading: equal for every type on 64-bit targets and for every type without a Cow of a slice whose size can exceed usize; writing: equal where a release build succeeds and sizes are right, otherwise the only difference is a panic. The minimum of a type is the same or a panic."
  },
  {
   "property": "C69",
   "status": "partial",
   "theorems": [
    "Verif.C69_fields",
    "Verif.C69_variants",
    "Verif.C69_enum",
    "Verif.C69_struct",
    "Verif.C69_collected",
    "Verif.C69_once",
    "Verif.C69_once_variant",
    "Verif.C69_once_struct",
    "Verif.C69_once_enum",
    "Verif.C69_declared",
    "Verif.C69_tokens",
    "Verif.C69_repr_partial",
    "Verif.C69_false_repr",
    "Verif.C69_prefix",
    "Verif.C69_prefix_partial",
    "Verif.C69_false_prefix"
   ],
   "note": "Order and grouping of the items of #[speedy(...)] proved for fields, variants, enums and structs, from the tokens on (C69_tokens); false for several #[repr(...)] and for i8 literals (witnesses). Not distinguished: which of several errors is reported."
  },
  {
   "property": "C70",
   "status": "partial",
   "theorems": [
    "Verif.C70_down_up",
    "Verif.C70_new_reads_old_partial",
    "Verif.C70_new_reads_old_copying_partial",
    "Verif.C70_new_reads_old_stream_partial",
    "Verif.C70_old_reads_new_partial",
    "Verif.C70_old_reads_new_copying_partial",
    "Verif.C70_old_reads_new_stream_partial",
    "Verif.C70_false_inside",
    "Verif.C70_false_unmarked"
   ],
   "note": "Missing: the types and values excluded in C01 and C23 (regular, canon, fillable; fields after length = ..)."
  },
  {
   "property": "C71",
   "status": "proved",
   "theorems": [
    "Verif.C71_vec",
    "Verif.C71_buffer",
    "Verif.C71_can_write",
    "Verif.C71_stream",
    "Verif.C71_enough",
    "Verif.C71_default",
    "Verif.C71_default_vec",
    "Verif.C71_changed",
    "Verif.C71_false_ask",
    "Verif.C71_false_context"
   ],
   "note": "release builds; the context's error type is the default one"
  },
  {
   "property": "C72",
   "status": "proved",
   "theorems": [
    "Verif.C72_slice",
    "Verif.C72_copying",
    "Verif.C72_stream",
    "Verif.C72_agree",
    "Verif.C72_number",
    "Verif.C72_false_goes_on",
    "Verif.C72_value"
   ],
   "note": "Programs which go on after a failed read are included for slices; with an unbuffered stream they are not in the statement (C72_false_goes_on)."
  },
  {
   "property": "C73",
   "status": "proved",
   "theorems": [
    "Verif.C73_field",
    "Verif.C73_variant",
    "Verif.C73_enum",
    "Verif.C73_struct",
    "Verif.C73_rejected_struct",
    "Verif.C73_rejected_enum",
    "Verif.C73_attributes"
   ],
   "note": "Expressions are parsed by syn; the grammar of expressions is a parameter with two laws (ExprLaws): what is taken is an expression, and an expression before a comma or the end is taken whole."
  },
  {
   "property": "C74",
   "status": "partial",
   "theorems": [
    "Verif.C74_written_partial",
    "Verif.C74_read_partial",
    "Verif.C74_read_copying_partial",
    "Verif.C74_read_stream_partial"
   ],
   "note": "For the exceptions of C01 and C03 on either type (regular, canon, sliceOk) it is false there."
  },
  {
   "property": "C75",
   "status": "proved",
   "theorems": [
    "Verif.C75_fields",
    "Verif.C75_struct",
    "Verif.C75_enum",
    "Verif.C75_derive",
    "Verif.FieldRule.unique"
   ],
   "note": "Attributes as written, any number of them, to the derived type; tokens to items is C73, recognising types by their names C57."
  },
  {
   "property": "C76",
   "status": "partial",
   "theorems": [
    "Verif.C76_ends_partial",
    "Verif.C76_unroll_partial",
    "Verif.C76_no_limit",
    "Verif.C76_false_peek",
    "Verif.C76_false_rest"
   ],
   "note": "Proved for all groups of types in which a byte is consumed before the type itself is read (decidable), with computation of the minimum size ending. False otherwise, with two witnesses: peek_tag before the type itself, and length = .. of the type itself without anything before. The calls of the real function are those of its unrollings."
  },
  {
   "property": "C77",
   "status": "proved",
   "theorems": [
    "Verif.C77_file_prefix"
   ],
   "note": "All types and values, all behaviours of the file. The result may be Ok although the last bytes did not reach the file: that is C34."
  },
  {
   "property": "C78",
   "status": "partial",
   "theorems": [
    "Verif.C78_buffer_partial",
    "Verif.C78_stream_partial",
    "Verif.C78_reservations_partial"
   ],
   "note": "All groups of recursive types which satisfy the conditions of C29, C31, C32 and C76 (checked for two unrollings); for the types excluded there it is false. Use of the stack is not modelled (it grows with the input: C76_no_limit)."
  },
  {
   "property": "C79",
   "status": "partial",
   "theorems": [
    "Verif.C79_buffers_partial",
    "Verif.C79_streams_partial",
    "Verif.C79_reported_length_partial",
    "Verif.C79_self_delimiting_partial",
    "Verif.C79_truncated_partial"
   ],
   "note": "All groups of recursive types which satisfy the conditions of C01, C10, C11 and C76 (decidable, checked for two unrollings); for the types excluded there the claims are false (witnesses in those properties)."
  },
  {
   "property": "C80",
   "status": "partial",
   "theorems": [
    "Verif.C80_iterator_partial",
    "Verif.C80_collect_partial",
    "Verif.C80_elements",
    "Verif.C80_set_partial",
    "Verif.C80_map_partial",
    "Verif.C80_false_zst"
   ],
   "note": "All element types, lengths, addresses and collections; zero-sized elements are the exception, for which the claim is false (witness)."
  },
  {
   "property": "C81",
   "status": "proved",
   "theorems": [
    "Verif.C81_read",
    "Verif.C81_read_back",
    "Verif.C81_signed",
    "Verif.C81_swap",
    "Verif.C81_swap_twice",
    "Verif.C81_slice",
    "Verif.C81_bytes"
   ],
   "note": "All widths, byte orders and machines. Floating point numbers are handled as integers of the same size by the code, and so by the model."
  },
  {
   "property": "C82",
   "status": "proved",
   "theorems": [
    "Verif.C82_reader",
    "Verif.C82_stream",
    "Verif.C82_copying",
    "Verif.C82_file",
    "Verif.C82_stream_refused",
    "Verif.C82_copying_refused",
    "Verif.C82_cow"
   ],
   "note": "All types, all readers which do not lend (stream, copying buffer, file, hand-written)."
  },
  {
   "property": "C83",
   "status": "partial",
   "theorems": [
    "Verif.C83_place_partial",
    "Verif.C83_value_partial",
    "Verif.C83_cow",
    "Verif.C83_false",
    "Verif.C83_false_empty"
   ],
   "note": "All types, errors and reported lengths; excluded (and false there): Cow<[T]> of aligned elements whose length * size wraps around usize, or which have no size. For read_cow with a given length the condition is exact (C83_cow)."
  },
  {
   "property": "C84",
   "status": "proved",
   "theorems": [
    "Verif.C84_reader",
    "Verif.C84_buffer",
    "Verif.C84_refused",
    "Verif.C84_native"
   ],
   "note": "Any reader, any type."
  },
  {
   "property": "C85",
   "status": "partial",
   "theorems": [
    "Verif.C85_final_partial",
    "Verif.C85_final_copying_partial",
    "Verif.C85_final_stream_partial",
    "Verif.C85_feed_partial",
    "Verif.C85_feed_copying_partial",
    "Verif.C85_feed_moving_partial",
    "Verif.C85_message_partial",
    "Verif.C85_false"
   ],
   "note": "all types without length = .. and default_on_eof, for which it is false (C85_false); messages: with the exceptions of C01; moving non-copying buffers: types as in C83"
  },
  {
   "property": "C86",
   "status": "partial",
   "theorems": [
    "Verif.C86_memory_partial",
    "Verif.C86_buffer_partial",
    "Verif.C86_stream_partial",
    "Verif.C86_rate_partial",
    "Verif.C86_recursive_partial",
    "Verif.C86_false"
   ],
   "note": "Any reader, buffers, streams; recursive types with constants independent of the depth. Missing: types with a loop of elements which may take no byte (steady, bears), for which it is false (C86_false); unused capacity, the tables of sets and maps and what conversions make are not counted."
  },
  {
   "property": "C87",
   "status": "partial",
   "theorems": [
    "Verif.C87_read",
    "Verif.C87_write",
    "Verif.C87_rename",
    "Verif.C87_compiles",
    "Verif.C87_enum_partial",
    "Verif.C87_enum_rename_partial",
    "Verif.C87_false"
   ],
   "note": "Structs completely; enums if no field is called kind_, since C87_false shows that the macro's variable of this name is captured by a length expression. Only names are checked, not the types of values."
  },
  {
   "property": "C88",
   "status": "proved",
   "theorems": [
    "Verif.C88_whole"
   ],
   "note": "All values, buffers and positions."
  },
  {
   "property": "C89",
   "status": "proved",
   "theorems": [
    "Verif.C89_read_slice",
    "Verif.C89_read_str",
    "Verif.C89_write_slice",
    "Verif.C89_write_str"
   ],
   "note": "Any reader and writer, any answers. The exception of owned slices with length = .. is in the quantifier (shown by an example). unsafe_is_primitive is C28."
  },
  {
   "property": "C90",
   "status": "proved",
   "theorems": [
    "Verif.C90_calls"
   ],
   "note": "All modelled types and values, any writer, any answers."
  },
  {
   "property": "C91",
   "status": "proved",
   "theorems": [
    "Verif.C91_reader",
    "Verif.C91_buffer",
    "Verif.C91_copying",
    "Verif.C91_stream",
    "Verif.C91_not_writing"
   ],
   "note": "Reasons: separate function on type declarations (reason). Panics and endless loops excluded as the statement says (C32)."
  },
  {
   "property": "C92",
   "status": "proved",
   "theorems": [
    "Verif.C92_text",
    "Verif.C92_io",
    "Verif.C92_convert",
    "Verif.C92_converted",
    "Verif.C92_source",
    "Verif.C92_model",
    "Verif.C92_too_small",
    "Verif.C92_no_room",
    "Verif.C92_same_text"
   ],
   "note": "The exception for constants is shown by C92_same_text."
  },
  {
   "property": "C93",
   "status": "partial",
   "theorems": [
    "Verif.C93_slice_partial",
    "Verif.C93_array_partial",
    "Verif.C93_mismatch",
    "Verif.C93_numbers",
    "Verif.C93_valid",
    "Verif.C93_aligned",
    "Verif.C93_false"
   ],
   "note": "Missing: element types with attributes, for which it is false (C93_false), and one-byte elements in the other byte order for which Vec<T> panics (C27_false). C93_mismatch, C93_valid and C93_aligned hold for all element types (unsafe_is_primitive is not modelled)."
  },
  {
   "property": "C94",
   "status": "proved",
   "theorems": [
    "Verif.C94_erase",
    "Verif.C94_named",
    "Verif.C94_first",
    "Verif.C94_refused",
    "Verif.C94_enum",
    "Verif.C94_enum_first",
    "Verif.C94_enum_refused",
    "Verif.C94_enum_erase",
    "Verif.C94_text"
   ],
   "note": "All structs and enums, values, byte orders and writers. Errors made by the code of an inner derived type have no name at the outer level of the model; the claim is about the fields of the type itself."
  },
  {
   "property": "C95",
   "status": "partial",
   "theorems": [
    "Verif.C95_written_partial",
    "Verif.C95_parts_partial",
    "Verif.C95_stream_partial",
    "Verif.C95_read_whole_partial",
    "Verif.C95_read_parts_partial",
    "Verif.C95_read_stream_partial"
   ],
   "note": "Missing: types whose format differs from the documented one or which do not round-trip (as C03, C01, C41); for reading in parts each part has to end where its bytes end, and on streams parts with peek_tag."
  },
  {
   "property": "C96",
   "status": "partial",
   "theorems": [
    "Verif.C96_written_partial",
    "Verif.C96_position_partial",
    "Verif.C96_read_partial",
    "Verif.C96_overwrite_partial",
    "Verif.C96_element_partial",
    "Verif.C96_read_element_partial",
    "Verif.C96_overwrite_element_partial",
    "Verif.C96_consumed_partial",
    "Verif.C96_consumed_copying_partial",
    "Verif.C96_stream_partial",
    "Verif.C96_short_partial",
    "Verif.C96_enough_partial",
    "Verif.C96_after_partial"
   ],
   "note": "Missing: as for the format (C03) and the round trip (C01): types which are not regular, lengths which do not fit; reading arbitrary bytes (C96_consumed_partial, C96_short_partial, C96_enough_partial, C96_after_partial) for the types of C10."
  }
 ]
}
