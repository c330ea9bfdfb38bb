{"id": "C01", "title": "Write then read gives back the value", "statement": "For every type built from the supported types and derive attributes, writing a value with a given endianness and reading the resulting bytes back with the same endianness through read_from_buffer returns an equal value.", "quantifier": "all types (nested to any depth, derived structs and enums with any attributes), all values of them, both endiannesses, both host byte orders", "why_tests_cant": "The set of types and values is infinite; the test-suite fixes about three hundred type/value pairs on one host.", "anchors": ["src/readable_impl.rs", "src/writable_impl.rs", "speedy-derive/src/lib.rs: impl_readable, impl_writable", "src/readable.rs: read_from_buffer_with_ctx", "src/writable.rs: write_to_vec_with_ctx"]}
{"id": "C02", "title": "Documented byte format, independent of the host", "statement": "The bytes written for a value are exactly the ones given by the table in README.md for its type and the chosen endianness; they do not depend on the byte order of the machine that writes them.", "quantifier": "all supported types and values, both endiannesses, both host byte orders", "why_tests_cant": "Tests run on one host only and check sample values; host independence is a statement about machines the tests never run on.", "anchors": ["README.md: Supported types", "src/writer.rs", "src/writable_impl.rs", "src/endianness.rs"]}
{"id": "C03", "title": "bytes_needed is the number of bytes written", "statement": "If writing a value succeeds then bytes_needed() returned Ok(n) with n equal to the number of bytes every write function emits, for either endianness.", "quantifier": "all types, all values, both endiannesses", "why_tests_cant": "bytes_needed is implemented separately from write_to for each type; only a proof over all values shows that the two never diverge.", "anchors": ["src/writable.rs: bytes_needed, SizeCalculatorCollector", "src/writable_impl.rs: bytes_needed"]}
{"id": "C04", "title": "write_to_vec, write_to_buffer and write_to_stream emit the same bytes", "statement": "For one value and endianness, the vector returned by write_to_vec, the first bytes_needed() bytes of a large enough buffer passed to write_to_buffer, and everything received by a working stream passed to write_to_stream are equal; they fail together.", "quantifier": "all types, values, endiannesses, buffer contents and lengths, all patterns of short writes of the stream", "why_tests_cant": "The three use different collectors; agreement on every value and every short-write pattern is not enumerable.", "anchors": ["src/writable.rs: BufferCollector, WritingCollector, write_to_vec_with_ctx_mut, write_to_buffer_with_ctx_mut, write_to_stream_with_ctx"]}
{"id": "C05", "title": "write_to_buffer stays in its buffer and is all-or-nothing on size", "statement": "If the buffer is shorter than bytes_needed(), write_to_buffer returns OutputBufferIsTooSmall with both sizes and leaves the buffer unchanged; otherwise no byte at or after position bytes_needed() is changed.", "quantifier": "all types, values, buffers", "why_tests_cant": "Needs every buffer length and content.", "anchors": ["src/writable.rs: write_to_buffer_with_ctx_mut, BufferCollector::write_bytes"]}
{"id": "C06", "title": "Encodings are self-delimiting", "statement": "Reading the encoding of a value followed by arbitrary other bytes returns the value, reports exactly the length of the encoding as consumed and leaves the following bytes to be read next.", "quantifier": "all types without a read-until-end-of-input field, all values, all trailing bytes", "why_tests_cant": "Trailing bytes are arbitrary.", "anchors": ["src/readable.rs: read_with_length_from_buffer_with_ctx", "src/readable_impl.rs"]}
{"id": "C07", "title": "A truncated encoding is never accepted", "statement": "Reading any strict prefix of the encoding of a value returns an error which is an end-of-input error or InputBufferIsTooSmall; it never returns a value.", "quantifier": "all types without default_on_eof or read-until-end fields, all values, all truncation points, every reader", "why_tests_cant": "Each value has as many truncation points as bytes.", "anchors": ["src/readable.rs", "src/reader.rs", "src/error.rs: is_eof"]}
{"id": "C08", "title": "minimum_bytes_needed is a true lower bound", "statement": "No successful read of a type consumes fewer bytes than the type's minimum_bytes_needed().", "quantifier": "all types, all inputs", "why_tests_cant": "The bound is used to reject inputs before reading them, so one input below it would be a lost message; tests check one number per type.", "anchors": ["src/readable_impl.rs: minimum_bytes_needed", "speedy-derive/src/lib.rs: get_minimum_bytes, impl_readable"]}
{"id": "C09", "title": "Reported length is the length used", "statement": "When read_with_length_from_buffer succeeds with consumed length n, n is at most the buffer length, and reading only the first n bytes gives the same value and the same n.", "quantifier": "all types without end-of-input sensitive fields, all buffers", "why_tests_cant": "All input buffers, valid or not.", "anchors": ["src/readable.rs: read_with_length_from_buffer_with_ctx, read_with_length_from_buffer_copying_data_with_ctx_mut"]}
{"id": "C10", "title": "Zero-copy and copying buffer reads agree", "statement": "read_from_buffer and read_from_buffer_copying_data succeed on the same inputs, with the same value and the same consumed length (for types which do not hold borrowed references).", "quantifier": "all owned types, all buffers, both endiannesses, any alignment of the buffer", "why_tests_cant": "They take different code paths (borrowed slices, alignment checks); the address of the buffer is an input tests do not control.", "anchors": ["src/readable.rs: BufferReader, CopyingBufferReader", "src/reader.rs: read_cow, read_collection, read_key_value_collection", "src/private.rs: read_constant"]}
{"id": "C11", "title": "Unbuffered stream reads agree with buffer reads", "statement": "read_from_stream_unbuffered returns a value exactly when read_from_buffer on the stream's whole contents does, and it is the same value, whatever the sizes of the pieces the stream delivers.", "quantifier": "all types without end-of-input sensitive fields, all inputs, all ways of splitting the input into read() results", "why_tests_cant": "Number of splittings is exponential in input length.", "anchors": ["src/readable.rs: StreamReader", "src/reader.rs"]}
{"id": "C12", "title": "Buffered stream reads agree with buffer reads", "statement": "The same for read_from_stream_buffered.", "quantifier": "all types without end-of-input sensitive fields, all inputs, all ways of splitting the input, any growth policy of the internal buffer", "why_tests_cant": "Wrap-around of the 8 KiB circular buffer depends on long histories of reads of different sizes.", "anchors": ["src/readable.rs: StreamReader::read_bytes_slow, peek_bytes", "src/circular_buffer.rs"]}
{"id": "C13", "title": "Unbuffered reads take nothing more than the value from the stream", "statement": "After a successful read_from_stream_unbuffered the stream is positioned exactly after the bytes of the value, so that values written one after another are read one after another by repeated calls.", "quantifier": "all types, all values and sequences of values, all ways of splitting the stream", "why_tests_cant": "A statement on positions after every possible read of every type.", "anchors": ["src/readable.rs: read_from_stream_unbuffered, StreamReader"]}
{"id": "C14", "title": "The circular buffer is a first-in first-out byte queue", "statement": "For every sequence of appends (accepting any number of the offered bytes), reserves, consumes and slices, the circular buffer returns precisely the bytes appended, in order, and never panics; it offers a non-empty range whenever room was requested.", "quantifier": "all operation histories, all capacities and growth policies, all append sizes", "why_tests_cant": "State space of positions, lengths and capacities is unbounded; tests walk a few dozen steps.", "anchors": ["src/circular_buffer.rs"]}
{"id": "C15", "title": "Peeking does not consume and shows what will be read", "statement": "A successful peek_X returns what the following read_X returns, and any sequence of reads after a peek gives the same as without it.", "quantifier": "all peek methods, all reader kinds and reader states, both endiannesses", "why_tests_cant": "Depends on the state of the internal buffer and on stream splitting.", "anchors": ["src/reader.rs: peek_u8 .. peek_f64, peek_u64_varint", "src/readable.rs: peek_bytes", "src/varint.rs: peek_from"]}
{"id": "C16", "title": "Varint round trip", "statement": "Writing any u64 as a varint and reading it back gives the same number and consumes exactly the bytes written, in either endianness and on either host.", "quantifier": "all 2^64 values, all trailing bytes", "why_tests_cant": "2^64 values.", "anchors": ["src/varint.rs"]}
{"id": "C17", "title": "Varint length is minimal and as documented", "statement": "A value of b significant bits takes ceil(b/7) bytes (one for zero), at most nine; bytes_needed says so; no shorter sequence of bytes reads back as that value; the length grows monotonically with the value.", "quantifier": "all 2^64 values, all byte sequences", "why_tests_cant": "2^64 values; minimality compares against every other byte sequence.", "anchors": ["src/varint.rs: get_length, write_to, bytes_needed"]}
{"id": "C18", "title": "Varint reading is total", "statement": "Every byte sequence with at least nine bytes begins with a readable varint; reading never panics, depends on nothing but the bytes covered by the first byte, and fails only with an end-of-input error when these are missing.", "quantifier": "all byte sequences", "why_tests_cant": "All byte sequences.", "anchors": ["src/varint.rs: impl_read"]}
{"id": "C19", "title": "Signed varint conversion is invertible", "statement": "For every i64, i64::from(VarInt64::from(x)) == x; and values of small magnitude, negative or not, get short encodings.", "quantifier": "all 2^64 signed values", "why_tests_cant": "2^64 values.", "anchors": ["src/varint.rs: From<i64> for VarInt64, From<VarInt64> for i64"]}
{"id": "C20", "title": "Length prefixes are range checked", "statement": "Writing a container whose length does not fit its length type fails with OutOfRangeLength without emitting any byte of that container, and any length that fits is read back exactly; reading an u7 length above 127 fails.", "quantifier": "all length types, all lengths", "why_tests_cant": "Lengths up to 2^64.", "anchors": ["src/private.rs: write_length_*, read_length_*"]}
{"id": "C21", "title": "Enum tags are unambiguous", "statement": "Whenever the derive macro accepts an enum, its variants have pairwise different tags which all fit in the tag type, tags given explicitly are respected, and reading an unknown tag fails with InvalidEnumVariant.", "quantifier": "all enum declarations, all tag values", "why_tests_cant": "All declarations.", "anchors": ["speedy-derive/src/lib.rs: Enum::new, impl_readable"]}
{"id": "C22", "title": "constant_prefix is enforced", "statement": "A field with a constant prefix is written with the prefix in front; reading succeeds only if the prefix bytes are present, and fails with ExpectedConstant when different bytes are there.", "quantifier": "all prefixes, field types and inputs, every reader", "why_tests_cant": "All prefixes and inputs.", "anchors": ["src/private.rs: read_constant", "speedy-derive/src/lib.rs: read_field_body, write_field_body"]}
{"id": "C23", "title": "default_on_eof fills in missing trailing fields and nothing else", "statement": "If the input ends just before a field marked default_on_eof (and all later fields are marked too), that field and the later ones get their default values; an error other than end of input is not masked; complete inputs are read as without the attribute.", "quantifier": "all structs, all field types, all cut points at field boundaries, every reader", "why_tests_cant": "All structs and inputs.", "anchors": ["speedy-derive/src/lib.rs: default_on_eof_body, read_field_body"]}
{"id": "C24", "title": "length attribute is enforced", "statement": "Writing a struct whose container length differs from its length expression fails with LengthIsNotTheSameAsLengthAttribute; otherwise the elements are written without prefix and reading takes exactly that many elements.", "quantifier": "all length expressions, field values", "why_tests_cant": "Expression and values arbitrary.", "anchors": ["speedy-derive/src/lib.rs: write_field_body, read_field_body", "src/private.rs: are_lengths_the_same"]}
{"id": "C25", "title": "skip leaves no trace in the bytes", "statement": "A skipped field contributes no bytes; two values that differ only in skipped fields have the same encoding; reading gives the field its default and the other fields their values.", "quantifier": "all structs, positions of skipped fields, values", "why_tests_cant": "All structs and values.", "anchors": ["speedy-derive/src/lib.rs: writable_body, read_field_body"]}
{"id": "C26", "title": "Maps and sets keep their contents in any order", "statement": "Reading back a written map or set gives the same set of entries whatever order its iterator produced; when the input repeats a key the last entry wins and the number of entries shrinks accordingly.", "quantifier": "all maps and sets, all iteration orders, all inputs with repeated keys", "why_tests_cant": "Iteration orders are factorially many and randomised for HashMap.", "anchors": ["src/readable_impl.rs: BTreeMap, HashMap, BTreeSet, HashSet", "src/reader.rs: read_key_value_collection, read_collection", "src/writable_impl.rs"]}
{"id": "C27", "title": "The fast path for slices of primitives is invisible", "statement": "For element types which are copied in bulk, the bytes written and values read are the same as when the elements are written and read one at a time, in both endiannesses on both hosts.", "quantifier": "all primitive types including derived structs, all slices, both endiannesses, both hosts", "why_tests_cant": "The choice of path depends on host endianness, type layout and reader; all combinations are not testable on one host.", "anchors": ["src/writer.rs: write_slice", "src/reader.rs: read_vec, read_cow, read_collection, read_key_value_collection", "src/readable_impl.rs: [T; N]", "src/endianness.rs: swap_slice_*"]}
{"id": "C28", "title": "A struct is only treated as plain memory when its memory is its encoding", "statement": "If the derive macro's run-time test declares a struct primitive, then for any valid layout the compiler chose, the struct has no padding and its bytes in memory are the concatenation of its fields' bytes in declaration order.", "quantifier": "all structs, all layouts permitted to the compiler", "why_tests_cant": "The compiler's layout is unspecified; a test sees a single one.", "anchors": ["speedy-derive/src/lib.rs: generate_is_primitive, check_is_primitive"]}
{"id": "C29", "title": "Lengths in the input cannot force large allocations", "statement": "When reading from a buffer, the number of elements for which memory is reserved up front, times the element's minimum size, never exceeds the number of remaining input bytes; a huge length fails with an end-of-input error before any reservation.", "quantifier": "all inputs, all types", "why_tests_cant": "Adversarial inputs.", "anchors": ["src/reader.rs: read_vec, read_cow"]}
{"id": "C30", "title": "Reading from a buffer never touches memory outside it", "statement": "Whatever sequence of reader operations a Readable implementation performs, with whatever lengths, every byte accessed lies inside the input buffer.", "quantifier": "all sequences of operations chosen adaptively, all lengths up to usize::MAX, all buffers", "why_tests_cant": "Unsafe pointer code; out of bounds reads are invisible to most tests.", "anchors": ["src/readable.rs: BufferReader, CopyingBufferReader"]}
{"id": "C31", "title": "Only valid values come out", "statement": "Whatever bytes are read, a returned char is a Unicode scalar value, a NonZero is not zero, a string is UTF-8, an enum is one of its variants, every number is in range, a Duration has less than a second of nanoseconds, and sets and maps have no duplicates.", "quantifier": "all inputs, all types", "why_tests_cant": "All inputs.", "anchors": ["src/readable_impl.rs", "src/readable_unsized_impl.rs", "src/private.rs: vec_to_string, cow_bytes_to_cow_str"]}
{"id": "C32", "title": "Reading never panics", "statement": "Whatever bytes are given, reading returns Ok or Err; it does not panic and does not loop for ever.", "quantifier": "all inputs, all types, every reader", "why_tests_cant": "All inputs.", "anchors": ["src/readable_impl.rs", "src/reader.rs", "src/readable.rs"]}
{"id": "C33", "title": "A failing stream receives a prefix", "statement": "If write_to_stream fails because the stream fails, the bytes the stream accepted are a prefix of the value's encoding; interrupted writes are retried.", "quantifier": "all values, all failure points, all short-write patterns", "why_tests_cant": "All failure points.", "anchors": ["src/writable.rs: WritingCollector, write_to_stream_with_ctx"]}
{"id": "C34", "title": "write_to_file reports success only if the data reached the file", "statement": "If write_to_file returns Ok then the file received the complete encoding of the value.", "quantifier": "all values, all patterns of failure of the file", "why_tests_cant": "Needs a disk that fills at each possible point.", "anchors": ["src/writable.rs: write_to_file_with_ctx"]}
{"id": "C35", "title": "is_eof classifies errors as documented", "statement": "is_eof() is true exactly for errors caused by running out of input or output space; converting an error to std::io::Error gives UnexpectedEof exactly for these, keeps an io error as it is and gives InvalidData for the rest.", "quantifier": "all errors", "why_tests_cant": "Finite, but relied on by default_on_eof for every input.", "anchors": ["src/error.rs: is_eof, From<Error> for std::io::Error"]}
{"id": "C36", "title": "skip_bytes(n) is reading n bytes and dropping them", "statement": "For every reader, skip_bytes(n) succeeds exactly if n bytes can be read and leaves the reader where read_bytes of n bytes would.", "quantifier": "all n, all readers, all states and stream splittings", "why_tests_cant": "n unbounded; the default implementation works in 1024 byte pieces.", "anchors": ["src/reader.rs: skip_bytes", "src/readable.rs: skip_bytes"]}
{"id": "C37", "title": "length = .. reads all remaining elements", "statement": "A container with length = .. as last field round-trips when the value is the whole input, and reading it terminates.", "quantifier": "all element types, values, inputs, every reader", "why_tests_cant": "All inputs.", "anchors": ["src/reader.rs: read_vec_until_eof, read_collection_until_eof, read_cow_until_eof", "speedy-derive/src/lib.rs: LengthKind::UntilEndOfFile"]}
{"id": "C38", "title": "Interrupted reads are retried", "statement": "A stream read failing with ErrorKind::Interrupted does not make reading a value fail, as is the convention of std::io.", "quantifier": "all types, all interruption patterns, both stream readers", "why_tests_cant": "All interruption patterns.", "anchors": ["src/readable.rs: read_bytes_slow, peek_bytes"]}
{"id": "C39", "title": "Times keep their value", "statement": "Durations and system times at or after the epoch round-trip; a system time before the epoch cannot be written and gives InvalidSystemTime; reading denormalised input gives the normalised duration.", "quantifier": "all durations and times", "why_tests_cant": "All 2^96 inputs.", "anchors": ["src/readable_impl.rs: Duration, SystemTime", "src/writable_impl.rs: Duration, SystemTime"]}
{"id": "C40", "title": "Different values have different encodings", "statement": "Two values of one type with the same encoding are equal, and no encoding is a proper prefix of another.", "quantifier": "all types without skipped fields or read-until-end fields, all pairs of values", "why_tests_cant": "Pairs of values.", "anchors": ["src/writable_impl.rs", "speedy-derive/src/lib.rs"]}
{"id": "C41", "title": "Messages in a sequence", "statement": "Writing a list of values, possibly of different types, to one stream and reading the same types back in order from it, unbuffered or from one buffer, gives the list.", "quantifier": "all lists of types and values, all stream splittings", "why_tests_cant": "All lists.", "anchors": ["src/writable.rs: write_to_stream", "src/readable.rs: read_from_stream_unbuffered"]}
{"id": "C42", "title": "Stream failures surface", "statement": "If the stream fails (not by end of file) while its bytes are still needed, reading returns that io error unchanged; bytes that arrived before are interpreted as usual, so no wrong value is returned.", "quantifier": "all types without end-of-input sensitive fields, all failure points and kinds, both stream readers", "why_tests_cant": "All failure points.", "anchors": ["src/readable.rs: StreamReader", "src/error.rs: from_io_error"]}
{"id": "C43", "title": "Endianness changes the byte order of numbers only", "statement": "The little-endian and big-endian encodings of a value have the same length, and types made of single bytes, strings, varints and flags have the same encoding in both.", "quantifier": "all types and values", "why_tests_cant": "All values.", "anchors": ["src/endianness.rs", "src/writer.rs", "src/writable_impl.rs"]}
{"id": "C44", "title": "Recursive types round-trip", "statement": "Types that contain themselves through Vec, Box or Option round-trip for values of any depth.", "quantifier": "all depths and values", "why_tests_cant": "Depth unbounded.", "anchors": ["speedy-derive/src/lib.rs: is_guaranteed_non_recursive", "src/readable_impl.rs: Box, Vec, Option"]}
{"id": "C45", "title": "Borrowed slices are aligned", "statement": "A slice &[T] or &[T; N] returned by zero-copy reading is aligned for T.", "quantifier": "all element types, buffer addresses and inputs", "why_tests_cant": "Buffer addresses are not under the test's control.", "anchors": ["src/readable_unsized_impl.rs", "speedy-derive/src/lib.rs: read_ref_slice", "src/reader.rs: read_cow"]}
{"id": "C46", "title": "Cow is zero-copy exactly when it can be", "statement": "Reading Cow<[T]> or Cow<str> with read_from_buffer borrows from the input when T is copied in bulk, needs no byte swapping and the data is aligned, and the borrowed value is the right part of the input; reading with copying never borrows.", "quantifier": "all lengths, element types, addresses, endiannesses", "why_tests_cant": "Depends on addresses.", "anchors": ["src/reader.rs: read_cow", "src/readable.rs: read_bytes_borrowed"]}
{"id": "C47", "title": "A slice has as many elements as its length says", "statement": "A successfully read Vec, Cow, array, string or borrowed slice has exactly the number of elements given by its length prefix, whatever the prefix.", "quantifier": "all inputs, length types and element types", "why_tests_cant": "All inputs including overflowing lengths.", "anchors": ["src/reader.rs: read_vec, read_cow", "src/readable_unsized_impl.rs"]}
{"id": "C48", "title": "Buffered reading never loses bytes", "statement": "At every moment of a stream read, the bytes handed out so far followed by the internally buffered ones are exactly the bytes taken from the stream so far.", "quantifier": "all Readable implementations (any adaptive sequence of reader calls), all stream behaviours including failures", "why_tests_cant": "All operation sequences and failures.", "anchors": ["src/readable.rs: StreamReader", "src/circular_buffer.rs"]}
{"id": "C49", "title": "Types of other crates round-trip and are validated", "statement": "chrono DateTime<Utc>, regex Regex, IndexMap, IndexSet, SmallVec and the glam vectors, matrices and masks are read back as they were written (IndexMap and IndexSet in the same order); bytes which are not a date, not a regular expression or not a mask give an error or a normalised value, never a value the other crate could not have made, and never a panic.", "quantifier": "all values, all inputs, both byte orders, all readers", "why_tests_cant": "All inputs, including seconds outside the range of dates.", "anchors": ["src/ext_chrono.rs", "src/ext_regex.rs", "src/ext_indexmap.rs", "src/ext_smallvec.rs", "src/ext_glam.rs"]}
{"id": "C50", "title": "Checks in hand-written Readable implementations cannot be bypassed", "statement": "If a Readable implementation reads another type and then checks or converts it, then reading returns exactly the converted value or exactly the error of the conversion; that error is not an end of the input; and a Vec of such a type contains only values which passed the check, whatever the reader answers.", "quantifier": "all conversions, all representations, all readers and states, all lengths", "why_tests_cant": "All conversions and all reader behaviours; the bulk path for primitive types must not be taken.", "anchors": ["src/readable.rs: Readable", "src/reader.rs: read_vec, read_vec_until_eof", "src/error.rs: custom, is_eof"]}
{"id": "C51", "title": "Memory of a vector being read is handled safely", "statement": "Reading a Vec<T> or an array [T; N] never writes outside the memory reserved for it, never returns or drops memory that was not initialised, and gives every element that was read back to the caller or drops it exactly once, also if reading an element fails in the middle.", "quantifier": "all element types, lengths, readers and inputs, failures and panics at any element", "why_tests_cant": "Undefined behaviour usually shows no effect in a test, and it depends on which element fails; only a proof covers all orders of events.", "anchors": ["src/reader.rs: read_vec", "src/readable_impl.rs: [T; N], DropGuard"]}
{"id": "C52", "title": "Writing fails only for the documented reasons", "statement": "Writing a value does not panic and has no undefined behaviour. An error means that a length does not fit its length type or differs from the length attribute, that a system time is before 1970, that the buffer given is too small, or that the stream failed.", "quantifier": "all types, values, endiannesses, buffers and streams", "why_tests_cant": "Absence of panics and undefined behaviour for all values; the optimiser hints concern lengths near 2^63.", "anchors": ["src/utils.rs: unsafe_is_length", "src/writable.rs", "src/writable_impl.rs: bytes_needed"]}
{"id": "C53", "title": "Files are read back, on every platform", "statement": "What write_to_file has written is read back by read_from_file; on x86-64 Linux, where the file is mapped into memory, and elsewhere, where it is streamed, read_from_file gives the same values for the same contents. Should part of the data not have reached the disk, reading gives the value or an error, never a different value. A mapping is released exactly once on every path, and errors of the operating system are returned.", "quantifier": "all types and values, all contents, all failures of the operating system", "why_tests_cant": "One machine runs one of the two implementations; failing mmap and madvise calls, disks which fill up at each point, and all contents cannot be enumerated.", "anchors": ["src/readable.rs: read_from_file_with_ctx, Mmap", "src/writable.rs: write_to_file_with_ctx"]}
{"id": "C54", "title": "Hand-written implementations may use the context", "statement": "An implementation of Readable and Writable which looks at the context or changes it (for instance the byte order, after a header) reads back what it has written with every entry point: each value is written and read in the byte order the context has at that point, and the context ends up the same after writing and after reading; with the _with_ctx_mut functions the caller sees it.", "quantifier": "all such implementations, contexts, types and values, readers and streams", "why_tests_cant": "All programs over arbitrary context types; each entry point has its own collector.", "anchors": ["src/context.rs: Context", "src/writable.rs: BufferCollector, WritingCollector, SizeCalculatorCollector, write_to_vec_with_ctx_mut", "src/readable.rs: read_with_length_from_buffer_copying_data_with_ctx_mut", "src/reader.rs: endianness, read_value"]}
{"id": "C55", "title": "Plain data needs no conditions", "statement": "For types made of numbers, bool, char, addresses, times, UUIDs, String and Cow<str> with Vec, Box, Option, Result, tuples, arrays, Range, sets, maps, and derived structs and enums (with length_type, varint, constant_prefix, tag and tag_type at most; no zero-sized elements): a value can be written exactly if its lengths fit their length types and no system time is before 1970; all functions write the same bytes, as many as bytes_needed says; all functions read the value back from them, whatever follows, and stop at the end; none accepts a part of them; different values have different encodings; on any input all functions accept or reject together with the same value, which is a valid one; and (if no Duration is involved and a Vec of the largest length fits into memory) none panics.", "quantifier": "all such types, values, inputs, byte orders, machines, streams", "why_tests_cant": "The class of types is infinite, and so are the inputs; a user wants to know without reading the exceptions of every single guarantee that their ordinary types are safe.", "anchors": ["src/readable_impl.rs", "src/writable_impl.rs", "src/readable.rs", "src/writable.rs", "src/reader.rs", "speedy-derive/src/lib.rs"]}
{"id": "C56", "title": "Data is portable between machines", "statement": "A value written on one machine is read as the same value on a machine with another byte order, another size of usize and other layouts of the same structs, provided it exists there, and both machines write the same bytes for it; two machines never read different values from the same bytes, so that at worst one of them reports an error.", "quantifier": "all types and values, all inputs, all pairs of machines, both endiannesses", "why_tests_cant": "Tests run on one machine; struct layouts and bulk copies differ between compilers and targets.", "anchors": ["README.md: Supported types", "src/reader.rs: read_vec, read_slice", "src/writer.rs: write_slice", "src/endianness.rs", "speedy-derive/src/lib.rs: speedy_is_primitive"]}
{"id": "C57", "title": "The spelling of a field's type does not change the format", "statement": "A derived type keeps its format when the type of a field is spelled differently, through a type alias or with a path the macro does not recognise instead of the name it recognises, when an explicit length_type = u32 is added or left out, or when its repr changes: the same values are written as the same bytes and read back from them. No two such declarations read different values from the same bytes when they are plain data. Whether a declaration is accepted depends on the spelling only for fields with length, length_type or varint.", "quantifier": "all declarations, spellings, values, inputs, byte orders, machines", "why_tests_cant": "The macro generates different code for a type which it recognises by its spelling and for one which it does not; the pairs of declarations and the values are infinite.", "anchors": ["speedy-derive/src/lib.rs: parse_special_ty, parse_ty, get_fields, read_field_body, write_field_body", "README.md"]}
{"id": "C58", "title": "minimum_bytes_needed returns, also for recursive types", "statement": "For every derived type which has a value, minimum_bytes_needed returns, however the declarations refer to each other (recursive, mutually recursive, generic): it never leads back to itself. For an enum it always returns, and the result is the size of the tag. The result is the sum over the fields as documented, whatever the depth of the values.", "quantifier": "all programs (sets of declarations), all types with a value", "why_tests_cant": "Whether calls are circular depends on the whole set of declarations, which is the user's; a derive macro sees only one declaration at a time and must be right for all of them.", "anchors": ["speedy-derive/src/lib.rs: get_minimum_bytes, is_guaranteed_non_recursive, sum, min", "src/readable_impl.rs: minimum_bytes_needed"]}
{"id": "C59", "title": "Text stays text", "statement": "Every sequence of Unicode characters, up to the length that fits, is written as the number of its bytes and its UTF-8 form, and is read back by all functions. Whatever the input, the reader and the way in which the length is given, what comes out as String, Box<str>, Cow<str> or &str is the UTF-8 form of some sequence of Unicode characters, and what comes out as char is a Unicode scalar value; bytes which are not are rejected with an error (which is not an end of input), no matter in which way they are wrong (overlong, surrogate, truncated, too large). Different texts have different encodings.", "quantifier": "all strings and characters, all byte sequences, all readers, byte orders, machines", "why_tests_cant": "Handing out a str which is not UTF-8 is undefined behaviour; the malformed sequences are infinitely many, and the code uses from_utf8 in several places once for each kind of string.", "anchors": ["src/private.rs: vec_to_string, cow_bytes_to_cow_str", "src/readable_impl.rs: String, Cow<str>, Box<str>, char", "src/readable_unsized_impl.rs: &str", "src/error.rs: InvalidUtf8, InvalidChar"]}
{"id": "C60", "title": "Uninitialised memory has no influence", "statement": "Vectors, arrays, numbers and the buffer of the stream reader are allocated without being initialised. Whatever that memory happens to contain: what is read from a stream, the error reported, and the state in which the stream is left are the same, for every implementation of the safe trait std::io::Read, buffered or not, for derived and hand-written Readable; and the vector returned by write_to_vec is the same.", "quantifier": "all contents of uninitialised memory, all implementations of Read, all types, programs and values", "why_tests_cant": "Memory is usually zero in tests, and undefined behaviour may have no visible effect there; the contents of memory and the implementations of Read are infinitely many.", "anchors": ["src/circular_buffer.rs: with_capacity, reserve_impl, try_append_with", "src/readable.rs: StreamReader", "src/reader.rs: read_u8 .. read_f64, read_vec", "src/writable.rs: write_to_vec_with_ctx_mut"]}
{"id": "C61", "title": "Any stream will do", "statement": "Reading from an implementation of std::io::Read (one which does not claim more bytes than it was asked for, and whose read_exact goes on when interrupted) depends on it only through the bytes it delivers, the pieces in which it does, and the errors it reports: replaying those gives the same result and leaves nothing over.", "quantifier": "all implementations of Read with any state (also endless ones, and ones which behave differently depending on the slices they get), all types, also hand-written readers, buffered or not, all contents of uninitialised memory", "why_tests_cant": "Implementations of Read are arbitrary programs; tests use a slice or a file.", "anchors": ["src/readable.rs:291-417", "src/circular_buffer.rs:252-297"]}
{"id": "C62", "title": "Own error types change only the errors", "statement": "Reading in a context with its own error type (Context::Error) returns the values which reading with speedy::Error returns, consumes the same bytes, and its errors are the converted ones: provided that is_eof of a converted error is that of the error, or that the type uses neither default_on_eof nor length = ... An is_eof which is true less often never changes a value, one which is true more often changes no value which would be read otherwise.", "quantifier": "all error types with any From<speedy::Error> and IsEof, all types, all readers in all states, all inputs", "why_tests_cant": "Error types are arbitrary programs, and errors arise and are inspected anywhere inside nested types; the tests use one error type with a few inputs.", "anchors": ["src/context.rs:3-6", "src/error.rs:123-139", "src/reader.rs:576-593, 688-700", "speedy-derive/src/lib.rs:1392-1400"]}
{"id": "C63", "title": "Any output stream and any writer will do", "statement": "Which slices write_to_stream hands to write_all, and in which order, depends on the value only and not on the stream; put together they are what write_to_vec returns; the first error of the stream ends it and is returned. With the write_all of the standard library an implementation of Write (one which does not claim to have accepted more than it got) has, when write_to_stream returns, accepted a prefix of these bytes: all of them if Ok is returned, otherwise the error is one which write reported (not Interrupted), or WriteZero. It returns unless the stream interrupts one and the same call for ever. A Writer of one's own gets the same calls, which end early only if it says that there is no room.", "quantifier": "all implementations of Write or Writer with any state, also ones which look at the bytes or never fail the same way twice; all types, all values, both endiannesses", "why_tests_cant": "Implementations of Write are arbitrary programs, and short writes, interruptions and errors can come at any point.", "anchors": ["src/writable.rs:60-85", "src/writable.rs:221-230", "src/writer.rs:10-120"]}
{"id": "C64", "title": "Deriving for generic types asks for the right bounds", "statement": "The derived implementations of Readable and Writable for a type with parameters compile: from the bounds in their where clause follows every Readable or Writable bound which the generated code needs for a type depending on a parameter. Types which do not depend on a parameter get no bound, so that recursive and private types can be used. The implementation is for the type with all of its parameters, and the generated patterns are complete.", "quantifier": "all structs and enums with any lifetime, type and constant parameters, all types of fields as they may be written, all field attributes and representations", "why_tests_cant": "The types a macro is applied to are arbitrary syntax; a test covers one declaration at a time.", "anchors": ["speedy-derive/src/lib.rs:77-124", "speedy-derive/src/lib.rs:286-345", "speedy-derive/src/lib.rs:778-806", "speedy-derive/src/lib.rs:1402-1841", "speedy-derive/src/lib.rs:1972-2143"]}
{"id": "C65", "title": "The work of reading is proportional to the input", "statement": "Reading a value makes a number of calls to the reader which is at most a constant, given by the type, for every byte taken from the input, plus a constant; also if reading fails. A length in the input cannot make the reader do more work than the bytes which are there.", "quantifier": "all types, all inputs, all readers and streams whatever they deliver and however they fail, values nested to any depth", "why_tests_cant": "It is about the worst input of every length: tests measure some inputs of some lengths, and lengths which cause the work are as large as 2^32 - 1.", "anchors": ["src/reader.rs:521-713", "src/readable_impl.rs:30-697", "src/private.rs:125-253", "speedy-derive/src/lib.rs:1402-1841"]}
{"id": "C66", "title": "What has been read is written back as it was", "statement": "If a value is read from some bytes, then it can be written, and writing it in the same byte order gives exactly the bytes which were taken from the input; in any case, reading what has been written gives the same value again.", "quantifier": "all types, all inputs (also ones which were not written by the library), both byte orders, all targets, slices, copying readers and streams", "why_tests_cant": "Inputs from elsewhere may represent a value in a way in which the library would not write it; tests start with values and see only what the library writes.", "anchors": ["src/readable_impl.rs:30-697", "src/writable_impl.rs:20-748", "src/varint.rs:1-365", "src/readable_unsized_impl.rs:1-80", "speedy-derive/src/lib.rs:1402-1841"]}
{"id": "C67", "title": "Enums may get new variants", "statement": "If variants are added at the end of an enum which derives Readable and Writable, anywhere inside a type, then data written before is read by the new program as the same values, values without the new variants are still written as the same bytes (so that old programs read them), any input accepted by the old program is read by the new one as the same value from the same number of bytes, and an old program which is given a new variant fails with an error instead of returning some other value.", "quantifier": "all types and enums in them, all new variants (with any tags the macro accepts), all values, all inputs, both byte orders, all targets, slices and streams", "why_tests_cant": "Tests of one version of a program cannot see the data of another one; a few stored files do not settle what happens for every type, value and input.", "anchors": ["speedy-derive/src/lib.rs:1856-1970", "speedy-derive/src/lib.rs:1972-2184", "README.md:56-102", "src/readable.rs:489-515"]}
{"id": "C68", "title": "Debug builds behave as release builds", "statement": "Whether a program is compiled with overflow checks and debug assertions makes no difference to what speedy does: reading the same input gives the same result and leaves a stream in the same state, bytes_needed gives the same number, writing gives the same bytes, and neither an overflow check nor a debug assertion ever fails, whatever the input.", "quantifier": "all types, all inputs, all values, both byte orders, all targets, slices and all streams which obey the contract of Read, buffered and unbuffered", "why_tests_cant": "Tests run in one profile, with inputs which were chosen; an overflow or a failing assertion needs particular lengths, positions of the circular buffer and machine word sizes which tests do not reach.", "anchors": ["src/circular_buffer.rs:15-73", "src/circular_buffer.rs:217-231", "src/circular_buffer.rs:302", "src/reader.rs:519-621", "src/writable.rs:34-40", "src/writable.rs:87-142", "src/writable.rs:195-219", "src/writable_impl.rs:266", "src/readable.rs:157-160"]}
{"id": "C69", "title": "Attributes may be written in any order", "statement": "The order in which the attributes of a declaration, of its variants and of its fields are written, and whether they stand in one #[speedy(...)] or in several ones between attributes of other crates, makes no difference: the same type with the same format is derived, or the declaration is rejected in both cases. Nothing that is written is ignored: what a field does follows from all its attributes and from nothing else, attributes which say the same thing twice are rejected (except skip and varint), and the literal of constant_prefix means the bytes which it means elsewhere in Rust.", "quantifier": "all structs and enums, all lists of attributes and all ways to split and permute them, all literals", "why_tests_cant": "The number of orders and groupings grows with the factorial of the number of attributes, and macros are tested by compiling files, one for each case.", "anchors": ["speedy-derive/src/lib.rs:566-695", "speedy-derive/src/lib.rs:857-945", "speedy-derive/src/lib.rs:1184-1250", "speedy-derive/src/lib.rs:1856-1970", "speedy-derive/src/lib.rs:2343-2364"]}
{"id": "C70", "title": "Fields may be added at the end", "statement": "A type which is stored or sent may get further fields at its end, if they are marked default_on_eof: at the end of a struct or of variants of an enum, also of one which is itself the last field of another, the last component of a tuple, or inside an Option, Box or Result at the end. A program with the new type then reads what a program with the old type has written, as the old value with the default values of the new fields. A program with the old type reads what a program with the new one has written, as the value without the new fields, whether or not these are marked.", "quantifier": "all pairs of an old and a new type, with fields added in any number of places at the end; all values of either; both byte orders, all readers", "why_tests_cant": "Tests compare particular versions of particular types; whether two versions are compatible depends on the nesting of the place where the fields were added and on all values before it.", "anchors": ["speedy-derive/src/lib.rs:1392-1412", "speedy-derive/src/lib.rs:1673-1678", "speedy-derive/src/lib.rs:1972-2041", "src/readable.rs:30-160"]}
{"id": "C71", "title": "Hand-written implementations of Writable can do no harm", "statement": "The methods write_to and bytes_needed of a hand-written Writable may do anything with the Writer they get: promise too little or too much, ignore errors and go on, ask can_write_at_least, look at and change the context, do different things each time. In a release build write_to_vec returns exactly the bytes which were written successfully, all of them and in order, never more than bytes_needed said and never anything of the uninitialised memory it allocated. write_to_buffer changes exactly these bytes at the beginning of the buffer, also if it fails. A write beyond the promised size fails with UnexpectedEndOfOutputBuffer and changes nothing, and can_write_at_least tells exactly which writes do, for every usize. A stream which works gets exactly what is written. If write_to does not call can_write_at_least and bytes_needed promises enough, vector, buffer and stream get the same bytes. The default of bytes_needed promises the number of bytes a stream gets, if write_to does not use the context. For speedy's own types whose value changes between the two calls, write_to_vec returns the complete encoding of the second value, or fails with UnexpectedEndOfOutputBuffer if that is longer than promised.", "quantifier": "all programs calling methods of Writer, depending in any way on their results; all results of bytes_needed; all contexts; all buffers and contents of fresh memory; for speedy's types all pairs of values", "why_tests_cant": "Tests use the implementations at hand; this is about arbitrary code of users between unsafe set_len calls.", "anchors": ["src/writable.rs:28-57", "src/writable.rs:60-85", "src/writable.rs:87-142", "src/writable.rs:169-219", "src/writable.rs:221-251", "src/writer.rs:19-91"]}
{"id": "C72", "title": "Hand-written implementations of Readable see a list of bytes", "statement": "A hand-written read_from may call the methods of Reader in any order, choose the next one depending on what the earlier ones returned, catch errors and go on, ask can_read_at_least, borrow, peek, skip, and look at and change the context; minimum_bytes_needed may return anything. With the read_from_buffer functions it sees the buffer as a list of bytes with a position: a call gets exactly the next bytes, or, if there are too few, fails with UnexpectedEndOfInput and changes nothing; can_read_at_least tells exactly which calls succeed; borrowed slices lie where the bytes lie in the buffer; numbers are read in the byte order which the context has at that moment; the length returned is the position reached and never beyond the end; the context is what the program made of it. A buffer shorter than minimum_bytes_needed is refused without running the program. If a program leaves the reader alone once reading or skipping has failed, and does not care which end-of-input error it got, it also sees streams in this way, unbuffered and buffered, except that they tell and lend nothing. A program which uses only what all readers have gives the same results with all of them.", "quantifier": "all programs calling methods of Reader, depending in any way on their results; all results of minimum_bytes_needed; all contexts; all buffers and addresses; all streams, however they split their input, and growth policies of the internal buffer", "why_tests_cant": "All programs, which are code of users, against three readers, each with its own implementation of every method; tests exercise the sequences of calls which speedy's own types make.", "anchors": ["src/reader.rs:56-112", "src/readable.rs:28-416", "src/readable.rs:493-546", "src/context.rs"]}
{"id": "C73", "title": "Misspelled attributes are compile errors", "statement": "In a #[speedy(...)] the macro accepts exactly the documented items, separated by commas with or without one at the end, each only where it belongs: on fields default_on_eof, skip, varint, length = expression, length = .., length_type = u7|u8|u16|u32|u64|u64_varint and constant_prefix = literal; on variants tag = number below 2^64; on enums tag_type = (one of the same types) and peek_tag; on structs unsafe_is_primitive = always. What is accepted means exactly the items which are written, in their order. A word which is none of these, or one in the wrong place (tag on an enum), is an error for the whole declaration wherever it stands and whatever else is written; it is never ignored. So is #[speedy] without parentheses.", "quantifier": "all sequences of tokens; all declarations with any number of attributes, fields and variants; all grammars of expressions in which an expression ends before a comma", "why_tests_cant": "A test shows that some misspelled attribute is rejected; that no sequence of tokens is accepted with another meaning, or silently dropped, is a statement about all of them, and a dropped default_on_eof or length_type changes the format without any message.", "anchors": ["speedy-derive/src/lib.rs:362-407", "speedy-derive/src/lib.rs:439-540", "speedy-derive/src/lib.rs:594-613", "speedy-derive/src/lib.rs:818-828", "speedy-derive/src/lib.rs:854-950"]}
{"id": "C74", "title": "Types with the same format are interchangeable", "statement": "A value may be written as one type and read as another which has the same documented format: slices, vectors, boxed slices, Cow and the kinds of strings for each other, a string as bytes, a set as a vector, a map as a vector of pairs, Box<T> as T, atomics, NonZero, char, bool, usize, Ipv4Addr as the numbers they are written as, signed as unsigned numbers, Duration as its two numbers, Uuid as an array of bytes, arrays and ranges as tuples, Option as an enum with a tag of one byte, a struct without attributes as the tuple of its fields, a struct with one field as this field, a skipped field as no field, a varint field as VarInt64; and containers, tuples, structs and enums with such components for each other, also under length attributes. The bytes are the same, one can be written whenever the other can, and reading as the other type gives the corresponding value.", "quantifier": "all pairs of types and values related in this way at any depth, both byte orders, all readers", "why_tests_cant": "There are infinitely many pairs of types; a special path in one of them (bulk copies, size hints, length attributes) which differs from the plain one shows only in particular combinations.", "anchors": ["README.md:56-102", "src/readable_impl.rs:1-697", "src/writable_impl.rs:1-748", "src/readable_unsized_impl.rs:1-80", "speedy-derive/src/lib.rs:1434-1700"]}
{"id": "C75", "title": "Exactly the documented declarations are accepted", "statement": "The macro accepts a struct or enum if and only if it follows the rules, and derives exactly the type which the rules give: every item is spelled correctly; none but skip and varint comes twice on a field; length is only on containers, length_type only on containers and options of them, never both, varint only on u64; length = .. is on the last field; tag_type and peek_tag come at most once; the tag of every variant is the one in its attribute, otherwise the number after =, otherwise one more than the previous tag, starting from 0; tags fit in the tag type and are pairwise different. No declaration which follows the rules is rejected, none is accepted with another meaning, and there is only one meaning.", "quantifier": "all structs and enums, with any number of fields, variants and attributes", "why_tests_cant": "Tests try some declarations which compile and some which do not; that the boundary runs exactly where the documentation puts it is a statement about all of them.", "anchors": ["speedy-derive/src/lib.rs:594-697", "speedy-derive/src/lib.rs:1184-1390", "speedy-derive/src/lib.rs:1856-1970"]}
{"id": "C76", "title": "Reading recursive types comes to an end", "statement": "The functions which the macro generates for types which contain themselves or each other (trees, lists, expressions) do not call themselves forever: from an input of k bytes the calls are nested at most k + 2 deep, whatever the bytes are, from a slice and from a stream of which any operation may fail.", "quantifier": "all groups of mutually recursive types, all inputs, all readers", "why_tests_cant": "A test reads some inputs; an input for which the recursion does not end kills the process with a stack overflow, which cannot be caught, and whether such an input exists depends on every path through the type.", "anchors": ["speedy-derive/src/lib.rs:1402-1707", "speedy-derive/src/lib.rs:2240-2320", "src/reader.rs:519-700", "src/readable_impl.rs:341-412", "src/readable_impl.rs:651-658"]}
{"id": "C77", "title": "A failing file holds a prefix", "statement": "Whatever goes wrong while write_to_file writes (the file cannot be created, the disk is full, writes are short, fail or are interrupted at any point), the file holds a prefix of the value's encoding afterwards: no bytes missing in the middle, none twice, although dropping the buffered writer writes once more after an error. write_to_file returns what writing to a stream which works returns, or the error of the file.", "quantifier": "all types and values, all failures and short writes of the file, before and during the drop of the buffer", "why_tests_cant": "All failure points of a disk, in particular errors in the middle of a buffer after which the file works again.", "anchors": ["src/writable.rs:232-241"]}
{"id": "C78", "title": "Hostile input is safe for recursive types", "statement": "Reading types which contain themselves or each other from arbitrary bytes, or from a stream which fails at any time, gives a value of the type or an error: no panic, no endless loop, no invalid value; and memory is reserved for elements at any depth only if the input has that many bytes.", "quantifier": "all groups of mutually recursive types, all inputs, all behaviours of streams", "why_tests_cant": "The types have no bound on their depth, and inputs are arbitrary: a test tries some inputs of some depth.", "anchors": ["speedy-derive/src/lib.rs:1402-1707", "src/readable_impl.rs:341-412", "src/reader.rs:519-700", "src/readable.rs:398-416"]}
{"id": "C79", "title": "All ways of reading recursive types agree", "statement": "For types which contain themselves or each other: reading from a slice without copying and with copying gives the same value or error and the same length, and reading from a stream in any pieces gives a value exactly when reading from a slice does; the bytes up to the reported length give the same result whatever follows them; a value which was written is read back whatever follows it; no proper prefix of what was written is accepted (if no field has a default for the end of the input).", "quantifier": "all groups of mutually recursive types, all inputs (also those nested as deep as their length allows), all addresses of slices, all ways of splitting streams", "why_tests_cant": "The depth of the recursion is decided by the input; for every depth there are inputs which take other paths through the readers than any tested one.", "anchors": ["speedy-derive/src/lib.rs:1402-1707", "src/readable.rs:29-330", "src/reader.rs:519-700"]}
{"id": "C80", "title": "Elements of sets and maps are copied out of the input safely", "statement": "When a set or a map of elements of fixed size is read from a slice, its elements are copied straight from the input through raw pointers. However the collection asks for them (elements and their number, in any order, also after the last one, and stopping at any time), it gets every element once, in the order of the input, the number it is told is that of the elements left, and no byte outside of the input is read, whatever the address of the input.", "quantifier": "all element types copied in bulk, all lengths and addresses, all collections (adaptive sequences of calls of next, len and size_hint)", "why_tests_cant": "Unsafe pointer code whose mistakes read memory next to the input without any visible effect; tests use the few collections of the standard library, which use the iterator in one fixed way.", "anchors": ["src/reader.rs: RawCopyIter, read_collection, read_key_value_collection"]}
{"id": "C81", "title": "Endianness converts numbers as its name says", "statement": "The functions of the public type Endianness work the same on every machine: read_T gives the number whose bytes in that byte order are those of the slice and panics exactly if the slice has another length; after swap_T the memory of the number holds its bytes in that byte order, and doing it twice restores the number; the functions for slices do this to every element; signed numbers keep their value and floating point numbers their bits, NaNs included.", "quantifier": "all numbers of all widths, all slices, both byte orders, little- and big-endian machines", "why_tests_cant": "Only one kind of machine runs the tests, and the numbers cannot be enumerated.", "anchors": ["src/endianness.rs", "src/utils.rs: SwapBytes"]}
{"id": "C82", "title": "References only come from readers which lend them", "statement": "A value read from a stream, from a buffer with copying, from a file, or by any reader which answers None to read_bytes_borrowed and read_bytes_borrowed_until_eof contains no reference to input data (&str, &[T], &[T; N], however deeply nested, also not an empty one), and every Cow<[T]> read in this way is owned: where the type requires a reference, reading fails. Only defaults of fields may be references.", "quantifier": "all types, all contents and behaviours of streams including failing ones, all buffers, any hand-written Reader which does not lend", "why_tests_cant": "The lifetime of what is read from a stream is chosen by the caller, so a single path which hands out a reference to an internal buffer would be a use after free; it may hide in any combination of types and attributes.", "anchors": ["src/reader.rs: read_bytes_borrowed, read_bytes_borrowed_until_eof, read_cow", "src/readable.rs: StreamReader, CopyingBufferReader", "src/readable_unsized_impl.rs", "speedy-derive/src/lib.rs: read_field_body"]}
{"id": "C83", "title": "Where the input is in memory does not matter", "statement": "Reading the same bytes from buffers at two different addresses gives the same: the same value, or the same error, and the same number of bytes reported as read. In particular whether a Cow<[T]> could be borrowed or had to be copied because of its alignment is not observable in the value.", "quantifier": "all types including those with references, all byte orders, all bytes, all pairs of addresses at which the bytes can lie", "why_tests_cant": "Addresses are chosen by the allocator and are nearly always aligned in tests; the code after the alignment check has two branches which must agree for every type and every offset of every slice within the input.", "anchors": ["src/reader.rs: read_cow", "src/readable.rs: BufferReader", "src/readable_unsized_impl.rs", "src/private.rs"]}
{"id": "C84", "title": "Borrowed numbers have the byte order of the machine", "statement": "A &[T] or &[T; N] which is read shows the bytes of the input as they are, so it must not be possible to get one whose numbers are in the wrong order: when reading in the byte order which is not the machine's, no value comes out which contains a &[T] or &[T; N] of elements of another size than one byte, however deeply nested (defaults of fields excepted); reading such a reference itself fails with EndiannessMismatch and reads nothing. In the byte order of the machine, and for elements of one byte in both, &[number] holds the numbers which were written.", "quantifier": "all types, all machines, all inputs, all readers including hand-written ones", "why_tests_cant": "Whether the check is made on every path (the hand-written implementations and the code the macro generates for fields, with each length attribute, inside every container) is a statement about all types; tests run on little-endian machines only.", "anchors": ["src/readable_unsized_impl.rs", "speedy-derive/src/lib.rs: read_ref_slice", "src/endianness.rs: conversion_necessary"]}
{"id": "C85", "title": "Input may arrive in pieces", "statement": "A program which receives its input in pieces may call read_from_buffer after each piece and wait while the error says that the input is too short (is_eof, or InputBufferIsTooSmall): it gets the value, the length and the error which reading everything at once gives, and it waits at the end exactly if the whole input is too short. In particular an answer which does not say that the input is too short, a value or an error, is final: more input does not change it. A message which was written is read as soon as its last byte has arrived, and not before.", "quantifier": "all types, all inputs including invalid ones, all ways to split them, all addresses; buffers, copying and not, and streams", "why_tests_cant": "Inputs times positions of the cuts times types; whether some check looks at how much input there is and answers with another error, or with a value, is a question about every path through every implementation.", "anchors": ["src/readable.rs:193-289", "src/readable.rs:498-534", "src/error.rs: is_eof", "src/reader.rs"]}
{"id": "C86", "title": "The memory of a value is proportional to the input", "statement": "The bytes which a value that has been read occupies on the heap - strings, elements of vectors, sets and maps, contents of boxes, at every level of nesting - are at most a constant, given by the type, for every byte taken from the input, plus a constant. A short input cannot become a huge value, also if the type contains itself.", "quantifier": "all types including recursive ones, all inputs, all readers and streams whatever they deliver, values nested to any depth", "why_tests_cant": "It is about the worst input for every type: the factor may come from elements which take no bytes, from lengths up to 2^32 - 1, or from types whose values in memory are much larger than in the input, at any depth.", "anchors": ["src/reader.rs:521-713", "src/readable_impl.rs:30-697", "speedy-derive/src/lib.rs:1402-1707"]}
{"id": "C87", "title": "The names of fields do not matter", "statement": "Giving the fields of a struct or of an enum's variants other names - consistently, also in `#[speedy(length = ...)]` - changes neither what is written nor what is read, also if a name is one which the derive macro uses for its own variables (`_length_`, `_flag_`, `kind_`, ...), as long as the generated code compiles. A tuple struct is read and written like a struct with names. All names compile except `_reader_` and `_writer_`.", "quantifier": "all structs and enums with any fields, attributes and length expressions; all renamings which keep different names different; all values; all inputs; both byte orders", "why_tests_cant": "A captured variable compiles and goes unnoticed until someone picks that very name together with a length expression; there are infinitely many names, and generated functions for each combination of attributes.", "anchors": ["speedy-derive/src/lib.rs:1392-1841", "speedy-derive/src/lib.rs:2155-2159", "speedy-derive/src/lib.rs:2250-2304", "speedy-derive/src/lib.rs:2336-2455"]}
{"id": "C88", "title": "A varint is written whole or not at all", "statement": "Writing a varint to a buffer which has too little room left fails with the error for a full output buffer and leaves the buffer and the position in it as they were; with enough room, exactly its bytes are written at the position.", "quantifier": "all 2^64 values, all buffers, all positions", "why_tests_cant": "2^64 values with nine lengths times every amount of remaining room; a test with a full or an empty buffer does not see a first byte left behind.", "anchors": ["src/varint.rs:205-213", "src/writable.rs:34-56"]}
{"id": "C89", "title": "Slices of plain data are copied in one piece", "statement": "Reading a slice of plain data or a string whose length is known takes a constant number of calls of the reader, whatever the number of elements and the byte order; writing one, in the byte order of the machine or with elements of one byte, takes a constant number of calls of the writer.  Plain data is numbers and structs of plain data without field attributes whose fields lie in memory in order and without gaps, if the struct is packed, repr(C), small or has simple fields only, and transparent structs of plain data.", "quantifier": "all such element types, all layouts chosen by the compiler, all numbers of elements, Vec, Cow and references, all length attributes except that owned slices with length = .. are read element by element, all readers and writers whatever they answer", "why_tests_cant": "A test for a value passes just as well if the elements are copied one at a time; the test whether a struct is plain is made at run time from offsets and sizes which the compiler chooses.", "anchors": ["src/writer.rs:98-111", "src/reader.rs:519-621", "src/readable_unsized_impl.rs:35-55", "speedy-derive/src/lib.rs:2056-2143"]}
{"id": "C90", "title": "The work of writing is proportional to the output", "statement": "Writing a value makes at most two calls of the writer for every byte of its encoding, and one for every string, slice, set, map or array in it; also if the writer or the value makes it fail.", "quantifier": "all types, recursive ones with values of any depth included, all values, both byte orders, all writers whatever they answer", "why_tests_cant": "It is about all values of all types; tests compare the bytes, which do not show the calls.", "anchors": ["src/writer.rs:98-122", "src/writable_impl.rs:28-748", "src/private.rs:57-128", "speedy-derive/src/lib.rs:1709-1841, 2365-2455"]}
{"id": "C91", "title": "Reading fails only for a reason which the type has", "statement": "Every error which reading returns is an error of the reader (the end of the input, an error of the source, a buffer shorter than the minimum of the type) or is one of the reasons which can be read off the declaration of the type: a `char` that is none, a zero for `NonZero…`, invalid UTF-8 only for types with a string, a wrong constant only for fields with `constant_prefix`, a length out of range only for `u7`, references to slices and 64-bit lengths on smaller machines, `usize` out of range only on machines with less than 64 bits (or for sets and maps of primitives), unsized and endianness errors only for references, and so on. In particular errors of writing never occur in reading.", "quantifier": "all types, both byte orders, all machines, all inputs, buffers, copied buffers, streams with any behaviour, and any other orderly reader; panics and endless loops are the subject of C32", "why_tests_cant": "It excludes errors for all inputs of all types; tests show that particular inputs give particular errors.", "anchors": ["src/readable_impl.rs:28-697", "src/readable_unsized_impl.rs:13-74", "src/reader.rs:114-712", "src/private.rs:30-253", "src/error.rs:88-112", "speedy-derive/src/lib.rs:1392-1707, 2254-2304"]}
{"id": "C92", "title": "What an error says identifies it", "statement": "The texts of two errors (other than errors of the operating system and those made with `Error::custom`) are equal only if the errors are equal, with all the sizes and the name of the field in them; of a constant only the length is shown. If a buffer is too short, the text says how many bytes were needed and how many there were. Errors of the operating system and custom errors print what they contain, and are the source of the error. Converting an error into a `std::io::Error` keeps its text, is an end of input for the same errors as before, and gives errors of the operating system back unchanged.", "quantifier": "all errors, with all sizes, names and texts", "why_tests_cant": "It compares all pairs of errors with all numbers and names in them.", "anchors": ["src/error.rs:1-141"]}
{"id": "C93", "title": "A borrowed slice has the same elements as a copied one", "statement": "Where the compiler accepts `&[T]` (or `&[T; N]`), reading it from a buffer gives the same elements as reading a `Vec<T>` (or `[T; N]`) from the same bytes and consumes as many bytes, and one of the two fails only if the other does. If the byte order of the data is not that of the host, elements of more than one byte are refused, never misread. Whatever the bytes are, the elements are valid values of their type; and in contexts other than `NativeContext` the slice is properly aligned wherever it lies in the buffer.", "quantifier": "all element types which implement `ZeroCopyable`, with all attributes, byte orders, hosts, contexts and buffers", "why_tests_cant": "It compares two ways of reading for all element types a user can declare and for all contents of the buffer; the `unsafe` cast is right only if the trait is implemented for no other types.", "anchors": ["src/utils.rs:20-33", "src/readable_unsized_impl.rs:36-80", "speedy-derive/src/lib.rs:316-322", "speedy-derive/src/lib.rs:2118-2143", "speedy-derive/src/lib.rs:2239-2246"]}
{"id": "C94", "title": "An error about a length attribute names the right field", "statement": "If writing a derived struct or enum fails because one of its own fields does not have the length which its `length` attribute says, then the error contains the name of a field (`t0`, `t1`, … in tuple structs), this is the first field (of the variant which is written) whose length is wrong, and the fields before it have been written but nothing of the field itself except its constant prefix. A value with such a field is never written successfully. Different fields give different texts.", "quantifier": "all derived structs and enums, all attributes, values, byte orders and writers", "why_tests_cant": "The names are put together by the macro for every declaration; tests see a few declarations with one wrong field.", "anchors": ["speedy-derive/src/lib.rs:1709-1733", "speedy-derive/src/lib.rs:766-772", "src/error.rs:26-28"]}
{"id": "C95", "title": "Values can be written and read part by part", "statement": "The bytes of a composite value are those of its parts, each written on its own in the same byte order, one after another: for a collection the number of elements as an `u32` (or as the type which `length_type` says, or not at all with `length`) and the elements, for an `Option` or `Result` an `u8` and what is inside, for a struct the fields in the order of their declaration, each after its constant prefix and without those skipped, for an enum the tag and the fields. So what was written part by part with `write_to_vec` or `write_to_stream` is read as the whole value, and what was written as a whole can be read part by part, with the lengths adding up to that of the whole.", "quantifier": "all types, values, byte orders, targets and working streams", "why_tests_cant": "Tests compare the bytes of some values; that the fast paths for slices and for primitive structs, the attributes and the traits for single values give the same format at every level of nesting concerns all types.", "anchors": ["README.md:56-178", "src/writable_impl.rs", "speedy-derive/src/lib.rs:1700-1870", "src/writer.rs:35-128"]}
{"id": "C96", "title": "Values of a fixed size can be found by their position", "statement": "Some types take the same number of bytes for every value: numbers, `bool`, `char`, addresses of one kind, times, arrays, tuples and structs of such types, enums all of whose variants have the same size. What comes after parts of such types is at a position which is known without the value: in the bytes of a collection whose elements have n bytes, the i-th element is at 4 + i * n (in an array at i * n), and a field after such fields is at the sum of their sizes. From there it can be read alone, without reading what is before it; and if its own size is fixed it can be overwritten with the bytes of another value, which gives the bytes of the collection or struct with this value in its place. Reading such a type takes exactly this number of bytes, whatever they are: fewer never give a value, with as many there is never an error which says that the input is too short, and bytes after them change neither the value nor the error.", "quantifier": "all types of a fixed size, collections, positions, values, byte orders, targets, and bytes before and after", "why_tests_cant": "Tests read and write whole values; that no value of a type and no element of a collection shifts those after it concerns all types, values and positions.", "anchors": ["README.md:56-103", "src/writable_impl.rs", "src/readable_impl.rs", "speedy-derive/src/lib.rs:1700-1870"]}
