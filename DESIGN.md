# Formal model of speedy in Lean 4: design

Subject: the Rust crate `speedy` 0.8.7 (`/repo`): a binary serialisation
library (`Readable`/`Writable` traits, readers, writers, derive macros).
Properties are in `properties.jsonl`; which theorem proves which property is
in `MANIFEST.json`.

## Architecture of the model

The code:

| Module (`lean/Verif/...`) | Code modelled |
|---|---|
| `Basic`      | bytes, byte orders, numbers (`src/endianness.rs`), errors (`src/error.rs`), hosts (byte order, pointer width) |
| `Report`     | `Error` with the names, sizes and texts in it: `Display`, `is_eof`, `source`, conversion into `std::io::Error` (`src/error.rs`) |
| `ZeroCopy`   | which types implement `ZeroCopyable` (C93); packed structs have no padding |
| `Blame`      | the generated code for writing (`Gen`) with the name of the field in errors about lengths (C94) |
| `Types`      | deep embedding of the supported Rust types: `Ty` (primitives, containers, tuples, derived structs with attributes, enums, `Uuid`), untyped values `Val`, sizes |
| `Mem`, `Layout` | memory representation of types which are copied in bulk; layouts, `is_primitive` decisions (`speedy-derive/src/lib.rs`) |
| `Utf8`       | `core::str::from_utf8` (validity only; proved in `PropsText` to accept exactly the UTF-8 form of Lean strings) |
| `Varint`     | `src/varint.rs` with 64-bit machine arithmetic |
| `CircularBuffer` | `src/circular_buffer.rs`; `assert!` = explicit panic value |
| `Prog`       | the `Reader` trait as an interface: a read program is a tree of reader calls whose continuations receive the *result* of each call, errors included |
| `Readers`    | `BufferReader`, `CopyingBufferReader`, `StreamReader` (`src/readable.rs`); a `std::io::Read` is a byte sequence plus an arbitrary finite list of events (short reads, empty reads, errors) |
| `Uninit`     | `StreamReader` on any implementation of `Read`, with the contents of uninitialised memory |
| `ErrorType`  | reading in contexts with their own error type (C62) |
| `AnyStream`  | implementations of `Read` which record what they do (for the proof of C61) |
| `AnyWrite`   | arbitrary implementations of `Write` and `Writer` (C63); `write_all` of the standard library as a relation between states |
| `Bounds`     | what the code generated for a struct needs of the types in it, its `where` clause and header (C64); traits other than `Readable` and `Writable`, lifetimes and `ZeroCopyable` bounds are left out (for these: `ZeroCopy`) |
| `ReaderApi`  | default methods of trait `Reader` (`src/reader.rs`), lengths |
| `Decode`     | `src/readable_impl.rs`, `src/readable_unsized_impl.rs`, `src/ext_*.rs`, `src/private.rs`, and derived `Readable` |
| `Entry`      | `read_from_buffer`, `read_from_stream_*`, `read_with_length_*` (`src/readable.rs:418-656`) |
| `Writers`    | the `Writer` trait, `BufferCollector`, `WritingCollector`, `SizeCalculatorCollector`, `BufWriter` as used by `write_to_file` |
| `Encode`     | `src/writable_impl.rs`, derived `Writable`, `bytes_needed`, `write_to_*` |
| `File`       | `read_from_file` with `mmap` (`src/readable.rs:548-657`) |
| `Context`    | contexts which hand-written implementations look at and change (`src/context.rs`, `src/writable.rs`) |
| `Attributes` | the attributes of declarations, variants and fields as they are written, before they are collected (C69): `speedy-derive/src/lib.rs` |
| `Tokens` | the parsers of the items of `#[speedy(...)]`, from tokens (C73); expressions are parsed by `syn`, of which two laws are assumed (`ExprLaws`): `speedy-derive/src/lib.rs` |
| `Grow` | pairs of versions of a type (specification of C70) |
| `Custom` | hand-written `write_to` and `bytes_needed`: programs which may use all methods of `Writer` and go on after errors |
| `CustomRead` | hand-written `read_from` and `minimum_bytes_needed`: programs which may use all methods of `Reader` and go on after errors (C72) |
| `Debug`      | those functions which do arithmetic or have debug assertions, as compiled in a debug build (C68): `src/circular_buffer.rs`, `src/readable.rs`, `src/reader.rs`, `src/writable.rs`, `src/writable_impl.rs` |
| `RawVec`     | the memory of a vector or array while it is read: `MaybeUninit`, `set_len`, `DropGuard` (`src/reader.rs`, `src/readable_impl.rs`) |
| `CopyIter`   | `RawCopyIter` and the functions which use it, with addresses (`src/reader.rs`) |
| `Derive`     | macro-time decisions: tag assignment, attribute checks |
| `Gen`        | the code which the macro generates for fields, with its names (`speedy-derive/src/lib.rs:1392-1841, 2250-2455`) |
| `SynMin`     | `minimum_bytes_needed` of declarations which may refer to each other (`speedy-derive/src/lib.rs:1972-2054, 2250-2313`) |
| `Syntax`     | macro-time decisions about types as they are written: recognition, bounds, recursion (`speedy-derive/src/lib.rs`) |

Specifications: `Spec` (documented format `wire`, values of a type `hasTy`, accepted declarations `declOk`), `Parse` (reader-independent meaning of
reading), `Regular` (`regular`, `canon`, `ends`: the decidable restrictions), `Valid`.

Proofs: `ReadersLawful`, `Refine`, `RefineTy` (every reader refines `parse`); `EncodeWire`, `WriterRun`, `WireLen`, `WireMin` (writers emit `wire`,
`bytes_needed` is its length); `Codes`, `RoundTrip`, `RoundTripTy` (`parse` inverts `wire`); `Connect` (entry points); `StreamAny`, `Strict`,
`StrictTy`, `NoPeek` (failing streams); `Refuse` (errors of writing); `Sound`, `Wp`, `Cost` (numbers of calls), `GoodTy`, `Total`, `Structs`; `Recursive`, `RecursiveOk` (recursive types); `Plain` (types which meet all conditions); `Recode`, `Settled` (values which have been read); `Norm` (values without what is not written); `Lent` (which references a value can hold); `Ahead` (a reader beside one with more input); `Heap`, `Debt` (the memory of values, and what pays for it); `GenOk` (the generated code does what `Decode` and `Encode` say); `Evolve` (variants added to enums); `DebugStream`, `DebugRead`, `DebugWrite` (debug builds); `Samples`
(concrete targets, types and values).

Property theorems: `PropsAccept`, `PropsAgree`, `PropsAnyStream`, `PropsAnyWrite`, `PropsAttrs`, `PropsBounds`, `PropsBugs`, `PropsBulk`, `PropsConcur`, `PropsContext`, `PropsCopy`, `PropsCost`, `PropsCount`, `PropsCow`, `PropsCustom`, `PropsCustomRead`, `PropsDebug`, `PropsDepth`, `PropsDerive`, `PropsEndian`, `PropsEof`, `PropsErrors`, `PropsEvolve`, `PropsExact`, `PropsExt`, `PropsFeed`, `PropsFile`, `PropsForced`, `PropsForeign`, `PropsGrow`, `PropsHeap`, `PropsNames`, `PropsWhole`, `PropsPiece`, `PropsToil`, `PropsCause`, `PropsReport`, `PropsZeroCopy`, `PropsBlame`, `PropsParts`, `PropsFixed`, `PropsHostile`, `PropsInterchange`, `PropsLent`, `PropsMaps`, `PropsMinEnds`, `PropsMinWrap`, `PropsNested`, `PropsNorm`, `PropsOrder`, `PropsPlace`, `PropsPlain`, `PropsPortable`, `PropsRaw`, `PropsReader`, `PropsRecode`, `PropsRecursive`, `PropsRefuse`, `PropsRest`, `PropsRoundTrip`, `PropsSafe`, `PropsSkip`, `PropsSpelling`, `PropsSteps`, `PropsStream`, `PropsText`, `PropsTime`, `PropsTokens`, `PropsTwin`, `PropsUninit`, `PropsVarint`, `PropsWrite`.

Proof strategy.

* *Writers.* `encode` (a program) is shown to emit `wire` on each collector by induction on `Ty`; `bytes_needed` is shown equal to its length.
* *Readers.* A *lawful reader* has an abstraction function to the pending bytes such that a read of available bytes returns them and a read of more
  fails with an end-of-input error. All readers are lawful on streams which do not fail (the stream readers through the circular buffer's refinement
  to a queue). `decode` on a lawful reader agrees with `parse` on the pending bytes.
* *Failing streams* are compared with the same bytes on a stream which does not fail (`Strict`).
* *Round trip.* `parse (wire v ++ rest) = (v, rest)` by induction on `Ty`.
* *Negations.* Where the code violates the property as stated, the negation is proved with a concrete witness (`_false`), and the part which holds is
  proved as `_partial`. Witnesses in `PropsBugs` for a written value also prove that type and value are legitimate (`Real`).

## Trusted base

* Lean 4.33.0's kernel. Axioms used by the theorems: at most `propext`,
  `Classical.choice`, `Quot.sound`. No `sorry`, own axioms, `native_decide`,
  `bv_decide`, `implemented_by`, `unsafe`.
* That the model is a faithful transcription of the Rust source. Each
  definition cites the file and lines it transcribes, and states what it
  simplifies.
* The Rust standard library functions used are modelled by their documented
  behaviour: `from_utf8`, `char::from_u32`, `Duration::new`,
  `SystemTime::checked_add` (64-bit unix), `Read::read_exact`,
  `Write::write_all`, `BufWriter`, `Vec`, collections' `FromIterator`.

## Modelled / not modelled

Modelled: the files in the table above.

Simplifications and assumptions:

* Layouts: `structOk` states what the Rust reference guarantees, plus one thing it does not: that `repr(packed)` keeps the order of fields (without it
  C28 is false: `C28_false_packed`). The same is assumed of `Pair` in `read_key_value_collection` (src/reader.rs:668-669, `ofMemPair`).
* Objects have at most `isize::MAX` bytes, and slices lie in the address space (`hasTy`, `InMem`).
* Loops which read until the end of the input (`length = ..`) carry fuel; no others do. `InMem.fits` bounds the input so that the fuel suffices.
  Running out of it is the separate value `diverge`: `C37_terminates_partial` shows when it does not occur, and `C37_false`, `C32_false_loop` are stated
  for every amount of fuel, so that they are about the loop and not about the bound.
* `usize` arithmetic in `bytes_needed` wraps around, as in a release build (debug builds, which panic, are modelled in `Debug` and compared in C68). `minimum_bytes_needed` and sizes of
  types are assumed to fit in `usize`.
* `unsafe_is_length!` is modelled: where its promise is broken the result is the explicit value `Panic.undefined`.
* Recursive types, also several which contain each other, are unrolled to a finite depth, for every depth (C44).
* Maps and sets are lists without repeated keys; iteration order is that of the list.
* The growth of the stream reader's buffer is an arbitrary function with `n ≤ grow n`.

* `Readable` implementations which read another type and convert it are `Ty.via`. Such types are not zero-sized, and their
  `minimum_bytes_needed` is that of the representation. chrono's and regex's checks are arbitrary predicates.
* Types of other crates: `SmallVec<[T; N]>` is `Vec<T>`, `IndexSet` is `HashSet`, `IndexMap<K, V>` is `HashMap<Box<K>, V>` (keys are
  never copied in bulk), glam vectors, quaternions and matrices are tuples of numbers (src/ext_glam.rs), `BVec` is a masked byte.

* Error types of user-supplied contexts: the default error type is used, except in `ErrorType.lean`, where reading is repeated with an
  arbitrary one (C62). Writing never looks at an error.

Not modelled: errors of a user-supplied type which hand-written implementations make themselves;
parsing of types, generics and expressions in the macro (`syn`), and `quote` plumbing except names (`Gen.lean`; the tokens in `#[speedy(...)]` are parsed in `Tokens.lean`, except expressions);
memory allocation failure (abort);
`#[speedy(unsafe_is_primitive = always)]` where its promise is not kept, except in `PropsForced` (`C28_forced`: if it is kept the struct is like one with `simpleOrSmall`); atomics' concurrency (a
single load is taken).

## Disagreements between the properties and the code

Every entry is a theorem about the model. Nothing was run: the code was only read, so these are not observations of the compiled crate.

| Theorem | What happens |
|---|---|
| `C01_false_transparent`, `C03_C04_false`, `C22_false`, `C25_false`, `C27_false`, `C28_false_transparent` | `repr(transparent)` structs with field attributes are copied in bulk as if they had none (lib.rs:2166-2187): prefixes and skips are ignored in slices; in the other byte order `bytes_needed` is too small and `write_to_vec` fails |
| `C01_false_panic` | a `repr(C)` struct containing a transparent struct, in the other byte order: reading a `Vec` panics |
| `C01_false_empty_struct`, `C32_false_empty` | division by zero on reading sets etc. of empty structs |
| `C01_false_exhausted` | an exhausted `RangeInclusive` comes back unexhausted |
| `C01_C40_false_skip` | skipped fields (by design) |
| `C01_false_set_skip` | a set of structs with a skipped field which takes part in `Eq`: elements which differ only there are read as one |
| `C85_false` | fields with `default_on_eof` or `length = ..` take the end of what has arrived for the end of the input (by design); `read_from_buffer` with fewer bytes than the minimum fails with `InputBufferIsTooSmall`, for which `is_eof()` is false |
| `C86_false` | `Vec` of a struct all of whose fields have `default_on_eof`: the length alone makes 2^32 - 1 elements, 16 GiB for an input of four bytes |
| `C87_false` | `enum E { A { #[speedy(length = kind_)] data: Vec<u8>, kind_: u8 } }`: compiles; writing compares the length with the field, reading takes the tag, since `let kind_ = _reader_.read_u32()?` of the macro is in scope: a value is read back as another |
| `C01_false_peek`, `C08_false`, `C09_false`, `C11_false_peek`, `C13_false` | `peek_tag`: payload not beginning with the tag; unit variants; minimum size; stream position |
| `C01_false_reference` | references to numbers are written in the other byte order and cannot be read |
| `C01_false_reference_elements` | a derived field `&'a [String]` is written element by element, and read by taking the bytes as memory of the elements |
| `C02_ipv6_depends_on_host` | `Ipv6Addr` is written differently on big-endian hosts |
| `C03_false_time` | `bytes_needed` succeeds for a time before the epoch, writing fails |
| `C03_C04_false_overflow` | 32-bit: the encoding of 4096 references to one string of 1 MiB has more than `usize::MAX` bytes; `bytes_needed` wraps around, `write_to_vec` fails, `write_to_stream` succeeds |
| `C31_false_reference` | a derived field `&'a [T]` is read by a cast of bytes to `&[T]` for every `T` (speedy-derive/src/lib.rs:1571-1602, no `ZeroCopyable` bound): bytes which are no `bool`, `char` or `NonZero*` are taken for one |
| `C93_false` | a `repr(packed)` struct is `ZeroCopyable` even if its fields have attributes (speedy-derive/src/lib.rs:2140 does not look at `can_be_primitive`): `&[T]` takes the memory for what has been written with prefixes or without skipped fields |
| `C06_false_zst`, `C11_false_zst`, `C31_false` | `Vec` of zero-sized types: elements are written and not read; a value of an empty enum is made |
| `C07_false_eof`, `C07_false_rest`, `C11_false_eof` | fields which depend on the end of the input (by design); a trailing part of an element is dropped |
| `C08_false_transparent` | minimum size of arrays of attributed transparent structs |
| `C10_false`, `C10_false_32`, `C46_false`, `C47_false` | `read_cow`: `length * size` wraps around; `length = ..` always copies |
| `C10_false_empty`, `C10_false_prefix`, `C10_false_panic` | `Cow<[T]>`: the zero-copy path divides by a size of zero, ignores prefixes inside transparent structs, and does not need the unimplemented `speedy_flip_endianness` |
| `C83_false`, `C83_false_empty` | `read_cow` takes different branches for aligned and other data, which disagree when the product wraps around or the elements have no size |
| `C15_false`, `C21_false` | `peek_u64_varint` is wrong from 128 on |
| `C19_false_exactly` | the zigzag conversion back is wrong |
| `C23_false` | a `default_on_eof` field which can be read from nothing does not get its own default |
| `C29_false` | `Cow<[T]>` of transparent structs with a prefix: memory is reserved for more than the input has |
| `C32_false_duration`, `C39_false` | `Duration::new` overflow panics on input |
| `C32_false_capacity`, `C32_false_capacity64` | capacity overflow panics on input |
| `C32_false_loop`, `C37_false` | elements of no bytes: endless loop |
| `C34_false` | `write_to_file` reports success though flushing failed on drop |
| `C35_false` | `InputBufferIsTooSmall` is not `is_eof` |
| `C38_false` | `Interrupted` is not retried when buffering |
| `C43_false` | strings are not the same in both byte orders: their length prefix is a number |
| `C45_false` | `&[T]` may be unaligned |
| `C48_false` | a failing `read_exact` loses bytes |
| `C51_false_zst` | `Vec` of zero-sized types: elements are returned which were never read |
| `C51_capacity_false` | `read_vec` reads `capacity * size` bytes; if `with_capacity` reserved more than asked for (the documentation allows it), this is more than the length |
| `C54_false`, `C54_false_vec` | `SizeCalculatorCollector::context` panics: an implementation of `Writable` which looks at the context cannot be written with `write_to_vec` or `write_to_buffer`, unless it defines `bytes_needed` itself |
| `C56_false` | an `Ipv6Addr` sent from a little-endian to a big-endian machine arrives as another address |
| `C57_false` | a `default_on_eof` field of type `Option<Vec<u8>>`, cut after the tag, is `Some(vec![])`; declared through an alias it is `None` |
| `C58_false` | `struct A { x: [Box<A>; 0] }` has a value, but its `minimum_bytes_needed` calls itself without end |
| `C60_false`, `C60_false_seen` | a `Read` (no `unsafe` needed) which returns `Ok( n )` without storing `n` bytes, or which looks at the slice it gets, makes the result depend on uninitialised memory: undefined behaviour in safe code |
| `C64_false_option` | `struct S< T > { x: Option< T > }`: the bound is `Option< T >: Readable`, the code needs `T: Readable`; the same for `Writable` |
| `C64_false_reference`, `C64_false_skip` | `#[repr(C)] struct S< 'a, T > { x: &'a [T] }` and `#[repr(transparent)] struct S< T >( #[speedy(skip)] T )`: the code asks whether a type is plain memory for which there is no bound |
| `C64_false_const`, `C64_false_variant` | constant parameters are left out of the header of the implementation; the pattern for a variant with a skipped field is incomplete |
| `C65_false_default` | a `Vec` of structs all of whose fields are `default_on_eof`: four bytes of input cause 2^33 calls and 2^32 - 1 elements |
| `C65_false_peek` | a `HashSet` of enums which only look at their tag (`peek_tag`): calls without bytes, as many as the length says |
| `C66_false_flag`, `_varint`, `_set`, `_map`, `_duration`, `_default` | other bytes are written than were read: a flag of 2, a varint with leading zeros, elements and keys which come twice, a second of nanoseconds, a field missing at the end |
| `C66_false_refused` | a set with `length = n` whose elements come twice is read and cannot be written (`LengthIsNotTheSameAsLengthAttribute`) |
| `C66_false_peek` | an enum with `peek_tag` whose first field is a `bool`: a value is read, written, and read as another variant |
| `C67_false_middle` | variants added before others without explicit tags: what was `C` is read as `B` |
| `C67_false_only` | a `Vec` of an enum with one variant and no fields: the old program does not read the tags, so that adding a variant changes what is read from the same bytes |
| `C68_false_read` | a `Cow<[u64]>` on a 32-bit machine with a length of `2^29 + 1`: the size wraps around, a release build returns one element, a debug build panics |
| `C68_false_write` | values of more than `usize::MAX` bytes: `bytes_needed` wraps around, a debug build panics |
| `C68_false_minimum` | `[Marked; 2^63]`, where `Marked` is of size 0 with a prefix of two bytes: `minimum_bytes_needed` is 0 in a release build, panics in a debug build |
| `C68_false_assert` | a `Vec` of a transparent struct with a skipped field, in the other byte order: `debug_assert_eq!` fails in `write_to_vec` |
| `C28_false_forced` | `unsafe_is_primitive = always` on a struct with a `char` (as in the crate's tests): reading a `Vec` in the other byte order panics, in the host's byte order invalid characters come out |
| `C69_false_repr` | of several `#[repr(...)]` only the last one counts, and `#[repr(C, packed)]` is not taken for packed: `write_to` then takes references to fields of a packed struct, which the compiler rejects |
| `C72_false_goes_on` | a hand-written `read_from` which goes on after a failed read finds the bytes still there with slices and the buffered stream reader, but the unbuffered one has lost them (`Read::read_exact`) |
| `C69_false_prefix` | `constant_prefix = 5i8` is rejected with the message to append `u8` or `i8`; `-128i8` (and `256u8`) make the macro panic |
| `C53_false` | `read_from_file` on Linux reads nothing from files whose size is reported as 0 (pipes, `/proc`); on other platforms it works |
| `C52_false` | a vector of `2^63 - 1` units: the promise of `unsafe_is_length!` is broken, undefined behaviour in `bytes_needed` |
| `C76_false_peek` | `peek_tag` on an enum with a variant whose first field is `Box` of the enum itself: the tag is not consumed, reading one byte recurses without end (stack overflow) |
| `C76_false_rest` | a struct whose first field is a `Vec` of itself with `length = ..`: reading recurses without end for every input |
| `C49_date_time_panics` | `DateTime<Utc>`: `Option::unwrap` on seconds or nanoseconds which are not a date: input can cause a panic |
| `C80_false_zst` | a set of zero-sized plain elements (`#[repr(C)] #[derive(Copy, ..)] struct Unit;`): `RawCopyIter` gives none of them, and its `len` divides by zero |

`MANIFEST.json` calls a property `proved` only if nothing in its statement or quantifier is left out.

## Per property plan

| Id | What is modelled, how it is proved |
|---|---|
| C01 | `decode` on any lawful reader applied to the output of `encode` returns the value; induction on `Ty` via `wire`/`parse`. Types for which the code is wrong are excluded by decidable predicates (`regular`, `canon`, `ends`); counterexamples for the exclusions are in `PropsBugs`. Values which are not read back as they are: `norm t v` (defaults in skipped fields, ranges not exhausted) is what is read for **every** value (`C01_any_value_partial`, also for streams), hence the value itself iff `norm t v = v` (`C01_exact_partial`). With `peek_tag`, iff the encoding begins with the tag (`C01_peek_exact`) |
| C02 | `encode` on any collector emits `wire`, which does not mention the host (Ipv6Addr excluded: proved host dependent) |
| C03 | `bytesNeeded` transcribed separately, proved equal to length emitted |
| C04 | the three collectors' interpretation of one write program agree, for all types; whether all three succeed depends on C03 |
| C05 | invariant of `BufferCollector`: only bytes `[0, needed)` change |
| C06 | `parse (wire v ++ rest) = (v, rest)` and lawfulness; what a `Vec` of elements without a size is read as, for all of them (`C06_false_vecs`) |
| C07 | `parse` is monotone (`parse bs = ok` implies `parse (bs ++ x)` = same), hence strict prefixes fail; error class by induction |
| C08 | `parse` consumes at least `minBytes`; false with `peek_tag` (witness). `minBytesR` computes the minimum with `usize` which wraps around: it is `minBytes` modulo `2^w` (`C08_computed`), and the same inputs are read (`C08_computed_read_partial`) |
| C09 | from monotonicity and locality of `parse` |
| C10 | relational induction on programs: the two buffer readers are run side by side (`Twin`), so that errors and positions agree too; also via `parse` |
| C11, C12 | both readers agree with `parse` |
| C13, C41 | unbuffered stream: internal buffer stays empty unless peeked; iterate over a list of types |
| C14 | refinement of `CircularBuffer` operations to list append/drop; induction on operation histories |
| C15 | peek laws of each reader; for varints the property is false (witness) and a partial holds |
| C16-C18 | bit-vector level lemmas, case split on the nine lengths |
| C19 | false (witness); the forward zigzag map is proved injective and short |
| C20 | decision logic on `write_length_*`/`read_length_*` |
| C21 | `Enum::new` transcribed, induction on variants; decode of unknown tags |
| C22-C25 | per-attribute theorems about `encodeFields`/`decodeFields` |
| C26 | insert semantics on association lists; permutation invariance |
| C27 | bulk path equals element path, by the layout theorem C28 and byte-swap lemmas |
| C28 | arithmetic on disjoint field intervals; `C28_declared`, `C28_seen` (`PropsOrder.lean`): how the macro finds the representation among the attributes |
| C29 | ghost allocation operation in read programs; `Frugal` (all reservations backed) is preserved by all combinators, by induction over types |
| C30 | pointer arithmetic on addresses; accesses recorded in a trace; induction on arbitrary programs |
| C31 | `parse` returns well-typed values |
| C32 | no panic outcome from `decode` under stated conditions; witnesses for the panics that exist, and for elements without a size: always (`C32_false_sets`, …) |
| C33 | induction on the write program with a sink failing at any point, for all types |
| C34 | false: `BufWriter` dropped without checking `flush` (witness); partial for sinks which do not fail |
| C35 | case analysis |
| C36 | induction on the 1024-byte loop |
| C37 | until-end loops with fuel; termination when each element consumes a byte |
| C38 | false for the buffered reader (witness); true for unbuffered reads without peeks. `C38_reported_partial` (from C42): for both readers an interruption either has no effect or is the error |
| C39 | arithmetic |
| C40 | from C06; for all values: two values have the same encoding iff they differ only in what is not written (`C40_exact_partial`) |
| C42 | simulation between a faulty stream and its fault-free version |
| C43 | `wire_rel` with the relation `Swapped` (numbers reversed, all else equal); equality by induction on `Ty` |
| C44 | unrolling of groups of mutually recursive types to arbitrary depth |
| C45 | false (witness address); `Cow` partial |
| C46, C47 | analysis of `read_cow`; overflow witness for 64-bit lengths |
| C48 | invariant over arbitrary read programs and stream events |
| C49 | `Ty.via` over the representation, `PropsExt`; the panic for dates is proved as a negation |
| C50 | `C50_convert` for every reader; `C50_checked` by a logic of possible results (`Outs`) which assumes nothing about the reader |
| C51 | `read_vec` and arrays again with explicit memory (`Places`) and undefined behaviour as a value; invariants of the two loops; equal results to `Decode` |
| C54 | hand-written implementations as trees of calls (`Script`) run with a context beside the reader or writer; specification `Spells` by induction, combined with C06 and the writer lemmas |
| C55 | `plain`, a syntactic condition on declarations, implies every condition of the theorems it combines (C01, C03, C04, C06–C13, C31, C32, C40); `lengthsFit` is shown to be equivalent to having an encoding |
| C56 | `Ty.source` forgets the layout, the `repr` and the spelling of the types; the format does not depend on it (`wire_source`); `parse_same`: the parsers of two machines do not disagree, by induction over the pair of types |
| C57 | `Syntax.lean`: types as written (`SynTy`), their recognition by the macro (`parseTy`), names in scope (`StdScope`); `synFields_raw`: the macro on types as written is the macro of `Derive.lean`; `C57_spelling`: declarations whose fields mean the same types yield types which differ only in what `Ty.source` forgets; then C56 on one machine.  Missing: types which are not `regular` (C01), and types whose reading depends on the spelling (`C57_false`) |
| C58 | `SynMin.lean`: a program is a set of types with the way in which their `minimum_bytes_needed` is computed, evaluation counts nested calls; `HasValue` is inductive; the proof is by induction over it, types trusted by `is_guaranteed_non_recursive` by induction over their syntax; `C58_value`: the result is that of `minBytes` on unrolled types.  Missing: arrays of length zero (`C58_false`) |
| C59 | `PropsText.lean`: `utf8Valid` (the model of `from_utf8`) is compared with the strings of Lean and the UTF-8 encoder of Lean's library: it accepts exactly the encodings of strings (table 3-7 of the Unicode standard, by cases on the bytes); the rest by C55, `Outs` (any reader at all) and `decode_refines` (any lawful reader) |
| C60 | `Uninit.lean`: the stream reader again, on any implementation of `Read` (`Device`: sees the slices it is given, may return any number) and with uninitialised memory of any contents (`junk`); two runs with different `junk` are related by a bisimulation (the buffers agree in their occupied part), for all programs; with the streams of `Readers` the results are those of the other theorems (`C60_same_model`). False for streams which break the contract of `Read` (`C60_false`) |
| C61 | `AnyStream.lean`: a `Device` is made to record what it delivers (`Device.recorded`; recording changes nothing, `run_forget`); by induction over programs the run equals the run on the recorded `Src` (`Replay`, composed step by step), which then is at its end. So the theorems on `Src` are about all implementations of `Read` which report possible numbers; consequences from C42, C11, C13 |
| C62 | `ErrorType.lean`: reading with an arbitrary `From<Error>` and `is_eof`; equal to `decode` by induction on `Ty`, for every reader; `Follows` (an `is_eof` which is true less often only makes fewer values readable) by a second induction. The contract (`is_eof` of a converted error is that of the error) is needed: `C62_contract` |
| C63 | `AnyWrite.lean`: the calls made by a write program (`WProg.calls`), by induction over programs; `write_all` of the standard library is an inductive relation (`StdWriteAll`: runs which end; deterministic), so that streams with any state need no bound on interruptions. A run which ends is recorded as a `Sink` (`record_run`), which gives the consequences from C04 and C33; a run which does not end is shown to be interrupted for ever (`endless_interrupted`) |
| C64 | `usesGeneric` is shown sound (substituting for the parameters does not change a type it rejects) and without needless bounds (a name or an unseen part is there); the `where` clause is sufficient in every set of types closed under the crate's implementations (`World`), which is what a compiler can conclude. Missing: `Option< T >`, borrowed slices in structs which may be plain memory, skipped fields of transparent structs and of variants, constant parameters, for all of which it is false (disagreements) |
| C65 | calls of the reader interface are counted (`Prog.callCount`); `Prog.Wc` is a calculus for them which leaves the reader's answers open. `C65_calls_partial`: types with attributes, constants given by the type; `C65_six_partial`: six calls for a byte if every part takes bytes of its own, and with the same constant for recursive types at any depth; `C65_nested_partial`: recursive types with any attributes, constants which depend on the declarations but not on the depth (failures which `default_on_eof` turns into values at every level are paid by the byte consumed before). Loops over elements for which nothing is called (`HashSet< () >`) are not seen in this count. Missing: elements which need not take bytes (`default_on_eof`, `peek_tag`), for which it is false |
| C66 | `Recode.lean`: `Recodes` relates what a parser takes to what `wire` gives for its result, by induction over types with one representation of each value (`firm`; it also shows that the results are values of the type, so that no size has to be assumed). `Settled.lean`: the results of parsers are canonical, so that C01 applies to them (`C66_again_partial`, sets and varints included; values are assumed to be in memory). Missing: the types of the `_false` theorems, `length = ..` |
| C67 | `Evolve.lean`: `Older T t t'` (variants added at the end of enums somewhere in a type; the layout of structs which are not copied in bulk may change); `C67_declared` shows it of the two declarations given to the macro. `wire_older`: the same bytes, by induction. `parse_older`: the parsers agree, or the old one reports `InvalidEnumVariant`, or one of them runs out of memory. Missing: types which are not `regular`/`Agreeable`, variants elsewhere than at the end, variants inside types which are read through another one (`via`) |
| C68 | `Debug.lean` repeats what a debug build does differently. `AgreeD` relates read programs which make the same calls up to checked products; the readers match step by step while the circular buffer is sane (`CBuf.Sane`), so that none of its assertions or subtractions fail. Writing: `bytesNeededD` is the same number or a panic, by induction; where the size is right (C03) the assertion holds. Missing: what the `_false` theorems show; sizes `size_of::<T>() * N`, which the compiler makes fit in `usize`. `minBytesD` computes `minimum_bytes_needed` as a debug build does: the same number, or a panic if it does not fit (`C68_minimum_partial`, `C68_false_minimum`) |
| C69 | `Attributes.lean` models the passes over `#[...]` and the collecting loops. Each loop is a fold of a step; two steps commute up to which error is reported, so permutations of the items give the same result (`C69_fields`, `C69_variants`, `C69_enum`, `C69_struct`); `C69_collected`, `C69_once`: everything written is kept, once; `C69_declared`: what is accepted is accepted by `Derive.lean`. `C69_prefix`: literals mean what they mean in Rust. Missing: what the `_false` theorems show; the parsing of tokens by `syn` (items are given, or malformed); which error is reported |
| C70 | `Grown t t'` (`Grow.lean`) is the evidence that `t'` is a later version of `t`, with fields added at its end; `g.up` and `g.down` translate values, `C70_down_up`: nothing is lost. New type, old data: induction over `g` with the round trip for everything before and C23 for the added fields (`parse_up`), and the minimum sizes are equal (`min_grown`). Old type, new data: induction over `g` (`parse_down`), the old parser takes the beginning of what was written and leaves the rest; the minimum size does not become smaller (`min_less`). Enums with `peek_tag` and types with `length = ..` at the end are included. Missing: the exceptions of C01 and C23. `C70_false_inside`, `C70_false_unmarked`: the conditions are needed |
| C71 | `write_to` is any tree of calls of `Writer`'s methods (`Custom`, `Custom.lean`), `bytes_needed` any result; the specification `Custom.meaning` is a list of bytes with a limit. Refinement by induction over the tree (`run_anyBuffer`), `can_write_at_least` with wrapping addition (`canWriteWrap_eq`). Values which change: `C71_changed`, `call_meaning`. Witnesses for the conditions: `C71_false_ask`, `C71_false_context` |
| C72 | `read_from` is any tree of calls of `Reader`'s methods and of the context (`Reading`, `CustomRead.lean`), `minimum_bytes_needed` any number; the specification `Reading.meaning` is a list of bytes with a position. Refinement by induction over the tree: `run_buffer_meaning`, `run_copying_meaning` (exact), `run_stream_meaning` (for programs which leave the reader alone after a failed read: `Quits`). Necessity of this: `C72_false_goes_on` |
| C73 | `Tokens.lean` models every `Parse` of the macro and `parse_terminated`. The grammar is given separately (`FieldItem`, `VariantItem`, `EnumItem`, `StructItem`, `Listed`); `C73_field`, `C73_variant`, `C73_enum`, `C73_struct`: accepted with these items if and only if listed so (each parser is sound and complete for its grammar, lifted by induction over the list). `C73_rejected_struct`, `C73_rejected_enum`: an unknown word at the beginning of an item, anywhere in a declaration, makes the macro fail, by induction over fields and variants. `C73_attributes`: all items of all attributes are found. |
| C74 | `SameFormat` (`PropsInterchange.lean`) lists which values of which types have the same format, closed under containers, fields and variants, symmetry and transitivity. By induction over it the documented format `wire` is the same (`alike_wire`); as writing is `wire` for both types (C02) the bytes are the same (`C74_written_partial`), and C01 for the second type reads them (`C74_read_partial`, `_copying_partial`, `_stream_partial`). Missing: the exceptions of C01 |
| C75 | The rules are a relation between what is written and the derived type (`FieldRule`, `FieldsRule`, `TagOf`, `VariantsRule` in `PropsAccept.lean`), given by membership of items and not by the loops of the macro. `C75_fields`, `C75_struct`, `C75_enum`: accepted with this result if and only if related; induction over fields and variants, `FieldRule.unique` for the only meaning. `C75_derive` ties `Derive.lean` (C21, C37) to `Attributes.lean`. That the macro recognises a type by its name (`known`) is C57's subject, that items are parsed from tokens is C73's |
| C76 | A recursive type is a template with holes (as for C44); `deep c b n` is the type unrolled `n` times with arbitrary types `b` further down, so that a call nested deeper than `n` would show in the result. `late`: every hole comes after a byte which is certainly consumed (`consumes`). `C76_ends_partial`: for `n` at least the number of bytes left plus two the run is the same for all `b`; strong induction on the number of bytes, inside it induction over the template (`same_fill`), for all `Orderly` readers (buffers, streams failing at any time). **False** in general: `C76_false_peek` (`peek_tag` and a variant which begins with the type itself: a one-byte input nests without end) and `C76_false_rest` (`length = ..` of the type itself as the first field). `C76_no_limit`: the depth does grow with the input, there is no limit in the library, so that the stack needed is bounded by the input and not by a constant |
| C77 | `writeToFile` runs the program on a `BufWriter` (8192 bytes, as in the standard library) over a file with any behaviour and drops it, which writes again and ignores errors. Invariant: file ++ buffer is a prefix of what was given so far, equal to it as long as nothing failed. `C77_file_prefix` |
| C78 | Templates as for C44 and C76. The conditions of C29, C31 and C32 (`sane`, `minOk`, `calm`, …) are shown to hold for all unrollings if they hold for two (they depend on sizes, which do not see behind pointers, on minimum sizes, which are the same at every depth, and on defaults, which stay valid); they are decidable for given types except `sane`. With C76 the result is that of the functions which call themselves: `C78_buffer_partial`, `C78_stream_partial` (any `b` in place of the types nested deeper than there are bytes), `C78_reservations_partial` (at every depth). The stack is not modelled: C76_no_limit |
| C79 | Templates as for C44, C76 and C78. The conditions of C10 (`lendable`, `noRefs`) and of C09, C11, C12 (`peekOk`, `cowOk`, `ends`) hold for all unrollings if they hold for two (`borrowable_unroll`, `concordant_unroll`), and by C76 the functions of the recursive types are those of unrollings deep enough for the input (`deep_lengths`, `deep_stream`): `C79_buffers_partial` (equality, errors included), `C79_streams_partial`, `C79_reported_length_partial`, `C79_self_delimiting_partial`, `C79_truncated_partial`. Excluded are the types excluded in C01, C10, C11 and C76 |
| C80 | `RawCopyIter` with addresses (`CopyIter.lean`): reading outside of the slice, or moving a pointer out of it, is an explicit fault. A collection is any function from the answers seen to the next call; by induction over the calls the answers are those of a list (`C80_iterator_partial`). `read_collection` and `read_key_value_collection` with this iterator give what the model of C01 etc. says, on all lawful readers (`C80_set_partial`, `C80_map_partial`). False for zero-sized elements (`C80_false_zst`) |
| C81 | `PropsEndian.lean`: the functions of `Endianness` themselves (numbers by their bits; the slice functions as loops); proved: `read_*` give the number with these bytes or panic for other lengths (`C81_read`), `swap_*` leave the bytes in memory in the asked order and are their own inverse, slices are swapped element by element, signed numbers keep their value |
| C82 | `lent t v` (the value contains a reference) is defined on types and values; by induction over types no program `decode` whose calls for borrowed bytes are answered with `None` returns such a value, whatever the other answers are (`C82_reader`); the stream reader and the copying reader answer `None` (`C82_stream`, `C82_copying`, `C82_file`), so that references themselves are refused (`C82_stream_refused`, `C82_copying_refused`) and `Cow` is owned (`C82_cow`) |
| C83 | two runs of `BufferReader` on the same bytes at different addresses are compared step by step (`Place`, after `Twin`), by induction over all types; only `read_cow` depends on the address (`C83_place_partial`, `C83_value_partial`). Condition `placed`: elements of a `Cow<[T]>` which is copied in bulk need no alignment, or have a size and the largest length does not make `length * size_of` wrap around; without it the claim is false (`C83_false`, `C83_false_empty`). `C83_cow`: for `read_cow` with a given length the condition is necessary and sufficient |
| C84 | `holds bad t v` (the value contains a reference of one of the types `bad`) and one induction over types (`decode_unlent` in `Lent.lean`, shared with C82): if references of these types are refused by every program `decode`, no value holds one, whatever a reader answers (`C84_reader`, `C84_buffer`); the references themselves fail before anything is read (`C84_refused`); in the machine's order they are read back (`C84_native`) |
| C85 | `feed` is the program which waits. `Ahead R R' Rel` relates a reader to one with more input: each operation answers alike, or the shorter one says that the input is too short; one induction over types (`decode_waits`) carries this to `decode`, for types without `length = ..` and `default_on_eof` (`ends false true`), whatever the input contains. `C85_final_partial`, `C85_final_copying_partial`, `C85_final_stream_partial` (answers are final), `C85_feed_partial`, `C85_feed_copying_partial`, `C85_feed_moving_partial` (pieces; the last two with bytes which move), `C85_message_partial` (complete messages are read, incomplete ones waited for). `C85_false`: the two attributes, and that `is_eof` alone does not tell that a buffer is too short |
| C86 | `heap T t v` counts the bytes of a value on the heap (elements with their sizes, strings, boxes; not unused capacity, the tables of sets and maps, or what conversions make; a `Cow` counts as owned). `C86_memory_partial`, `C86_buffer_partial`, `C86_stream_partial`: at most `memPerByte t` for every byte consumed and `ownMem t` more, for types whose loops take bytes (`steady`), by one induction over types in the program logic of C65 (`Fills`). `C86_rate_partial`: any rate at which every element of a container pays for its place (`bears`), with what the type owes at that rate, which may be negative; `C86_recursive_partial`: the same for recursive types, with constants which do not depend on the depth (exact for linked lists of any length). `C86_false`: four bytes give a vector of 16 GiB if all fields of the elements have `default_on_eof` |
| C87 | `Gen` is the generated code itself: the pieces which the macro puts together with names and length expressions in them, as a small language with `let`, `?`, `match`, closures and `return`, its meaning by the scoping rules (identifiers of `quote!` are not hygienic), and which code compiles as far as names are concerned. `C87_read`, `C87_write`: for any struct accepted by the macro whose two functions compile, they are `decode` and `encode` of the fields without names; hence everything proved about those holds for the generated code. `C87_rename`: renaming changes nothing; `C87_compiles`: every name but `_reader_` and `_writer_` compiles. `C87_enum_partial`, `C87_enum_rename_partial`: enums without a field `kind_`. `C87_false`: a field `kind_` whose name is in the length of an earlier field. Not modelled: types of values (`rustc` may refuse more), names of types and lifetimes |
| C88 | `C88_whole`: the whole effect of writing a varint to a `BufferCollector`, from the check `can_write_at_least` and the lemma on writing to buffers with room |
| C89 | `C89_read_slice`, `C89_read_str`, `C89_write_slice`, `C89_write_str`: the number of calls (`callCount`) is at most 6 or 4, from bounds for each method which hold for all answers (`AtMost`). Plain data is a separate definition (`solid`: offsets are the sums of the sizes before), shown to satisfy the test of the macro (`solid_prim`; the converse is C28) |
| C90 | `C90_calls`: induction on the type (`brief_encode`): all calls of the program which writes a value, against the bytes of its output; containers are counted by a separate function on values (`containers`). The recursive types of C44 are instances (`unroll c n`). Calls inside hand-written implementations of `Writable` are not counted, only those of the modelled types |
| C91 | The reasons are a separate function on declarations (`reason`). `C91_reader` for any orderly reader whose errors are in a given class, by induction on the type (`yields_decode`) in a program logic over all answers of the reader (`Prog.Ends`); `C91_buffer`, `C91_copying`, `C91_stream` for the entry points; `C91_not_writing`: no errors of writing. `Err.fault` (panics, endless loops, ill-typed terms of the model) is excluded by hypothesis: C32. That each reason occurs is shown for one type only (example) |
| C92 | `Report.lean` models `Error` with names and texts (`Err` drops them; `C92_model` connects the two). `C92_text`: the fixed beginnings of the texts are not prefixes of one another, and the parts behind them are parsed back. `C92_io`, `C92_convert`, `C92_converted`, `C92_source`: by cases; `C92_too_small`, `C92_no_room`: the sizes for the entry points. `std::io::Error` is its kind and its text; that `io::Error::new(kind, text)` prints `text` is taken from the standard library |
| C93 | `zeroCopy` is the trait `ZeroCopyable` (`ZeroCopy.lean`). Types which have it and whose fields have no attributes are shown to be copied in bulk, so that both ways of reading follow the same parser: `C93_slice_partial`, `C93_array_partial`. `C93_mismatch` (all element types), `C93_numbers`, `C93_valid` (any attributes; from C31), `C93_aligned`. The claim is false for `repr(packed)` structs with attributes (`C93_false`) and, because `Vec<T>` panics, for one-byte elements in the other byte order with a transparent struct inside (`C27_false`). `unsafe_is_primitive` is not modelled |
| C94 | `structPieces`/`enumPieces` (`Blame.lean`) are the generated code of C87 as steps, where the comparison of lengths is a step of its own with the name of the field; `C94_erase` and `C94_enum_erase` prove that without the names they are that code. `C94_named`, `C94_enum` (the name is that of the first wrong field), `C94_first`, `C94_enum_first` (what has been written before), `C94_refused`, `C94_enum_refused`, `C94_text`. The claim is about the fields of the type itself: an error which comes from a field whose own type is derived is made by the code of that type, for which the same theorems hold, and has no name at the outer level of the model |
| C95 | `parts` (`PropsParts.lean`) lists the parts of a value, independently of `wire` and `encode`; it goes one level down, so that it can be applied again to each part. `C95_written_partial` (`write_to_vec` gives bytes exactly if it gives the same bytes for the parts one after another), `C95_parts_partial` (what can be written has parts), `C95_stream_partial`, `C95_read_whole_partial`, `C95_read_parts_partial`, `C95_read_stream_partial`. Proved with the format (C03) and the round trip of messages (C41). Missing: the same as there; IP addresses, `SystemTime` and `Endianness` are taken as having no parts |
| C96 | `fixedSize` (`PropsFixed.lean`) is the number of bytes of a type, where it does not depend on the value; it is defined on types only. `C96_written_partial` (all values have this size, by induction over the types), `C96_position_partial`, `C96_read_partial`, `C96_overwrite_partial` (parts, in the sense of C95, after parts of fixed sizes), `C96_element_partial`, `C96_read_element_partial`, `C96_overwrite_element_partial` (elements of collections), `C96_consumed_partial`, `C96_consumed_copying_partial`, `C96_stream_partial`, `C96_short_partial`, `C96_enough_partial`, `C96_after_partial` (any bytes; by induction over the parser `parse`; with `C85_final_partial` for the last). Missing: as for the format (C03) and the round trip (C01); for arbitrary bytes as in C10 |
| C53 | `read_from_file` over a record of the answers of the operating system, with a ghost list of `mmap`/`munmap`; combined with C01, C07, C10, C12, C34 |
| C52 | all errors in a write program satisfy `Refusal` (induction over types); errors of the collectors; `bytes_needed` with machine arithmetic |
