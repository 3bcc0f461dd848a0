# Struson formal model — design

Source under study: `/repo` (Marcono1234/struson). The Lean 4 project in `/verif/lean`
contains a hand-written model of the Rust code, an independent specification, and proofs
that the model meets the specification. The Rust code itself is never executed.

## 1. Trusted base

* Lean 4.33.0 kernel, and the standard axioms `propext`, `Classical.choice`, `Quot.sound`
  (the file `Verif/Audit.lean` prints the axioms of every property theorem). No own axioms,
  no `sorry`, no `native_decide`, no `bv_decide`.
* That the Lean definitions under `Verif/Model/` describe the Rust code. Every definition cites
  the file and lines it models and states its simplifications. Definitions whose comment says "Model only" have no
  counterpart in the code: they are parts of the framework (monads, trees of calls) or arbitrary users of the library.
  "Standard library" marks functions of Rust's standard library, which are modelled after their documentation.
* That the definitions under `Verif/Spec/` say what the English statements in
  `properties.jsonl` say.

### Modelling conventions

* `u8` = `UInt8`; `&[u8]`/`Vec<u8>` = `List UInt8`; `str`/`String` = `List Char`;
  `&mut self` methods = state monad computations (`M`, a state monad whose errors keep the state), so the state after an error is kept.
* `panic!`, `assert!`, `debug_assert!`, `unreachable!`, slice index failures and arithmetic underflow
  are explicit error values of the model (`panic ..`), never hidden by totalised functions.
* Loops are structural recursion on fuel. The fuel given is computed from the state and running out
  of fuel is an explicit error value proven unreachable (property C29).
* `u32`/`u64`/`usize` counters which only count bytes/levels/elements are `Nat`: inputs of 2^32 bytes or
  levels and more are outside the model (the Rust code would wrap or panic there). C63 proves that the counters of the reader's position
  cannot exceed the size of the input.
* `std::io::Read` is a schedule (list of events: data chunk, Interrupted, error; then EOF), `std::io::Write`
  a sink with an optional failure point.
* Standard library functions used as black boxes: `std::str::from_utf8`, `char::from_u32`, `char::is_control`,
  integer `to_string`/`parse`, `f64` formatting and parsing, `Vec`/`String` operations. `from_utf8` and the integer
  functions are modelled by Lean functions; `f64` text conversion is a parameter.

## 2. Layers

1. `Spec/` — UTF-8 (via Lean core's `String.utf8EncodeChar`), the RFC 8259 grammar as inductive predicates on bytes,
   JSON values, serde data model.
2. `Model/` — the code: `utf8.rs`, `json_number.rs`, `reader/stream_reader.rs`, the default methods of
   `reader/mod.rs` (`seek_to`, `seek_back`, path display), `writer/stream_writer.rs`, `writer/mod.rs` (numbers),
   `writer/simple.rs`, `reader/simple.rs`, `serde/ser.rs`, `serde/de.rs`.
   The reader is written once, generic over a byte source; two sources are modelled: the concrete 1024-byte
   buffer with `fill_buffer`/`BytesValueReader`, and an abstract byte list.
3. `Proofs/` — lemmas. 4. `Props/` — property theorems with examples. 5. `Audit.lean`.

## 3. Properties

| Id | What is modelled | How it is proved |
|----|------------------|------------------|
| C01 | reader over concrete buffered source vs. abstract source | bisimulation of byte sources, lifted through the whole reader and to arbitrary operation sequences |
| C02 | all internal panics/asserts of the reader as error values | invariant of the abstract machine plus C01 bisimulation |
| C03 | `is_valid_json_number` | equivalence with inductive number grammar |
| C04 | `read_number_bytes` | same, plus separator check |
| C05 | `collect_next_number_bytes!` | exact characterisation from the number automaton |
| C06 | `utf8.rs`, `read_utf8_multibyte` | bit-level lemmas to arithmetic, equivalence with the encoder |
| C07 | `read_string` | equivalence with inductive string grammar |
| C08 | both string decoders | simulation |
| C09, C10 | `StringValueReader` | invariant over read sequences |
| C11, C12 | reading client over the reader model | induction over fuel resp. over the grammar derivation |
| C13 | settings | monotonicity of the grammar plus C11/C12 |
| C14, C16 | peek/has_next/failing calls | state equality up to the peeked token |
| C15, C17, C20–C23 | reader on valid documents | cursor machine over JSON values with a simulation relation |
| C18 | stack length invariant | induction over operation sequences |
| C19 | position bookkeeping | invariant over operation sequences |
| C24 | reader + writer composed | simulation |
| C25, C26 | whitespace/comment skipping | equivalence with inductive whitespace grammar |
| C27 | multiple top level values | as C11/C12 |
| C28, C29 | panics, fuel | invariants |
| C30 | abstract source on two inputs with common prefix | two-run relation |
| C31–C35, C38–C42 | `JsonStreamWriter` | invariant over call sequences, refinement to JSON value builder |
| C36, C37 | `StringValueWriterImpl` | invariant over chunk sequences |
| C43–C47 | Simple API | models of the wrapper layers |
| C48–C52 | serde | models of serializer/deserializer over the data model |

| C53 | `serde/de.rs` for arbitrary `Deserialize` implementations | tree of reader calls against a specification on JSON values |
| C54 | the reader with callers which ignore errors | invariant of all consistent states, concrete buffer related to a changing abstract input |
| C55 | the writer with callers which ignore errors | weak invariant (indentation level vs. depth) which is preserved also by failing calls; all answers of `write_bytes` considered in every state |
| C56 | `serde/de.rs` for arbitrary data | all trees of calls against the usage automaton (`Ob`), with what is known about the reader after each call |
| C57 | `simple.rs` (reader) for arbitrary data | as C56, additionally with the state of string value readers and the number of remaining bytes (termination) |
| C58 | `serde/ser.rs` for arbitrary `Serialize` implementations | as emitted tree the same as for the described value (`Alike`, `Cut`, `Never`) if the implementation stops after errors; otherwise every run is a sequence of permitted writer calls (`Walks`), and the weak invariant of C55 |
| C59 | `peek_internal_optional`, `read_string`, `skip_all_string_bytes`, `skip_value`, begin and end of arrays and objects | `Tight`: a successful computation depends on the consumed bytes only. Whatever looks ahead (`Loc`, C30) is harmless if at least one more byte is consumed afterwards, therefore only the last step of each method has to be examined |
| C60 | all reader methods except those returning names, strings and numbers; `fill_buffer`, `peek_byte` | `Same`: two instances of `ByteSource` which agree on `peek_byte` and `skip_peeked_byte` lead to the same results; function by function, together with the invariant (no path, bounded nesting, unchanged size of the buffers) |
| C61 | `ReaderSettings::default`, `WriterSettings::default` | instances of C11, C12, C19, C28 and C33 |
| C62 | complete reader including all error locations | `Spec/ErrorLocation` says what is found at the location for every kind of error. `Proofs/Abs/Where*`: invariant which connects the position with the split of the input into consumed and remaining bytes, with the comma and the peeked token as the only lookahead |
| C63 | counters of the position (`Nat` in the model) | corollary of C19/C20 and C62; the consumed part of the document needs at least two bytes per array item and one per open array or object |
| C64 | `Display` of `JsonReaderPosition`, `LinePosition`, `ReaderError` and the kinds of errors (`Model/Display.lean`) | the texts are split from the end (numbers contain no space, the position ends with a digit, a parenthesis or an apostrophe), hence the path may contain anything; specification: texts determine the values, and contain them as shown by Lean's own `toString` |
| C65 | `Debug` of `JsonStreamReader` and `JsonStreamWriter`, as far as the buffers are shown (`Model/Debug.lean`); `char_indices`, slicing of `str` and `valid_up_to` of the standard library are modelled on byte indices | bounds of the buffers are invariants of all calls including failed ones (from C02 / C55); texts are compared with their encodings; `Spec/Debug.lean` says what is shown without indices; that the data is the next input follows from the invariant of C62 |
| C66 | the writer as for C29 - C38, its buffer, and `Debug` as for C65 | the emitted bytes are `Written.bytes` of what has been written (outcome of every call), which is valid UTF-8 and begins with an ASCII byte by induction over the values; prefixes and suffixes of UTF-8 are valid up to 3 bytes |
| C67 | the rules of `json_path!` and `multi_json_path!` and the conversions they use (`Model/Macros.lean`); an expression is one token, so where an expression ends is decided by the compiler | induction over the number of tokens for the two states of the list of pieces (a piece or a comma is allowed next); the notation is `Spec/Macros.lean` |
| C68 | `write_bytes` and `flush` with the buffer, all methods of the writer and the string value writer, sequences of calls (existing model) | invariant of the buffer: `N · calls ≤ received + (N − 1) · flushes`; bound on the flushes of every method by composition |
| C69 | all methods of the writer and the string value writer, sequences of calls, the buffer (existing model) | the emitted bytes are those of the abstract document written so far (existing invariant); induction over this document that all characters satisfy a predicate which holds for printable ASCII, the separator and characters not required to be escaped |
| C70 | all methods of the reader, sequences of calls (existing model) | relation between the states of two readers (`Proofs/NoPath`): equal except for the path, the setting and the bytes left over in the buffer of the last value; shown for each function, for skip_name between reading and skipping a string byte by byte; internal panics (path pieces not matching the stack) are excluded by C02. Also for programs with transfer_to (`Proofs/NoPath/Transfer.lean`). Not included: calls after syntax and IO errors and, if the writer failed during transfer_to, later calls of the reader |
| C71 | all methods of the reader, sequences of calls (existing model) | table `ErrorKinds.does` (Spec/ErrorKinds.lean) of what each method does, written from the documentation, and which errors fit to that; rules for each monadic step and lemmas for each function (`Proofs/Kinds`); for the compound methods (skip_value, seek_to, …), which call methods with more errors, together with the invariant of consistent states (`Proofs/After`): the next token is known when they are called. That skip_to_top_level and seek_back do not report 'fewer elements than expected' is taken from C16. `transfer_to`: `Proofs/Kinds/Transfer.lean`. Panics are not part of this property (see C02). Not included: calls after syntax and IO errors |
| C72 | all methods of the writer and the string value writer, the buffer, sequences of calls continued after errors (existing model) | reasons `WReason.Reason` (Spec/WriterErrors.lean) in terms of the arguments of the calls and the events of the underlying `Write` only; a predicate on trees which lets `write_bytes` and `flush` fail only with errors that have a reason (`Proofs/Writer/Reasons`), with a lemma for each function; the remembered error of a string value writer is one of the reported ones (invariant); `write_all` and `flush` return only errors of remaining events, which are a part of the original events (induction) |
| C73 | all methods of the writer and the string value writer, the buffer, sequences of calls continued after errors (existing model) | failures are counted from the events of the underlying `Write` (`WReason.writeFailures`, `flushFailures`, Spec/WriterFailures.lean), reported errors from the results (`ioErrors`); a predicate on trees which collects the failures of `write_bytes` and `flush` (`Proofs/Writer/Failures`), with a lemma for each function that the collected failure is its result; `write_all` and `flush` fail exactly if an event of the consumed ones fails (induction) |

The exact theorem names are in `MANIFEST.json`; section 4 describes the proofs and section 5 what they revealed.

## 4. Structure of the proofs

### Reader

* `Proofs/Rel`, `Bisim`, `RelReader`, `Run`: relation between the concrete source (`BufSrcD`: buffer, read schedule, `BytesValueReader`) and the abstract
  source (`AbsSrc`: the list of bytes still to come). Every method of the reader preserves it, therefore `runReader` (concrete) equals `runAbs` (abstract): C01.
  All other theorems about `runReader` are proved for `runAbs`.
* `Proofs/Abs/Basic`: `Wp m s Q E`, weakest preconditions with separate postconditions for success and error. One pass over all methods for each kind of
  statement: `Inv`/`Ops` (consistency of stack, path and flags; internal panics, C02), `Usage` (C28), `Ws`/`Token`/`Str`/`Text`/`StrRd` (tokens against the grammar, C03–C10, C25, C26),
  `Sound`/`Complete`/`Doc` (C11–C13, C27), `Peek`/`Same`/`Mismatch` (C14, C16), `Position` (C19), `Local`/`Calm` (two inputs with a common prefix, C30), `Progress`/`Potential`/`Steps`
  (termination and number of reads, C29), `Nesting` (C18).
* `Spec/Cursor`: the cursor, a machine over a JSON *value* (not bytes), which says what each method returns in a valid document. `Proofs/Abs/Cursor` and `Proofs/Cursor`: the reader on
  any text of the document simulates the cursor. C15, C17, C20–C23, C45, C47, C53 are stated with it or with specifications derived from it.
* `Proofs/After`: callers which do not stop after errors. `W` (consistent states) is preserved by every method in case of success *and* in case of error. The abstract input is not
  fixed any more: after an IO error `absOf` recomputes it from the concrete buffer, because bytes which have been consumed already can be delivered again. C54, C29_after_errors, C02_after_errors.
  `dbg` of `BufSrcD` says whether debug assertions are enabled.

### Writer

* A method is a `Tree` of emitted pieces, flushes and panics (`Model/Writer`), independent of the underlying `Write`; `Model/Sink` executes it with the 1024 byte buffer and a `Write` which
  accepts pieces of arbitrary size, is interrupted, or fails. `Proofs/Writer/Exec`: buffering (C38); `Proofs/Writer/Ops`, `Seq`: the emitted bytes of a sequence of calls are a document of the specified
  values (C31–C34, C39, C42); `Sv`, `Sticky`: string value writer (C35–C37). `Spec/Partial`: prefixes of documents.
  `After`: callers which continue after errors (C55). `Tree.QuietB`: after a failure of the underlying `Write` nothing is emitted and nothing panics (`*_any_sink`, C44).

### transfer_to

* `Model/Transfer` composes both models. `Proofs/Transfer/Value`: on valid values; `Any`, `AnyRun`: on arbitrary inputs, by comparing with the calls of the reader which read the value (`Walk`).
  `Rel`: C01 for transfers.

### Code which is generic in the reader or writer

* `Model/Calls`: a program which uses a `JsonReader`/`JsonWriter` is a tree of calls. Serde (`Model/De`, `Model/Ser`) and the Simple API (`Model/SimpleReader`, `Model/SimpleWriter`) produce such trees. The theorems
  C43, C46, C50_bound, C50_calls, C50_refused hold for all readers/writers; the others for the stream reader/writer by execution of the tree.
* `Proofs/Obey`: code which follows rules (which calls are permitted, what is known after them) and ends after the first error; `Proofs/De/Obey` shows this for the deserializer by induction over the
  implementation of `Deserialize` (C56), for arbitrary data. `Proofs/SimpleReader/Obey` shows it for the Simple reader API by induction over the closures (C57). `Spec/Orderly`: what is demanded of the implementation.
* Closures and implementations of `Deserialize`, `Visitor` and `Serialize` are inductive types of programs which continue depending on the results of the calls; all of them are quantified over.
* `Model/SerImpl`: implementations of `Serialize` as programs. `Proofs/Ser/Impl`, `ImplExec`: such a program compared with the value it describes; `Proofs/Ser/Arbitrary`: programs which ignore errors (C58).
* `Spec/De`, `Spec/DeAny`, `Spec/Ser`, `Spec/SimpleReader`, `Spec/SimpleWriter`: the expected results as functions of JSON values.

### Not modelled

* Text of error messages and `Display` implementations other than those of positions and `ReaderError` (C64; there the text of `std::io::Error` is a parameter); `Debug` implementations other than the part of C65, `Clone` implementations, and `From` implementations other than those of the path pieces (C67).
* Capacity of vectors (`shrink_to`); memory consumption; overflow of counters (see section 1).
* `f64`/`f32` formatting and parsing by the standard library; Serde's `StrDeserializer`, `UnitOnly` and the size hints.
* Implementations of `Serialize` which share mutable state between nested values (each implementation depends only on the results of its own calls).
* `JsonReader` implementations other than `JsonStreamReader`, except where a theorem is for all readers.
* Which bytes the *writer* writes after an error of the underlying `Write` (documented as unspecified; C55 shows only that there is no internal panic), and its behaviour after a panic. However, `transfer_to` after earlier errors is covered by C02/C29/C54 with a writer in an arbitrary state.

## 5. Findings

Properties which turned out to be false are stated as theorems `…_counterexample…`; the property is then `partial` in the manifest.

* **Stale `buf_used_for_bytes_value`** (C02). `collect_next_number_bytes!` (stream_reader.rs 1812–1847) calls `get_bytes`, which sets the flag, before it checks for trailing data. After the error
  `TrailingDataAfterNumber` the flag stays set, and a later call which has to refill the buffer hits the panic "report this to the Struson maintainers" in `fill_buffer` (476–478), or a
  debug assertion in `get_bytes`. `C02_counterexample_after_error`. This is the only error after which internal panics are possible (`C02_after_errors`).
* **Data delivered twice**: when `fill_buffer` fails, `buf_pos` is reset but `buf_end_pos` is not, so old bytes are read again by a caller which continues (example in `Props/AfterErrors`).
* **Trailing data** (C25): behind `has_next` or `peek` with multiple top-level values `consume_trailing_whitespace` does not see the token which has been peeked (`C25_counterexample_after_has_next`, `C25_peeked`).
* **seek_back** (C28): misuse can cause a syntax error or `MaxNestingDepthExceeded` instead of the documented panic.
* **Position after `UnsupportedNumberValue`**: the number has been consumed, but neither position nor array index nor the expectation of a value are advanced.
* **First peek moves the position** (C14) over whitespace in front of the token.
* **skip_value and transfer_to** differ from each other: `skip_value` does not apply the number restriction, `transfer_to` does. Both check the nesting depth.
* **Simple reader/writer**: an error created by a closure itself is not stored. If an outer closure swallows it, arrays, objects or a string stay open and a later call panics (`C44_counterexample_swallowed_error`).
  `read_seeked_multi` with an empty path succeeds after an error if its closure discards the error (`C46_counterexample_empty_path`). `read_array` does not skip unread items.
* **Deserializer**: the depth is not restored if a visitor swallows a nested error; at the nesting limit `deserialize_seq` on a non-array reports `MaxNestingDepthExceeded` rather than the wrong type; a variant
  seed which does not use its deserializer leaves the string unread; floats whose text has neither fraction nor exponent come back from `deserialize_any` as integers.
* **Serializer** (answers the TODO at ser.rs 193): if an implementation ignores the error of an incorrect number of elements of a nested value, the nested array or object stays open, `end` of the outer value closes the nested one, and
  `serialize_value` returns `Ok` although the value is incomplete. The output is then never a wrong *complete* document: `finish_document` panics (`C58_ignored_error`, `C58_arbitrary_document`). But a caller which has opened an enclosing array
  closes one level less than it believes (example in `Props/SerImpl`).
* **String value writer**: `write_str("")` in the middle of a multi-byte character fails; some invalid prefixes such as `E2 41` are only rejected by the next write or `finish_value`; if it is dropped without being finished
  every later call of the writer panics.
* **Writer after a failed Write**: `write_bytes` leaves the full buffer in place, so a caller which continues writes it again.
* **Data written twice**: `write_bytes` and `flush` do not reset `buf_write_pos` when `write_all` fails, so a caller which continues writes bytes again which the underlying `Write` had accepted already, and `finish_document` can succeed for an incorrect document (examples in `Props/WriterAfter.lean`). This is permitted by the documentation.
* **transfer_to after errors**: after a writer error in the middle of a string the reader is left in the middle of the string (if it is used further, the remaining characters of the string are parsed as JSON, see the example in `Props/AfterErrors.lean`); after a reader error the writer's containers and string stay open.
* **Location of TrailingData**: with multiple top-level values, after a further value was peeked (`has_next`, `peek`), `consume_trailing_whitespace` continues skipping whitespace behind the peeked token without having advanced over it, so line, column and offset of the
  error do not belong to any place of the input (`C62_trailing_data_after_peek`: `1 [\n x`).
* `max_or_offset_negative` (stream_writer.rs 680) can return a position before the start (without consequences).
