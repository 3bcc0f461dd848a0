{
 "claims": [
  {
   "property": "C01",
   "status": "proved",
   "theorems": [
    "Verif.Props.C01_chunking_irrelevant",
    "Verif.Props.C01_chunking_irrelevant_bufsize",
    "Verif.Props.C01_transfer_chunking"
   ],
   "note": "For every schedule of read() results delivering the same bytes, every buffer size > 0 and every sequence of method calls (ending at the first syntax/IO error or panic, after which the documentation forbids further use); also for transfer_to to a stream writer."
  },
  {
   "property": "C02",
   "status": "partial",
   "theorems": [
    "Verif.Props.C02_no_internal_panic_partial",
    "Verif.Props.C02_transfer_partial",
    "Verif.Props.C02_after_errors",
    "Verif.Props.C02_counterexample_after_error"
   ],
   "note": "All internal panics of the reader are unreachable for all inputs, chunkings and call sequences up to the first syntax/IO error, also for transfer_to with any writer and any underlying Write. For calls after such errors (documented as unspecified behaviour) the property is false: C02_counterexample_after_error; C02_after_errors shows that TrailingDataAfterNumber is the only error after which an internal panic can happen and which panics these are. (for all sequences of calls, including transfer_to with writers in arbitrary states)."
  },
  {
   "property": "C03",
   "status": "proved",
   "theorems": [
    "Verif.Props.C03_valid_number_iff"
   ],
   "note": "is_valid_json_number accepts exactly the RFC 8259 number grammar"
  },
  {
   "property": "C04",
   "status": "proved",
   "theorems": [
    "Verif.Props.C04_number_ok",
    "Verif.Props.C04_number_syntax",
    "Verif.Props.C04_number_skip_syntax"
   ],
   "note": "At any place of an arbitrary input where peek reports a number. Bytes allowed behind a number: , ] } : / whitespace, end of input."
  },
  {
   "property": "C05",
   "status": "proved",
   "theorems": [
    "Verif.Props.C05_number_rejected",
    "Verif.Props.C05_number_skipped",
    "Verif.Props.C04_number_ok",
    "Verif.Props.C04_number_syntax"
   ],
   "note": "Rejected iff more than 100 characters or more than two exponent digits; C04_number_ok / C04_number_syntax give the only-if direction."
  },
  {
   "property": "C06",
   "status": "proved",
   "theorems": [
    "Verif.Props.C06_string",
    "Verif.Props.C06_name",
    "Verif.Props.C06_comment"
   ],
   "note": "Strings and names at any place of an arbitrary input; comments at the end of the input (between the tokens the content of a comment is the UTF-8 encoding of characters as well, see C26_skip, C26_skip_only)."
  },
  {
   "property": "C07",
   "status": "proved",
   "theorems": [
    "Verif.Props.C07_C08_string_ok",
    "Verif.Props.C07_C08_string_malformed",
    "Verif.Props.C07_C08_name_ok",
    "Verif.Props.C07_C08_name_malformed"
   ],
   "note": "At any place of an arbitrary input; Literal is the string grammar of Spec/Json.lean."
  },
  {
   "property": "C08",
   "status": "proved",
   "theorems": [
    "Verif.Props.C08_strings",
    "Verif.Props.C08_names",
    "Verif.Props.C07_C08_string_ok",
    "Verif.Props.C07_C08_string_malformed",
    "Verif.Props.C07_C08_name_ok",
    "Verif.Props.C07_C08_name_malformed",
    "Verif.Props.C08_transfer_ok",
    "Verif.Props.C08_transfer_malformed"
   ],
   "note": "Arbitrary inputs: same text, same position, same later results; all (including transfer_to, for every writer which accepts a value) fail because of the data if the literal is malformed."
  },
  {
   "property": "C09",
   "status": "proved",
   "theorems": [
    "Verif.Props.C09_string_reader",
    "Verif.Props.C09_chunks_flatten",
    "Verif.Props.C09_chunks_get",
    "Verif.Props.C07_C08_string_ok"
   ],
   "note": "Every sequence of buffer sizes, at any place of an arbitrary input."
  },
  {
   "property": "C10",
   "status": "proved",
   "theorems": [
    "Verif.Props.C10_sticky",
    "Verif.Props.C10_reads"
   ],
   "note": "Every source, reader state and sequence of reads."
  },
  {
   "property": "C11",
   "status": "proved",
   "theorems": [
    "Verif.Props.C11_C12_read_document",
    "Verif.Props.C11_unique_value",
    "Verif.Props.C11_accepted_is_json"
   ],
   "note": "Reading a document with the value methods succeeds with value v iff the bytes are a document of the independent grammar denoting v."
  },
  {
   "property": "C12",
   "status": "proved",
   "theorems": [
    "Verif.Props.C11_C12_read_document",
    "Verif.Props.C12_accepts_every_document"
   ],
   "note": "The converse direction of the same equivalence; for all settings, chunkings and buffer sizes."
  },
  {
   "property": "C13",
   "status": "proved",
   "theorems": [
    "Verif.Props.C13_lenient_same_results",
    "Verif.Props.C13_lenient_same_errors",
    "Verif.Props.C13_strict_is_rfc"
   ],
   "note": ""
  },
  {
   "property": "C14",
   "status": "proved",
   "theorems": [
    "Verif.Props.C14_peek_changes_nothing",
    "Verif.Props.C14_peek_again"
   ],
   "note": "For arbitrary inputs, chunkings and prior calls. The first peek may move the reported position over whitespace; later ones change nothing."
  },
  {
   "property": "C15",
   "status": "proved",
   "theorems": [
    "Verif.Props.C15_peek",
    "Verif.Props.C15_has_next"
   ],
   "note": "Valid documents; the place reached by the previous calls is the one of the cursor specification (Spec/Cursor.lean), cursor_in_document shows that it is a place in the document."
  },
  {
   "property": "C16",
   "status": "proved",
   "theorems": [
    "Verif.Props.C16_mismatch_leaves_no_trace",
    "Verif.Props.C16_skipping_back",
    "Verif.Props.C16_mismatch_changes_nothing",
    "Verif.Props.C16_failed_call",
    "Verif.Props.C16_nothing_to_skip"
   ],
   "note": "Arbitrary inputs, every method of the trait except for seek_to (excluded by the property): after a type or structure error all later results are the same as without the failed call. skip_to_top_level and seek_back never fail with these errors."
  },
  {
   "property": "C17",
   "status": "proved",
   "theorems": [
    "Verif.Props.C17_skip_is_read",
    "Verif.Props.C17_skip_moves_behind"
   ],
   "note": "Every program continues in the same way after skipping as after reading with the value methods, including positions."
  },
  {
   "property": "C18",
   "status": "proved",
   "theorems": [
    "Verif.Props.C18_depth_bounded",
    "Verif.Props.C18_error_location",
    "Verif.Props.C18_within_limit",
    "Verif.Props.C18_limit_reached",
    "Verif.Props.C18_consumed",
    "Verif.Props.C18_nesting_depth"
   ],
   "note": "For arbitrary inputs. The nesting depth of bytes is defined by a separate scanner (Spec/Nesting.lean). Only runs without UnsupportedNumberValue errors where noted in the hypotheses."
  },
  {
   "property": "C19",
   "status": "proved",
   "theorems": [
    "Verif.Props.C19_C20_position"
   ],
   "note": "line/column/data_pos of the exact consumed prefix"
  },
  {
   "property": "C20",
   "status": "proved",
   "theorems": [
    "Verif.Props.C19_C20_position",
    "Verif.Props.C20_path_of_place"
   ],
   "note": "path of the consumed prefix of the document"
  },
  {
   "property": "C21",
   "status": "proved",
   "theorems": [
    "Verif.Props.C21_seek_to",
    "Verif.Props.C21_seek_to_read"
   ],
   "note": "The value at which seek_to is called has to be within the nesting limit."
  },
  {
   "property": "C22",
   "status": "proved",
   "theorems": [
    "Verif.Props.C22_seek_back"
   ],
   "note": "All later results are equal; with C17 the value may be read instead of skipped."
  },
  {
   "property": "C23",
   "status": "proved",
   "theorems": [
    "Verif.Props.C23_skip_to_top_level"
   ],
   "note": "For top-level values within the nesting limit."
  },
  {
   "property": "C24",
   "status": "proved",
   "theorems": [
    "Verif.Props.C24_transfer",
    "Verif.Props.C24_document",
    "Verif.Props.C24_failing_sink",
    "Verif.Props.C24_any_ok",
    "Verif.Props.C24_any_fails",
    "Verif.Props.C24_any_sink"
   ],
   "note": "transfer_to from a stream reader to a stream writer: any value of any valid input at any place, any settings of both, any calls before and after, any schedule and buffer sizes; result equals the one of the corresponding calls. C24_any: in front of any value of an arbitrary (possibly malformed) input. C24_any_sink: no panic during transfer_to, also if the underlying Write fails."
  },
  {
   "property": "C25",
   "status": "partial",
   "theorems": [
    "Verif.Props.C25_trailing_partial",
    "Verif.Props.C25_trailing_data",
    "Verif.Props.C25_trailing_single",
    "Verif.Props.C25_peeked",
    "Verif.Props.C25_counterexample_after_has_next"
   ],
   "note": "Proved for arbitrary inputs and all sequences of calls if multiple top-level values are not enabled (C25_trailing_single), and with all settings directly behind the end of the value. The claim is false behind has_next or peek if multiple top-level values are enabled (counterexample theorem); C25_peeked states what decides the outcome then."
  },
  {
   "property": "C26",
   "status": "proved",
   "theorems": [
    "Verif.Props.C26_skip",
    "Verif.Props.C26_skip_only",
    "Verif.Props.C26_comments_disabled",
    "Verif.Props.C26_between"
   ],
   "note": "Skipping of whitespace from any state of the reader on the plain list of bytes (the reader with its buffer behaves the same, see C01), and between the values for arbitrary calls."
  },
  {
   "property": "C27",
   "status": "proved",
   "theorems": [
    "Verif.Props.C27_multiple_top_level"
   ],
   "note": ""
  },
  {
   "property": "C28",
   "status": "partial",
   "theorems": [
    "Verif.Props.C28_no_panic",
    "Verif.Props.C28_misuse_panics",
    "Verif.Props.C28_panics_iff",
    "Verif.Props.C28_seek_back_misuse_partial",
    "Verif.Props.C28_transfer"
   ],
   "note": "Panics characterised by the usage rules, also for transfer_to; only for a misused seek_back another error than a panic is possible (see example)"
  },
  {
   "property": "C29",
   "status": "proved",
   "theorems": [
    "Verif.Props.C29_loops_end",
    "Verif.Props.C29_progress",
    "Verif.Props.C29_reads_bounded",
    "Verif.Props.C29_transfer_ends",
    "Verif.Props.C29_transfer_progress",
    "Verif.Props.C29_after_errors"
   ],
   "note": "All reader methods on arbitrary inputs, also when the reader is used after errors (C29_after_errors, including transfer_to); the progress and the bound on reads up to the first syntax/IO error (or failure of the underlying Write during transfer_to)."
  },
  {
   "property": "C30",
   "status": "proved",
   "theorems": [
    "Verif.Props.C30_one_byte_lookahead",
    "Verif.Props.C30_lookahead",
    "Verif.Props.C30_later_bytes_irrelevant"
   ],
   "note": "Results and position depend on the consumed part and one more byte; peeking looks at the peeked token (at most 5 bytes) and one more byte."
  },
  {
   "property": "C31",
   "status": "proved",
   "theorems": [
    "Verif.Props.C31_output_is_valid",
    "Verif.Props.C31_unique"
   ],
   "note": "For every call sequence which ends with a successful finish_document, whatever the underlying Write does. Trusted: the text which the standard library creates for finite floating point numbers is a JSON number (OpOk). IO errors: the call sequence ends at the first one (documented as unspecified afterwards)."
  },
  {
   "property": "C32",
   "status": "proved",
   "theorems": [
    "Verif.Props.C32_round_trip",
    "Verif.Props.C32_round_trip_multiple",
    "Verif.Props.C32_round_trip_value"
   ],
   "note": "Reader with limits which the values observe (Within); also several top-level values separated by whitespace."
  },
  {
   "property": "C33",
   "status": "proved",
   "theorems": [
    "Verif.Props.C33_same_values",
    "Verif.Props.C33_pretty_print_only_whitespace"
   ],
   "note": ""
  },
  {
   "property": "C34",
   "status": "proved",
   "theorems": [
    "Verif.Props.C34_string_literal",
    "Verif.Props.C34_name_literal",
    "Verif.Props.C34_ascii",
    "Verif.Props.C34_escaped"
   ],
   "note": ""
  },
  {
   "property": "C35",
   "status": "proved",
   "theorems": [
    "Verif.Props.C35_split"
   ],
   "note": ""
  },
  {
   "property": "C36",
   "status": "proved",
   "theorems": [
    "Verif.Props.C36_invalid_utf8"
   ],
   "note": "Finding: write_str in the middle of a multi-byte character fails also for an empty string (SvWrites requires write_str only at character boundaries)."
  },
  {
   "property": "C37",
   "status": "proved",
   "theorems": [
    "Verif.Props.C37_sticky"
   ],
   "note": "Also for failures caused by the underlying Write."
  },
  {
   "property": "C38",
   "status": "proved",
   "theorems": [
    "Verif.Props.C38_buffering",
    "Verif.Props.C38_pieces"
   ],
   "note": ""
  },
  {
   "property": "C39",
   "status": "proved",
   "theorems": [
    "Verif.Props.C39_panics_iff_misuse",
    "Verif.Props.C39_panic_emits_nothing",
    "Verif.Props.C39_prefix_of_documents",
    "Verif.Props.C39_any_sink"
   ],
   "note": "First and second part for an underlying Write which does not fail; the prefix property without this assumption. C39_any_sink: if it fails there are no further panics (unless its failure ended a string value writer)."
  },
  {
   "property": "C40",
   "status": "proved",
   "theorems": [
    "Verif.Props.C40_integers",
    "Verif.Props.C40_emits"
   ],
   "note": "usize and isize are 64 bit in the model; try_into of the standard library is modelled as range check."
  },
  {
   "property": "C41",
   "status": "proved",
   "theorems": [
    "Verif.Props.C41_state",
    "Verif.Props.C41_rejected",
    "Verif.Props.C41_only"
   ],
   "note": ""
  },
  {
   "property": "C42",
   "status": "proved",
   "theorems": [
    "Verif.Props.C42_incremental"
   ],
   "note": ""
  },
  {
   "property": "C43",
   "status": "proved",
   "theorems": [
    "Verif.Props.C43_sticky",
    "Verif.Props.C43_value",
    "Verif.Props.C43_string",
    "Verif.Props.C43_finish",
    "Verif.Props.C43_closures"
   ],
   "note": "The Simple writer API is modelled as tree of calls of methods of an arbitrary JsonWriter, for arbitrary closures; after a failed call there are no further calls and the result is an error."
  },
  {
   "property": "C44",
   "status": "proved",
   "theorems": [
    "Verif.Props.C44_document",
    "Verif.Props.C44_only",
    "Verif.Props.C44_no_panic",
    "Verif.Props.C44_counterexample_swallowed_error"
   ],
   "note": "For all trees of closures, with a JsonStreamWriter. No panic: for any underlying Write and closures which do not fail as long as no operation fails; a closure which swallows the error of a nested closure can cause a panic (counterexample theorem)."
  },
  {
   "property": "C45",
   "status": "proved",
   "theorems": [
    "Verif.Props.C45_value",
    "Verif.Props.C45_error",
    "Verif.Props.C45_misuse"
   ],
   "note": "For documents of one value within the nesting limit: every use of the Simple reader API gives what SimpleReaderSpec.top specifies, where each closure is given the value (name, string bytes, items) for which it is called, regardless of how much other closures read. C45_value holds for arbitrary closures; C45_error for closures which pass on errors; C45_misuse: incorrect usage causes a documented panic. Loops of the model are bounded by fuel; the theorems say that every sufficiently large fuel gives this result."
  },
  {
   "property": "C46",
   "status": "partial",
   "theorems": [
    "Verif.Props.C46_untouched",
    "Verif.Props.C46_read_fails",
    "Verif.Props.C46_method_fails_partial",
    "Verif.Props.C46_later_fails_partial",
    "Verif.Props.C46_later_fails_other",
    "Verif.Props.C46_string_later_fails",
    "Verif.Props.C46_counterexample_empty_path"
   ],
   "note": "For all readers, all closures: no reader method is called after a failed one. Every method of SimpleJsonReader and of the value readers fails afterwards, except read_seeked_multi with an empty path whose closure discards the error (counterexample proved), hence partial."
  },
  {
   "property": "C47",
   "status": "proved",
   "theorems": [
    "Verif.Props.C47_visits",
    "Verif.Props.C47_types",
    "Verif.Props.C47_error",
    "Verif.Props.C47_no_match",
    "Verif.Props.C47_behind"
   ],
   "note": "The matched values are specified by SimpleReaderSpec.visit, which does not know partial paths, indices of pieces or directions. C47_visits: the closure is called for exactly these values in order. C47_types: the same with a concrete closure which records types and reads nothing. C47_error: missing or wrong values, empty containers. C47_no_match: at_least_one_match. C47_behind: the reader is behind the value afterwards."
  },
  {
   "property": "C48",
   "status": "proved",
   "theorems": [
    "Verif.Props.C48_serialize",
    "Verif.Props.C48_document",
    "Verif.Props.C48_error",
    "Verif.Props.C48_failing_sink",
    "Verif.Props.C48_count",
    "Verif.Props.C48_any_sink"
   ],
   "note": "For values of the Serde data model whose maps call serialize_key and serialize_value alternately (the others are usage errors for which panics are documented). A Serialize implementation is modelled as the tree of Serializer calls it performs, passing on every error. Finite floats: to_string of the standard library is trusted to return a JSON number. C48_any_sink: no panic while serializing, also if the underlying Write fails."
  },
  {
   "property": "C49",
   "status": "proved",
   "theorems": [
    "Verif.Props.C49_key",
    "Verif.Props.C49_no_key"
   ],
   "note": "For a key behind arbitrary other entries. Non-finite numbers and keys whose own Serialize implementation fails are rejected with their own error."
  },
  {
   "property": "C50",
   "status": "proved",
   "theorems": [
    "Verif.Props.C50_bound",
    "Verif.Props.C50_bound_next",
    "Verif.Props.C50_calls",
    "Verif.Props.C50_depth_restored",
    "Verif.Props.C50_refused",
    "Verif.Props.C50_too_deep",
    "Verif.Props.C51_data"
   ],
   "note": "C50_bound, C50_calls and C50_refused are for arbitrary readers and arbitrary implementations of Deserialize; C50_depth_restored for those which do not ignore errors (otherwise the array which is left by the error stays open). Exactness on documents: C50_too_deep and C51_data for an implementation which uses deserialize_any, and C53 (DeSpec.start) for all implementations."
  },
  {
   "property": "C51",
   "status": "proved",
   "theorems": [
    "Verif.Props.C51_round_trip",
    "Verif.Props.C51_data"
   ],
   "note": "Also for structs, tuples, variants, options and floats whose text has a fraction or exponent. The implementation of Deserialize (like serde_json::Value) has a step bound, the statement is for all sufficiently large bounds."
  },
  {
   "property": "C52",
   "status": "proved",
   "theorems": [
    "Verif.Props.C52_visited",
    "Verif.Props.C52_rejected",
    "Verif.Props.C52_total"
   ],
   "note": "Conversion of a text to a float by the standard library is not modelled: the visitor is given the text."
  },
  {
   "property": "C53",
   "status": "proved",
   "theorems": [
    "Verif.Props.C53_value",
    "Verif.Props.C53_error",
    "Verif.Props.C53_misuse",
    "Verif.Props.C53_next_value",
    "Verif.Props.C53_next_error",
    "Verif.Props.C53_next_misuse"
   ],
   "note": "The errors are compared without positions; after an error nothing is said about the reader. The misuse theorems: incorrect usage of MapAccess or EnumAccess causes a documented panic."
  },
  {
   "property": "C54",
   "status": "proved",
   "theorems": [
    "Verif.Props.C54_no_undefined_behavior",
    "Verif.Props.C54_release",
    "Verif.Props.C29_after_errors"
   ],
   "note": "All methods of JsonReader, including transfer_to with a writer in an arbitrary state and an arbitrary underlying Write, in arbitrary sequences on arbitrary inputs, continuing after all errors except panics."
  },
  {
   "property": "C55",
   "status": "proved",
   "theorems": [
    "Verif.Props.C55_no_internal_panic"
   ],
   "note": "Callers which continue after errors of the underlying Write (execAll). Trusted: to_string of finite floats is a JSON number (OpOk)."
  },
  {
   "property": "C56",
   "status": "proved",
   "theorems": [
    "Verif.Props.C56_calls_allowed",
    "Verif.Props.C56_behind",
    "Verif.Props.C56_no_panic",
    "Verif.Props.C56_accepts_only_json",
    "Verif.Props.C56_accepted_value"
   ],
   "note": "Orderly implementations (Spec/Orderly.lean). C56_calls_allowed and C56_behind hold for all JsonReader implementations; the others for the stream reader with arbitrary data."
  },
  {
   "property": "C57",
   "status": "proved",
   "theorems": [
    "Verif.Props.C57_no_panic",
    "Verif.Props.C57_accepts_only_json",
    "Verif.Props.C57_accepted_value"
   ],
   "note": "Arbitrary data, schedules and errors of the underlying reader; closures which return some error when a method returned an error, and Orderly Deserialize implementations. Fuel > 2 * number of bytes is sufficient for every loop (termination). The accepted value is stated for values within the nesting limit."
  },
  {
   "property": "C58",
   "status": "proved",
   "theorems": [
    "Verif.Props.C58_value",
    "Verif.Props.C58_no_panic",
    "Verif.Props.C58_any_sink",
    "Verif.Props.C58_success",
    "Verif.Props.C58_success_iff",
    "Verif.Props.C58_document",
    "Verif.Props.C58_arbitrary_panics",
    "Verif.Props.C58_arbitrary",
    "Verif.Props.C58_arbitrary_document",
    "Verif.Props.C58_arbitrary_prefix",
    "Verif.Props.C58_ignored_error"
   ],
   "note": "C58_value \u2026 C58_document: implementations which stop after an error (Stops); C58_arbitrary\u2026: also those which ignore errors; C58_ignored_error: the condition Stops is needed for success to imply a complete value. Implementations which share mutable state between nested values are not modelled."
  },
  {
   "property": "C59",
   "status": "proved",
   "theorems": [
    "Verif.Props.C59_names_and_strings",
    "Verif.Props.C59_skip_value",
    "Verif.Props.C59_brackets"
   ],
   "note": "The second input is arbitrary behind the consumed bytes, also an immediate IO error. C59_brackets: the calls in front of begin/end may look at the token (peek, has_next, successful), and before that the document starts or something was consumed. skip_value: type known from peek."
  },
  {
   "property": "C60",
   "status": "proved",
   "theorems": [
    "Verif.Props.C60_value_reader_not_used",
    "Verif.Props.C60_bounded_memory"
   ],
   "note": "with path tracking, skipping reads the member names with the reader for values; `Vec` capacities are not modelled"
  },
  {
   "property": "C61",
   "status": "proved",
   "theorems": [
    "Verif.Props.C61_reader_accepts",
    "Verif.Props.C61_reader_single_value",
    "Verif.Props.C61_reader_path",
    "Verif.Props.C61_writer_output",
    "Verif.Props.C61_writer_escapes"
   ],
   "note": ""
  },
  {
   "property": "C62",
   "status": "proved",
   "theorems": [
    "Verif.Props.C62_error_location",
    "Verif.Props.C62_trailing_data_after_peek"
   ],
   "note": "For consume_trailing_whitespace if multiple top-level values are not enabled (otherwise false after a further value was peeked: C62_trailing_data_after_peek). Not after an UnsupportedNumberValue error, after which the position is in front of the number but the number is already consumed."
  },
  {
   "property": "C63",
   "status": "proved",
   "theorems": [
    "Verif.Props.C63_position",
    "Verif.Props.C63_error"
   ],
   "note": "Justifies that the model uses natural numbers for these counters. Not covered: array indexes behind an input of 2^33 bytes and more, where the u32 index overflows."
  },
  {
   "property": "C64",
   "status": "proved",
   "theorems": [
    "Verif.Props.C64_position_text",
    "Verif.Props.C64_position_shows",
    "Verif.Props.C64_path_text",
    "Verif.Props.C64_path_ambiguous",
    "Verif.Props.C64_message",
    "Verif.Props.C64_message_location",
    "Verif.Props.C64_message_shows"
   ],
   "note": "text of std::io::Error is a parameter of the model; texts are compared as lists of characters"
  },
  {
   "property": "C65",
   "status": "proved",
   "theorems": [
    "Verif.Props.C65_reader",
    "Verif.Props.C65_reader_next_input",
    "Verif.Props.C65_writer"
   ],
   "note": "Modelled are the fields which show the buffers; the other fields are passed to the standard library unchanged. C65_reader_next_input is for calls which all succeed (other than consume_trailing_whitespace, which consumes the reader)."
  },
  {
   "property": "C66",
   "status": "proved",
   "theorems": [
    "Verif.Props.C66_output_utf8",
    "Verif.Props.C66_no_bom",
    "Verif.Props.C66_received",
    "Verif.Props.C66_debug_raw"
   ],
   "note": "Emitted bytes are those of the written structure (C29/C31 invariant), whose encoding is valid UTF-8 by induction; what was received is a prefix (C38)."
  },
  {
   "property": "C67",
   "status": "proved",
   "theorems": [
    "Verif.Props.C67_multi_json_path",
    "Verif.Props.C67_json_path",
    "Verif.Props.C67_same"
   ],
   "note": "Rules of the macros as recursive functions on token lists; an expression is one token."
  },
  {
   "property": "C68",
   "status": "proved",
   "theorems": [
    "Verif.Props.C68_write_calls",
    "Verif.Props.C68_write_calls_all",
    "Verif.Props.C68_flush_calls"
   ],
   "note": "The sink accepts at least as many bytes per call as the buffer has; the calls are counted by the results which are used up. Sinks which accept less or are interrupted are covered by C38. The calls of Write::flush are counted for all sinks."
  },
  {
   "property": "C69",
   "status": "proved",
   "theorems": [
    "Verif.Props.C69_ascii",
    "Verif.Props.C69_no_control",
    "Verif.Props.C69_no_control_all",
    "Verif.Props.C69_lines"
   ],
   "note": "All call sequences of the writer, also misuse ending with a panic, and all behaviours of the underlying Write. C69_lines: successful runs, line feed as separator, no pretty printing."
  },
  {
   "property": "C70",
   "status": "proved",
   "theorems": [
    "Verif.Props.C70_tracking_only_adds_paths",
    "Verif.Props.C70_no_paths",
    "Verif.Props.C70_transfer"
   ],
   "note": "For all sequences of calls up to the first panic, syntax error or IO error, and for programs with transfer_to with arbitrary calls before and after it (later calls of the reader only if the writer did not fail during the transfer)."
  },
  {
   "property": "C71",
   "status": "proved",
   "theorems": [
    "Verif.Props.C71_error_kinds",
    "Verif.Props.C71_settings",
    "Verif.Props.C71_lenient",
    "Verif.Props.C71_skipping",
    "Verif.Props.C71_seek",
    "Verif.Props.C71_current_position",
    "Verif.Props.C71_transfer"
   ],
   "note": "Table of the errors which each method can report (Spec/ErrorKinds.lean); sequences of calls end at the first panic, syntax error or IO error. Panics are the subject of C02 and others. C71_transfer: the same for transfer_to with an arbitrary writer and underlying Write."
  },
  {
   "property": "C72",
   "status": "proved",
   "theorems": [
    "Verif.Props.C72_reasons",
    "Verif.Props.C72_reasons_stop",
    "Verif.Props.C72_reliable"
   ],
   "note": "For sequences which end without a panic; the results before a panic are those of the shorter sequence. The errors of the underlying Write are opaque codes."
  },
  {
   "property": "C73",
   "status": "proved",
   "theorems": [
    "Verif.Props.C73_no_error_lost",
    "Verif.Props.C73_no_error_lost_stop",
    "Verif.Props.C73_success"
   ],
   "note": "For sequences which end without a panic. The order between failures of write and of flush is not stated separately: the reported errors are an interleaving of both."
  }
 ]
}
