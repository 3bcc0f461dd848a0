{"id": "C01", "title": "Reader results do not depend on how the input arrives", "statement": "Driving a JsonStreamReader with a given sequence of method calls gives the same sequence of results (values, errors, positions) for every way the underlying Read hands out the same bytes: any split into short reads, any number of Interrupted errors in between, and any alignment of values relative to the reader's internal 1024 byte buffer.", "quantifier": "all byte inputs, all ways of splitting them into read() results with Interrupted errors interspersed, all sequences of reader method calls, all settings", "why_tests_cant": "There are exponentially many splits of an input and unboundedly many inputs; tests only use a handful of chunk sizes and a few values placed at the buffer edge.", "anchors": ["src/reader/stream_reader.rs: fill_buffer, ensure_non_empty_buffer, peek_byte, skip_peeked_byte, read_byte", "src/reader/stream_reader.rs: bytes_value_reader::BytesValueReader (new, peek_byte_optional, skip_previous_byte, push_bytes, get_bytes)"]}
{"id": "C02", "title": "Internal buffer guards of the reader are never hit", "statement": "No sequence of reader calls on any input, delivered in any chunks, makes the reader hit its internal 'report this to the Struson maintainers' panics, its debug assertions about buffer indices, an out of bounds buffer access, or an attempt to turn invalid UTF-8 into a string.", "quantifier": "all byte inputs, all chunkings, all sequences of reader method calls, all settings", "why_tests_cant": "Absence of a panic is a statement about every reachable state; a test run only visits the states its inputs reach.", "anchors": ["src/reader/stream_reader.rs: fill_buffer, BytesValueReader::peek_byte_optional, get_bytes, BytesValue::get_str, get_string", "src/utf8.rs: to_str_unchecked, to_string_unchecked"]}
{"id": "C03", "title": "A string is accepted as JSON number exactly when RFC 8259 says so", "statement": "JsonWriter::number_value_from_string accepts a string if and only if it is a number of the RFC 8259 grammar ( [ minus ] int [ frac ] [ exp ] ); the same holds for number-like map keys when deserializing.", "quantifier": "all strings", "why_tests_cant": "The set of strings is infinite and the checker is a hand written state machine with many early exits; tests list a few dozen examples.", "anchors": ["src/json_number.rs: consume_json_number, is_valid_json_number", "src/writer/stream_writer.rs: number_value_from_string", "src/serde/de.rs: deserialize_number_key!"]}
{"id": "C04", "title": "Numbers are read verbatim and exactly when well formed", "statement": "When the next value is a number, next_number_as_string / next_number_as_str return exactly the characters of the number as they occur in the document if those characters form an RFC 8259 number followed by the end of input or a JSON structural character, whitespace or '/'; otherwise a syntax error is returned. No character behind the number is consumed.", "quantifier": "all byte sequences following the start of a number, all chunkings", "why_tests_cant": "Infinite set of digit strings and following bytes.", "anchors": ["src/reader/stream_reader.rs: collect_next_number_bytes!, read_number_bytes, verify_value_separator", "src/json_number.rs: consume_json_number"]}
{"id": "C05", "title": "Number restriction rejects exactly the documented numbers", "statement": "With restrict_number_values enabled a well formed number is rejected if and only if it is longer than 100 characters or its exponent, ignoring sign and leading zeros, has more than two digits; the rejected number is reported in full. With the setting disabled, and when skipping, no well formed number is rejected.", "quantifier": "all well formed JSON numbers of any length", "why_tests_cant": "Boundaries can be sampled, but the claim is about every number, including arbitrarily many leading zeros in the exponent.", "anchors": ["src/reader/stream_reader.rs: collect_next_number_bytes!, ReaderSettings::restrict_number_values", "src/json_number.rs: consume_json_number"]}
{"id": "C06", "title": "UTF-8 validation is exact", "statement": "Inside strings, names and comments the reader accepts a multi-byte sequence if and only if it is the UTF-8 encoding of a Unicode scalar value (no overlong forms, no surrogates, nothing above U+10FFFF, no stray or missing continuation bytes).", "quantifier": "all byte sequences", "why_tests_cant": "Over four billion 4-byte sequences and all contexts they can occur in; tests sample boundary values.", "anchors": ["src/utf8.rs: is_2byte_start, is_3byte_start, is_4byte_start, is_continuation, is_valid_2bytes, is_valid_3bytes, is_valid_4bytes", "src/reader/stream_reader.rs: Utf8MultibyteReader::read_utf8_multibyte"]}
{"id": "C07", "title": "String literals denote the characters the JSON specification says", "statement": "Reading a string value or member name succeeds if and only if the bytes up to the closing quote form a JSON string (unescaped characters other than control characters, quote and backslash; the eight short escapes; \\uXXXX escapes with surrogates only in high-low pairs), and the result is exactly the sequence of Unicode characters it denotes.", "quantifier": "all byte sequences after the opening quote", "why_tests_cant": "Combinations of escapes, surrogate pairs and multi-byte characters at every length form an infinite set.", "anchors": ["src/reader/stream_reader.rs: read_string, read_string_bytes, UnicodeEscapeReader::read_unicode_escape_char"]}
{"id": "C08", "title": "All ways of reading a string agree", "statement": "next_string, next_str, draining next_string_reader, skip_value (no value) and transfer_to accept exactly the same string values, yield the same text, and leave the reader in the same state (same remaining input, same position, same expectations); likewise next_name, next_name_owned and skip_name for member names.", "quantifier": "all inputs positioned at a string value or member name", "why_tests_cant": "The reader contains two separate string decoders; agreement on every input cannot be sampled.", "anchors": ["src/reader/stream_reader.rs: read_string, read_string_bytes, read_all_string_bytes, next_string, next_str, next_string_reader, skip_name, next_name, next_name_owned, skip_value, transfer_to"]}
{"id": "C09", "title": "String reader delivers the same bytes for every buffer size", "statement": "Reading from next_string_reader with any sequence of destination buffer sizes yields consecutive pieces of the UTF-8 text of the string, each read fills the buffer completely unless the string ends, zero is returned (for a non-empty buffer) only at the end of the string, and afterwards always.", "quantifier": "all string values, all sequences of buffer sizes (including sizes smaller than a character)", "why_tests_cant": "Every sequence of sizes splits multi-byte characters differently; infinitely many sequences.", "anchors": ["src/reader/stream_reader.rs: StringValueReader::read_impl, StringValueReader::read"]}
{"id": "C10", "title": "String reader errors are sticky", "statement": "Once a read on the reader returned by next_string_reader failed, every later read fails as well, with error kind Other, and never returns data.", "quantifier": "all inputs, all sequences of reads after a failure", "why_tests_cant": "Quantifies over every later call sequence.", "anchors": ["src/reader/stream_reader.rs: StringValueReader::check_previous_error, StringValueReader::read"]}
{"id": "C11", "title": "Soundness: only valid JSON is accepted", "statement": "If walking over a document (peek, begin/end, next_*, has_next) and then calling consume_trailing_whitespace succeeds, the bytes are a JSON document of the RFC 8259 grammar (extended by comments / trailing commas only when the respective setting is enabled) and the values obtained are exactly the ones the document denotes.", "quantifier": "all byte inputs, all reader settings", "why_tests_cant": "A test can only show that particular malformed documents are rejected.", "anchors": ["src/reader/stream_reader.rs: peek_internal_optional, peek_internal, skip_whitespace, consume_literal, after_name, before_name, JsonReader impl"]}
{"id": "C12", "title": "Completeness: every valid JSON document is accepted", "statement": "Every document of the RFC 8259 grammar (plus comments / trailing commas when enabled) whose nesting depth is within max_nesting_depth and whose numbers satisfy the number restriction is read without an error, and yields the values it denotes, in order.", "quantifier": "all valid documents of any size, with any whitespace, comments and escapes", "why_tests_cant": "Infinitely many valid documents.", "anchors": ["src/reader/stream_reader.rs: JsonReader impl for JsonStreamReader"]}
{"id": "C13", "title": "Lenient settings only extend what is accepted", "statement": "A document which is read successfully with comments, trailing commas and multiple top-level values disabled is read with the same results when any of these settings is enabled; with all disabled the accepted documents are exactly those of RFC 8259.", "quantifier": "all documents, all settings combinations", "why_tests_cant": "Relates two settings on every document.", "anchors": ["src/reader/stream_reader.rs: ReaderSettings, skip_whitespace, peek_internal_optional"]}
{"id": "C14", "title": "Peeking consumes nothing", "statement": "peek (and a successful has_next) can be called any number of times: it returns the same result each time, does not change the reported position afterwards, and does not change the result of any later call.", "quantifier": "all inputs, all points in a document, all later call sequences", "why_tests_cant": "Claims equality of all continuations of a state.", "anchors": ["src/reader/stream_reader.rs: peek, has_next, peek_internal_optional"]}
{"id": "C15", "title": "peek and has_next describe the upcoming element", "statement": "In a valid document, peek returns the type of the value which is next according to the document, has_next is true exactly when the current array or object has an unread element (or, with multiple top-level values, when another top-level value follows).", "quantifier": "all valid documents, all positions inside them", "why_tests_cant": "Every position of every document.", "anchors": ["src/reader/stream_reader.rs: peek, has_next, map_peeked"]}
{"id": "C16", "title": "A type or structure mismatch does not disturb the reader", "statement": "When a value method fails with UnexpectedValueType, or a method fails with UnexpectedStructure (except during seek_to), the reader behaves afterwards exactly as if the failed call had only peeked: the same value can still be read with the right method, and all later results are the same.", "quantifier": "all inputs, all mismatching calls, all later call sequences", "why_tests_cant": "Claims equality of all continuations after every mismatching call.", "anchors": ["src/reader/stream_reader.rs: start_expected_value_type, end_array, end_object, before_name, map_peeked"]}
{"id": "C17", "title": "Skipping a value is equivalent to reading it", "statement": "In a valid document skip_value moves the reader exactly behind the next value, however deeply nested: afterwards the reader is in the same state (remaining input, position, path, expectations) as if the complete value had been read with the value methods.", "quantifier": "all valid documents and positions, all nesting depths within the limit", "why_tests_cant": "All values of all depths; equality of the complete resulting state.", "anchors": ["src/reader/stream_reader.rs: skip_value, skip_name, SkippingNumberBytesReader"]}
{"id": "C18", "title": "Nesting limit is enforced exactly", "statement": "With max_nesting_depth = n the reader never has more than n arrays/objects open, a document of nesting depth at most n never causes MaxNestingDepthExceeded, and trying to open level n+1 fails with MaxNestingDepthExceeded, with the location of the opening bracket, whether it is opened explicitly or while skipping.", "quantifier": "all inputs, all limits (including 0 and unlimited), all call sequences", "why_tests_cant": "All depths and limits; tests use one or two limits.", "anchors": ["src/reader/stream_reader.rs: start_expected_value_type, on_container_start, skip_value, ReaderSettings::max_nesting_depth"]}
{"id": "C19", "title": "Reported positions are accurate", "statement": "At any point between calls, data_pos is the number of bytes of the document in front of the reader position, line is the number of line breaks (LF, CR, CRLF counted once) in front of it and column the number of characters since the last line break; peeking leaves the position in front of the peeked token.", "quantifier": "all inputs, all call sequences", "why_tests_cant": "Every prefix of every document, including CRLF pairs and multi-byte characters at arbitrary places.", "anchors": ["src/reader/stream_reader.rs: skip_to, consume_peeked, read_string, read_string_bytes, collect_next_number_bytes!, current_position"]}
{"id": "C20", "title": "Reported JSON path is the path of the current position", "statement": "While walking through a valid document the path in current_position consists, for each open array, of the number of items already consumed, and, for each open object, of the name of the most recently read or skipped member ('<?>' before the first one).", "quantifier": "all valid documents, all positions, all call sequences including skipping", "why_tests_cant": "Path bookkeeping is spread over many methods; must hold at every reachable state.", "anchors": ["src/reader/stream_reader.rs: begin_array, begin_object, on_value_end, on_container_end, next_name, next_name_owned, skip_name", "src/reader/mod.rs: json_path"]}
{"id": "C21", "title": "seek_to positions the reader at the value of the path", "statement": "For a valid document and a relative path, seek_to succeeds if and only if the path leads to a value (first member with the name for objects, item with the index for arrays) and then the next value read is exactly that value; otherwise it reports the type mismatch, too short array or missing member where the path leaves the document.", "quantifier": "all valid documents, all paths", "why_tests_cant": "All pairs of document and path.", "anchors": ["src/reader/mod.rs: JsonReader::seek_to"]}
{"id": "C22", "title": "seek_back returns to the level where seek_to started", "statement": "After seek_to(path), reading or skipping the value, and seek_back(path), the reader is exactly behind the value at which seek_to was called, as if that value had been skipped.", "quantifier": "all valid documents, all paths into them", "why_tests_cant": "All pairs of document and path.", "anchors": ["src/reader/mod.rs: JsonReader::seek_back"]}
{"id": "C23", "title": "skip_to_top_level closes everything", "statement": "From any position inside a valid document skip_to_top_level succeeds, leaves no array or object open and is equivalent to having read the rest of the current top-level value.", "quantifier": "all valid documents, all positions within them", "why_tests_cant": "All positions.", "anchors": ["src/reader/stream_reader.rs: skip_to_top_level"]}
{"id": "C24", "title": "transfer_to preserves the JSON value", "statement": "Transferring the next value to a writer makes the writer emit a JSON value with the same structure, the same strings and member names (after unescaping), member order and duplicates preserved, and number texts verbatim; the reader ends up behind the value as after skip_value.", "quantifier": "all valid documents, all writer settings, strings of any length (streamed in pieces)", "why_tests_cant": "All documents; string streaming splits at every possible place.", "anchors": ["src/reader/stream_reader.rs: transfer_to", "src/writer/mod.rs: TransferredNumber", "src/writer/stream_writer.rs: JsonWriter impl"]}
{"id": "C25", "title": "Trailing data detection is exact", "statement": "consume_trailing_whitespace succeeds if and only if the remaining input consists only of whitespace (and comments, if enabled, including a line comment ended by the end of input).", "quantifier": "all remaining inputs, all settings", "why_tests_cant": "Infinite set of suffixes.", "anchors": ["src/reader/stream_reader.rs: consume_trailing_whitespace, skip_whitespace, skip_to, skip_to_line_comment_end, skip_to_block_comment_end"]}
{"id": "C26", "title": "Comments and whitespace are skipped exactly", "statement": "Between tokens the reader skips exactly the longest sequence of space, tab, LF, CR and - if enabled - complete /*...*/ and //... comments with valid UTF-8 content; with comments disabled any '/' is an error.", "quantifier": "all byte inputs", "why_tests_cant": "Block comments ending in runs of '*', comments adjacent to each other, nested-looking comments; infinite set.", "anchors": ["src/reader/stream_reader.rs: skip_whitespace, skip_to, skip_to_block_comment_end, skip_to_line_comment_end"]}
{"id": "C27", "title": "Multiple top-level values are read as a sequence", "statement": "With allow_multiple_top_level the reader reads a sequence of JSON values separated by optional whitespace one after the other, has_next telling whether another one follows, until the end of the input.", "quantifier": "all sequences of valid values", "why_tests_cant": "Sequences of any length.", "anchors": ["src/reader/stream_reader.rs: has_next, peek_internal, is_behind_top_level, ReaderSettings::allow_multiple_top_level"]}
{"id": "C28", "title": "JSON data never makes the reader panic", "statement": "A sequence of reader calls which respects the documented usage rules (names before values, ends matching begins, one top-level value unless enabled, ...) never panics, whatever bytes the input contains; violating the rules panics whatever the bytes are. Whether a call panics depends only on the calls made so far and their results.", "quantifier": "all byte inputs, all call sequences, all settings", "why_tests_cant": "Absence of panics over all inputs and histories.", "anchors": ["src/reader/stream_reader.rs: all panic! sites in JsonStreamReader"]}
{"id": "C29", "title": "Reader methods terminate and make progress", "statement": "On a finite input every reader method returns; a successfully read or skipped value consumes at least one byte, so any loop of the form 'while has_next: read or skip' ends.", "quantifier": "all finite inputs, all call sequences", "why_tests_cant": "Termination is not testable.", "anchors": ["src/reader/stream_reader.rs: skip_value, skip_whitespace, skip_to_block_comment_end, read_string, skip_to_top_level, transfer_to"]}
{"id": "C30", "title": "The reader never needs bytes behind the requested value", "statement": "The result of a call depends only on the part of the input up to the end of the consumed value plus at most one following byte: changing or removing later bytes changes neither the result nor anything reported so far.", "quantifier": "all pairs of inputs with a common prefix, all call sequences", "why_tests_cant": "Relates all pairs of inputs.", "anchors": ["src/reader/stream_reader.rs: peek_internal_optional, read_number_bytes, read_string, consume_literal"]}
{"id": "C31", "title": "Writer output is always valid JSON", "statement": "If a sequence of writer calls does not panic and ends with a successful finish_document, the bytes handed to the underlying Write are exactly one JSON document of the RFC 8259 grammar (or several separated by the configured separator) denoting exactly the values written.", "quantifier": "all writer call sequences, all strings, numbers and settings", "why_tests_cant": "Infinitely many call sequences and string contents.", "anchors": ["src/writer/stream_writer.rs: JsonWriter impl for JsonStreamWriter, before_value, before_container_element, on_container_end"]}
{"id": "C32", "title": "Round trip: what is written is read back", "statement": "Writing any JSON value with any writer settings and reading the output with a JsonStreamReader yields the same value (same strings, same number texts, same member order).", "quantifier": "all JSON values, all writer settings, all reader settings with sufficient limits", "why_tests_cant": "All values.", "anchors": ["src/writer/stream_writer.rs: JsonStreamWriter", "src/reader/stream_reader.rs: JsonStreamReader"]}
{"id": "C33", "title": "Writer formatting settings do not change the data", "statement": "Changing pretty_print, escape_all_control_chars or escape_all_non_ascii changes the output bytes but never the JSON value they denote; in particular pretty printed output only differs by whitespace outside of strings.", "quantifier": "all writer call sequences, all pairs of settings", "why_tests_cant": "Relates two settings for every call sequence.", "anchors": ["src/writer/stream_writer.rs: WriterSettings, should_escape, before_container_element, on_container_end, name"]}
{"id": "C34", "title": "String escaping is exact and minimal per settings", "statement": "A written string literal decodes to exactly the given text; with escape_all_non_ascii the output is pure ASCII; with escape_all_control_chars no control character (U+0000-U+001F, U+007F-U+009F) is left unescaped; control characters below U+0020, quote and backslash are always escaped; a character not covered by this is written as its UTF-8 encoding unchanged.", "quantifier": "all strings, all settings", "why_tests_cant": "More than a million characters and all combinations.", "anchors": ["src/writer/stream_writer.rs: should_escape, write_escaped_char, write_string_value_piece, write_string_value"]}
{"id": "C35", "title": "String value writer is independent of how the text is split", "statement": "Writing a text through string_value_writer in arbitrary byte chunks (also splitting multi-byte characters), mixed with write_str calls at character boundaries, produces the same output as string_value with the whole text.", "quantifier": "all texts, all sequences of chunks and write_str calls", "why_tests_cant": "Exponentially many splits.", "anchors": ["src/writer/stream_writer.rs: StringValueWriterImpl::write_impl, write_str, finish_value"]}
{"id": "C36", "title": "String value writer rejects invalid UTF-8", "statement": "If the bytes written through string_value_writer are not valid UTF-8 as a whole, one of the write calls or at the latest finish_value fails; bytes which are valid UTF-8 never cause an error; nothing but correctly escaped complete characters of the text reaches the output.", "quantifier": "all byte sequences, all ways to split them", "why_tests_cant": "All invalid sequences at all split points.", "anchors": ["src/writer/stream_writer.rs: StringValueWriterImpl::write_impl, decode_utf8_char, finish_value", "src/utf8.rs: is_2byte_start, is_3byte_start, is_4byte_start, is_continuation"]}
{"id": "C37", "title": "String value writer errors are sticky", "statement": "After any failed write, write_str or flush on a string value writer every later call on it, including finish_value, fails, so the string can never be completed.", "quantifier": "all later call sequences", "why_tests_cant": "Quantifies over all continuations.", "anchors": ["src/writer/stream_writer.rs: StringValueWriterImpl::check_previous_error, run_with_error_tracking, finish_value"]}
{"id": "C38", "title": "Writer buffering loses, duplicates and reorders nothing", "statement": "The bytes handed to the underlying Write up to a successful finish_document are exactly the concatenation of everything the writer emitted, whatever the sizes of the pieces relative to the 1024 byte buffer; if the underlying Write fails, what it received before is a prefix of that.", "quantifier": "all sequences of emitted pieces of any length, all failure points of the underlying Write", "why_tests_cant": "All piece sizes relative to the buffer fill level.", "anchors": ["src/writer/stream_writer.rs: write_bytes, flush"]}
{"id": "C39", "title": "Misuse of the writer panics instead of producing invalid JSON", "statement": "A writer call which would make the document invalid (value where a name is expected, name outside of an object, unbalanced end, second top-level value, ending with incomplete member, finishing an incomplete document, using the writer while a string writer is active) panics and emits nothing; every other call does not panic. At any time the output so far is a prefix of a valid JSON document.", "quantifier": "all writer call sequences", "why_tests_cant": "All histories.", "anchors": ["src/writer/stream_writer.rs: before_value, name, end_object, end_array, finish_document"]}
{"id": "C40", "title": "Integers are written exactly", "statement": "number_value for any integer type writes the canonical decimal text of the number, which is a valid JSON number and parses back to the same integer; as_u64 / as_i64 are Some exactly when the value fits, with that value.", "quantifier": "all integers of all supported widths", "why_tests_cant": "128 bit ranges cannot be enumerated.", "anchors": ["src/writer/mod.rs: FiniteNumber, use_json_number, as_u64, as_i64", "src/writer/stream_writer.rs: number_value"]}
{"id": "C41", "title": "Rejected numbers leave no trace", "statement": "When number_value_from_string rejects a string, or fp_number_value rejects a non-finite number, nothing is written and the writer state is unchanged, so another value can be written instead.", "quantifier": "all strings and states", "why_tests_cant": "All states.", "anchors": ["src/writer/stream_writer.rs: number_value_from_string, fp_number_value", "src/writer/mod.rs: FloatingPointNumber::use_json_number"]}
{"id": "C42", "title": "Writer output is incremental", "statement": "Each writer call appends to the output and never changes what was emitted by earlier calls; the emitted bytes of a call sequence are a prefix of the emitted bytes of every extension of it.", "quantifier": "all writer call sequences and extensions", "why_tests_cant": "All pairs of sequences.", "anchors": ["src/writer/stream_writer.rs: write_bytes, JsonWriter impl"]}
{"id": "C43", "title": "Simple writer: first error wins and nothing is written afterwards", "statement": "In the Simple writer API after any writer error every further operation fails and does not touch the underlying JsonWriter, even if closures discard the error; in particular finishing the document fails.", "quantifier": "all operation sequences, all failure points", "why_tests_cant": "All continuations after all failures.", "anchors": ["src/writer/simple.rs: error_safe_writer::ErrorSafeJsonWriter, ErrorSafeStringValueWriter, use_delegate!"]}
{"id": "C44", "title": "Simple writer: every member gets exactly one value", "statement": "For every object written with the Simple API each member has exactly one value: the one the closure wrote or null if it wrote none; if no closure fails the document is complete and valid.", "quantifier": "all trees of closures", "why_tests_cant": "All closure behaviours.", "anchors": ["src/writer/simple.rs: ObjectWriter::write_member, MemberValueWriter, write_object, write_array"]}
{"id": "C45", "title": "Simple reader: unread parts are skipped", "statement": "With the Simple reader API a closure which reads only part of what it is offered (no name, no value, not the whole string) still leaves the reader exactly behind the element, so later elements are delivered correctly.", "quantifier": "all valid documents, all closure behaviours", "why_tests_cant": "All combinations of partial reading.", "anchors": ["src/reader/simple.rs: read_value, read_object_borrowed_names, read_object_owned_names, read_string_with_reader, MemberReader, SingleValueReader"]}
{"id": "C46", "title": "Simple reader: errors are sticky", "statement": "After any reader error inside the Simple reader API every later operation fails without touching the underlying reader, even if a closure discards the error.", "quantifier": "all operation sequences after all errors", "why_tests_cant": "All continuations.", "anchors": ["src/reader/simple.rs: error_safe_reader::ErrorSafeJsonReader, use_delegate!, ErrorSafeStringValueReader"]}
{"id": "C47", "title": "Multi path visits exactly the matching values in order", "statement": "read_seeked_multi calls the closure exactly once for every value matched by the path (index, name: first match; wildcards: all; optional: zero or one), in document order, and leaves the reader behind the value it started at; missing mandatory pieces and disallowed empty containers are errors; at_least_one_match fails exactly when nothing matched.", "quantifier": "all valid documents, all multi paths", "why_tests_cant": "All pairs of document and path.", "anchors": ["src/reader/simple.rs: read_seeked_multi, convert_path, MultiJsonPathPiece"]}
{"id": "C48", "title": "Serializer emits exactly one JSON value or fails", "statement": "Serializing any value of the Serde data model either fails or makes the writer emit exactly the JSON value prescribed by the documented mapping (seq/tuple -> array, map/struct -> object, variants -> single-member object or string, unit/none -> null, bytes -> array of numbers); lengths that do not match the announced one are always reported as IncorrectElementsCount.", "quantifier": "all values of the Serde data model", "why_tests_cant": "Infinitely many data model trees.", "anchors": ["src/serde/ser.rs: JsonWriterSerializer, SerializeSeq, SerializeTuple, SerializeMap, SerializeStruct, SerializeTupleVariant, SerializeStructVariant"]}
{"id": "C49", "title": "Map keys are serialized as strings or rejected", "statement": "A map key is accepted if and only if it is (possibly wrapped in Some or a newtype) a string, char, bool, number or unit variant, and the member name is its string form; everything else fails with MapKeyNotString.", "quantifier": "all key values of the Serde data model", "why_tests_cant": "All nested wrappers.", "anchors": ["src/serde/ser.rs: MapKeyStringSerializer"]}
{"id": "C50", "title": "Deserializer respects its own nesting limit", "statement": "A JsonReaderDeserializer with limit n never has more than n arrays/objects open, fails with MaxNestingDepthExceeded exactly when a deeper one would be started, and after a successful value its depth is what it was before.", "quantifier": "all documents, all target shapes, all limits", "why_tests_cant": "All depths and shapes.", "anchors": ["src/serde/de.rs: check_nesting!, deserialize_seq_with_length, deserialize_map, deserialize_enum"]}
{"id": "C51", "title": "Deserializing into the data model inverts serializing", "statement": "Serializing a value of the self-describing part of the Serde data model and deserializing the output with deserialize_any yields the corresponding value: booleans, null, strings, integers in i128/u128 range, sequences and string-keyed maps are preserved exactly.", "quantifier": "all self-describing data model values", "why_tests_cant": "Infinitely many values.", "anchors": ["src/serde/ser.rs: JsonWriterSerializer", "src/serde/de.rs: deserialize_any, SeqAccess, MapAccess"]}
{"id": "C52", "title": "deserialize_any dispatches numbers by their text", "statement": "A number with '.', 'e' or 'E' is visited as f64; otherwise a negative number is visited as i64 if it fits, else as i128, else an error; a non-negative number as u64 if it fits, else as u128, else an error. The visited integer is the mathematical value of the text.", "quantifier": "all JSON numbers", "why_tests_cant": "All digit strings around and beyond 64 and 128 bit boundaries.", "anchors": ["src/serde/de.rs: deserialize_any"]}
{"id": "C53", "title": "Deserializing from the stream is deserializing from the parsed value", "statement": "For every implementation of Deserialize, deserializing at some place of a valid document gives the result which is determined by the JSON value at this place (value or kind of error), independently of buffering, and after success the reader is directly behind this value.", "quantifier": "all valid documents, all places, all implementations of Deserialize and Visitor which do not misuse the Serde protocol, all buffer sizes and read schedules", "why_tests_cant": "The implementations are an infinite set of programs; tests use a few derived ones.", "anchors": ["src/serde/de.rs: JsonReaderDeserializer, SeqAccess, MapAccess, EnumAccess, VariantAccess, MapKeyDeserializer", "src/reader/mod.rs: deserialize_next"]}
{"id": "C54", "title": "Using the reader after errors stays memory safe", "statement": "Even if the caller ignores syntax and IO errors and continues to use the reader, it never creates a string from invalid UTF-8, never accesses its buffers out of bounds, never unwraps None, never reaches unreachable code, and every call returns. (So replacing the checked UTF-8 conversions by unchecked ones, as the TODO in utf8.rs plans, causes no undefined behavior.)", "quantifier": "all inputs, chunkings, read errors, settings, sequences of calls including arbitrary calls after errors, with and without debug assertions", "why_tests_cant": "The state after an error depends on where exactly in the input and in the buffer the error happened; combinations with all following calls are unbounded.", "anchors": ["src/reader/mod.rs 724-727: documentation of the behavior after errors", "src/utf8.rs: to_str_unchecked, to_string_unchecked", "src/reader/stream_reader.rs: fill_buffer, read_string_bytes, collect_next_number_bytes"]}
{"id": "C55", "title": "Using the writer after errors causes no internal panic", "statement": "Whatever the underlying Write does (errors, partial writes, at any time), and even if the caller ignores the errors and continues to use the writer and its string value writers, every panic is one of the documented ones for incorrect usage: no index is out of range, no arithmetic underflows (e.g. of the indentation level), no debug assertion fails, no unreachable code is reached, and every call returns.", "quantifier": "all sequences of calls, settings, buffer sizes, behaviors of the underlying Write", "why_tests_cant": "An error can happen at every byte of every call; the state which remains depends on it, and the sequences of following calls are unbounded.", "anchors": ["src/writer/mod.rs 77-84: documentation of the behavior after errors", "src/writer/stream_writer.rs: write_bytes, before_container_element, on_container_end, decrease_indentation, StringValueWriterImpl"]}
{"id": "C56", "title": "The deserializer uses the reader correctly for arbitrary data", "statement": "For arbitrary data (malformed, truncated, with errors of the underlying reader) and for every implementation of Deserialize which does not ignore errors and does not return a value without using its deserializer: the deserializer only calls methods of the reader where they are permitted, does not use the reader after an error, does not panic except for the panics Serde documents as misuse of MapAccess and EnumAccess, and when it succeeds it has consumed exactly one JSON value; so deserializing followed by consume_trailing_whitespace only succeeds for JSON documents, with the result specified for the value of the document.", "quantifier": "all implementations of Deserialize/Visitor with these two properties, all JsonReader implementations (calls) and all inputs, schedules and settings (results)", "why_tests_cant": "The implementations of Deserialize are arbitrary code which interacts with the deserializer, and the data can be wrong at every byte; a wrong call occurs only for particular combinations of both.", "anchors": ["src/serde/de.rs: JsonReaderDeserializer, SeqAccess, MapAccess, EnumAccess, VariantAccess", "src/reader/stream_reader.rs 2201-2214: deserialize_next"]}
{"id": "C57", "title": "The Simple reader API is safe for arbitrary data and only accepts JSON documents", "statement": "For arbitrary data (malformed, truncated, with errors of the underlying reader) and for arbitrary closures which stop with some error when a method fails: the Simple reader API never calls a method of the reader where it is not permitted, does not use the reader after an error, all its loops end, and the only panics are the documented ones (read_name called twice, misuse of Serde's MapAccess and EnumAccess). If reading a value succeeds then the complete data is one JSON document, no matter how little of it the closures read, and the result is the one specified for its value.", "quantifier": "all closures and seek paths (in any nesting), all inputs, chunkings, read errors and settings", "why_tests_cant": "Closures are arbitrary code which can stop reading at any point, and the data can be wrong at every byte; the skipping of unread strings, members and items has to be correct for all combinations.", "anchors": ["src/reader/simple.rs: SimpleJsonReader, ErrorSafeJsonReader, read_seeked_multi, read_string_with_reader, read_object_borrowed_names", "src/reader/simple.rs 1583-1700: from_json_reader and the usage of the top-level value"]}
{"id": "C58", "title": "The serializer is safe for arbitrary implementations of Serialize", "statement": "For every implementation of Serialize (arbitrary code which calls the serializer, converts errors or returns own errors) which stops using the serializer after an error: output, panics and success depend only on the value of the Serde data model which it describes; there is no panic if keys and values of maps alternate; serialize_value succeeds on a reliable Write exactly if this value has a JSON value, and then exactly that value is written. For implementations which also ignore errors: whatever the underlying Write does, every panic is a documented one and no internal invariant is violated; the output is always the beginning of JSON documents; and if serialize_value and the following finish_document succeed the output is a JSON document.", "quantifier": "all implementations of Serialize without shared mutable state, all previous and following calls of the writer, all settings, buffer sizes and behaviors of the underlying Write", "why_tests_cant": "Implementations of Serialize are arbitrary code; every call can fail for several reasons and the implementation can react in arbitrary ways, in any nesting.", "anchors": ["src/serde/ser.rs 107-115: error behavior", "src/serde/ser.rs 193: TODO whether invalid JSON is possible", "src/serde/ser.rs: JsonWriterSerializer, SerializeSeq, SerializeTuple, SerializeMap, SerializeStruct, MapKeyStringSerializer"]}
{"id": "C59", "title": "The reader does not wait for input behind a delimiter", "statement": "After a successful call which ends with a delimiter (start or end of an array or object, reading or skipping of a member name, reading a string, skipping an array, object or string) the results of all calls so far and the position depend only on the bytes up to and including this delimiter. The reader does not have to wait for any further input: the results are the same if the underlying reader has no more data or fails afterwards. (Numbers and literals, in contrast, need the byte behind them.)", "quantifier": "all inputs, all continuations of the input (other bytes, end, IO errors), all chunkings and buffer sizes, all settings, all previous calls", "why_tests_cant": "A single superfluous look at the next byte is invisible on complete documents; it only matters for interactive streams, where it leads to a deadlock, and has to be excluded in every state of the reader.", "anchors": ["src/reader/stream_reader.rs 736-858: peek_internal_optional", "src/reader/stream_reader.rs 1785-1795: after_name is called lazily", "src/reader/stream_reader.rs 1554-1760: read_string_bytes, read_string", "src/reader/stream_reader.rs 2109-2163: skip_value"]}
{"id": "C60", "title": "Streaming needs a bounded amount of memory", "statement": "For calls which do not return member names, complete strings or numbers (peeking, begin and end of arrays and objects, has_next, booleans, null, string readers, positions and, if the path is not tracked, all kinds of skipping) the reader does not use the reader for values and its buffer at all: the results are the same if all its operations panicked. The memory held by the reader is independent of the JSON document: the input buffer keeps its size, the value buffer stays empty and the number of stack entries is bounded by the maximum nesting depth.", "quantifier": "all inputs, chunkings, buffer sizes, settings and sequences of such calls", "why_tests_cant": "Memory use is not visible in results; a test can only show that some large document does not exhaust the memory, not that no document does, and that an operation is never used cannot be seen from executions in which it happens not to matter.", "anchors": ["src/reader/stream_reader.rs 1201-1520: BytesValueReader, BytesValue", "src/reader/stream_reader.rs 1554-1646: read_string_bytes, skip_all_string_bytes", "src/reader/stream_reader.rs 2088-2163: skip_name, skip_value", "src/reader/stream_reader.rs 2376-2480: StringValueReader"]}
{"id": "C61", "title": "The default settings are strict", "statement": "With the default settings the reader accepts exactly the documents of RFC 8259 without extensions (no comments, no trailing commas, one top-level value) which have at most 128 nested arrays and objects and no numbers with more than 100 characters or more than two exponent digits; positions include the path. With the default settings the writer writes exactly one document, without any whitespace between the tokens, and escapes only the characters which must be escaped.", "quantifier": "all inputs, chunkings, buffer sizes and calls; all sequences of writer calls, all buffer sizes and sinks, all characters", "why_tests_cant": "That nothing else is accepted is a statement about all inputs. The limit of 128 is a boundary which has to hold for every kind of nesting and every way of reading.", "anchors": ["src/reader/stream_reader.rs 350-371: ReaderSettings::default", "src/writer/stream_writer.rs 96-110: WriterSettings::default"]}
{"id": "C62", "title": "Error locations point to the offending input", "statement": "When a call of the reader fails with an error which has a location (and which is not an error of the underlying Read), then the location is not in front of the position the reader had before the call; offset, line and column belong to the same place of the input; the path is the one the reader had before (for calls which read at most one token); and at that place the input has what the kind of the error says: e.g. the comma and behind it (after whitespace and comments) the closing bracket for TrailingCommaNotEnabled, `\\u` which is not followed by four hexadecimal digits (directly or in the second escape sequence of a surrogate pair) or `\\` at the end of the input for MalformedEscapeSequence, an escaped surrogate which is not part of a pair for UnpairedSurrogatePairEscapeSequence, no valid number for MalformedNumber, the beginning of the literal for InvalidLiteral, the backslash of the escape sequence for UnknownEscapeSequence, a control character for NotEscapedControlCharacter, the first byte of an invalid UTF-8 sequence, a value of the reported actual type for UnexpectedValueType, the end of the input for IncompleteDocument, the number for UnsupportedNumberValue.", "quantifier": "all inputs, chunkings, buffer sizes, settings, previous calls and failing calls (all methods); exceptions: consume_trailing_whitespace when multiple top-level values are enabled (a counterexample is proved), after an UnsupportedNumberValue error", "why_tests_cant": "The position is updated in many places, partly before and partly after an error is detected, and is restored for the comma. A location which is off by one in one state of the reader, for one kind of error or when the buffer is refilled in between, needs exactly this combination to be seen.", "anchors": ["src/reader/stream_reader.rs 430-445: create_error_location, create_syntax_value_error", "src/reader/stream_reader.rs 500-760: comments, literals, whitespace, commas", "src/reader/stream_reader.rs 1100-1400: escape sequences, UTF-8", "src/reader/stream_reader.rs 1785-2000: numbers, value types", "src/reader/mod.rs 60-225: JsonReaderPosition, ReaderError"]}
{"id": "C63", "title": "Counters are bounded by the size of the input", "statement": "After any calls, and in every error location, the counters of the position are bounded by the input: the offset is at most the number of bytes of the input, line and column are at most the offset, and the array indexes of the path together (twice, because every item needs a value and a comma) and the length of the path are at most the offset. Hence the u64 counters for line, column and offset and the u32 counters for array indexes cannot overflow for inputs below 2^33 bytes.", "quantifier": "all inputs, chunkings, buffer sizes, settings, all sequences of calls (without UnsupportedNumberValue error); errors of all calls which read at most one token (the others consist of these)", "why_tests_cant": "An overflow needs inputs of gigabytes. The bound has to hold in every state.", "anchors": ["src/reader/stream_reader.rs 147-149: line, column, byte_pos", "src/reader/stream_reader.rs 980-1000: on_value_end increments the index", "src/reader/mod.rs 36-43: JsonPathPiece::ArrayItem(u32)"]}
{"id": "C64", "title": "Texts of positions and errors tell everything", "statement": "The text of a position (Display of JsonReaderPosition) shows line and column, offset and path when they are known, and says which of them are known: two positions with the same text have the same line, column, offset and text of the path, whatever member names the path contains. The text of a path determines the path if no member name contains '.' or '[' (otherwise different paths can have the same text; a counterexample is proved). The text of a ReaderError ends with the text of its location, and two errors (other than IO errors) with the same text have the same kind with the same details and the same location.", "quantifier": "all positions with any combination of known parts, all paths, all errors; member names in MissingObjectMember must not contain a quotation mark, numbers in UnsupportedNumberValue no apostrophe", "why_tests_cant": "Member names come from the document and may contain anything, such as text which looks like the rest of a position. Tests check some texts, not that no two positions can be confused.", "anchors": ["src/reader/mod.rs 72-83: format_abs_json_path", "src/reader/mod.rs 277-281: Display for LinePosition", "src/reader/mod.rs 367-396: Display for JsonReaderPosition", "src/reader/mod.rs 405: JsonSyntaxError", "src/reader/mod.rs 415-507: SyntaxErrorKind, UnexpectedStructureKind", "src/reader/mod.rs 513-595: ReaderError"]}
{"id": "C65", "title": "Debug output of reader and writer never panics and shows the buffered data", "statement": "Formatting a JsonStreamReader or JsonStreamWriter with Debug never panics, whenever it can be used, also after errors. The reader shows either that the end was reached, or the number of buffered bytes and at most 45 characters from their beginning, with '...' exactly if this is not everything, and up to 30 of the following bytes if less than 15 bytes could be shown as text. After successful calls the shown data is what follows in the input behind the reported position and the peeked token. The writer shows the number of buffered bytes, the shortest undecodable beginning, and the text behind it, shortened to 25 characters at both ends if it has more than 55.", "quantifier": "all inputs and ways of reading them, all settings, buffer sizes and call sequences, also after errors; for the writer all sinks (errors, partial writes) and call sequences", "why_tests_cant": "The buffer can end or begin inside of a multi-byte character, and can contain invalid UTF-8 anywhere; the code slices texts by byte indices and uses unwrap() on the results of searches, and relies on the bounds of the buffer also after failed calls.", "anchors": ["src/reader/stream_reader.rs 155-202: Debug for JsonStreamReader", "src/writer/stream_writer.rs 552-611: Debug for JsonStreamWriter"]}
{"id": "C66", "title": "The output of the writer is valid UTF-8 without byte order mark", "statement": "Everything a JsonStreamWriter emits is valid UTF-8 and begins with an ASCII byte, so there is no byte order mark, for every sequence of calls, also when string value writers fail because of invalid UTF-8 or when a call panics because of incorrect usage. What the underlying writer has received at any time is valid UTF-8 except for at most 3 bytes of an incomplete character at the end; after a successful finish_document it is valid UTF-8. If the underlying writer does not fail, then Debug shows at most 3 bytes of the buffer as raw bytes, the rest of a character which was split.", "quantifier": "all settings (including separators), buffer sizes, sinks (errors, partial writes) and call sequences, whose number texts are JSON numbers where the caller has to guarantee this", "why_tests_cant": "The buffer is flushed when it is full, regardless of character boundaries, and string value writers get bytes in arbitrary pieces and can fail in the middle of a character; tests use a few texts and piece sizes.", "anchors": ["src/writer/stream_writer.rs 125-127: The data written to the underlying writer will be valid UTF-8 data", "src/writer/stream_writer.rs 588: In case of error buffer was likely already flushed before and split valid UTF-8", "src/writer/stream_writer.rs write_bytes, StringValueWriterImpl"]}
{"id": "C67", "title": "The path macros accept exactly the documented notation", "statement": "multi_json_path! compiles exactly for lists of the documented notations of pieces (integer, string, ?string, [*], [+], {*}, {+}) which are separated by single commas, with an optional comma at the end, and creates the path with exactly these pieces in this order; duplicated, leading or missing commas are rejected. The same holds for json_path! and its pieces, and for its arguments both macros create the same path.", "quantifier": "all sequences of tokens (expressions counted as one token)", "why_tests_cant": "The macro consumes its arguments recursively by 12 rules whose order matters, and tracks by the presence of a trailing comma whether a comma is allowed; tests check some short lists, and not that incorrect lists are rejected.", "anchors": ["src/reader/simple.rs 153-239: __multi_json_path_impl!, __multi_json_path!", "src/reader/simple.rs 106-142: From and __IntoString", "src/reader/mod.rs 45-63, 113-125: json_path!"]}
{"id": "C68", "title": "The writer rarely calls the underlying Write", "statement": "If the underlying Write accepts the data it is given, then each call of Write::write passes on a full buffer, except for at most one call per flush requested by the caller (flush of a string value writer, finish_document). Hence the number of calls is at most the number of received bytes divided by the buffer size, plus the number of requested flushes; wrapping the Write in a BufWriter is not necessary. Write::flush is called only on these requests, and a successful finish_document has flushed successfully.", "quantifier": "all sequences of calls of the writer and of string value writers (also misuse ending with a panic), all settings, all buffer sizes, all results of flush", "why_tests_cant": "The tests of the writer only compare the resulting bytes; an additional flush or a partially filled buffer being passed on would not change them.", "anchors": ["src/writer/stream_writer.rs 176-200: write_bytes, flush", "src/writer/stream_writer.rs 520-536: finish_document", "src/writer/stream_writer.rs 122-123: documentation of buffering"]}
{"id": "C69", "title": "The output has only the characters which the settings allow", "statement": "With escape_all_non_ascii the bytes received by the underlying Write are ASCII, unless the configured separator of top-level values is not ASCII. The output never contains a control character U+0000-U+001F, apart from the configured separator, and line feeds if pretty printing is enabled; with escape_all_control_chars this holds for U+007F-U+009F too. With a line feed as separator and without pretty printing the output is in the format of JSON lines: one line for each written value, each line is a JSON document for its value and contains no line feed or carriage return.", "quantifier": "all sequences of calls of the writer and of string value writers (also unfinished strings and misuse ending with a panic), all settings, all strings, all buffer sizes and all behaviours of the underlying Write", "why_tests_cant": "The tests check the escaping of selected characters in single strings; that no other part of the output (names, numbers, indentation, pieces written by a string value writer which split characters) adds a forbidden character is only tested for few inputs.", "anchors": ["src/writer/stream_writer.rs 40-110: WriterSettings", "src/writer/stream_writer.rs 245-345: before_value, should_escape, write_escaped_char, write_string_value_piece"]}
{"id": "C70", "title": "Path tracking changes nothing but the reported paths", "statement": "A reader with track_path disabled returns for the same input and the same calls exactly the same values, the same kinds of errors and the same lines, columns and byte positions as a reader which tracks the JSON path; the only difference is that no position and no error location has a JSON path. In particular the different code used for skipping member names (skipping the bytes instead of reading the name) accepts and rejects the same names with the same errors at the same locations.", "quantifier": "all inputs (arriving in arbitrary pieces, also ending with an IO error), all buffer sizes, all combinations of the other settings, all sequences of method calls (also misuse) up to the first panic, syntax error or IO error", "why_tests_cant": "The tests disable path tracking for one small document (test no_path_tracking); the equivalence of the two code paths of skip_name, next_name and on_value_end for all names, all malformed inputs and all call sequences cannot be enumerated.", "anchors": ["src/reader/stream_reader.rs 303-311: track_path", "src/reader/stream_reader.rs 971-998: on_container_end, on_value_end", "src/reader/stream_reader.rs 1983-2017: next_name_owned, next_name", "src/reader/stream_reader.rs 2088-2107: skip_name", "src/reader/stream_reader.rs 2359-2373: current_position"]}
{"id": "C71", "title": "Which method fails with which error", "statement": "Each method of the reader reports only errors which fit to what it does: IO and comment errors only while reading; comma and bracket errors only when it looks at the next token; errors about escape sequences only when it reads or skips strings or names; errors about number syntax only when it reads or skips numbers; an unsupported number value only for methods which return a number and only if restrict_number_values is enabled; an unexpected value type only for the type the method asks for (and with a different actual type), never for skip_value, skip_name, skip_to_top_level, has_next or peek; 'more elements than expected' only for end_array and end_object; 'fewer elements than expected' only for methods which need an element (so never for has_next, end_array, end_object, skip_to_top_level and seek_back); a too short array or missing member only for seek_to and only with an index or name of its path; trailing data only for consume_trailing_whitespace; the nesting depth error only when an array or object is started and with the configured limit. Errors which name a setting (comments not enabled, trailing comma not enabled, maximum nesting depth, unsupported number value) are reported only if the setting has that value, and incomplete or unclosed comments only if comments are enabled. current_position never fails. transfer_to reports the same errors as skip_value and in addition unsupported number values.", "quantifier": "all inputs (arriving in arbitrary pieces, also ending with an IO error), all buffer sizes, all settings, all sequences of method calls (also misuse) up to the first panic, syntax error or IO error", "why_tests_cant": "The tests check that an expected error occurs for selected inputs; that no other kind of error is ever reported by a method - also after earlier errors and inside of compound methods such as skip_value and seek_to, which internally call methods that do report type and structure errors - is a statement about all inputs and states.", "anchors": ["src/reader/mod.rs 335-583: SyntaxErrorKind, UnexpectedStructureKind, ReaderError", "src/reader/mod.rs 744-1807: JsonReader, sections Errors", "src/reader/stream_reader.rs 236-346: ReaderSettings", "src/reader/stream_reader.rs 1933-2374: impl JsonReader for JsonStreamReader"]}
{"id": "C72", "title": "The writer reports an error only if there is a reason for it", "statement": "Every error returned by a method of JsonStreamWriter is an error which the underlying Write really returned from write (or WriteZero, only if write returned Ok(0)), or from flush (only for finish_document and flush of the string value writer); or it is InvalidNumber, only for fp_number_value with a number which is not finite or number_value_from_string with a text which is not a JSON number. The methods of string value writers in addition report incorrect UTF-8 (only write), incomplete UTF-8 (only write_str and finish_value), and that there was an error before (only with an error which a method of the same string value writer has reported before). If the underlying Write never fails, then the methods of the writer fail only for numbers which must not be written.", "quantifier": "all sequences of method calls (also continued after errors) which do not panic, all settings, all buffer sizes, all behaviours of the underlying Write (partial writes, interruptions, errors at arbitrary calls)", "why_tests_cant": "The tests use a writer which fails in one or two fixed ways; where an error comes from for arbitrary interleavings of failing writes, flushes, string value writers and continued use is a statement about all executions.", "anchors": ["src/writer/stream_writer.rs 176-200: write_bytes, flush", "src/writer/stream_writer.rs 479-550: number methods, finish_document, string_value_writer", "src/writer/stream_writer.rs 645-806: StringValueWriterImpl", "src/writer/mod.rs 756-776: FloatingPointNumber::use_json_number"]}
{"id": "C73", "title": "The writer loses no error of the underlying Write", "statement": "The errors of the underlying Write which are reported by the methods of JsonStreamWriter and its string value writers are exactly the errors which write and flush of the underlying Write have returned (WriteZero for Ok(0)): none is swallowed, none is reported twice (a string value writer which refuses to continue reports a previous error instead), and the order is kept. In particular, if no method reports an error of the underlying Write, then none of its calls has failed.", "quantifier": "all sequences of method calls (also continued after errors) which do not panic, all settings, all buffer sizes, all behaviours of the underlying Write (partial writes, interruptions, errors at arbitrary calls)", "why_tests_cant": "A swallowed error shows only if the underlying Write fails at exactly the call whose result is ignored, e.g. while the indentation, a comma or a piece of a string is written and the buffer happens to be full; tests would have to let every single call fail for every sequence of methods.", "anchors": ["src/writer/stream_writer.rs 176-200: write_bytes, flush", "src/writer/stream_writer.rs 223-387: indentation, separators, escapes, strings", "src/writer/stream_writer.rs 399-550: impl JsonWriter for JsonStreamWriter", "src/writer/stream_writer.rs 645-806: StringValueWriterImpl"]}
