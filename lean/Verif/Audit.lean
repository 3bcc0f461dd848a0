import Verif.Props.AfterErrors
import Verif.Props.Calls
import Verif.Props.Chunking
import Verif.Props.Counters
import Verif.Props.Cursor
import Verif.Props.De
import Verif.Props.DeAny
import Verif.Props.DeArbitrary
import Verif.Props.Debug
import Verif.Props.Defaults
import Verif.Props.Documents
import Verif.Props.ErrorKinds
import Verif.Props.ErrorKindsTransfer
import Verif.Props.ErrorLocation
import Verif.Props.Inputs
import Verif.Props.Local
import Verif.Props.Macros
import Verif.Props.Messages
import Verif.Props.Nesting
import Verif.Props.NoPath
import Verif.Props.NoPathTransfer
import Verif.Props.Numbers
import Verif.Props.OutputChars
import Verif.Props.OutputUtf8
import Verif.Props.Peeking
import Verif.Props.Ser
import Verif.Props.SerImpl
import Verif.Props.SimpleReader
import Verif.Props.SimpleReaderArbitrary
import Verif.Props.SimpleWriter
import Verif.Props.Streaming
import Verif.Props.Tight
import Verif.Props.Tokens
import Verif.Props.Trailing
import Verif.Props.Transfer
import Verif.Props.TransferAny
import Verif.Props.Whitespace
import Verif.Props.WriteCalls
import Verif.Props.Writer
import Verif.Props.WriterAfter
import Verif.Props.WriterErrors
import Verif.Props.WriterFailures
import Verif.Props.WriterStrings
/-! Axioms of all property theorems -/
#print axioms Verif.Props.C02_after_errors
#print axioms Verif.Props.C02_counterexample_after_error
#print axioms Verif.Props.C54_no_undefined_behavior
#print axioms Verif.Props.C54_release
#print axioms Verif.Props.C29_after_errors
#print axioms Verif.Props.C02_no_internal_panic_partial
#print axioms Verif.Props.C29_loops_end
#print axioms Verif.Props.C28_no_panic
#print axioms Verif.Props.C28_misuse_panics
#print axioms Verif.Props.C28_seek_back_misuse_partial
#print axioms Verif.Props.C28_panics_iff
#print axioms Verif.Props.C11_accepted_is_json
#print axioms Verif.Props.C18_depth_bounded
#print axioms Verif.Props.C19_C20_position
#print axioms Verif.Props.C01_chunking_irrelevant
#print axioms Verif.Props.C01_chunking_irrelevant_bufsize
#print axioms Verif.Props.C63_position
#print axioms Verif.Props.C63_error
#print axioms Verif.Props.C15_peek
#print axioms Verif.Props.C15_has_next
#print axioms Verif.Props.C16_mismatch_changes_nothing
#print axioms Verif.Props.C17_skip_is_read
#print axioms Verif.Props.C17_skip_moves_behind
#print axioms Verif.Props.C08_strings
#print axioms Verif.Props.C08_names
#print axioms Verif.Props.C20_path_of_place
#print axioms Verif.Props.C21_seek_to
#print axioms Verif.Props.C21_seek_to_read
#print axioms Verif.Props.C22_seek_back
#print axioms Verif.Props.C23_skip_to_top_level
#print axioms Verif.Props.C53_value
#print axioms Verif.Props.C53_error
#print axioms Verif.Props.C53_misuse
#print axioms Verif.Props.C53_next_value
#print axioms Verif.Props.C53_next_error
#print axioms Verif.Props.C53_next_misuse
#print axioms Verif.Props.C50_bound
#print axioms Verif.Props.C50_bound_next
#print axioms Verif.Props.C50_calls
#print axioms Verif.Props.C50_depth_restored
#print axioms Verif.Props.C50_refused
#print axioms Verif.Props.C50_too_deep
#print axioms Verif.Props.C52_visited
#print axioms Verif.Props.C52_rejected
#print axioms Verif.Props.C52_total
#print axioms Verif.Props.C51_data
#print axioms Verif.Props.C51_round_trip
#print axioms Verif.Props.C56_calls_allowed
#print axioms Verif.Props.C56_behind
#print axioms Verif.Props.C56_no_panic
#print axioms Verif.Props.C56_accepts_only_json
#print axioms Verif.Props.C56_accepted_value
#print axioms Verif.Props.C65_reader
#print axioms Verif.Props.C65_reader_next_input
#print axioms Verif.Props.C65_writer
#print axioms Verif.Props.C61_reader_accepts
#print axioms Verif.Props.C61_reader_single_value
#print axioms Verif.Props.C61_reader_path
#print axioms Verif.Props.C61_writer_output
#print axioms Verif.Props.C61_writer_escapes
#print axioms Verif.Props.C11_C12_read_document
#print axioms Verif.Props.C12_accepts_every_document
#print axioms Verif.Props.C13_strict_is_rfc
#print axioms Verif.Props.C11_unique_value
#print axioms Verif.Props.C27_multiple_top_level
#print axioms Verif.Props.C71_error_kinds
#print axioms Verif.Props.C71_settings
#print axioms Verif.Props.C71_lenient
#print axioms Verif.Props.C71_skipping
#print axioms Verif.Props.C71_seek
#print axioms Verif.Props.C71_current_position
#print axioms Verif.Props.C71_transfer
#print axioms Verif.Props.C62_error_location
#print axioms Verif.Props.C62_trailing_data_after_peek
#print axioms Verif.Props.C13_lenient_same_results
#print axioms Verif.Props.C13_lenient_same_errors
#print axioms Verif.Props.C30_later_bytes_irrelevant
#print axioms Verif.Props.C29_progress
#print axioms Verif.Props.C29_reads_bounded
#print axioms Verif.Props.C30_one_byte_lookahead
#print axioms Verif.Props.C30_lookahead
#print axioms Verif.Props.C67_multi_json_path
#print axioms Verif.Props.C67_json_path
#print axioms Verif.Props.C67_same
#print axioms Verif.Props.C64_position_text
#print axioms Verif.Props.C64_position_shows
#print axioms Verif.Props.C64_path_text
#print axioms Verif.Props.C64_path_ambiguous
#print axioms Verif.Props.C64_message_location
#print axioms Verif.Props.C64_message_shows
#print axioms Verif.Props.C64_message
#print axioms Verif.Props.C18_error_location
#print axioms Verif.Props.C18_nesting_depth
#print axioms Verif.Props.C18_within_limit
#print axioms Verif.Props.C18_consumed
#print axioms Verif.Props.C18_limit_reached
#print axioms Verif.Props.C70_tracking_only_adds_paths
#print axioms Verif.Props.C70_no_paths
#print axioms Verif.Props.C70_transfer
#print axioms Verif.Props.C03_valid_number_iff
#print axioms Verif.Props.C69_ascii
#print axioms Verif.Props.C69_no_control
#print axioms Verif.Props.C69_no_control_all
#print axioms Verif.Props.C69_lines
#print axioms Verif.Props.C66_output_utf8
#print axioms Verif.Props.C66_no_bom
#print axioms Verif.Props.C66_received
#print axioms Verif.Props.C66_debug_raw
#print axioms Verif.Props.C16_failed_call
#print axioms Verif.Props.C16_nothing_to_skip
#print axioms Verif.Props.C16_mismatch_leaves_no_trace
#print axioms Verif.Props.C16_skipping_back
#print axioms Verif.Props.C14_peek_changes_nothing
#print axioms Verif.Props.C14_peek_again
#print axioms Verif.Props.C48_serialize
#print axioms Verif.Props.C48_document
#print axioms Verif.Props.C48_error
#print axioms Verif.Props.C48_any_sink
#print axioms Verif.Props.C48_failing_sink
#print axioms Verif.Props.C48_count
#print axioms Verif.Props.C49_key
#print axioms Verif.Props.C49_no_key
#print axioms Verif.Props.C58_value
#print axioms Verif.Props.C58_no_panic
#print axioms Verif.Props.C58_any_sink
#print axioms Verif.Props.C58_success
#print axioms Verif.Props.C58_success_iff
#print axioms Verif.Props.C58_document
#print axioms Verif.Props.C58_arbitrary_panics
#print axioms Verif.Props.C58_arbitrary
#print axioms Verif.Props.C58_arbitrary_document
#print axioms Verif.Props.C58_arbitrary_prefix
#print axioms Verif.Props.C58_ignored_error
#print axioms Verif.Props.C46_untouched
#print axioms Verif.Props.C46_read_fails
#print axioms Verif.Props.C46_method_fails_partial
#print axioms Verif.Props.C46_later_fails_partial
#print axioms Verif.Props.C46_later_fails_other
#print axioms Verif.Props.C46_string_later_fails
#print axioms Verif.Props.C46_counterexample_empty_path
#print axioms Verif.Props.C45_value
#print axioms Verif.Props.C45_error
#print axioms Verif.Props.C45_misuse
#print axioms Verif.Props.C47_visits
#print axioms Verif.Props.C47_types
#print axioms Verif.Props.C47_error
#print axioms Verif.Props.C47_no_match
#print axioms Verif.Props.C47_behind
#print axioms Verif.Props.C57_no_panic
#print axioms Verif.Props.C57_accepts_only_json
#print axioms Verif.Props.C57_accepted_value
#print axioms Verif.Props.C43_sticky
#print axioms Verif.Props.C43_value
#print axioms Verif.Props.C43_string
#print axioms Verif.Props.C43_finish
#print axioms Verif.Props.C43_closures
#print axioms Verif.Props.C44_document
#print axioms Verif.Props.C44_only
#print axioms Verif.Props.C44_no_panic
#print axioms Verif.Props.C44_counterexample_swallowed_error
#print axioms Verif.Props.C60_value_reader_not_used
#print axioms Verif.Props.C60_bounded_memory
#print axioms Verif.Props.C59_names_and_strings
#print axioms Verif.Props.C59_skip_value
#print axioms Verif.Props.C59_brackets
#print axioms Verif.Props.C04_number_ok
#print axioms Verif.Props.C04_number_syntax
#print axioms Verif.Props.C05_number_rejected
#print axioms Verif.Props.C05_number_skipped
#print axioms Verif.Props.C04_number_skip_syntax
#print axioms Verif.Props.C07_C08_string_ok
#print axioms Verif.Props.C07_C08_string_malformed
#print axioms Verif.Props.C09_string_reader
#print axioms Verif.Props.C09_chunks_flatten
#print axioms Verif.Props.C09_chunks_get
#print axioms Verif.Props.C10_sticky
#print axioms Verif.Props.C10_reads
#print axioms Verif.Props.C07_C08_name_ok
#print axioms Verif.Props.C07_C08_name_malformed
#print axioms Verif.Props.C06_string
#print axioms Verif.Props.C06_name
#print axioms Verif.Props.C25_trailing_single
#print axioms Verif.Props.C25_peeked
#print axioms Verif.Props.C24_transfer
#print axioms Verif.Props.C24_document
#print axioms Verif.Props.C24_any_sink
#print axioms Verif.Props.C24_failing_sink
#print axioms Verif.Props.C01_transfer_chunking
#print axioms Verif.Props.C02_transfer_partial
#print axioms Verif.Props.C29_transfer_ends
#print axioms Verif.Props.C29_transfer_progress
#print axioms Verif.Props.C28_transfer
#print axioms Verif.Props.C24_any_ok
#print axioms Verif.Props.C24_any_fails
#print axioms Verif.Props.C08_transfer_ok
#print axioms Verif.Props.C08_transfer_malformed
#print axioms Verif.Props.C25_trailing_partial
#print axioms Verif.Props.C25_trailing_data
#print axioms Verif.Props.C26_between
#print axioms Verif.Props.C26_skip
#print axioms Verif.Props.C26_skip_only
#print axioms Verif.Props.C26_comments_disabled
#print axioms Verif.Props.C06_comment
#print axioms Verif.Props.C25_counterexample_after_has_next
#print axioms Verif.Props.C68_write_calls
#print axioms Verif.Props.C68_write_calls_all
#print axioms Verif.Props.C68_flush_calls
#print axioms Verif.Props.C31_output_is_valid
#print axioms Verif.Props.C31_unique
#print axioms Verif.Props.C32_round_trip
#print axioms Verif.Props.C32_round_trip_multiple
#print axioms Verif.Props.C32_round_trip_value
#print axioms Verif.Props.C33_same_values
#print axioms Verif.Props.C33_pretty_print_only_whitespace
#print axioms Verif.Props.C38_buffering
#print axioms Verif.Props.C38_pieces
#print axioms Verif.Props.C39_panics_iff_misuse
#print axioms Verif.Props.C39_any_sink
#print axioms Verif.Props.C39_panic_emits_nothing
#print axioms Verif.Props.C39_prefix_of_documents
#print axioms Verif.Props.C42_incremental
#print axioms Verif.Props.C55_no_internal_panic
#print axioms Verif.Props.C72_reasons
#print axioms Verif.Props.C72_reasons_stop
#print axioms Verif.Props.C72_reliable
#print axioms Verif.Props.C73_no_error_lost
#print axioms Verif.Props.C73_no_error_lost_stop
#print axioms Verif.Props.C73_success
#print axioms Verif.Props.C34_string_literal
#print axioms Verif.Props.C34_name_literal
#print axioms Verif.Props.C34_ascii
#print axioms Verif.Props.C34_escaped
#print axioms Verif.Props.C35_split
#print axioms Verif.Props.C36_invalid_utf8
#print axioms Verif.Props.C37_sticky
#print axioms Verif.Props.C40_emits
#print axioms Verif.Props.C40_integers
#print axioms Verif.Props.C41_state
#print axioms Verif.Props.C41_rejected
#print axioms Verif.Props.C41_only
