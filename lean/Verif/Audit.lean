import Verif.Props.Amplify
import Verif.Props.AnyServer
import Verif.Props.AtOnce
import Verif.Props.Benches
import Verif.Props.Binary
import Verif.Props.BinaryExact
import Verif.Props.Bits
import Verif.Props.BitsExact
import Verif.Props.BitsLength
import Verif.Props.Chance
import Verif.Props.ChronoText
import Verif.Props.ChronoUse
import Verif.Props.Client
import Verif.Props.Concurrent
import Verif.Props.ConcurrentUse
import Verif.Props.Cursor
import Verif.Props.Cut
import Verif.Props.Daemon
import Verif.Props.Debug
import Verif.Props.Disk
import Verif.Props.DiskNames
import Verif.Props.Display
import Verif.Props.DisplayBare
import Verif.Props.DisplayText
import Verif.Props.ErrorText
import Verif.Props.ExportFile
import Verif.Props.FairLock
import Verif.Props.Format
import Verif.Props.Forward
import Verif.Props.Gone
import Verif.Props.Hangup
import Verif.Props.HashExact
import Verif.Props.Http
import Verif.Props.HttpChars
import Verif.Props.Huffman
import Verif.Props.HuffmanEnglish
import Verif.Props.HuffmanTree
import Verif.Props.IgnoreValue
import Verif.Props.Imaginary
import Verif.Props.ImaginarySerde
import Verif.Props.ImaginaryText
import Verif.Props.Integer
import Verif.Props.IntegerArith
import Verif.Props.IntegerConv
import Verif.Props.IntegerFloat
import Verif.Props.IntegerSerde
import Verif.Props.IntegerText
import Verif.Props.Isolation
import Verif.Props.IsolationConcurrent
import Verif.Props.JsonBytes
import Verif.Props.JsonDifferent
import Verif.Props.JsonExact
import Verif.Props.JsonExport
import Verif.Props.JsonForm
import Verif.Props.JsonMarks
import Verif.Props.JsonNear
import Verif.Props.JsonSettles
import Verif.Props.JsonSettlesNear
import Verif.Props.JsonSettlesText
import Verif.Props.JsonText
import Verif.Props.JsonUse
import Verif.Props.Launch
import Verif.Props.Listed
import Verif.Props.Lz4
import Verif.Props.Lz4Use
import Verif.Props.Mouse
import Verif.Props.MouseArgs
import Verif.Props.MouseChoice
import Verif.Props.MouseEntry
import Verif.Props.MouseKeys
import Verif.Props.MouseNever
import Verif.Props.MouseStd
import Verif.Props.MouseText
import Verif.Props.Names
import Verif.Props.Nesting
import Verif.Props.NoTimestamps
import Verif.Props.Once
import Verif.Props.Polar
import Verif.Props.RaceFree
import Verif.Props.RaceFreeReads
import Verif.Props.RaceFreeSame
import Verif.Props.Reads
import Verif.Props.RepoTests
import Verif.Props.Reread
import Verif.Props.SaveList
import Verif.Props.SaveOrder
import Verif.Props.SavePast
import Verif.Props.Saver
import Verif.Props.Size
import Verif.Props.StdText
import Verif.Props.StopStart
import Verif.Props.Store
import Verif.Props.StoreJsonExact
import Verif.Props.StoreSerde
import Verif.Props.Untied
import Verif.Props.Value
import Verif.Props.ValueAccess
import Verif.Props.ValueEq
import Verif.Props.ValueExact
import Verif.Props.ValueFails
import Verif.Props.ValueJson
import Verif.Props.ValueLoop
import Verif.Props.ValueNear
import Verif.Props.ValueYields
import Verif.Props.Wire

/-! Prints the axioms of every property theorem (see the build log). -/

#print axioms Souris.C01_unsigned_roundtrip
#print axioms Souris.C01_signed_roundtrip
#print axioms Souris.C01_value
#print axioms Souris.C02_unsigned_exact
#print axioms Souris.C02_signed_law
#print axioms Souris.C02_signed_fits_partial
#print axioms Souris.C02_refuted_signed
#print axioms Souris.C02_refuted_signed_neg
#print axioms Souris.C02_refuted_everywhere
#print axioms Souris.C03_integer_roundtrip
#print axioms Souris.C03_prefix_free
#print axioms Souris.C04_roundtrip_eq_iff
#print axioms Souris.C04_roundtrip_eq_partial
#print axioms Souris.C04_refuted_unsigned_zero
#print axioms Souris.C05_eq_iff
#print axioms Souris.C05_eq_numeric_partial
#print axioms Souris.C05_refuted_zero
#print axioms Souris.C05_refuted_zero_text
#print axioms Souris.C05_equivalence
#print axioms Souris.C05_eq_sound
#print axioms Souris.C05_refuted_noncanonical
#print axioms Souris.C06_hash_of_eq
#print axioms Souris.C07_size
#print axioms Souris.C07_size_le
#print axioms Souris.C08_parse_exact
#print axioms Souris.C08_display
#print axioms Souris.C08_text_roundtrip
#print axioms Souris.C09_arith_exact_partial
#print axioms Souris.C09_refuted_mixed
#print axioms Souris.C09_law
#print axioms Souris.C09_wrong_iff
#print axioms Souris.C10_f64_law
#print axioms Souris.C10_f64_integral_partial
#print axioms Souris.C10_f64_fraction_partial
#print axioms Souris.C10_refuted_f64_negative
#print axioms Souris.C10_refuted_f64_epsilon
#print axioms Souris.C10_refuted_f64_all_negative
#print axioms Souris.C10_refuted_f64_min
#print axioms Souris.C10_f32_law
#print axioms Souris.C10_f32_negative_partial
#print axioms Souris.C10_refuted_f32_nonneg
#print axioms Souris.C10_refuted_f32_one
#print axioms Souris.C10_f64_message
#print axioms Souris.C100_texts
#print axioms Souris.C100_create
#print axioms Souris.C100_add_entry
#print axioms Souris.C100_remove_database
#print axioms Souris.C101_directory_partial
#print axioms Souris.C101_same_directory
#print axioms Souris.C101_working_directory
#print axioms Souris.C101_untouched
#print axioms Souris.C101_created
#print axioms Souris.C101_starts
#print axioms Souris.C101_no_directory
#print axioms Souris.C101_second
#print axioms Souris.C101_again_partial
#print axioms Souris.C101_refuted_garbled
#print axioms Souris.C101_relative
#print axioms Souris.C102_exact
#print axioms Souris.C102_unique
#print axioms Souris.C102_every
#print axioms Souris.C102_hosts
#print axioms Souris.C102_asked
#print axioms Souris.C102_help
#print axioms Souris.C102_help_word
#print axioms Souris.C102_version
#print axioms Souris.C103_written
#print axioms Souris.C103_exact
#print axioms Souris.C103_settled
#print axioms Souris.C103_store_exact
#print axioms Souris.C103_same_partial
#print axioms Souris.C103_refuted_timestamp
#print axioms Souris.C103_text_near_partial
#print axioms Souris.C103_refuted_text_float
#print axioms Souris.C103_text_partial
#print axioms Souris.C104_exact
#print axioms Souris.C104_written
#print axioms Souris.C104_flag
#print axioms Souris.C104_store_exact
#print axioms Souris.C105_depth
#print axioms Souris.C105_exact
#print axioms Souris.C105_near_partial
#print axioms Souris.C105_refuted_deep
#print axioms Souris.C105_refuted_float
#print axioms Souris.C105_refuted_timestamp
#print axioms Souris.C106_un_rle
#print axioms Souris.C106_un_lz
#print axioms Souris.C106_un_huff_partial
#print axioms Souris.C106_compress
#print axioms Souris.C106_refuted_long
#print axioms Souris.C106_create
#print axioms Souris.C106_refuted_empty
#print axioms Souris.C106_decode_partial
#print axioms Souris.C106_refuted_one
#print axioms Souris.C106_deserialise
#print axioms Souris.C106_bits_partial
#print axioms Souris.C106_serialise
#print axioms Souris.C106_refuted_database
#print axioms Souris.C107_stream
#print axioms Souris.C107_cut
#print axioms Souris.C107_truncated
#print axioms Souris.C107_parts
#print axioms Souris.C107_written_partial
#print axioms Souris.C107_prefix_free_partial
#print axioms Souris.C107_request
#print axioms Souris.C107_refuted_trailing
#print axioms Souris.C107_refuted_request
#print axioms Souris.C107_file_partial
#print axioms Souris.C107_refuted_file
#print axioms Souris.C108_whole
#print axioms Souris.C108_nothing
#print axioms Souris.C108_lock
#print axioms Souris.C108_silent
#print axioms Souris.C108_refuted_cache
#print axioms Souris.C109_one
#print axioms Souris.C109_taken
#print axioms Souris.C109_created
#print axioms Souris.C109_winner
#print axioms Souris.C109_someone
#print axioms Souris.C11_json_partial
#print axioms Souris.C11_refuted_below_i64
#print axioms Souris.C11_refuted_everywhere
#print axioms Souris.C11_refuted_zero
#print axioms Souris.C110_forward_partial
#print axioms Souris.C110_refuted_gone
#print axioms Souris.C111_race_free
#print axioms Souris.C111_get_db
#print axioms Souris.C111_same_reads
#print axioms Souris.C112_at_once
#print axioms Souris.C112_get_db
#print axioms Souris.C112_db_then_key
#print axioms Souris.C112_refuted_mixed
#print axioms Souris.C113_requests
#print axioms Souris.C113_since
#print axioms Souris.C114_written
#print axioms Souris.C114_list_partial
#print axioms Souris.C114_refuted_removed
#print axioms Souris.C115_gone
#print axioms Souris.C116_restart_partial
#print axioms Souris.C116_refuted
#print axioms Souris.C12_cursor_refine
#print axioms Souris.C12_seek_in_bounds
#print axioms Souris.C12_refuted_read_at_end
#print axioms Souris.C13_seek_current_partial
#print axioms Souris.C13_seek_start_iff
#print axioms Souris.C13_refuted_current_negative
#print axioms Souris.C13_refuted_rewind
#print axioms Souris.C13_refuted_end
#print axioms Souris.C13_refuted_end_min
#print axioms Souris.C14_bits_refine
#print axioms Souris.C14_push_in_range
#print axioms Souris.C15_roundtrip_iff
#print axioms Souris.C15_bits_roundtrip_partial
#print axioms Souris.C15_refuted
#print axioms Souris.C15_lengths
#print axioms Souris.C15_whole_bytes_partial
#print axioms Souris.C16_eq_partial
#print axioms Souris.C16_refuted_eq_iter
#print axioms Souris.C16_refuted_index_iter
#print axioms Souris.C16_views_partial
#print axioms Souris.C16_eq_exact_partial
#print axioms Souris.C16_zeros_partial
#print axioms Souris.C17_new_total
#print axioms Souris.C17_lossless_partial
#print axioms Souris.C17_new_and_encode_partial
#print axioms Souris.C17_refuted_one_symbol
#print axioms Souris.C18_alphabet
#print axioms Souris.C19_optimal
#print axioms Souris.C20_tree_roundtrip_u8
#print axioms Souris.C20_tree_roundtrip_char
#print axioms Souris.C20_coder_of_root
#print axioms Souris.C21_decode_exact_partial
#print axioms Souris.C21_new_partial
#print axioms Souris.C21_refuted_one_leaf
#print axioms Souris.C21_refuted_repeated
#print axioms Souris.C21_decode_spells_partial
#print axioms Souris.C21_exact_partial
#print axioms Souris.C22_rle_lossless
#print axioms Souris.C22_unrle_no_panic
#print axioms Souris.C23_lz_lossless
#print axioms Souris.C23_lz4
#print axioms Souris.C24_no_longer
#print axioms Souris.C24_huffman_total
#print axioms Souris.C24_huffman_lossless_partial
#print axioms Souris.C24_refuted
#print axioms Souris.C24_exact
#print axioms Souris.C25_never_expands
#print axioms Souris.C25_roundtrip_partial
#print axioms Souris.C25_refuted
#print axioms Souris.C25_exact
#print axioms Souris.C25_lz4_partial
#print axioms Souris.C25_refuted_lz4
#print axioms Souris.C26_json_near_partial
#print axioms Souris.C26_json_partial
#print axioms Souris.C26_refuted_json_float
#print axioms Souris.C26_refuted_json_deep
#print axioms Souris.C26_lz4_partial
#print axioms Souris.C26_roundtrip_partial
#print axioms Souris.C26_stable_partial
#print axioms Souris.C26_exact_partial
#print axioms Souris.C26_refuted_maps_and_empty_arrays
#print axioms Souris.C26_refuted_map
#print axioms Souris.C26_refuted_leap_second
#print axioms Souris.C26_refuted_one_symbol
#print axioms Souris.C26_string_exact
#print axioms Souris.C26_binary_exact
#print axioms Souris.C26_refuted_long_text
#print axioms Souris.C26_never_wrong_partial
#print axioms Souris.C26_near_partial
#print axioms Souris.C26_near_never_wrong_partial
#print axioms Souris.C27_terminates
#print axioms Souris.C27_outcome_unique
#print axioms Souris.C27_progress
#print axioms Souris.C28_lz4_partial
#print axioms Souris.C28_store_lz4_partial
#print axioms Souris.C28_refuted_lz4
#print axioms Souris.C28_store_panics_partial
#print axioms Souris.C28_refuted_store_underflow
#print axioms Souris.C28_refuted_store_leaf
#print axioms Souris.C28_panics_partial
#print axioms Souris.C28_refuted_array_capacity
#print axioms Souris.C28_refuted_map_capacity
#print axioms Souris.C28_refuted_leaf_tree
#print axioms Souris.C28_refuted_repeat
#print axioms Souris.C29_hash_exact_partial
#print axioms Souris.C29_refuted_hash_json_float
#print axioms Souris.C29_refl_iff
#print axioms Souris.C29_symm
#print axioms Souris.C29_trans
#print axioms Souris.C29_hash_partial
#print axioms Souris.C29_refuted_nan
#print axioms Souris.C29_refuted_hash_zero
#print axioms Souris.C29_refuted_hash_json_zero
#print axioms Souris.C29_refuted_hash_map_order
#print axioms Souris.C30_character
#print axioms Souris.C30_string
#print axioms Souris.C30_boolean
#print axioms Souris.C30_integer
#print axioms Souris.C30_imaginary
#print axioms Souris.C30_timestamp
#print axioms Souris.C30_json
#print axioms Souris.C30_null
#print axioms Souris.C30_double
#print axioms Souris.C30_single
#print axioms Souris.C30_array
#print axioms Souris.C30_map
#print axioms Souris.C30_timezone
#print axioms Souris.C30_ipv4
#print axioms Souris.C30_ipv6
#print axioms Souris.C30_binary
#print axioms Souris.C30_native
#print axioms Souris.C30_native_mismatch
#print axioms Souris.C31_refuted_timestamp_chrono
#print axioms Souris.C31_timestamp
#print axioms Souris.C31_exact
#print axioms Souris.C31_refuted_holds
#print axioms Souris.C31_roundtrip_partial
#print axioms Souris.C31_no_panic
#print axioms Souris.C31_refuted_timestamp
#print axioms Souris.C31_refuted_marker_address
#print axioms Souris.C31_refuted_marker_error
#print axioms Souris.C31_refuted_marker
#print axioms Souris.C31_refuted_integer
#print axioms Souris.C32_valueTy
#print axioms Souris.C32_valueTy_distinct
#print axioms Souris.C32_valueTy_rejected
#print axioms Souris.C32_signedState
#print axioms Souris.C32_signedState_rejected
#print axioms Souris.C32_compression
#print axioms Souris.C32_compression_rejected
#print axioms Souris.C32_type_byte
#print axioms Souris.C33_refuted
#print axioms Souris.C33_envelope_partial
#print axioms Souris.C34_written
#print axioms Souris.C34_required
#print axioms Souris.C35_covers
#print axioms Souris.C35_no_text
#print axioms Souris.C36_bytes
#print axioms Souris.C36_bytes_partial
#print axioms Souris.C36_bytes_errors
#print axioms Souris.C36_json_partial
#print axioms Souris.C36_json_errors
#print axioms Souris.C36_refuted_timestamp
#print axioms Souris.C36_value_partial
#print axioms Souris.C36_wrap_partial
#print axioms Souris.C36_object_partial
#print axioms Souris.C36_store_partial
#print axioms Souris.C36_refuted_wrapper
#print axioms Souris.C36_refuted_marker
#print axioms Souris.C36_refuted_array
#print axioms Souris.C36_store_exact
#print axioms Souris.C36_text_partial
#print axioms Souris.C36_text_errors
#print axioms Souris.C37_operations_partial
#print axioms Souris.C37_requests_partial
#print axioms Souris.C37_refuted_content
#print axioms Souris.C38_visible_partial
#print axioms Souris.C38_alone_partial
#print axioms Souris.C38_add_db
#print axioms Souris.C38_refuted
#print axioms Souris.C38_cancelled_stale
#print axioms Souris.C39_linearizable
#print axioms Souris.C39_exclusive
#print axioms Souris.C39_requests
#print axioms Souris.C39_map_of_maps
#print axioms Souris.C40_real
#print axioms Souris.C41_codes
#print axioms Souris.C42_add_db_partial
#print axioms Souris.C42_refuted_contents
#print axioms Souris.C43_concurrent_partial
#print axioms Souris.C43_names_partial
#print axioms Souris.C43_refuted_any_name
#print axioms Souris.C43_refuted_meta
#print axioms Souris.C43_origin_partial
#print axioms Souris.C43_blame_partial
#print axioms Souris.C44_other_databases
#print axioms Souris.C44_other_keys
#print axioms Souris.C44_failed_partial
#print axioms Souris.C44_refuted_remove
#print axioms Souris.C45_refuted
#print axioms Souris.C45_restart_partial
#print axioms Souris.C46_refuted
#print axioms Souris.C46_refuted_meta
#print axioms Souris.C46_one_file_partial
#print axioms Souris.C46_bad_files_skipped_partial
#print axioms Souris.C46_restart_partial
#print axioms Souris.C47_stays_removed
#print axioms Souris.C47_refuted_if_readable
#print axioms Souris.C48_save_partial
#print axioms Souris.C48_refuted_unreported
#print axioms Souris.C48_refuted_meta
#print axioms Souris.C48_refuted_alias
#print axioms Souris.C49_contained_partial
#print axioms Souris.C49_refuted_parent
#print axioms Souris.C49_refuted_absolute
#print axioms Souris.C49_touched_partial
#print axioms Souris.C49_exact_partial
#print axioms Souris.C50_table
#print axioms Souris.C50_statuses_partial
#print axioms Souris.C50_refuted_add_kv
#print axioms Souris.C51_refuted
#print axioms Souris.C51_before_partial
#print axioms Souris.C51_concurrent_partial
#print axioms Souris.C51_exit_after_save
#print axioms Souris.C51_refuted_recreated
#print axioms Souris.C52_write_read_partial
#print axioms Souris.C52_write_read_sync_partial
#print axioms Souris.C52_refuted_json_float
#print axioms Souris.C52_lz4_partial
#print axioms Souris.C52_near_partial
#print axioms Souris.C52_near_sync_partial
#print axioms Souris.C53_remove_db_partial
#print axioms Souris.C53_refuted_remove_db
#print axioms Souris.C53_refuted_get_store
#print axioms Souris.C53_refuted_get_store_sync
#print axioms Souris.C53_refuted_remove_entry
#print axioms Souris.C53_remove_entry_partial
#print axioms Souris.C54_imaginary_roundtrip
#print axioms Souris.C54_polar_exact
#print axioms Souris.C54_magic
#print axioms Souris.C54_unknown_magic
#print axioms Souris.C54_no_panic
#print axioms Souris.C55_progress
#print axioms Souris.C55_released
#print axioms Souris.C55_bounded
#print axioms Souris.C56_create_new_db
#print axioms Souris.C56_get_all_dbs
#print axioms Souris.C56_refuted_contents
#print axioms Souris.C56_no_panic
#print axioms Souris.C57_agree_partial
#print axioms Souris.C57_refuted_remove_db
#print axioms Souris.C57_refuted_get_store
#print axioms Souris.C58_json_partial
#print axioms Souris.C58_refuted_json
#print axioms Souris.C58_refuted_served
#print axioms Souris.C58_near_partial
#print axioms Souris.C58_reread_partial
#print axioms Souris.C58_fetched_was_sent_partial
#print axioms Souris.C59_concurrent
#print axioms Souris.C59_served_was_sent
#print axioms Souris.C60_f64_nearest
#print axioms Souris.C60_f64_exact
#print axioms Souris.C60_f64_roundtrip
#print axioms Souris.C60_f32_nearest
#print axioms Souris.C60_f32_overflow
#print axioms Souris.C60_f32_exact
#print axioms Souris.C60_no_panic
#print axioms Souris.C60_refuted_noncanonical
#print axioms Souris.C61_serialise
#print axioms Souris.C61_any_format
#print axioms Souris.C61_json_reads
#print axioms Souris.C61_json_text_partial
#print axioms Souris.C61_json_value_partial
#print axioms Souris.C61_refuted_large
#print axioms Souris.C61_refuted_signed_zero
#print axioms Souris.C61_refuted_noncanonical
#print axioms Souris.C61_tree_reads
#print axioms Souris.C61_tree_writes
#print axioms Souris.C62_refuted
#print axioms Souris.C62_types_partial
#print axioms Souris.C62_errors
#print axioms Souris.C62_refuted_marker
#print axioms Souris.C63_polar_partial
#print axioms Souris.C63_to_polar_partial
#print axioms Souris.C63_kept
#print axioms Souris.C63_to_cartesian_partial
#print axioms Souris.C63_to_cartesian_exact
#print axioms Souris.C63_refuted_origin
#print axioms Souris.C64_english
#print axioms Souris.C64_optimal
#print axioms Souris.C64_refused
#print axioms Souris.C65_timestamp
#print axioms Souris.C65_entry_partial
#print axioms Souris.C65_type_partial
#print axioms Souris.C65_refuted_single
#print axioms Souris.C65_map
#print axioms Souris.C65_live
#print axioms Souris.C66_refuted
#print axioms Souris.C66_typable_partial
#print axioms Souris.C66_integer_partial
#print axioms Souris.C66_exact_partial
#print axioms Souris.C67_consent_partial
#print axioms Souris.C67_refuted_remove
#print axioms Souris.C67_refuted_race
#print axioms Souris.C67_remove_entry
#print axioms Souris.C67_update_entry
#print axioms Souris.C68_create
#print axioms Souris.C68_add_entry
#print axioms Souris.C68_stored_partial
#print axioms Souris.C68_remove_database
#print axioms Souris.C68_error_partial
#print axioms Souris.C68_refuted_unlink
#print axioms Souris.C68_refuted_fetch
#print axioms Souris.C68_refuted_import
#print axioms Souris.C68_refuted_overwrite
#print axioms Souris.C69_ends_partial
#print axioms Souris.C69_no_panic
#print axioms Souris.C69_refuted_hang
#print axioms Souris.C69_bounds
#print axioms Souris.C69_bounds_name
#print axioms Souris.C70_choice
#print axioms Souris.C70_choices
#print axioms Souris.C70_add_works_partial
#print axioms Souris.C70_create_works
#print axioms Souris.C70_remove_works
#print axioms Souris.C70_remove_entry_works
#print axioms Souris.C70_update_entry_works_partial
#print axioms Souris.C70_empty_database
#print axioms Souris.C70_refuted_entry
#print axioms Souris.C71_exact
#print axioms Souris.C71_near_partial
#print axioms Souris.C71_bytes
#print axioms Souris.C71_json_partial
#print axioms Souris.C71_files
#print axioms Souris.C71_export
#print axioms Souris.C71_import_partial
#print axioms Souris.C71_bad_file
#print axioms Souris.C71_refuted_export
#print axioms Souris.C71_refuted_import
#print axioms Souris.C72_query
#print axioms Souris.C72_encode
#print axioms Souris.C72_sync
#print axioms Souris.C72_async
#print axioms Souris.C72_fits
#print axioms Souris.C72_refuted_long
#print axioms Souris.C72_write_read_partial
#print axioms Souris.C72_characters
#print axioms Souris.C72_json
#print axioms Souris.C73_understood
#print axioms Souris.C73_refused
#print axioms Souris.C73_answered
#print axioms Souris.C73_order
#print axioms Souris.C73_unambiguous
#print axioms Souris.C74_moment
#print axioms Souris.C74_files_partial
#print axioms Souris.C74_stays_partial
#print axioms Souris.C74_refuted_recreated
#print axioms Souris.C75_progress
#print axioms Souris.C75_stops
#print axioms Souris.C75_save_bounded
#print axioms Souris.C75_saves_after_stop
#print axioms Souris.C76_read
#print axioms Souris.C76_removed
#print axioms Souris.C76_real
#print axioms Souris.C77_recoverable_partial
#print axioms Souris.C77_unambiguous_partial
#print axioms Souris.C77_value
#print axioms Souris.C77_refuted_one_character
#print axioms Souris.C77_disk_partial
#print axioms Souris.C77_lz4_partial
#print axioms Souris.C78_timestamp_partial
#print axioms Souris.C78_timestamp_text_partial
#print axioms Souris.C78_refuted_leap
#print axioms Souris.C78_bytes
#print axioms Souris.C78_literal_partial
#print axioms Souris.C78_same_type_partial
#print axioms Souris.C78_refuted_empty
#print axioms Souris.C78_refuted_types
#print axioms Souris.C78_refuted_wrapped
#print axioms Souris.C78_bare_same
#print axioms Souris.C78_refuted_bare_map
#print axioms Souris.C78_json
#print axioms Souris.C78_scalar_partial
#print axioms Souris.C78_refuted_json_null
#print axioms Souris.C78_json_partial
#print axioms Souris.C78_std_partial
#print axioms Souris.C78_refuted_std
#print axioms Souris.C79_file
#print axioms Souris.C79_linear
#print axioms Souris.C79_disk
#print axioms Souris.C80_value_partial
#print axioms Souris.C80_daemon_partial
#print axioms Souris.C80_refuted_run
#print axioms Souris.C80_concurrent_partial
#print axioms Souris.C80_lz4_concurrent_partial
#print axioms Souris.C80_json_value_partial
#print axioms Souris.C80_json_daemon_partial
#print axioms Souris.C80_lz4_value_partial
#print axioms Souris.C80_lz4_daemon_partial
#print axioms Souris.C81_isolated
#print axioms Souris.C81_contents
#print axioms Souris.C81_concurrent
#print axioms Souris.C82_retry
#print axioms Souris.C83_different
#print axioms Souris.C83_near_partial
#print axioms Souris.C83_text_partial
#print axioms Souris.C83_refuted_deep
#print axioms Souris.C83_refuted_float
#print axioms Souris.C83_print
#print axioms Souris.C84_bytes
#print axioms Souris.C84_bytes_sound
#print axioms Souris.C84_bytes_partial
#print axioms Souris.C84_sound_partial
#print axioms Souris.C84_close_partial
#print axioms Souris.C84_exact_partial
#print axioms Souris.C84_complete_partial
#print axioms Souris.C84_range_partial
#print axioms Souris.C84_refuted_float
#print axioms Souris.C84_refuted_deep
#print axioms Souris.C84_made
#print axioms Souris.C85_timestamp_partial
#print axioms Souris.C85_form_partial
#print axioms Souris.C85_none_partial
#print axioms Souris.C85_store_partial
#print axioms Souris.C85_refuted_integer
#print axioms Souris.C86_reads
#print axioms Souris.C86_print
#print axioms Souris.C86_iso_partial
#print axioms Souris.C86_different_partial
#print axioms Souris.C86_refuted_reread
#print axioms Souris.C86_refuted_leap
#print axioms Souris.C86_refuted_every
#print axioms Souris.C87_print_double
#print axioms Souris.C87_print_single
#print axioms Souris.C87_read_double_partial
#print axioms Souris.C87_reread_double
#print axioms Souris.C87_single_text
#print axioms Souris.C87_double_text
#print axioms Souris.C87_refuted_long
#print axioms Souris.C87_ipv4
#print axioms Souris.C87_read_ipv6
#print axioms Souris.C87_print_ipv6
#print axioms Souris.C87_reread_ipv6
#print axioms Souris.C87_reenter
#print axioms Souris.C88_bare_partial
#print axioms Souris.C88_text_partial
#print axioms Souris.C88_refuted_leap
#print axioms Souris.C89_written
#print axioms Souris.C89_reads
#print axioms Souris.C89_lossless
#print axioms Souris.C89_only_partial
#print axioms Souris.C89_unambiguous
#print axioms Souris.C89_refuted_offset
#print axioms Souris.C89_too_small
#print axioms Souris.C89_panics
#print axioms Souris.C89_bounded
#print axioms Souris.C89_size
#print axioms Souris.C90_refines
#print axioms Souris.C90_order
#print axioms Souris.C90_answered
#print axioms Souris.C90_saves
#print axioms Souris.C90_stops
#print axioms Souris.C91_messages
#print axioms Souris.C91_bodies
#print axioms Souris.C91_printed
#print axioms Souris.C91_refusals
#print axioms Souris.C91_quotes
#print axioms Souris.C91_contents
#print axioms Souris.C91_float_messages
#print axioms Souris.C91_creation_messages
#print axioms Souris.C92_source_iff
#print axioms Souris.C92_root_cause_partial
#print axioms Souris.C92_ends
#print axioms Souris.C92_refuted_store
#print axioms Souris.C92_refuted_client
#print axioms Souris.C93_concurrent_partial
#print axioms Souris.C93_parts_partial
#print axioms Souris.C93_depth_partial
#print axioms Souris.C93_json
#print axioms Souris.C93_served_partial
#print axioms Souris.C93_refuted_unlimited
#print axioms Souris.C93_refuted_daemon
#print axioms Souris.C94_written
#print axioms Souris.C94_file
#print axioms Souris.C94_understood_partial
#print axioms Souris.C94_accepted_partial
#print axioms Souris.C94_refuted_padding
#print axioms Souris.C94_refuted_year
#print axioms Souris.C94_refuted_length
#print axioms Souris.C95_async_partial
#print axioms Souris.C95_sync_partial
#print axioms Souris.C95_success
#print axioms Souris.C95_reported
#print axioms Souris.C95_survives_partial
#print axioms Souris.C95_created
#print axioms Souris.C95_refuted_panic
#print axioms Souris.C95_refuted_status
#print axioms Souris.C95_bytes
#print axioms Souris.C96_size
#print axioms Souris.C96_bytes_partial
#print axioms Souris.C96_refuted_map
#print axioms Souris.C96_refuted_store
#print axioms Souris.C96_refuted_tree
#print axioms Souris.C96_untied_partial
#print axioms Souris.C96_store_partial
#print axioms Souris.C97_integer_doesnt_crash
#print axioms Souris.C97_parse_valid_u32
#print axioms Souris.C97_parse_valid_i32
#print axioms Souris.C97_back_to_original
#print axioms Souris.C97_back_to_original_other_size
#print axioms Souris.C97_serde_works_signed_partial
#print axioms Souris.C97_refuted_serde_zero
#print axioms Souris.C97_serde_works_unsigned
#print axioms Souris.C97_test_ch
#print axioms Souris.C97_test_str
#print axioms Souris.C97_test_bin
#print axioms Souris.C97_test_bool
#print axioms Souris.C97_test_polar_form_ser
#print axioms Souris.C97_test_int
#print axioms Souris.C97_refuted_partialeq_length
#print axioms Souris.C97_refuted_partialeq_bits
#print axioms Souris.C97_test_partialeq_partial
#print axioms Souris.C97_test_hash
#print axioms Souris.C97_nodes_from_empty_string
#print axioms Souris.C97_nodes_from_one_char_repeated
#print axioms Souris.C97_huffman_doesnt_crash
#print axioms Souris.C97_works_on_ascii_strings
#print axioms Souris.C97_works_on_strings
#print axioms Souris.C97_ser_works_on_strings
#print axioms Souris.C97_test_rle
#print axioms Souris.C97_test_lz
#print axioms Souris.C97_test_huffman
#print axioms Souris.C97_cases
#print axioms Souris.C98_ignored
#print axioms Souris.C98_ignored_json
#print axioms Souris.C98_text_sound
#print axioms Souris.C98_text_cartesian
#print axioms Souris.C98_text_polar
#print axioms Souris.C98_reads
#print axioms Souris.C98_cartesian_partial
#print axioms Souris.C98_polar_partial
#print axioms Souris.C98_cartesian_text_partial
#print axioms Souris.C98_polar_text_partial
#print axioms Souris.C98_refuted_infinite
#print axioms Souris.C98_refuted_large
#print axioms Souris.C98_refuted_signed_zero
#print axioms Souris.C98_direct_sound
#print axioms Souris.C98_direct_cartesian
#print axioms Souris.C98_direct_polar
#print axioms Souris.C98_direct_cartesian_partial
#print axioms Souris.C98_direct_polar_partial
#print axioms Souris.C98_refuted_direct_large
#print axioms Souris.C99_double
#print axioms Souris.C99_single
#print axioms Souris.C99_reread_double
#print axioms Souris.C99_reread_timestamp_partial
#print axioms Souris.C99_integer
#print axioms Souris.C99_type
#print axioms Souris.C99_debug_partial
#print axioms Souris.C99_end_partial
#print axioms Souris.C99_store_partial
#print axioms Souris.C99_refuted_leap
