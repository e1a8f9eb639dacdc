import Verif.Props.Announced
import Verif.Props.Asked
import Verif.Props.Cli
import Verif.Props.CmdRoundTrip
import Verif.Props.CommandLine
import Verif.Props.Commands
import Verif.Props.ConcKeys
import Verif.Props.ConcLook
import Verif.Props.Concurrent
import Verif.Props.Crash
import Verif.Props.CrashKeys
import Verif.Props.Disturbed
import Verif.Props.DisturbedDecrypt
import Verif.Props.DisturbedEncrypt
import Verif.Props.EndToEnd
import Verif.Props.Ends
import Verif.Props.Erase
import Verif.Props.EraseCmd
import Verif.Props.EraseRetry
import Verif.Props.Forgery
import Verif.Props.Fresh
import Verif.Props.Header
import Verif.Props.HeaderCmd
import Verif.Props.HeaderOps
import Verif.Props.History
import Verif.Props.Keys
import Verif.Props.NoLoss
import Verif.Props.Pack
import Verif.Props.PackCmd
import Verif.Props.PackSession
import Verif.Props.PowerLoss
import Verif.Props.Retry
import Verif.Props.RetryPack
import Verif.Props.RoundTrip
import Verif.Props.Screen
import Verif.Props.ScreenRest
import Verif.Props.ScreenUnpack
import Verif.Props.Secrecy
import Verif.Props.Session
import Verif.Props.Shown
import Verif.Props.Status
import Verif.Props.Stream
import Verif.Props.Together
import Verif.Props.TogetherDecrypt
import Verif.Props.TogetherPack
import Verif.Props.Tools
import Verif.Props.Torn
import Verif.Props.TreeCmd
import Verif.Props.Unpack
import Verif.Props.UnpackAgain
import Verif.Props.UnpackCmd
import Verif.Props.UnpackOver
import Verif.Props.Utils
/-!
# The axioms that each property theorem depends on
-/
#print axioms Volaris.Props.C01_header_roundtrip_v5
#print axioms Volaris.Props.C02_header_roundtrip_v4
#print axioms Volaris.Props.C02_header_roundtrip_v3
#print axioms Volaris.Props.C02_old_not_serializable
#print axioms Volaris.Props.C02_old_readable
#print axioms Volaris.Props.C03_size_written
#print axioms Volaris.Props.C03_size_read
#print axioms Volaris.Props.C04_aad_agrees
#print axioms Volaris.Props.C05_aad_ignores_keyslots_v5
#print axioms Volaris.Props.C05_aad_ignores_master_key_v4
#print axioms Volaris.Props.C06_deserialize_safe
#print axioms Volaris.Props.C07_accepts_iff
#print axioms Volaris.Props.C07_rejects
#print axioms Volaris.Props.C08_nonces_distinct
#print axioms Volaris.Props.C08_nonce_injective
#print axioms Volaris.Props.C09_stream_roundtrip
#print axioms Volaris.Props.C10_body_size
#print axioms Volaris.Props.C10_file_size
#print axioms Volaris.Props.C11_tampering
#print axioms Volaris.Props.C11_tampering_detected
#print axioms Volaris.Props.C12_complete_partial
#print axioms Volaris.Props.C12_short_read_truncates
#print axioms Volaris.Props.C12_not_complete
#print axioms Volaris.Props.C13_counter_exhaustion
#print axioms Volaris.Props.C14_encrypt_decrypt
#print axioms Volaris.Props.C14_success_means_decryptable
#print axioms Volaris.Props.C14_longer_destination_fails
#print axioms Volaris.Props.C15_detached
#print axioms Volaris.Props.C15_zero_ciphertext
#print axioms Volaris.Props.C16_v4_balloon4
#print axioms Volaris.Props.C16_v4_other_hash
#print axioms Volaris.Props.C17_unsupported
#print axioms Volaris.Props.C17_v3_panics
#print axioms Volaris.Props.C18_wrong_password
#print axioms Volaris.Props.C18_wrong_password_detached
#print axioms Volaris.Props.C18_wrong_password_legacy
#print axioms Volaris.Props.C18_no_header
#print axioms Volaris.Props.C19_header_tampering
#print axioms Volaris.Props.C20_first_opening_slot
#print axioms Volaris.Props.C20_any_slot
#print axioms Volaris.Props.C53_legacy
#print axioms Volaris.Props.C54_total
#print axioms Volaris.Props.C55_pinned
#print axioms Volaris.Props.C55_distinct
#print axioms Volaris.Props.C55_on_disk
#print axioms Volaris.Props.C21_add
#print axioms Volaris.Props.C21_add_succeeds
#print axioms Volaris.Props.C22_change
#print axioms Volaris.Props.C22_change_succeeds
#print axioms Volaris.Props.C23_delete
#print axioms Volaris.Props.C23_delete_succeeds
#print axioms Volaris.Props.C24_history
#print axioms Volaris.Props.C24_history_faults
#print axioms Volaris.Props.C24_start
#print axioms Volaris.Props.C25_errors_change_nothing
#print axioms Volaris.Props.C26_verify
#print axioms Volaris.Props.C26_zero_key
#print axioms Volaris.Props.C27_last_key
#print axioms Volaris.Props.C29_full
#print axioms Volaris.Props.C29_at_most_four
#print axioms Volaris.Props.C28_change
#print axioms Volaris.Props.C28_add_partial
#print axioms Volaris.Props.C28_add_one_byte
#print axioms Volaris.Props.C28_delete_partial
#print axioms Volaris.Props.C28_delete_unlucky
#print axioms Volaris.Props.C28_surviving_keys
#print axioms Volaris.Props.C28_runs
#print axioms Volaris.Props.C30_dump
#print axioms Volaris.Props.C30_dump_refuses
#print axioms Volaris.Props.C30_dump_reads_back
#print axioms Volaris.Props.C31_strip
#print axioms Volaris.Props.C31_strip_refuses
#print axioms Volaris.Props.C32_dump_strip_restore
#print axioms Volaris.Props.C33_restore_only_over_zeros_partial
#print axioms Volaris.Props.C33_short_read_overwrites
#print axioms Volaris.Props.C34_header_write_partial
#print axioms Volaris.Props.C34_short_write_succeeds
#print axioms Volaris.Props.C35_hash
#print axioms Volaris.Props.C35_short_read
#print axioms Volaris.Props.C36_overwrite
#print axioms Volaris.Props.C36_overwrite_cap
#print axioms Volaris.Props.C37_no_random_data
#print axioms Volaris.Props.C37_single_zero_write
#print axioms Volaris.Props.C56_interrupted_change
#print axioms Volaris.Props.C57_success
#print axioms Volaris.Props.C38_erase
#print axioms Volaris.Props.C38_missing
#print axioms Volaris.Props.C39_nothing_overwritten
#print axioms Volaris.Props.C39_emptied_partial
#print axioms Volaris.Props.C40_eraseDir
#print axioms Volaris.Props.C40_notDir
#print axioms Volaris.Props.C51_passphrase_partial
#print axioms Volaris.Props.C51_panics
#print axioms Volaris.Props.C52_hex
#print axioms Volaris.Props.C52_hex_injective
#print axioms Volaris.Props.C41_inside
#print axioms Volaris.Props.C44_threads
#print axioms Volaris.Props.C44_faults
#print axioms Volaris.Props.C45_declined
#print axioms Volaris.Props.C43_pack_partial
#print axioms Volaris.Props.C43_pack_left
#print axioms Volaris.Props.C43_pack_fault
#print axioms Volaris.Props.C43_unpack_partial
#print axioms Volaris.Props.C43_unpack_left
#print axioms Volaris.Props.C43_unpack_fault
#print axioms Volaris.Props.C58_pack_frame
#print axioms Volaris.Props.C42_round_trip
#print axioms Volaris.Props.C42_backslash
#print axioms Volaris.Props.C46_answer
#print axioms Volaris.Props.C46_overwrite_check
#print axioms Volaris.Props.C46_encrypt
#print axioms Volaris.Props.C46_decrypt
#print axioms Volaris.Props.C46_declined
#print axioms Volaris.Props.C47_secret
#print axioms Volaris.Props.C47_confirmed
#print axioms Volaris.Props.C47_source
#print axioms Volaris.Props.C48_encrypt_partial
#print axioms Volaris.Props.C48_success
#print axioms Volaris.Props.C48_alias
#print axioms Volaris.Props.C48_short
#print axioms Volaris.Props.C48_same_name
#print axioms Volaris.Props.C49_always_erases
#print axioms Volaris.Props.C49_encrypt_erases
#print axioms Volaris.Props.C49_decrypt_erases
#print axioms Volaris.Props.C49_kept_partial
#print axioms Volaris.Props.C49_line
#print axioms Volaris.Props.C50_never_asks
#print axioms Volaris.Props.C50_asks_partial
#print axioms Volaris.Props.C59_decrypt
#print axioms Volaris.Props.C59_success
#print axioms Volaris.Props.C60_unpack_panics
#print axioms Volaris.Props.C60_line
#print axioms Volaris.Props.C61_encrypt
#print axioms Volaris.Props.C61_later
#print axioms Volaris.Props.C61_two_files
#print axioms Volaris.Props.C61_key_add
#print axioms Volaris.Props.C61_key_change
#print axioms Volaris.Props.C62_hash
#print axioms Volaris.Props.C62_printed
#print axioms Volaris.Props.C63_details
#print axioms Volaris.Props.C63_printed
#print axioms Volaris.Props.C64_add
#print axioms Volaris.Props.C64_change
#print axioms Volaris.Props.C64_delete
#print axioms Volaris.Props.C64_verify
#print axioms Volaris.Props.C64_not_v5
#print axioms Volaris.Props.C64_succeed
#print axioms Volaris.Props.C64_sources
#print axioms Volaris.Props.C65_dump
#print axioms Volaris.Props.C65_dump_succeeds
#print axioms Volaris.Props.C65_strip
#print axioms Volaris.Props.C65_restore
#print axioms Volaris.Props.C65_cycle
#print axioms Volaris.Props.C66_file
#print axioms Volaris.Props.C66_directory
#print axioms Volaris.Props.C66_nothing
#print axioms Volaris.Props.C67_frame
#print axioms Volaris.Props.C67_safe
#print axioms Volaris.Props.C67_success
#print axioms Volaris.Props.C67_command
#print axioms Volaris.Props.C67_inside
#print axioms Volaris.Props.C67_same_name
#print axioms Volaris.Props.C68_encrypt
#print axioms Volaris.Props.C68_decrypt
#print axioms Volaris.Props.C68_round_trip
#print axioms Volaris.Props.C69_dialogue
#print axioms Volaris.Props.C69_inside
#print axioms Volaris.Props.C69_members
#print axioms Volaris.Props.C69_consent_partial
#print axioms Volaris.Props.C69_not_always_asked
#print axioms Volaris.Props.C70_round_trip
#print axioms Volaris.Props.C71_complete
#print axioms Volaris.Props.C71_faults
#print axioms Volaris.Props.C71_encrypt
#print axioms Volaris.Props.C71_encrypt_frame
#print axioms Volaris.Props.C72_decrypt
#print axioms Volaris.Props.C72_decrypt_frame
#print axioms Volaris.Props.C73_pack
#print axioms Volaris.Props.C74_unpack
#print axioms Volaris.Props.C75_change
#print axioms Volaris.Props.C75_add_partial
#print axioms Volaris.Props.C75_delete_partial
#print axioms Volaris.Props.C75_add_false
#print axioms Volaris.Props.C75_change_window
#print axioms Volaris.Props.C76_strip
#print axioms Volaris.Props.C76_restore
#print axioms Volaris.Props.C76_dump
#print axioms Volaris.Props.C76_stuck
#print axioms Volaris.Props.C76_strip_false
#print axioms Volaris.Props.C77_encrypt
#print axioms Volaris.Props.C77_decrypt
#print axioms Volaris.Props.C77_erase
#print axioms Volaris.Props.C77_pack
#print axioms Volaris.Props.C77_hash
#print axioms Volaris.Props.C78_switch_refused
#print axioms Volaris.Props.C78_pack_swallows
#print axioms Volaris.Props.C78_header_key_refused
#print axioms Volaris.Props.C78_six_commands
#print axioms Volaris.Props.C79_debug_partial
#print axioms Volaris.Props.C79_decrypt_panics
#print axioms Volaris.Props.C80_session
#print axioms Volaris.Props.C81_encrypt_loses
#print axioms Volaris.Props.C81_decrypt_loses
#print axioms Volaris.Props.C81_pack_loses
#print axioms Volaris.Props.C81_line
#print axioms Volaris.Props.C81_encrypt_partial
#print axioms Volaris.Props.C81_decrypt_partial
#print axioms Volaris.Props.C81_pack_partial
#print axioms Volaris.Props.C82_entries
#print axioms Volaris.Props.C82_contents
#print axioms Volaris.Props.C82_litter
#print axioms Volaris.Props.C82_names
#print axioms Volaris.Props.C82_tree
#print axioms Volaris.Props.C83_no_loss
#print axioms Volaris.Props.C84_encrypt
#print axioms Volaris.Props.C85_password
#print axioms Volaris.Props.C85_keyfile
#print axioms Volaris.Props.C86_line
#print axioms Volaris.Props.C87_shown_first
#print axioms Volaris.Props.C87_killed
#print axioms Volaris.Props.C87_opens
#print axioms Volaris.Props.C87_safe
#print axioms Volaris.Props.C88_output
#print axioms Volaris.Props.C88_output_killed
#print axioms Volaris.Props.C88_header
#print axioms Volaris.Props.C88_erase
#print axioms Volaris.Props.C88_pack_sources
#print axioms Volaris.Props.C88_declined_late
#print axioms Volaris.Props.C89_old
#print axioms Volaris.Props.C89_new
#print axioms Volaris.Props.C89_one
#print axioms Volaris.Props.C89_silent
#print axioms Volaris.Props.C90_file
#print axioms Volaris.Props.C90_detached
#print axioms Volaris.Props.C90_which
#print axioms Volaris.Props.C90_command
#print axioms Volaris.Props.C90_old_versions
#print axioms Volaris.Props.C91_line
#print axioms Volaris.Props.C91_encrypt
#print axioms Volaris.Props.C91_decrypt
#print axioms Volaris.Props.C91_pack
#print axioms Volaris.Props.C91_erase
#print axioms Volaris.Props.C91_headers
#print axioms Volaris.Props.C91_keys
#print axioms Volaris.Props.C92_encrypt
#print axioms Volaris.Props.C92_decrypt
#print axioms Volaris.Props.C92_pack
#print axioms Volaris.Props.C92_unpack
#print axioms Volaris.Props.C92_encrypt_digest
#print axioms Volaris.Props.C92_decrypt_digest
#print axioms Volaris.Props.C92_unpack_digest
#print axioms Volaris.Props.C92_pack_digest
#print axioms Volaris.Props.C92_agree
#print axioms Volaris.Props.C92_two_keys
#print axioms Volaris.Props.C92_one_key
#print axioms Volaris.Props.C92_header
#print axioms Volaris.Props.C92_erase
#print axioms Volaris.Props.C93_encrypt_partial
#print axioms Volaris.Props.C93_decrypt_partial
#print axioms Volaris.Props.C93_pack_partial
#print axioms Volaris.Props.C93_encrypt_false
#print axioms Volaris.Props.C93_decrypt_false
#print axioms Volaris.Props.C93_pack_false
#print axioms Volaris.Props.C94_pack_decrypt
#print axioms Volaris.Props.C95_statuses
#print axioms Volaris.Props.C95_encrypt_partial
#print axioms Volaris.Props.C95_decrypt_partial
#print axioms Volaris.Props.C95_pack_partial
#print axioms Volaris.Props.C95_erase_partial
#print axioms Volaris.Props.C95_hash
#print axioms Volaris.Props.C95_false
#print axioms Volaris.Props.C96_together
#print axioms Volaris.Props.C96_finished
#print axioms Volaris.Props.C96_ends
#print axioms Volaris.Props.C96_untouched
#print axioms Volaris.Props.C96_line_encrypt
#print axioms Volaris.Props.C96_line_decrypt
#print axioms Volaris.Props.C96_line_erase
#print axioms Volaris.Props.C96_line_hash
#print axioms Volaris.Props.C96_line_pack
#print axioms Volaris.Props.C97_encrypt_partial
#print axioms Volaris.Props.C97_decrypt_partial
#print axioms Volaris.Props.C97_pack_partial
#print axioms Volaris.Props.C97_race
#print axioms Volaris.Props.C98_version_partial
#print axioms Volaris.Props.C98_results_partial
#print axioms Volaris.Props.C98_step_partial
#print axioms Volaris.Props.C98_undisturbed_partial
#print axioms Volaris.Props.C98_ends
#print axioms Volaris.Props.C98_update_lost
#print axioms Volaris.Props.C98_deleted_returns
#print axioms Volaris.Props.C99_moment
#print axioms Volaris.Props.C99_keys
#print axioms Volaris.Props.C99_stays
#print axioms Volaris.Props.C99_only
#print axioms Volaris.Props.C99_refused
#print axioms Volaris.Props.C99_dump
#print axioms Volaris.Props.C100_file_any
#print axioms Volaris.Props.C100_file_again
#print axioms Volaris.Props.C100_directory_any
#print axioms Volaris.Props.C100_directory_again
#print axioms Volaris.Props.C100_dots
#print axioms Volaris.Props.C101_confined
#print axioms Volaris.Props.C101_readers
#print axioms Volaris.Props.C101_unpack
#print axioms Volaris.Props.C101_swapped
#print axioms Volaris.Props.C101_machine
#print axioms Volaris.Props.C101_renamed
#print axioms Volaris.Props.C102_genuine
#print axioms Volaris.Props.C102_content
#print axioms Volaris.Props.C103_sealed
#print axioms Volaris.Props.C103_unchanged
#print axioms Volaris.Props.C103_content
#print axioms Volaris.Props.C104_together
#print axioms Volaris.Props.C104_same_output
#print axioms Volaris.Props.C105_together
#print axioms Volaris.Props.C105_same_output
#print axioms Volaris.Props.C106_together
#print axioms Volaris.Props.C106_same_output
#print axioms Volaris.Props.C107_over
#print axioms Volaris.Props.C107_again
#print axioms Volaris.Props.C107_twice
