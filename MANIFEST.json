{
 "claims": [
  {
   "property": "C01",
   "status": "proved",
   "theorems": [
    "Volaris.Props.C01_header_roundtrip_v5"
   ],
   "note": ""
  },
  {
   "property": "C02",
   "status": "proved",
   "theorems": [
    "Volaris.Props.C02_header_roundtrip_v4",
    "Volaris.Props.C02_header_roundtrip_v3",
    "Volaris.Props.C02_old_not_serializable",
    "Volaris.Props.C02_old_readable"
   ],
   "note": ""
  },
  {
   "property": "C03",
   "status": "proved",
   "theorems": [
    "Volaris.Props.C03_size_written",
    "Volaris.Props.C03_size_read"
   ],
   "note": ""
  },
  {
   "property": "C04",
   "status": "proved",
   "theorems": [
    "Volaris.Props.C04_aad_agrees"
   ],
   "note": ""
  },
  {
   "property": "C05",
   "status": "proved",
   "theorems": [
    "Volaris.Props.C05_aad_ignores_keyslots_v5",
    "Volaris.Props.C05_aad_ignores_master_key_v4"
   ],
   "note": ""
  },
  {
   "property": "C06",
   "status": "proved",
   "theorems": [
    "Volaris.Props.C06_deserialize_safe"
   ],
   "note": ""
  },
  {
   "property": "C07",
   "status": "proved",
   "theorems": [
    "Volaris.Props.C07_accepts_iff",
    "Volaris.Props.C07_rejects"
   ],
   "note": ""
  },
  {
   "property": "C08",
   "status": "proved",
   "theorems": [
    "Volaris.Props.C08_nonces_distinct",
    "Volaris.Props.C08_nonce_injective"
   ],
   "note": ""
  },
  {
   "property": "C09",
   "status": "proved",
   "theorems": [
    "Volaris.Props.C09_stream_roundtrip"
   ],
   "note": ""
  },
  {
   "property": "C10",
   "status": "proved",
   "theorems": [
    "Volaris.Props.C10_body_size",
    "Volaris.Props.C10_file_size"
   ],
   "note": ""
  },
  {
   "property": "C11",
   "status": "proved",
   "theorems": [
    "Volaris.Props.C11_tampering",
    "Volaris.Props.C11_tampering_detected"
   ],
   "note": ""
  },
  {
   "property": "C12",
   "status": "partial",
   "theorems": [
    "Volaris.Props.C12_complete_partial",
    "Volaris.Props.C12_short_read_truncates",
    "Volaris.Props.C12_not_complete"
   ],
   "note": "The required property is false of the code: C12_not_complete is its negation, C12_short_read_truncates the general defect, C12_complete_partial what does hold for every schedule."
  },
  {
   "property": "C13",
   "status": "proved",
   "theorems": [
    "Volaris.Props.C13_counter_exhaustion"
   ],
   "note": ""
  },
  {
   "property": "C14",
   "status": "proved",
   "theorems": [
    "Volaris.Props.C14_encrypt_decrypt",
    "Volaris.Props.C14_success_means_decryptable",
    "Volaris.Props.C14_longer_destination_fails"
   ],
   "note": ""
  },
  {
   "property": "C15",
   "status": "proved",
   "theorems": [
    "Volaris.Props.C15_detached",
    "Volaris.Props.C15_zero_ciphertext"
   ],
   "note": ""
  },
  {
   "property": "C16",
   "status": "proved",
   "theorems": [
    "Volaris.Props.C16_v4_balloon4",
    "Volaris.Props.C16_v4_other_hash"
   ],
   "note": ""
  },
  {
   "property": "C17",
   "status": "proved",
   "theorems": [
    "Volaris.Props.C17_unsupported",
    "Volaris.Props.C17_v3_panics"
   ],
   "note": ""
  },
  {
   "property": "C18",
   "status": "proved",
   "theorems": [
    "Volaris.Props.C18_wrong_password",
    "Volaris.Props.C18_wrong_password_detached",
    "Volaris.Props.C18_wrong_password_legacy",
    "Volaris.Props.C18_no_header"
   ],
   "note": ""
  },
  {
   "property": "C19",
   "status": "proved",
   "theorems": [
    "Volaris.Props.C19_header_tampering"
   ],
   "note": ""
  },
  {
   "property": "C20",
   "status": "proved",
   "theorems": [
    "Volaris.Props.C20_first_opening_slot",
    "Volaris.Props.C20_any_slot"
   ],
   "note": ""
  },
  {
   "property": "C53",
   "status": "proved",
   "theorems": [
    "Volaris.Props.C53_legacy"
   ],
   "note": ""
  },
  {
   "property": "C54",
   "status": "proved",
   "theorems": [
    "Volaris.Props.C54_total"
   ],
   "note": ""
  },
  {
   "property": "C55",
   "status": "proved",
   "theorems": [
    "Volaris.Props.C55_pinned",
    "Volaris.Props.C55_distinct",
    "Volaris.Props.C55_on_disk"
   ],
   "note": ""
  },
  {
   "property": "C21",
   "status": "proved",
   "theorems": [
    "Volaris.Props.C21_add",
    "Volaris.Props.C21_add_succeeds"
   ],
   "note": ""
  },
  {
   "property": "C22",
   "status": "proved",
   "theorems": [
    "Volaris.Props.C22_change",
    "Volaris.Props.C22_change_succeeds"
   ],
   "note": ""
  },
  {
   "property": "C23",
   "status": "proved",
   "theorems": [
    "Volaris.Props.C23_delete",
    "Volaris.Props.C23_delete_succeeds"
   ],
   "note": ""
  },
  {
   "property": "C24",
   "status": "proved",
   "theorems": [
    "Volaris.Props.C24_history",
    "Volaris.Props.C24_history_faults",
    "Volaris.Props.C24_start"
   ],
   "note": ""
  },
  {
   "property": "C25",
   "status": "proved",
   "theorems": [
    "Volaris.Props.C25_errors_change_nothing"
   ],
   "note": ""
  },
  {
   "property": "C26",
   "status": "proved",
   "theorems": [
    "Volaris.Props.C26_verify",
    "Volaris.Props.C26_zero_key"
   ],
   "note": ""
  },
  {
   "property": "C27",
   "status": "proved",
   "theorems": [
    "Volaris.Props.C27_last_key"
   ],
   "note": ""
  },
  {
   "property": "C29",
   "status": "proved",
   "theorems": [
    "Volaris.Props.C29_full",
    "Volaris.Props.C29_at_most_four"
   ],
   "note": ""
  },
  {
   "property": "C28",
   "status": "partial",
   "theorems": [
    "Volaris.Props.C28_change",
    "Volaris.Props.C28_add_partial",
    "Volaris.Props.C28_add_one_byte",
    "Volaris.Props.C28_delete_partial",
    "Volaris.Props.C28_delete_unlucky",
    "Volaris.Props.C28_surviving_keys",
    "Volaris.Props.C28_runs"
   ],
   "note": "The required property holds for change (C28_change). For add and delete it is false: C28_add_one_byte and C28_delete_unlucky prove that the excluded split points make the file unreadable for every password; C28_add_partial and C28_delete_partial cover all the others."
  },
  {
   "property": "C30",
   "status": "proved",
   "theorems": [
    "Volaris.Props.C30_dump",
    "Volaris.Props.C30_dump_refuses",
    "Volaris.Props.C30_dump_reads_back"
   ],
   "note": ""
  },
  {
   "property": "C31",
   "status": "proved",
   "theorems": [
    "Volaris.Props.C31_strip",
    "Volaris.Props.C31_strip_refuses"
   ],
   "note": ""
  },
  {
   "property": "C32",
   "status": "proved",
   "theorems": [
    "Volaris.Props.C32_dump_strip_restore"
   ],
   "note": ""
  },
  {
   "property": "C33",
   "status": "partial",
   "theorems": [
    "Volaris.Props.C33_restore_only_over_zeros_partial",
    "Volaris.Props.C33_short_read_overwrites"
   ],
   "note": "Required property false with short reads: C33_short_read_overwrites proves data loss for every header, target and short length; C33_restore_only_over_zeros_partial is the property for all schedules without short transfers."
  },
  {
   "property": "C34",
   "status": "partial",
   "theorems": [
    "Volaris.Props.C34_header_write_partial",
    "Volaris.Props.C34_short_write_succeeds"
   ],
   "note": "Required property false with short writes: C34_short_write_succeeds proves it for every header and length; C34_header_write_partial gives the exact outcome for every schedule."
  },
  {
   "property": "C35",
   "status": "proved",
   "theorems": [
    "Volaris.Props.C35_hash",
    "Volaris.Props.C35_short_read"
   ],
   "note": "C35_short_read shows that the restriction to full buffers is needed."
  },
  {
   "property": "C36",
   "status": "proved",
   "theorems": [
    "Volaris.Props.C36_overwrite",
    "Volaris.Props.C36_overwrite_cap"
   ],
   "note": ""
  },
  {
   "property": "C37",
   "status": "partial",
   "theorems": [
    "Volaris.Props.C37_no_random_data",
    "Volaris.Props.C37_single_zero_write"
   ],
   "note": "Required property false: the theorems prove for every capacity, pass count and schedule that nothing but zeros is ever written and no randomness is used; what remains true is C36."
  },
  {
   "property": "C56",
   "status": "proved",
   "theorems": [
    "Volaris.Props.C56_interrupted_change",
    "Volaris.Props.C28_change",
    "Volaris.Props.C28_surviving_keys",
    "Volaris.Props.C28_runs"
   ],
   "note": ""
  },
  {
   "property": "C57",
   "status": "proved",
   "theorems": [
    "Volaris.Props.C57_success"
   ],
   "note": ""
  },
  {
   "property": "C38",
   "status": "proved",
   "theorems": [
    "Volaris.Props.C38_erase",
    "Volaris.Props.C38_missing"
   ],
   "note": ""
  },
  {
   "property": "C39",
   "status": "partial",
   "theorems": [
    "Volaris.Props.C39_nothing_overwritten",
    "Volaris.Props.C39_emptied_partial"
   ],
   "note": "Required property false: C39_nothing_overwritten proves for every disk, path, pass count and schedule that no byte is written; C39_emptied_partial is what remains (the file is emptied, not only unlinked)."
  },
  {
   "property": "C40",
   "status": "proved",
   "theorems": [
    "Volaris.Props.C40_eraseDir",
    "Volaris.Props.C40_notDir"
   ],
   "note": ""
  },
  {
   "property": "C51",
   "status": "partial",
   "theorems": [
    "Volaris.Props.C51_passphrase_partial",
    "Volaris.Props.C51_panics"
   ],
   "note": "Required property false: C51_panics; C51_passphrase_partial is the property for every other sequence of draws."
  },
  {
   "property": "C52",
   "status": "proved",
   "theorems": [
    "Volaris.Props.C52_hex",
    "Volaris.Props.C52_hex_injective"
   ],
   "note": ""
  },
  {
   "property": "C41",
   "status": "proved",
   "theorems": [
    "Volaris.Props.C41_inside"
   ],
   "note": "The temporary file and missing parents of the output directory are the only exceptions; the model has no symbolic links."
  },
  {
   "property": "C44",
   "status": "proved",
   "theorems": [
    "Volaris.Props.C44_threads",
    "Volaris.Props.C44_faults"
   ],
   "note": ""
  },
  {
   "property": "C45",
   "status": "proved",
   "theorems": [
    "Volaris.Props.C45_declined"
   ],
   "note": ""
  },
  {
   "property": "C43",
   "status": "partial",
   "theorems": [
    "Volaris.Props.C43_pack_partial",
    "Volaris.Props.C43_pack_left",
    "Volaris.Props.C43_pack_fault",
    "Volaris.Props.C43_unpack_partial",
    "Volaris.Props.C43_unpack_left",
    "Volaris.Props.C43_unpack_fault"
   ],
   "note": "Required property false: C43_pack_left, C43_pack_fault, C43_unpack_left, C43_unpack_fault characterise when the temporary archive is left behind; the _partial theorems are what holds."
  },
  {
   "property": "C58",
   "status": "proved",
   "theorems": [
    "Volaris.Props.C58_pack_frame"
   ],
   "note": ""
  },
  {
   "property": "C42",
   "status": "proved",
   "theorems": [
    "Volaris.Props.C42_round_trip",
    "Volaris.Props.C42_backslash"
   ],
   "note": "C42_backslash shows that the restriction on backslashes is needed."
  },
  {
   "property": "C46",
   "status": "proved",
   "theorems": [
    "Volaris.Props.C46_answer",
    "Volaris.Props.C46_overwrite_check",
    "Volaris.Props.C46_encrypt",
    "Volaris.Props.C46_decrypt",
    "Volaris.Props.C46_declined"
   ],
   "note": ""
  },
  {
   "property": "C47",
   "status": "proved",
   "theorems": [
    "Volaris.Props.C47_secret",
    "Volaris.Props.C47_confirmed",
    "Volaris.Props.C47_source"
   ],
   "note": ""
  },
  {
   "property": "C48",
   "status": "partial",
   "theorems": [
    "Volaris.Props.C48_encrypt_partial",
    "Volaris.Props.C48_success",
    "Volaris.Props.C48_alias",
    "Volaris.Props.C48_short",
    "Volaris.Props.C48_same_name"
   ],
   "note": "Required property false: C48_alias (two spellings of one file) and C48_short (a short read); C48_encrypt_partial and C48_success are the property for separate files and no short transfers."
  },
  {
   "property": "C49",
   "status": "partial",
   "theorems": [
    "Volaris.Props.C49_always_erases",
    "Volaris.Props.C49_encrypt_erases",
    "Volaris.Props.C49_decrypt_erases",
    "Volaris.Props.C49_kept_partial",
    "Volaris.Props.C49_line"
   ],
   "note": "Required property false: C49_always_erases for every command line; C49_kept_partial is what the commands do when erasing is not selected."
  },
  {
   "property": "C50",
   "status": "partial",
   "theorems": [
    "Volaris.Props.C50_never_asks",
    "Volaris.Props.C50_asks_partial"
   ],
   "note": "Required property false: C50_never_asks for every command line of encrypt and pack; C50_asks_partial covers the other commands."
  },
  {
   "property": "C59",
   "status": "proved",
   "theorems": [
    "Volaris.Props.C59_decrypt",
    "Volaris.Props.C59_success"
   ],
   "note": ""
  },
  {
   "property": "C60",
   "status": "proved",
   "theorems": [
    "Volaris.Props.C60_unpack_panics",
    "Volaris.Props.C60_line"
   ],
   "note": ""
  },
  {
   "property": "C61",
   "status": "proved",
   "theorems": [
    "Volaris.Props.C61_encrypt",
    "Volaris.Props.C61_later",
    "Volaris.Props.C61_two_files",
    "Volaris.Props.C61_key_add",
    "Volaris.Props.C61_key_change"
   ],
   "note": ""
  },
  {
   "property": "C62",
   "status": "proved",
   "theorems": [
    "Volaris.Props.C62_hash",
    "Volaris.Props.C62_printed"
   ],
   "note": ""
  },
  {
   "property": "C63",
   "status": "proved",
   "theorems": [
    "Volaris.Props.C63_details",
    "Volaris.Props.C63_printed"
   ],
   "note": ""
  },
  {
   "property": "C64",
   "status": "proved",
   "theorems": [
    "Volaris.Props.C64_add",
    "Volaris.Props.C64_change",
    "Volaris.Props.C64_delete",
    "Volaris.Props.C64_verify",
    "Volaris.Props.C64_not_v5",
    "Volaris.Props.C64_succeed",
    "Volaris.Props.C64_sources"
   ],
   "note": ""
  },
  {
   "property": "C65",
   "status": "proved",
   "theorems": [
    "Volaris.Props.C65_dump",
    "Volaris.Props.C65_dump_succeeds",
    "Volaris.Props.C65_strip",
    "Volaris.Props.C65_restore",
    "Volaris.Props.C65_cycle"
   ],
   "note": ""
  },
  {
   "property": "C66",
   "status": "proved",
   "theorems": [
    "Volaris.Props.C66_file",
    "Volaris.Props.C66_directory",
    "Volaris.Props.C66_nothing"
   ],
   "note": ""
  },
  {
   "property": "C67",
   "status": "proved",
   "theorems": [
    "Volaris.Props.C67_frame",
    "Volaris.Props.C67_safe",
    "Volaris.Props.C67_success",
    "Volaris.Props.C67_command",
    "Volaris.Props.C67_inside",
    "Volaris.Props.C67_same_name"
   ],
   "note": "C67_inside shows that the hypothesis on the place of the output is needed."
  },
  {
   "property": "C68",
   "status": "proved",
   "theorems": [
    "Volaris.Props.C68_encrypt",
    "Volaris.Props.C68_decrypt",
    "Volaris.Props.C68_round_trip"
   ],
   "note": "With a separate header file the ciphertext must not begin with zeros in place of the header (see C15)."
  },
  {
   "property": "C69",
   "status": "partial",
   "theorems": [
    "Volaris.Props.C69_dialogue",
    "Volaris.Props.C69_inside",
    "Volaris.Props.C69_members",
    "Volaris.Props.C69_consent_partial",
    "Volaris.Props.C69_not_always_asked"
   ],
   "note": "The consent part is false of the code: a member d/../x, with d still missing when the question would be asked, overwrites x without a question (C69_not_always_asked). Proved: the dialogue is exactly about the members, the screen shows exactly its questions and decisions (C69_dialogue, C69_members), everything stays inside the output directory, and without .. in the path an existing file changes only with consent (C69_consent_partial)."
  },
  {
   "property": "C70",
   "status": "proved",
   "theorems": [
    "Volaris.Props.C70_round_trip"
   ],
   "note": "Both commands end to end, without faults; with --erase, which asks about every directory, only together with --force; header in the file."
  },
  {
   "property": "C71",
   "status": "proved",
   "theorems": [
    "Volaris.Props.C71_complete",
    "Volaris.Props.C71_faults",
    "Volaris.Props.C71_encrypt",
    "Volaris.Props.C71_encrypt_frame"
   ],
   "note": "Crash semantics in Spec/Crash.lean: the disk after a prefix of the run's modifying calls and a prefix of the bytes of the next write. C71_complete: the log of calls accounts for every change of the disk, for every command. C71_faults: every moment is the end state of a run under some fault schedule. Assumes that short transfers do not happen before the stop (see C12, C48) and that the disk takes the calls in order."
  },
  {
   "property": "C72",
   "status": "proved",
   "theorems": [
    "Volaris.Props.C72_decrypt",
    "Volaris.Props.C72_decrypt_frame"
   ],
   "note": ""
  },
  {
   "property": "C73",
   "status": "proved",
   "theorems": [
    "Volaris.Props.C73_pack"
   ],
   "note": ""
  },
  {
   "property": "C74",
   "status": "proved",
   "theorems": [
    "Volaris.Props.C74_unpack"
   ],
   "note": ""
  },
  {
   "property": "C75",
   "status": "partial",
   "theorems": [
    "Volaris.Props.C75_change",
    "Volaris.Props.C75_add_partial",
    "Volaris.Props.C75_delete_partial",
    "Volaris.Props.C75_add_false",
    "Volaris.Props.C75_change_window"
   ],
   "note": "Proved in full for change. For add it is false at one byte (C75_add_false: a reachable moment at which no password opens the file), for delete at unlucky contents (C28_delete_unlucky); C75_add_partial and C75_delete_partial cover all other moments. C75_change_window shows that nothing can be said about the password that is being changed."
  },
  {
   "property": "C76",
   "status": "partial",
   "theorems": [
    "Volaris.Props.C76_strip",
    "Volaris.Props.C76_restore",
    "Volaris.Props.C76_dump",
    "Volaris.Props.C76_stuck",
    "Volaris.Props.C76_strip_false"
   ],
   "note": "The first two parts are proved (C76_strip, C76_restore, C76_dump: the exact forms of the file at any moment). The last part is false: a strip that was stopped cannot be repeated or undone by the program (C76_stuck, for all files; C76_strip_false, a moment at which strip, restore and decrypt, with and without the dumped header, all refuse the file)."
  },
  {
   "property": "C77",
   "status": "proved",
   "theorems": [
    "Volaris.Props.C77_encrypt",
    "Volaris.Props.C77_decrypt",
    "Volaris.Props.C77_erase",
    "Volaris.Props.C77_pack",
    "Volaris.Props.C77_hash"
   ],
   "note": "For pack, the file names have to stand together (the parser takes the word before an option for the output)."
  },
  {
   "property": "C78",
   "status": "partial",
   "theorems": [
    "Volaris.Props.C78_switch_refused",
    "Volaris.Props.C78_pack_swallows",
    "Volaris.Props.C78_header_key_refused",
    "Volaris.Props.C78_six_commands"
   ],
   "note": "False of the code, and proved to be: every option takes a value, so each line with the right number of files and a bare switch, at any place, is refused (C78_switch_refused), except that `pack` silently takes the next directory as the value and does not pack it (C78_pack_swallows); `header` and `key` are refused whatever follows (C78_header_key_refused). What is left: every line is refused or runs one of the six other commands (C78_six_commands), and options with values work (C77)."
  },
  {
   "property": "C79",
   "status": "partial",
   "theorems": [
    "Volaris.Props.C79_debug_partial",
    "Volaris.Props.C79_decrypt_panics"
   ],
   "note": "Only the debug assertions of clap are modelled, not the overflow checks. It holds for all lines except those of `decrypt` and `unpack`, which read an option they do not declare: with debug assertions each of them panics before anything is read or changed (C79_decrypt_panics)."
  },
  {
   "property": "C80",
   "status": "proved",
   "theorems": [
    "Volaris.Props.C80_session"
   ],
   "note": "Without I/O faults, for plain file names in the working directory, and if hashing and encrypting succeed."
  },
  {
   "property": "C81",
   "status": "partial",
   "theorems": [
    "Volaris.Props.C81_encrypt_loses",
    "Volaris.Props.C81_decrypt_loses",
    "Volaris.Props.C81_pack_loses",
    "Volaris.Props.C81_line",
    "Volaris.Props.C81_encrypt_partial",
    "Volaris.Props.C81_decrypt_partial",
    "Volaris.Props.C81_pack_partial"
   ],
   "note": "False of the code, and proved to be, for every successful command that erases: the program never synchronises a file (`flush` on a file does nothing) before it erases the input, so written data may be missing when the input is already gone, even on a disk that keeps all changes of names and lengths in order. On the command line encrypt and decrypt always erase (C81_line). What holds: commands that do not erase keep the input under every power failure (the _partial theorems); on a disk that takes all calls in order, C71-C73."
  },
  {
   "property": "C82",
   "status": "proved",
   "theorems": [
    "Volaris.Props.C82_entries",
    "Volaris.Props.C82_contents",
    "Volaris.Props.C82_litter",
    "Volaris.Props.C82_names",
    "Volaris.Props.C82_tree"
   ],
   "note": "Only `input`, `output` and `--header` values can be changed; a place is mentioned if a word of the line, or the value of `--header=`, names it or a directory above it. Between lines the disk is changed by nobody else. Symbolic links are not modelled."
  },
  {
   "property": "C83",
   "status": "proved",
   "theorems": [
    "Volaris.Props.C83_no_loss"
   ],
   "note": "The process is killed, the machine keeps running (for power loss see C81). Lines elsewhere may be any lines at all, with any faults. Assumed of the zip format: a written archive reads back, and does not begin with the byte 0xDE."
  },
  {
   "property": "C84",
   "status": "proved",
   "theorems": [
    "Volaris.Props.C84_encrypt"
   ],
   "note": "The cipher is idealised (a function whose value depends on the length of the message only): the theorem says that the plaintext reaches the disk, the order of the calls and the outcome only through the cipher. If the hash of the output is asked for, a file that is at the output place before has to be the same on both machines. Nothing is said about real ciphers, timing or memory."
  },
  {
   "property": "C85",
   "status": "proved",
   "theorems": [
    "Volaris.Props.C85_password",
    "Volaris.Props.C85_keyfile"
   ],
   "note": "Besides the hash only two facts about passwords are used: whether the two typed ones are the same, and whether one is empty; key files show their length."
  },
  {
   "property": "C86",
   "status": "proved",
   "theorems": [
    "Volaris.Props.C86_line"
   ],
   "note": "Only contents change; which files and directories exist is the same on both machines. A path in the line is a word, or what follows = or the letter of an option."
  },
  {
   "property": "C87",
   "status": "proved",
   "theorems": [
    "Volaris.Props.C87_shown_first",
    "Volaris.Props.C87_killed",
    "Volaris.Props.C87_opens",
    "Volaris.Props.C87_safe"
   ],
   "note": "Printing cannot fail in the model (Rust's println! panics if it does, and writes out each line at once). The lines that the model keeps are the passphrase, the warnings at the password prompt and the digests. C87_safe has the hypotheses of C48 (three different files, no short transfers)."
  },
  {
   "property": "C88",
   "status": "proved",
   "theorems": [
    "Volaris.Props.C88_output",
    "Volaris.Props.C88_output_killed",
    "Volaris.Props.C88_header",
    "Volaris.Props.C88_erase",
    "Volaris.Props.C88_pack_sources",
    "Volaris.Props.C88_declined_late"
   ],
   "note": "The question about the header file comes after the output has been emptied, so declining it loses the old content of the output although nothing was encrypted (C88_declined_late). The question before a directory is erased does not name the directory. C88_pack_sources needs output and header file to be outside the sources (C67)."
  },
  {
   "property": "C89",
   "status": "proved",
   "theorems": [
    "Volaris.Props.C89_old",
    "Volaris.Props.C89_new",
    "Volaris.Props.C89_one",
    "Volaris.Props.C89_silent"
   ],
   "note": "The prompt of the password reader itself goes to the terminal and is not modelled. That the password taken after the first line is used as the old key and the one after the second as the new key is C64."
  },
  {
   "property": "C90",
   "status": "proved",
   "theorems": [
    "Volaris.Props.C90_file",
    "Volaris.Props.C90_detached",
    "Volaris.Props.C90_which",
    "Volaris.Props.C90_command",
    "Volaris.Props.C90_old_versions"
   ],
   "note": "No forgery is a hypothesis on the AEAD calls of the run at hand, not an axiom. C90_old_versions shows that the restriction to versions 3 to 5 is needed. The command theorem is for runs without short transfers (C12)."
  },
  {
   "property": "C91",
   "status": "proved",
   "theorems": [
    "Volaris.Props.C91_line",
    "Volaris.Props.C91_encrypt",
    "Volaris.Props.C91_decrypt",
    "Volaris.Props.C91_pack",
    "Volaris.Props.C91_erase",
    "Volaris.Props.C91_headers",
    "Volaris.Props.C91_keys"
   ],
   "note": "For the release build (C79 has the build with debug assertions). C91_keys assumes that the old key is not to be made up, which no line can ask for. Operations of the system are assumed to return."
  },
  {
   "property": "C92",
   "status": "proved",
   "theorems": [
    "Volaris.Props.C92_encrypt",
    "Volaris.Props.C92_decrypt",
    "Volaris.Props.C92_pack",
    "Volaris.Props.C92_unpack",
    "Volaris.Props.C92_encrypt_digest",
    "Volaris.Props.C92_decrypt_digest",
    "Volaris.Props.C92_unpack_digest",
    "Volaris.Props.C92_pack_digest",
    "Volaris.Props.C92_agree",
    "Volaris.Props.C92_two_keys",
    "Volaris.Props.C92_one_key",
    "Volaris.Props.C92_header",
    "Volaris.Props.C92_erase"
   ],
   "note": "Lines that the argument parser or the reader of typed passwords print themselves are not modelled. A short read ends hashing early (C35), hence the restriction."
  },
  {
   "property": "C93",
   "status": "partial",
   "theorems": [
    "Volaris.Props.C93_encrypt_partial",
    "Volaris.Props.C93_decrypt_partial",
    "Volaris.Props.C93_pack_partial",
    "Volaris.Props.C93_encrypt_false",
    "Volaris.Props.C93_decrypt_false",
    "Volaris.Props.C93_pack_false"
   ],
   "note": "The unrestricted statement is false of the code: C93_encrypt_false, C93_decrypt_false and C93_pack_false are runs of whole command lines without faults, killed once and repeated, that destroy the only copy. C93_encrypt_partial, C93_decrypt_partial and C93_pack_partial prove it for any number of kills with exactly that exception. For pack the header is in the file, and the name drawn for the last temporary file must be free: killed attempts leave their temporary archives behind."
  },
  {
   "property": "C94",
   "status": "proved",
   "theorems": [
    "Volaris.Props.C94_pack_decrypt"
   ],
   "note": "Both lines are given as words on the command line; the tree in the archive is compared with the disk before the pack line. The zip code is abstract, with the law that reading what was written gives it back."
  },
  {
   "property": "C95",
   "status": "partial",
   "theorems": [
    "Volaris.Props.C95_statuses",
    "Volaris.Props.C95_encrypt_partial",
    "Volaris.Props.C95_decrypt_partial",
    "Volaris.Props.C95_pack_partial",
    "Volaris.Props.C95_erase_partial",
    "Volaris.Props.C95_hash",
    "Volaris.Props.C95_false"
   ],
   "note": "Status 0 after a declined question is what the code does (exit(0)); the partial theorems say exactly what holds then, and that the full property holds when nobody can decline. C95_false has the two runs: nothing done, and an output emptied although the header question was declined, both with status 0. Short transfers are excluded for encrypt, decrypt, pack and hash, because of C48/C59."
  },
  {
   "property": "C96",
   "status": "proved",
   "theorems": [
    "Volaris.Props.C96_together",
    "Volaris.Props.C96_finished",
    "Volaris.Props.C96_ends",
    "Volaris.Props.C96_untouched",
    "Volaris.Props.C96_line_encrypt",
    "Volaris.Props.C96_line_decrypt",
    "Volaris.Props.C96_line_erase",
    "Volaris.Props.C96_line_hash",
    "Volaris.Props.C96_line_pack"
   ],
   "note": "A step is a system call; reading an exact number of bytes, reading to the end and writing a whole buffer are one step. Listing a directory for pack is one step. Erasing a directory, pack with --erase and unpack are excluded by Fits."
  },
  {
   "property": "C97",
   "status": "partial",
   "theorems": [
    "Volaris.Props.C97_encrypt_partial",
    "Volaris.Props.C97_decrypt_partial",
    "Volaris.Props.C97_pack_partial",
    "Volaris.Props.C97_race"
   ],
   "note": "C97_race is the run in which the property fails: both processes succeed, nobody is asked, and what is on the disk in the end does not depend on the content of one of the inputs, which is gone. The partial theorems have the hypothesis that the commands are independent."
  },
  {
   "property": "C98",
   "status": "partial",
   "theorems": [
    "Volaris.Props.C98_version_partial",
    "Volaris.Props.C98_results_partial",
    "Volaris.Props.C98_step_partial",
    "Volaris.Props.C98_undisturbed_partial",
    "Volaris.Props.C98_ends",
    "Volaris.Props.C98_update_lost",
    "Volaris.Props.C98_deleted_returns"
   ],
   "note": "The full property is false of the code: C98_update_lost and C98_deleted_returns are the runs. The partial theorems say what holds for every interleaving. About the library calls on handles that are open already; a system call is atomic, and reading the 416 bytes of the header is one of them. Assumed of the passwords: as in C24."
  },
  {
   "property": "C99",
   "status": "proved",
   "theorems": [
    "Volaris.Props.C99_moment",
    "Volaris.Props.C99_keys",
    "Volaris.Props.C99_stays",
    "Volaris.Props.C99_only",
    "Volaris.Props.C99_refused",
    "Volaris.Props.C99_dump"
   ],
   "note": "About the library calls on handles that are open already, with an embedded header; each reading call writes to a file of its own, different from the encrypted one. A system call is atomic, and reading the 416 bytes of the header is one of them (the first two bytes are read before by a call of their own: a version 5 header stays one). Assumed of the passwords: as in C24."
  },
  {
   "property": "C100",
   "status": "proved",
   "theorems": [
    "Volaris.Props.C100_file_any",
    "Volaris.Props.C100_file_again",
    "Volaris.Props.C100_directory_any",
    "Volaris.Props.C100_directory_again",
    "Volaris.Props.C100_dots"
   ],
   "note": "What was to be erased is meant as it was before the first attempt; names that others add between the attempts are not considered. C100_dots is the case of the exception."
  },
  {
   "property": "C101",
   "status": "proved",
   "theorems": [
    "Volaris.Props.C101_confined",
    "Volaris.Props.C101_readers",
    "Volaris.Props.C101_unpack",
    "Volaris.Props.C101_swapped",
    "Volaris.Props.C101_machine",
    "Volaris.Props.C101_renamed"
   ],
   "note": "Paths are resolved anew at each call, as the system does: C101_renamed shows that a file that was renamed to the name of the input during an encryption is erased although it was never read. C101_unpack spells out what this means for unpacking, and C101_swapped shows that another archive put in the place of the temporary copy is what is then unpacked. Reading the archive's directory or one of its members is one step, and so is remove_dir_all."
  },
  {
   "property": "C102",
   "status": "proved",
   "theorems": [
    "Volaris.Props.C102_genuine",
    "Volaris.Props.C102_content"
   ],
   "note": "Files of versions 1 and 2 have no associated data for their blocks and are excluded (C90). The output can of course be changed by the other programs as well: C102_content says what it holds if they leave it alone. The file that is erased is the one then called as the input (C101_renamed)."
  },
  {
   "property": "C103",
   "status": "proved",
   "theorems": [
    "Volaris.Props.C103_sealed",
    "Volaris.Props.C103_unchanged",
    "Volaris.Props.C103_content"
   ],
   "note": "Short transfers are excluded since the header is written with one write, whose count is ignored, and a short read ends the stream early (C12, C34). The file that is erased is the one then called as the input, which can be another one than the one that was read (C101_renamed)."
  },
  {
   "property": "C104",
   "status": "proved",
   "theorems": [
    "Volaris.Props.C104_together",
    "Volaris.Props.C104_same_output"
   ],
   "note": "The hypotheses are on what the names lead to while the commands run: the input's name to the file or to nothing, outputs and headers to files that no other command is given. That they do is what the user sees to; C101_renamed and C104_same_output show what happens otherwise. Short transfers are excluded as in C103."
  },
  {
   "property": "C105",
   "status": "proved",
   "theorems": [
    "Volaris.Props.C105_together",
    "Volaris.Props.C105_same_output"
   ],
   "note": "Hypotheses as in C104. A decryption whose header file is a directory ignores it and reads the header from the input: the conclusion says so."
  },
  {
   "property": "C106",
   "status": "proved",
   "theorems": [
    "Volaris.Props.C106_together",
    "Volaris.Props.C106_same_output"
   ],
   "note": "Hypotheses as in C104 and C105; moreover nobody else touches the temporary file of a packing, and while the file is there the name of the packed directory leads to the directory above it. Short transfers are excluded as in C103."
  },
  {
   "property": "C107",
   "status": "proved",
   "theorems": [
    "Volaris.Props.C107_over",
    "Volaris.Props.C107_again",
    "Volaris.Props.C107_twice"
   ],
   "note": "The last attempt is without faults, and the name drawn for the temporary file is free and not at the output; earlier attempts may meet faults and be killed, are given the same secret, and have no short transfers."
  }
 ]
}