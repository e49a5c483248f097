{
 "claims": [
  {
   "property": "C01",
   "status": "partial",
   "theorems": [
    "Verif.Txlogs.C01_false",
    "Verif.Txlogs.C01_snapshot_is_replay_partial",
    "Verif.Txlogs.C01_no_update_in_tx_partial"
   ],
   "note": "False as stated: Rollback compares Version > txPoint where txPoint is length+1, so exactly one applied operation stays in the snapshot (C01_false). Proved for every history in which Rollback is not called in that state, and for every history without UpdateSnapshot inside an open transaction."
  },
  {
   "property": "C02",
   "status": "proved",
   "theorems": [
    "Verif.Txlogs.C02_writes",
    "Verif.Txlogs.C02_last_write",
    "Verif.Txlogs.C02_last_write_snapshot"
   ],
   "note": "C02_last_write: replay from scratch, every store. C02_last_write_snapshot: maintained snapshot, histories avoiding the Rollback defect of C01."
  },
  {
   "property": "C03",
   "status": "proved",
   "theorems": [
    "Verif.Txlogs.C03_entry_depends_on_own_operations",
    "Verif.Txlogs.C03_operation_is_local",
    "Verif.Txlogs.C03_replays_iff_each_entry"
   ],
   "note": ""
  },
  {
   "property": "C04",
   "status": "partial",
   "theorems": [
    "Verif.Txlogs.C04_rollback_restores_log",
    "Verif.Txlogs.C04_false",
    "Verif.Txlogs.C04_rollback_restores_reads_partial",
    "Verif.Txlogs.C04_do"
   ],
   "note": "Log half proved for all work sequences; read half false when exactly one operation of the transaction was applied to the snapshot (C04_false), proved otherwise."
  },
  {
   "property": "C05",
   "status": "proved",
   "theorems": [
    "Verif.Txlogs.C05_rollbackN"
   ],
   "note": "For every store reached without the Rollback defect of C01."
  },
  {
   "property": "C06",
   "status": "proved",
   "theorems": [
    "Verif.Txlogs.C06_snapshotAt",
    "Verif.Txlogs.C06_ends",
    "Verif.Txlogs.C06_negative_panics"
   ],
   "note": "Negative arguments crash (C06_negative_panics)."
  },
  {
   "property": "C07",
   "status": "proved",
   "theorems": [
    "Verif.Txlogs.C07_entrySnapshotAt",
    "Verif.Txlogs.C07_too_many",
    "Verif.Txlogs.C07_current"
   ],
   "note": ""
  },
  {
   "property": "C08",
   "status": "proved",
   "theorems": [
    "Verif.Txlogs.C08_nVersions",
    "Verif.Txlogs.C08_writes",
    "Verif.Txlogs.C08_lastUpdated",
    "Verif.Txlogs.C08_lastUpdated_minus_one_iff"
   ],
   "note": ""
  },
  {
   "property": "C09",
   "status": "proved",
   "theorems": [
    "Verif.Txlogs.C09_log_untouched",
    "Verif.Txlogs.C09_reported"
   ],
   "note": ""
  },
  {
   "property": "C10",
   "status": "proved",
   "theorems": [
    "Verif.Txlogs.C10_save",
    "Verif.Txlogs.C10_panics"
   ],
   "note": ""
  },
  {
   "property": "C11",
   "status": "partial",
   "theorems": [
    "Verif.Json.C11_any",
    "Verif.Json.C11_partial",
    "Verif.Json.C11_save",
    "Verif.Json.C11_kinds",
    "Verif.Json.C11_false",
    "Verif.Json.C11_null",
    "Verif.Json.C11_read",
    "Verif.Json.C11_read_log",
    "Verif.Json.C11_spelling"
   ],
   "note": "Proved for stores whose strings are well-formed UTF-8, and so for every store that was read from a file, whatever its text (C11_read); for others C11_any says what is read back: ill-formed bytes are replaced, so a password can change and two different ones become equal (C11_false). The text null makes NewLog crash (C11_null)."
  },
  {
   "property": "C12",
   "status": "partial",
   "theorems": [
    "Verif.Txlogs.C12_false",
    "Verif.Txlogs.C12_merge_is_union_partial"
   ],
   "note": "False when the logs have equal length and equal first and last timestamps but differ in between: Merge takes them for identical and returns the first (C12_false). Proved for all other pairs of logs."
  },
  {
   "property": "C13",
   "status": "partial",
   "theorems": [
    "Verif.Txlogs.C13_chronological",
    "Verif.Txlogs.C13_order_preserved_partial",
    "Verif.Txlogs.C13_local",
    "Verif.Txlogs.C13_order",
    "Verif.Txlogs.C13_false"
   ],
   "note": "Proved for all pairs of chronological logs: the result is chronological without duplicates, and what it has of either side is in that side's order (C13_order). This machine's log is kept in order whatever the logs are (C13_local). For logs that are not chronological the other side's order is kept unless the look-alike fast path confuses the logs (C13_order_preserved_partial); if it does, it is not (C13_false)."
  },
  {
   "property": "C14",
   "status": "proved",
   "theorems": [
    "Verif.Txlogs.C14_self",
    "Verif.Txlogs.C14_own_past",
    "Verif.Txlogs.C14_own_past_good"
   ],
   "note": ""
  },
  {
   "property": "C15",
   "status": "partial",
   "theorems": [
    "Verif.Txlogs.C15_commutative_partial",
    "Verif.Txlogs.C15_false_fast_path"
   ],
   "note": "Proved for distinguishable logs; false for logs the fast path confuses (C15_false_fast_path)."
  },
  {
   "property": "C16",
   "status": "partial",
   "theorems": [
    "Verif.Txlogs.C16_convergence_partial",
    "Verif.Txlogs.C16_associative_partial",
    "Verif.Txlogs.C16_false"
   ],
   "note": "Any number of replicas, any bracketing and repetition, provided no merge step meets two look-alike but different logs; false otherwise (C16_false)."
  },
  {
   "property": "C17",
   "status": "proved",
   "theorems": [
    "Verif.Txlogs.C17_merge_replays"
   ],
   "note": ""
  },
  {
   "property": "C18",
   "status": "partial",
   "theorems": [
    "Verif.Txlogs.C18_conflict_iff_partial",
    "Verif.Txlogs.C18_false_fast_path",
    "Verif.Txlogs.C18_conflicts_named",
    "Verif.Txlogs.C18_every_entry_named"
   ],
   "note": "iff proved for all chronological logs the fast path does not confuse; false otherwise (C18_false_fast_path)."
  },
  {
   "property": "C19",
   "status": "proved",
   "theorems": [
    "Verif.Txlogs.C19_one_round",
    "Verif.Txlogs.C19_outcome",
    "Verif.Txlogs.C19_panics_on_bad_logs"
   ],
   "note": "For every pair of histories bpass writes; C19_panics_on_bad_logs shows that the restriction is needed."
  },
  {
   "property": "C20",
   "status": "proved",
   "theorems": [
    "Verif.Txlogs.C20_never_silent",
    "Verif.Txlogs.C20_root_reported"
   ],
   "note": ""
  },
  {
   "property": "C21",
   "status": "partial",
   "theorems": [
    "Verif.Txlogs.C21_unresolved",
    "Verif.Txlogs.C21_total_partial",
    "Verif.Txlogs.C21_false"
   ],
   "note": "Two empty logs crash Merge (C21_false); otherwise total without resolutions; with the answers of C19 total for good histories."
  },
  {
   "property": "C22",
   "status": "partial",
   "theorems": [
    "Verif.App.C22_false",
    "Verif.App.C22_never_completes",
    "Verif.App.C22_without_deletes_partial",
    "Verif.App.C22_good_partial"
   ],
   "note": "False: an entry deleted on one side and edited on the other can never be merged, the prompt repeats until it is aborted (C22_never_completes). Proved: histories without such a pair complete, and nothing returned is a bad history."
  },
  {
   "property": "C23",
   "status": "proved",
   "theorems": [
    "Verif.App.C23_any_failure",
    "Verif.App.C23_failed_merge",
    "Verif.App.C23_all_or_nothing"
   ],
   "note": ""
  },
  {
   "property": "C24",
   "status": "proved",
   "theorems": [
    "Verif.App.C24_unit"
   ],
   "note": ""
  },
  {
   "property": "C25",
   "status": "partial",
   "theorems": [
    "Verif.App.C25_newest_wins_partial",
    "Verif.App.C25_same_key",
    "Verif.App.C25_multi_partial",
    "Verif.App.C25_multi_opens_partial",
    "Verif.App.C25_false",
    "Verif.App.C25_several_false",
    "Verif.App.C25_remote_creds"
   ],
   "note": "Proved for one remote with non-empty logs, and between two files with users; an empty remote log crashes (C25_false), with several remotes an older one can win (C25_several_false)."
  },
  {
   "property": "C26",
   "status": "proved",
   "theorems": [
    "Verif.App.C26_pushed",
    "Verif.App.C26_unreadable"
   ],
   "note": ""
  },
  {
   "property": "C27",
   "status": "partial",
   "theorems": [
    "Verif.App.SyncDemo.C27_false",
    "Verif.App.C27_sent_partial",
    "Verif.App.C27_opens_single_partial",
    "Verif.App.C27_opens_multi_partial",
    "Verif.App.C27_delivered"
   ],
   "note": "False: a remote whose log looks like the local one is skipped for good, also when another remote brings changes (C27_false). Proved: all other remotes that were read or absent are sent a file that opens to the merged log."
  },
  {
   "property": "C28",
   "status": "partial",
   "theorems": [
    "Verif.App.C28_known",
    "Verif.App.C28_unknown",
    "Verif.App.C28_next_time",
    "Verif.App.C28_other_hosts",
    "Verif.App.C28_no_crash_partial",
    "Verif.App.C28_false"
   ],
   "note": "A malformed known-hosts line crashes the callback (C28_false); otherwise proved."
  },
  {
   "property": "C29",
   "status": "partial",
   "theorems": [
    "Verif.App.C29_save_hosts_partial",
    "Verif.App.C29_hosts",
    "Verif.App.C29_false"
   ],
   "note": "Proved for entries that still exist; if the merge deleted the sync entry the store becomes unreadable (C29_false)."
  },
  {
   "property": "C30",
   "status": "proved",
   "theorems": [
    "Verif.Blob.C30_unique_names",
    "Verif.Blob.C30_unique_names_history"
   ],
   "note": "Every sequence of calls with any arguments and any map order, also at every earlier point of the history."
  },
  {
   "property": "C31",
   "status": "partial",
   "theorems": [
    "Verif.Blob.C31_named_partial",
    "Verif.Blob.C31_calls_partial",
    "Verif.Blob.C31_lookups_partial",
    "Verif.Blob.C31_must_find",
    "Verif.Blob.C31_false",
    "Verif.Blob.C31_search_panics",
    "Verif.Blob.C31_nameless_false"
   ],
   "note": "False for arbitrary arguments: Set and friends on an unknown uuid make the file unreadable (C31_false); Search panics on names that are not valid UTF-8 (C31_search_panics); one entry without a name makes lookups crash (C31_nameless_false). Proved for all sequences of calls on existing entries with fresh uuids for new ones."
  },
  {
   "property": "C32",
   "status": "partial",
   "theorems": [
    "Verif.Blob.C32_set_refused",
    "Verif.Blob.C32_set_effect",
    "Verif.Blob.C32_delete_refused_partial",
    "Verif.Blob.C32_delete_effect_partial",
    "Verif.Blob.C32_delete_false"
   ],
   "note": "Set half proved. DeleteKey protects only the exact keys name and updated; totp, iv, salt, mkey can be deleted (C32_delete_false)."
  },
  {
   "property": "C33",
   "status": "proved",
   "theorems": [
    "Verif.Blob.C33_search_exact",
    "Verif.Blob.C33_search_total"
   ],
   "note": ""
  },
  {
   "property": "C34",
   "status": "partial",
   "theorems": [
    "Verif.Fuzzy.C34_match_partial",
    "Verif.Fuzzy.C34_exact_partial",
    "Verif.Fuzzy.C34_false",
    "Verif.Fuzzy.C34_panics"
   ],
   "note": "Proved for well-formed UTF-8 names; false otherwise (C34_false, C34_panics)."
  },
  {
   "property": "C35",
   "status": "partial",
   "theorems": [
    "Verif.Blob.C35_labels_exact_partial",
    "Verif.Blob.C35_false"
   ],
   "note": "Proved when no entry carries a label twice; false otherwise (C35_false)."
  },
  {
   "property": "C36",
   "status": "partial",
   "theorems": [
    "Verif.Blob.C36_labels",
    "Verif.Blob.C36_add",
    "Verif.Blob.C36_add_one",
    "Verif.Blob.C36_remove_only_partial",
    "Verif.Blob.C36_remove_actual",
    "Verif.Blob.C36_remove_first_of_two_partial",
    "Verif.Blob.C36_remove_out_of_range",
    "Verif.Blob.C36_false"
   ],
   "note": "AddLabel proved. RemoveLabel keeps only the last label (C36_remove_actual), so it is right only for a sole label and the first of two (C36_false)."
  },
  {
   "property": "C37",
   "status": "partial",
   "theorems": [
    "Verif.Blob.C37_never_renames",
    "Verif.Blob.C37_unique_noop_partial",
    "Verif.Blob.C37_fresh",
    "Verif.Blob.C37_taken_false",
    "Verif.Blob.C37_false"
   ],
   "note": "RenameDuplicates never renames anything: the write is refused and the error dropped (C37_never_renames, C37_false). Nothing calls it either; C87_names_false is the case it is meant for. The name it would give is not one of those before it (C37_fresh) but can be that of a later entry (C37_taken_false)."
  },
  {
   "property": "C38",
   "status": "proved",
   "theorems": [
    "Verif.Blob.C38_new_sync"
   ],
   "note": "NewSync; the import loop is covered with C60."
  },
  {
   "property": "C39",
   "status": "proved",
   "theorems": [
    "Verif.Blob.C39_selects"
   ],
   "note": ""
  },
  {
   "property": "C40",
   "status": "proved",
   "theorems": [
    "Verif.Pkcs7.C40_pad_unpad",
    "Verif.Pkcs7.C40_bad_k",
    "Verif.Pkcs7.C40_256"
   ],
   "note": "Block sizes 1..255; at 256 the padding byte wraps (C40_256)."
  },
  {
   "property": "C41",
   "status": "partial",
   "theorems": [
    "Verif.Pkcs7.C41_unpad_partial",
    "Verif.Pkcs7.C41_unpad_nonzero_partial",
    "Verif.Pkcs7.C41_false"
   ],
   "note": "A final zero byte is accepted as padding of length zero (C41_false); proved for inputs not ending in zero."
  },
  {
   "property": "C42",
   "status": "proved",
   "theorems": [
    "Verif.Crypt.C42_single_roundtrip"
   ],
   "note": "For all primitives satisfying Spec.Lawful (sizes and block decryption inverting encryption)."
  },
  {
   "property": "C43",
   "status": "partial",
   "theorems": [
    "Verif.Crypt.C43_multi_roundtrip_partial",
    "Verif.Crypt.C43_false"
   ],
   "note": "Proved up to 9999 users; from 10000 on the count does not fit into the header and Decrypt never returns the parameters (C43_false)."
  },
  {
   "property": "C44",
   "status": "proved",
   "theorems": [
    "Verif.Crypt.C44_authenticated",
    "Verif.Crypt.C44_no_splice"
   ],
   "note": ""
  },
  {
   "property": "C45",
   "status": "partial",
   "theorems": [
    "Verif.Crypt.C45_false",
    "Verif.Crypt.C45_wrong_passphrase_false",
    "Verif.Crypt.C45_mistyped_false",
    "Verif.Crypt.C45_mistyped_partial",
    "Verif.Crypt.C45_users_mistyped_false",
    "Verif.Crypt.C45_users_mistyped_partial",
    "Verif.Crypt.C45_isMultiUser_partial",
    "Verif.Crypt.C45_magic_partial",
    "Verif.App.C45_open_false"
   ],
   "note": "False: truncated files crash Decrypt for every choice of ciphers (C45_false). So does a mistyped passphrase on any intact file if what it makes of the last block ends in a byte 0 or 1 (C45_mistyped_false, C45_users_mistyped_false, C45_open_false), two bytes of 256; with any other byte that differs from the one before it is refused cleanly (C45_mistyped_partial). Files with a bad header are refused cleanly."
  },
  {
   "property": "C46",
   "status": "partial",
   "theorems": [
    "Verif.Crypt.C46_unknown_partial",
    "Verif.Crypt.C46_unknownUser_false"
   ],
   "note": "ErrUnknownUser is never returned (C46_unknownUser_false). With credentials that open the first record, the outcome is a crash or ErrWrongPassphrase unless a named SHA-512 collision exists; other credentials cannot be excluded without assumptions on the ciphers."
  },
  {
   "property": "C47",
   "status": "partial",
   "theorems": [
    "Verif.Crypt.C47_single",
    "Verif.Crypt.C47_multi_partial",
    "Verif.Crypt.C47_multi",
    "Verif.Crypt.C47_unlisted",
    "Verif.Crypt.C47_any_single",
    "Verif.Crypt.C47_valid_iff",
    "Verif.Crypt.C47_key_false"
   ],
   "note": "For any bytes at all that Decrypt accepts, not only outputs of Encrypt, with any credentials whose cached key, if there is one, has 80 bytes: the parameters are valid exactly when the file has no users or the name is listed, and then encrypting with them gives a file the same credentials open to the same parameters. Not without conditions: a cached key that is too long opens the file but gives parameters that are refused, and a name that is not listed (which takes a SHA-512 coincidence, see C46) gives a user count that is one too large."
  },
  {
   "property": "C48",
   "status": "proved",
   "theorems": [
    "Verif.Crypt.C48_key_irrelevant",
    "Verif.Crypt.C48_empty_passphrase",
    "Verif.Crypt.C48_empty_passphrase_error"
   ],
   "note": ""
  },
  {
   "property": "C49",
   "status": "partial",
   "theorems": [
    "Verif.Crypt.C49_false",
    "Verif.Crypt.C49_no_panic_partial"
   ],
   "note": "Users without master key or its iv pass validation and crash Encrypt (C49_false); proved otherwise."
  },
  {
   "property": "C50",
   "status": "proved",
   "theorems": [
    "Verif.Crypt.C50_isMultiUser"
   ],
   "note": ""
  },
  {
   "property": "C51",
   "status": "partial",
   "theorems": [
    "Verif.App.C51_save_open_single",
    "Verif.App.C51_save_open_multi",
    "Verif.App.C51_sequence_partial",
    "Verif.App.C51_first_user",
    "Verif.App.C51_passwd_single",
    "Verif.App.C51_rekey_single",
    "Verif.App.C51_create",
    "Verif.App.C51_taken",
    "Verif.App.C51_passwd_rekey_false",
    "Verif.App.C51_empty_password_false",
    "Verif.App.C51_passwd_after_rm_false"
   ],
   "note": "Proved for every sequence of adduser, passwd and rekey with non-empty passwords: everybody opens the saved file with the last password given. Not as meant: rekey after passwd brings back the old password (C51_passwd_rekey_false), an empty password is accepted but never opens the file (C51_empty_password_false), passwd does nothing after the last user entry was removed (C51_passwd_after_rm_false)."
  },
  {
   "property": "C52",
   "status": "partial",
   "theorems": [
    "Verif.App.C52_old_master_partial",
    "Verif.App.C52_refused",
    "Verif.App.Demo.C52_false"
   ],
   "note": "False: the records are written around the old master key, the file is encrypted with the new one (C52_false is a concrete file that nobody can open). What holds: every user gets a record that the printed password opens -- around the old master key."
  },
  {
   "property": "C53",
   "status": "partial",
   "theorems": [
    "Verif.App.C53_partial",
    "Verif.App.C53_false"
   ],
   "note": "Proved when the named user is the current one; any other name changes the current user's record instead (C53_false)."
  },
  {
   "property": "C54",
   "status": "partial",
   "theorems": [
    "Verif.App.C54_meets_partial",
    "Verif.App.C54_impossible_exact",
    "Verif.App.C54_false"
   ],
   "note": "Proved for every length that is not a positive multiple of 256; for those genPassword divides by zero (C54_false). The reported impossibility is exact."
  },
  {
   "property": "C55",
   "status": "partial",
   "theorems": [
    "Verif.Scp.C55_roundtrip_partial",
    "Verif.Scp.C55_written",
    "Verif.Scp.C55_false",
    "Verif.Scp.C55_space_rejected"
   ],
   "note": "Proved for contents below 2 GiB; larger ones are sent but never accepted (C55_false). With writes that fail, C55_written."
  },
  {
   "property": "C56",
   "status": "partial",
   "theorems": [
    "Verif.Scp.C56_success_complete",
    "Verif.Scp.C56_no_crash_partial",
    "Verif.Scp.C56_truncated",
    "Verif.Scp.C56_remote_error",
    "Verif.Scp.C56_other_start",
    "Verif.Scp.C56_response",
    "Verif.Scp.C56_refusal",
    "Verif.Scp.C56_not_found",
    "Verif.Scp.C56_acknowledged",
    "Verif.Scp.C56_false"
   ],
   "note": "Completeness proved, also with acknowledgements that cannot be written (C56_acknowledged); a negative length in the header crashes readFile (C56_false), nothing else does (C56_no_crash_partial)."
  },
  {
   "property": "C57",
   "status": "proved",
   "theorems": [
    "Verif.App.C57_read_only",
    "Verif.App.C57_opened",
    "Verif.App.C57_log"
   ],
   "note": ""
  },
  {
   "property": "C58",
   "status": "partial",
   "theorems": [
    "Verif.App.C58_partial",
    "Verif.App.C58_always_false",
    "Verif.App.C58_false"
   ],
   "note": "False: the file is truncated before it is written, so every save passes through a state that cannot be opened (C58_always_false). Proved: the file only ever contains the old contents or a beginning of the new ones, and runs that fail before writing leave it alone."
  },
  {
   "property": "C59",
   "status": "partial",
   "theorems": [
    "Verif.App.C59_as_of_snapshot",
    "Verif.App.C59_current_partial",
    "Verif.App.C59_file_partial",
    "Verif.App.C59_false"
   ],
   "note": "Proved for files saved with a current snapshot. The export does not bring the snapshot up to date: entries added since are missing (C59_false)."
  },
  {
   "property": "C60",
   "status": "partial",
   "theorems": [
    "Verif.App.C60_partial",
    "Verif.App.C60_header",
    "Verif.App.C60_consent",
    "Verif.App.C60_names",
    "Verif.App.C60_truncated",
    "Verif.App.C60_false",
    "Verif.App.C60_crash_false"
   ],
   "note": "Proved with the header counted as a record: it is imported as an entry (C60_false). A header in one quoted field crashes the program (C60_crash_false)."
  },
  {
   "property": "C61",
   "status": "partial",
   "theorems": [
    "Verif.App.C61_parse",
    "Verif.App.C61_parse_ctx",
    "Verif.App.C61_stored_partial",
    "Verif.App.C61_refused",
    "Verif.App.C61_false",
    "Verif.App.C61_tab_false"
   ],
   "note": "Proved for keys that Set accepts, words separated by single spaces and a value that does not end in white space. `set a name b` reports success and does nothing (C61_false); with a tab the line is misread (C61_tab_false)."
  },
  {
   "property": "C62",
   "status": "partial",
   "theorems": [
    "Verif.App.C62_self_refused",
    "Verif.App.C62_last_user_partial",
    "Verif.App.C62_other_partial",
    "Verif.App.C62_false"
   ],
   "note": "Proved for names not containing user/<current user> elsewhere than at the start; deleting x/user/<me> makes the session single-user while the user entry stays (C62_false)."
  },
  {
   "property": "C63",
   "status": "partial",
   "theorems": [
    "Verif.App.C63_returned",
    "Verif.App.C63_accept",
    "Verif.App.C63_adjust",
    "Verif.App.C63_settings_partial",
    "Verif.App.C63_no_crash_partial",
    "Verif.App.C63_false",
    "Verif.App.C63_empty_false"
   ],
   "note": "Blanks crash the prompt (C63_false), an impossible request can be accepted as the empty password (C63_empty_false); otherwise proved."
  },
  {
   "property": "C64",
   "status": "partial",
   "theorems": [
    "Verif.App.C64_mode_partial",
    "Verif.App.C64_false"
   ],
   "note": "Proved for one remote; false for several (C64_false)."
  },
  {
   "property": "C65",
   "status": "partial",
   "theorems": [
    "Verif.App.C65_only_syncs",
    "Verif.App.C65_unnamed_partial",
    "Verif.App.C65_false"
   ],
   "note": "Proved without a name. With a name, an entry without an scp or file url crashes the program (C65_false)."
  },
  {
   "property": "C72",
   "status": "partial",
   "theorems": [
    "Verif.Csv.C72_roundtrip_partial",
    "Verif.Csv.C72_false",
    "Verif.Csv.C72_empty_false"
   ],
   "note": "Proved for tables without CR LF inside a field and without records that are one empty field; both are lost otherwise."
  },
  {
   "property": "C73",
   "status": "partial",
   "theorems": [
    "Verif.App.C73_meaningless",
    "Verif.App.C73_false",
    "Verif.App.C73_crash_partial",
    "Verif.App.C73_export",
    "Verif.App.C73_export_fails"
   ],
   "note": "False: err is overwritten at Exit, failed runs end with status 0 (C73_false). Only a crash is reported."
  },
  {
   "property": "C66",
   "status": "partial",
   "theorems": [
    "Verif.App.C66_line_partial",
    "Verif.App.C66_session_partial",
    "Verif.App.C66_false",
    "Verif.App.C66_rekey_false"
   ],
   "note": "False: show with a negative number (C66_false) and rekey for an unknown user (C66_rekey_false) crash. Proved for lines that avoid these and the known defects of the password prompt; sync is C97."
  },
  {
   "property": "C67",
   "status": "partial",
   "theorems": [
    "Verif.App.C67_line_partial",
    "Verif.App.C67_session_partial",
    "Verif.App.C67_file_partial"
   ],
   "note": "Proved for all lines other than sync; with sync it is C87."
  },
  {
   "property": "C68",
   "status": "proved",
   "theorems": [
    "Verif.App.C68_undone",
    "Verif.App.C68_added",
    "Verif.App.C68_sync_undone",
    "Verif.App.C68_cancelled"
   ],
   "note": ""
  },
  {
   "property": "C69",
   "status": "partial",
   "theorems": [
    "Verif.App.C69_one_entry",
    "Verif.App.C69_current",
    "Verif.App.C69_stays_partial",
    "Verif.App.C69_session_partial",
    "Verif.App.C69_false"
   ],
   "note": "False after mv of the current entry: the prompt keeps the old name and the next command changes an entry that merely looks like it (C69_false). Proved for sessions that do not rename the current entry."
  },
  {
   "property": "C70",
   "status": "proved",
   "theorems": [
    "Verif.App.C70_get",
    "Verif.App.C70_line",
    "Verif.App.C70_word",
    "Verif.Blob.C70_blob_get"
   ],
   "note": "The key totp (a code is computed, see C95) and updated (printed as a date) are not covered."
  },
  {
   "property": "C71",
   "status": "proved",
   "theorems": [
    "Verif.App.C71_verbatim",
    "Verif.App.C71_stored"
   ],
   "note": ""
  },
  {
   "property": "C75",
   "status": "partial",
   "theorems": [
    "Verif.App.C75_false",
    "Verif.App.C75_login_false",
    "Verif.App.C68_cancelled"
   ],
   "note": "False: cancelling the prompt of passwd or of login ends the program without saving (C75_false, C75_login_false). Proved for Ctrl-D in add."
  },
  {
   "property": "C76",
   "status": "partial",
   "theorems": [
    "Verif.App.C76_line_partial",
    "Verif.App.C76_session_partial",
    "Verif.App.C76_entries_partial",
    "Verif.App.C76_sync_partial",
    "Verif.App.C76_whole_line_partial",
    "Verif.App.C76_whole_session_partial"
   ],
   "note": "Lines other than sync only append. With sync every operation is kept, in the order they had (C76_whole_session_partial), under the conditions of C87."
  },
  {
   "property": "C74",
   "status": "partial",
   "theorems": [
    "Verif.App.C74_single_partial",
    "Verif.App.C74_life_partial",
    "Verif.App.C74_multi_partial",
    "Verif.App.C74_shared_life_partial",
    "Verif.App.C74_session_partial",
    "Verif.App.C74_file_partial",
    "Verif.App.C74_exit",
    "Verif.App.C74_autosync",
    "Verif.App.C74_false"
   ],
   "note": "Proved over the whole life of a file, from its creation through the first adduser to any number of users and sessions (C74_file_partial): everything typed is well-formed text, sync and rekeyall are not used, and entries under user/ are left to the account commands. Without the last condition it is false: add user/x or rmk user/a mkey make the file impossible to save (C74_false)."
  },
  {
   "property": "C77",
   "status": "partial",
   "theorems": [
    "Verif.App.C77_line_partial",
    "Verif.App.C77_session_partial",
    "Verif.App.C77_text_session",
    "Verif.App.C77_saved",
    "Verif.App.C77_sync_partial",
    "Verif.App.C77_sync_saved_partial",
    "Verif.App.C77_net_partial",
    "Verif.App.C77_whole_line_partial",
    "Verif.App.C77_whole_session_partial",
    "Verif.App.C77_false"
   ],
   "note": "Proved when the lines and answers are well-formed UTF-8. False otherwise: two different passwords leave the same file (C77_false). With sync nothing is supposed of the files that remotes hold (C77_sync_partial); over ssh it is enough that those who answer have addresses made of text (C77_net_partial)."
  },
  {
   "property": "C78",
   "status": "proved",
   "theorems": [
    "Verif.App.C78_yesno",
    "Verif.App.C78_consent",
    "Verif.App.C78_yes_or_no",
    "Verif.App.C78_string",
    "Verif.App.C78_menu",
    "Verif.App.C78_menu_range",
    "Verif.App.C78_multiline"
   ],
   "note": "A line that is a single full stop, or two blank lines, end a text of several lines."
  },
  {
   "property": "C79",
   "status": "partial",
   "theorems": [
    "Verif.App.C79_rmk",
    "Verif.App.C79_set",
    "Verif.App.C79_set_refused",
    "Verif.App.C79_set_pass",
    "Verif.App.C79_set_lines",
    "Verif.App.C79_edit",
    "Verif.App.C79_label",
    "Verif.App.C79_label_read_partial",
    "Verif.App.C79_rmlabel_partial",
    "Verif.App.C79_mv",
    "Verif.App.C79_rm",
    "Verif.App.C79_line",
    "Verif.App.C79_label_false",
    "Verif.App.C79_rmlabel_false"
   ],
   "note": "Proved but for labels: a label with a comma is read back as several (C79_label_false), and rmlabel removes other labels than the one named (C79_rmlabel_false)."
  },
  {
   "property": "C80",
   "status": "partial",
   "theorems": [
    "Verif.App.C80_merge_partial",
    "Verif.App.C80_blobs_partial",
    "Verif.App.C80_all_tried",
    "Verif.App.C80_pulled",
    "Verif.App.C80_sync_partial",
    "Verif.App.C80_overlooked",
    "Verif.App.C80_false"
   ],
   "note": "Proved for histories of one file that Merge can tell apart; without that a remote is taken for the local file although it differs, nothing is merged and nothing is sent, and sync reports success (C80_overlooked, C80_false)."
  },
  {
   "property": "C81",
   "status": "partial",
   "theorems": [
    "Verif.App.C81_ls",
    "Verif.App.C81_labels_partial",
    "Verif.App.C81_show",
    "Verif.App.C81_show_old",
    "Verif.App.C81_login",
    "Verif.App.C81_open",
    "Verif.App.C81_dump",
    "Verif.App.C81_completion",
    "Verif.App.C81_line",
    "Verif.App.C81_login_line",
    "Verif.App.C81_order",
    "Verif.App.C81_lines",
    "Verif.App.C81_width",
    "Verif.App.C81_stable_partial",
    "Verif.App.C81_stable_false",
    "Verif.App.C81_aligned_partial",
    "Verif.App.C81_aligned_false",
    "Verif.App.C81_multiline_false",
    "Verif.App.C81_distinct_false",
    "Verif.App.C81_tail",
    "Verif.App.C81_labels_text"
   ],
   "note": "What is shown is proved. The layout is not: the width of the first column depends on the order in which the map is visited (C81_stable_false), a key as long as the column pushes its value one column on (C81_aligned_false), and different values can look alike (C81_multiline_false, C81_distinct_false). labels needs that no entry carries a label twice."
  },
  {
   "property": "C82",
   "status": "proved",
   "theorems": [
    "Verif.App.C82_port",
    "Verif.App.C82_port_false",
    "Verif.App.C82_unknown",
    "Verif.App.C82_added",
    "Verif.App.C82_counts"
   ],
   "note": "The prompt for the port takes every number, though its message says 1 to 65534 (C82_port_false)."
  },
  {
   "property": "C83",
   "status": "partial",
   "theorems": [
    "Verif.App.C83_typed",
    "Verif.App.C83_only",
    "Verif.App.C83_cancel_false",
    "Verif.App.C83_long_false",
    "Verif.App.C83_lower_false",
    "Verif.App.C83_prompt"
   ],
   "note": "Proved for programs that escape as pinentry does and send the password in one line; every other conversation is an error (C83_only). A cancelled window is taken for an empty password, which can then become the password of the file (C83_cancel_false); long passwords are refused (C83_long_false)."
  },
  {
   "property": "C84",
   "status": "partial",
   "theorems": [
    "Verif.App.C84_file_partial",
    "Verif.App.C84_false",
    "Verif.App.C84_short_partial",
    "Verif.App.C84_name",
    "Verif.App.C84_short_false"
   ],
   "note": "False when the default file is given explicitly and $BPASS is set (C84_false), and for directories that begin with a letter outside ASCII (C84_short_false); proved otherwise."
  },
  {
   "property": "C85",
   "status": "partial",
   "theorems": [
    "Verif.App.C85_text_partial",
    "Verif.App.C85_units",
    "Verif.App.C85_keys_partial",
    "Verif.App.C85_crash_false",
    "Verif.App.C85_letter_false",
    "Verif.App.C85_trim_false",
    "Verif.App.C85_stale_false",
    "Verif.App.C85_pair_false"
   ],
   "note": "Proved for text without backspace however it is grouped, and for ASCII keys one at a time with backspace on a line that is not empty, both up to white space at the ends. Otherwise false: crash on an empty line, half letters, lost white space, repeated backspaces."
  },
  {
   "property": "C86",
   "status": "partial",
   "theorems": [
    "Verif.App.C86_new",
    "Verif.App.C86_line_partial",
    "Verif.App.C86_session_partial",
    "Verif.App.C86_reads",
    "Verif.App.C86_clock_false"
   ],
   "note": "Proved for all lines other than sync (that is C87) if every reading of the clock is later than the one before and than the log, and uuids are never drawn twice. Without the first it is false: two operations get the same time (C86_clock_false)."
  },
  {
   "property": "C87",
   "status": "partial",
   "theorems": [
    "Verif.App.C87_sync_partial",
    "Verif.App.C87_sound_sync",
    "Verif.App.C87_line_partial",
    "Verif.App.C87_session_partial",
    "Verif.App.C87_program_partial",
    "Verif.App.C87_file_partial",
    "Verif.App.C87_names_false"
   ],
   "note": "Names are not unique: an entry made on two machines under one name is there twice, and which one a command uses depends on the order of a map (C87_names_false); nothing calls RenameDuplicates. Everything else is proved, and all of it if no name was given twice, for remotes that hold such histories of the same file and clocks that agree; crashes and failures of sync itself are C25, C28, C29 and C65."
  },
  {
   "property": "C88",
   "status": "partial",
   "theorems": [
    "Verif.App.C88_newest",
    "Verif.App.C88_opens_partial",
    "Verif.App.C88_first_partial",
    "Verif.App.C88_line_partial",
    "Verif.App.C88_sync_partial",
    "Verif.App.C88_session_partial",
    "Verif.App.C88_saved_partial",
    "Verif.App.C88_run_partial",
    "Verif.App.C88_life_partial",
    "Verif.App.C88_next_partial",
    "Verif.App.C88_overlap_false",
    "Verif.App.C88_masters_false",
    "Verif.App.C88_passwd_false"
   ],
   "note": "Proved for machines that share one master key and do not set passwords of the same user at overlapping times, over any sequence of lines including sync (except rekeyall, which is C52): the file opens with the password set last. C88_life_partial is about any number of runs of the program, with the JSON of the real format: after each the file opens for every user with the password set last for them, and C88_next_partial says where new passwords can come from (given at a prompt, or brought by a sync). False without these: overlapping changes are mixed and the file opens with no password that was ever set (C88_overlap_false); a first user added on two machines gives two master keys and a file that may not open (C88_masters_false); in a file without users a new password is not sent when nothing else changed (C88_passwd_false)."
  },
  {
   "property": "C89",
   "status": "partial",
   "theorems": [
    "Verif.App.C89_intact_partial",
    "Verif.App.C89_agree_partial",
    "Verif.App.C89_text_intact_partial",
    "Verif.App.C89_text_agree_partial",
    "Verif.App.C89_users_intact_partial",
    "Verif.App.C89_users_agree_partial",
    "Verif.App.C89_users_text_intact_partial",
    "Verif.App.C89_users_text_agree_partial",
    "Verif.App.C89_entries",
    "Verif.App.C89_stuck",
    "Verif.App.C89_users_stuck",
    "Verif.App.C89_false"
   ],
   "note": "Proved for files without users, and for files with users as long as nobody touches the accounts (C89_users_…), and one shared file that can always be read and written, where clocks and uuids of the machines differ and no name is given to two entries: nothing is ever lost (C89_intact_partial), and two rounds of syncs make everybody agree if no entry was changed on one side after it was deleted on the other (C89_agree_partial). The same holds with the JSON codec of bpass for everything typed that is well-formed UTF-8 (C89_text_intact_partial, C89_text_agree_partial). False otherwise: after such a conflict the machine is cut off from the shared file for good, whatever the user answers and whatever else is done, while sync reports no error (C89_stuck, C89_false)."
  },
  {
   "property": "C90",
   "status": "partial",
   "theorems": [
    "Verif.App.C90_scp_partial",
    "Verif.App.C90_file",
    "Verif.App.C90_apart",
    "Verif.App.C90_addsync_partial",
    "Verif.App.C90_addsync_file_partial",
    "Verif.App.C90_ascii",
    "Verif.App.C90_false",
    "Verif.App.C90_port_false",
    "Verif.App.C90_host_false",
    "Verif.App.C90_crash_false"
   ],
   "note": "Proved for file remotes, and for scp remotes with hosts and ports that URLs can have, up to the first slash of the path. False: an absolute path is looked up in the home directory (C90_false); a port with a sign (C90_port_false) or a host with a character hosts cannot have (C90_host_false) is taken by addsync but the remote is then skipped; set takes an address without path, with which sync crashes (C90_crash_false)."
  },
  {
   "property": "C91",
   "status": "proved",
   "theorems": [
    "Verif.App.C91_pull",
    "Verif.App.C91_push",
    "Verif.App.C91_changed",
    "Verif.App.C91_remember",
    "Verif.App.C91_accepted_once"
   ],
   "note": "That a server has the private key of the host key it shows is ssh's part and not modelled."
  },
  {
   "property": "C92",
   "status": "partial",
   "theorems": [
    "Verif.App.C92_command",
    "Verif.App.C92_pull_partial",
    "Verif.App.C92_push_partial",
    "Verif.App.C92_got",
    "Verif.App.C92_done",
    "Verif.App.C92_writes",
    "Verif.App.C92_written",
    "Verif.App.C92_command_false",
    "Verif.App.C92_size_false"
   ],
   "note": "What is read counts only after a command that ended well (C92_got, C92_done), whoever answers. That it is the right file is proved for paths of characters that mean nothing to a shell and files up to 2 GB. Paths are not quoted, so that they can be several words or run commands on the server (C92_command_false); larger files are pushed but can never be pulled (C92_size_false)."
  },
  {
   "property": "C93",
   "status": "partial",
   "theorems": [
    "Verif.App.C93_same",
    "Verif.App.C93_step_partial",
    "Verif.App.C93_run_partial",
    "Verif.App.C93_agree_partial"
   ],
   "note": "Proved under the conditions of C89_text_agree_partial, for a server that answers, whose key is on record, and a remote whose address stays the same and has a path without special characters."
  },
  {
   "property": "C94",
   "status": "partial",
   "theorems": [
    "Verif.App.C94_target",
    "Verif.App.C94_partial",
    "Verif.App.C94_file_partial",
    "Verif.App.C94_false"
   ],
   "note": "Proved where the address of the remote does not change in the merge. If it does, sync reads the file at the old address and overwrites the one at the new address unread (C94_false)."
  },
  {
   "property": "C95",
   "status": "partial",
   "theorems": [
    "Verif.App.C95_partial",
    "Verif.App.C95_typed_partial",
    "Verif.App.C95_url_partial",
    "Verif.App.C95_digits",
    "Verif.App.C95_set",
    "Verif.App.C95_refused",
    "Verif.App.C95_get",
    "Verif.App.C95_spaces_false",
    "Verif.App.C95_any_false",
    "Verif.App.C95_hotp_false",
    "Verif.App.C95_params_false"
   ],
   "note": "Proved for keys spelt in base32 and totp addresses. Everything typed as a key is stored, also what never gives a code (C95_any_false, C95_spaces_false), as are keys that count (C95_hotp_false); digits, period and algorithm of an address are ignored (C95_params_false). HMAC-SHA1 is an argument."
  },
  {
   "property": "C96",
   "status": "partial",
   "theorems": [
    "Verif.App.C96_file",
    "Verif.App.C96_sync_partial",
    "Verif.App.C96_mine_partial",
    "Verif.App.OwnSyncDemo.C96_silent_false"
   ],
   "note": "Proved for sync without a name that merges (mergeBlobs without error), under the conditions of C87. The known hosts are excluded: sync writes them. When the histories cannot be merged sync reports success, takes nothing over and sends nothing (C96_silent_false)."
  },
  {
   "property": "C97",
   "status": "partial",
   "theorems": [
    "Verif.App.C97_partial",
    "Verif.App.C97_net",
    "Verif.App.C97_scp",
    "Verif.App.C97_line_partial",
    "Verif.App.C97_session_partial",
    "Verif.App.C97_program_partial",
    "Verif.App.C97_first",
    "Verif.App.C97_cut_false",
    "Verif.App.CrashDemo.C97_empty_false",
    "Verif.App.CrashDemo.C97_path_false",
    "Verif.App.CrashDemo.C97_server_false",
    "Verif.App.CrashUsersDemo.C97_typo_false"
   ],
   "note": "Proved for files with and without users, also when some machines have users in the file and others not: sync, sessions and the program do not crash if each remote holds nothing or a file that bpass wrote with something in it, each passphrase that is typed is right or refused, servers announce no negative length, and addresses and known hosts are of the form bpass writes. Otherwise false: a file cut within its first 48 bytes (C97_cut_false), a new file without operations under another passphrase (C97_empty_false), an address without a path, which set accepts (C97_path_false), a negative length or a malformed line of known hosts (C97_server_false), a wrong passphrase for which what comes out of the ciphers is shorter than a hash (C97_typo_false)."
  },
  {
   "property": "C98",
   "status": "partial",
   "theorems": [
    "Verif.App.C98_partial",
    "Verif.App.C98_line_partial",
    "Verif.App.C98_session_partial",
    "Verif.App.C98_program_partial",
    "Verif.App.C98_net_partial",
    "Verif.App.C98_run_partial",
    "Verif.App.C98_life_partial",
    "Verif.App.C98_next_partial",
    "Verif.App.OwnSyncDemo.C98_pass_false",
    "Verif.App.OwnSyncDemo.C98_users_false"
   ],
   "note": "Proved if the remotes hold files without users; C98_partial also when sync fails or crashes. It need not be the passphrase the file was opened with: that of a newer remote replaces it silently (C98_pass_false). With a remote that has users the file here gets users too, and the passphrase alone no longer opens it (C98_users_false); passwords of users are C88. adduser is excluded. C98_life_partial is the whole life of a file, any number of runs with any number of syncs."
  },
  {
   "property": "C99",
   "status": "partial",
   "theorems": [
    "Verif.App.C99_calendar",
    "Verif.App.C99_typed_partial",
    "Verif.App.C99_accepted",
    "Verif.App.C99_refused",
    "Verif.App.C99_open_partial",
    "Verif.App.C99_life_partial",
    "Verif.App.C99_file_partial",
    "Verif.App.C99_years_partial",
    "Verif.App.C99_users_years_partial",
    "Verif.App.C99_program_partial",
    "Verif.App.C99_shown_partial",
    "Verif.App.C99_local",
    "Verif.App.C99_far_false",
    "Verif.App.C99_zero_false",
    "Verif.App.C99_cut_false",
    "Verif.App.C99_zone_false",
    "Verif.App.C99_date_false"
   ],
   "note": "Proved for the years 1678 to 2261: C99_open_partial for every file with a history as bpass writes it, C99_life_partial for the life of a file without users and without sync, C99_file_partial for files with users whose accounts change, C99_years_partial and C99_users_years_partial for files that are synced, without and with users. Otherwise false: from 2263 on the file shows nothing (C99_far_false), the first second of the year 1 opens it for writing (C99_zero_false), a time between two operations of one command can show an entry without a name and crash ls (C99_cut_false). The dates shown are in local time, those typed in UTC (C99_zone_false), and the date shown for a change is before it (C99_date_false); in UTC the second after it has it (C99_shown_partial). That sync inserts older operations of other machines is not counted as a change of the past."
  },
  {
   "property": "C100",
   "status": "partial",
   "theorems": [
    "Verif.Crypt.C100_size",
    "Verif.Crypt.C100_front",
    "Verif.Crypt.C100_single",
    "Verif.Crypt.C100_fresh",
    "Verif.Crypt.C100_fresh_false",
    "Verif.Crypt.C100_names_false",
    "Verif.App.C100_saved",
    "Verif.App.C100_saved_users_false"
   ],
   "note": "What of the file does not depend on the plain text is its size and its front (C100_size, C100_front, C100_single); that the cipher text itself gives nothing away is a property of the primitives that is not stated. With users it is false: the initialisation vector is kept like the master key, no random bytes go into the file, and the same contents give the same file (C100_fresh_false), and each name is in the file as its SHA-256, without a salt, so that a guessed name can be checked (C100_names_false)."
  },
  {
   "property": "C101",
   "status": "partial",
   "theorems": [
    "Verif.App.C101_line",
    "Verif.App.C101_session",
    "Verif.App.C101_reads",
    "Verif.App.C101_false",
    "Verif.App.C101_names_partial"
   ],
   "note": "False: only rekeyall, sync and the removal of the last user change the master key (C101_line, C101_session), it is in the memory of everybody who opened the file, and reading with it needs no passphrase (C101_reads). So a user who was removed, or whose password was changed, reads every later file with what they knew (C101_false). rekeyall does change the key, but then nobody can open the file (C52). What holds is that the name of the removed user is no longer in the file (C101_names_partial)."
  },
  {
   "property": "C102",
   "status": "partial",
   "theorems": [
    "Verif.App.C102_parse",
    "Verif.App.C102_named",
    "Verif.App.C102_reach",
    "Verif.App.C102_line",
    "Verif.App.C102_session_partial",
    "Verif.App.C102_sync_partial",
    "Verif.App.C102_program_partial",
    "Verif.App.C102_import_partial",
    "Verif.App.C102_stuck",
    "Verif.App.C102_query",
    "Verif.App.C102_hidden",
    "Verif.App.C102_false"
   ],
   "note": "Proved for everything typed at the prompt, and for sync if the remotes hold only such names; C102_reach is about commands without a current entry. False for an import: it replaces only blanks, so an empty name and names with tabs or other white space stay (C102_false). No line can remove or rename such an entry (C102_stuck), and one without a name cannot be read either (C102_query, C102_hidden)."
  },
  {
   "property": "C103",
   "status": "partial",
   "theorems": [
    "Verif.App.C103_taken",
    "Verif.App.C103_text",
    "Verif.App.C103_wiped",
    "Verif.App.C103_partial",
    "Verif.App.C103_others",
    "Verif.App.C103_editor",
    "Verif.App.C103_stored",
    "Verif.App.C103_replaced_false",
    "Verif.App.C103_notRun",
    "Verif.App.C103_failed_false",
    "Verif.App.C103_args_false",
    "Verif.App.C103_lost_false"
   ],
   "note": "Proved for editors that write into the file they are given and end well. False for those that save a new file under its name (C103_replaced_false), that cannot be run (C103_notRun) or that end with an error after writing more than was there (C103_failed_false). EDITOR with arguments is taken for the name of a program (C103_args_false), and then the program ends and all unsaved work is lost (C103_lost_false). Copies the editor itself makes, and blocks a file system gives back when a file is cut, are not modelled."
  },
  {
   "property": "C104",
   "status": "partial",
   "theorems": [
    "Verif.App.C104_only",
    "Verif.App.C104_what",
    "Verif.App.C104_session",
    "Verif.App.C104_synced_partial",
    "Verif.App.C104_cp",
    "Verif.App.C104_word",
    "Verif.App.C104_code",
    "Verif.App.C104_login",
    "Verif.App.C104_login_says",
    "Verif.App.C104_accepted",
    "Verif.App.C104_set",
    "Verif.App.C104_add_asks",
    "Verif.App.C104_set_asks",
    "Verif.App.C104_addsync_asks",
    "Verif.App.C104_cleared",
    "Verif.App.C104_alone",
    "Verif.App.C104_crash_false",
    "Verif.App.C104_gen",
    "Verif.App.C104_gen_false",
    "Verif.App.C104_erased_false"
   ],
   "note": "What is copied is proved for everything typed at the prompt (C104_session for sessions without sync, C104_synced_partial with it). That the clipboard is empty afterwards is false after a crash (C104_crash_false) and for bpass gen (C104_gen, C104_gen_false), and proved for all other runs with a clipboard that works (C104_cleared); such a run also empties a clipboard it did not use (C104_erased_false)."
  },
  {
   "property": "C105",
   "status": "partial",
   "theorems": [
    "Verif.App.C105_bound",
    "Verif.App.C105_any",
    "Verif.App.C105_default",
    "Verif.App.C105_every_partial",
    "Verif.App.C105_uniform_false",
    "Verif.App.C105_backslash_false",
    "Verif.App.C105_digit_false"
   ],
   "note": "The bounds are proved for all lengths and settings; that every password can come out for lengths up to 255. That all are equally likely is false: a byte modulo the size of the alphabet prefers its first characters (C105_uniform_false), the backslash is listed twice (C105_backslash_false), and the class is picked before the character (C105_digit_false). That the bytes are uniform is an assumption on crypto/rand."
  },
  {
   "property": "C106",
   "status": "partial",
   "theorems": [
    "Verif.App.C106_opens_partial",
    "Verif.App.C106_last_partial",
    "Verif.App.C106_looking_partial",
    "Verif.App.C106_kept_partial",
    "Verif.App.C106_kept_between_partial",
    "Verif.App.C106_kept_false",
    "Verif.App.C106_password_false",
    "Verif.App.C106_mixed",
    "Verif.App.C106_mixed_partial",
    "Verif.App.C106_mixed_false"
   ],
   "note": "The file always opens, with the passwords and entries of the program that saved last (C106_opens_partial). But that program leaves what it found at its start and what was typed in it, and everything saved by others in between is gone without a message (C106_last_partial, C106_kept_false). It saves even if nothing was changed, so looking something up also takes back the work of others (C106_looking_partial), and a password that was changed (C106_password_false). Nothing is lost if a program is started only while no other runs (C106_kept_partial). Two saves at the same time can leave a file that nobody can open, if one is longer (C106_mixed, C106_mixed_false). Sessions with sync are not covered."
  },
  {
   "property": "C107",
   "status": "partial",
   "theorems": [
    "Verif.App.C107_intact_partial",
    "Verif.App.C107_agree_partial",
    "Verif.App.C107_users_intact_partial",
    "Verif.App.C107_users_agree_partial",
    "Verif.App.C107_apart",
    "Verif.App.C107_agree_false",
    "Verif.App.C107_share_false"
   ],
   "note": "No machine ever loses an operation, and the shared file stays readable with the password (C107_intact_partial, C107_users_intact_partial). But it can lose what was pushed (C107_share_false). What was overwritten comes back when the machines then sync one after the other twice, if no machine takes the log of the share for its own when it is not (C107_agree_partial, C107_users_agree_partial). That can happen after overlapping syncs, since Merge only compares the lengths and the first and last times: then two machines never agree again, however often all sync, and nobody is told (C107_apart, C107_agree_false). Assumed as in C89: one sync entry, distinct times, a codec that writes and reads what there is; in files with users nobody changes the accounts."
  },
  {
   "property": "C108",
   "status": "partial",
   "theorems": [
    "Verif.App.C108_opens_partial",
    "Verif.App.C108_user_partial",
    "Verif.App.C108_silent",
    "Verif.App.C108_giveUp",
    "Verif.App.C108_only",
    "Verif.App.C108_merged_partial",
    "Verif.App.C108_next",
    "Verif.App.C108_stuck",
    "Verif.App.C108_same_salt",
    "Verif.App.C108_auto_false",
    "Verif.App.C108_typo_false",
    "Verif.App.UnlockDemo.C108_once_false",
    "Verif.App.UnlockDemo.C108_name_false",
    "Verif.App.UnlockDemo.C108_salt_false"
   ],
   "note": "Proved where the user name of the session, if there is one, is the one in the remote, and the salts differ or the credentials are the same. A user name is never asked for twice, since ErrUnknownUser is never returned (C46): who has another name in the remote, or mistypes it, cannot open the remote (C108_stuck, C108_name_false). With the salt of the session and another key no passphrase is ever looked at (C108_same_salt, C108_salt_false). An answer is forgotten after each remote, so that the same passphrase is asked for again (C108_once_false). That a wrong passphrase is refused and does not crash is a hypothesis (C45). A passphrase that crashes Decrypt (C45) crashes sync in the middle of a session; if it is the one of the session, which is tried first without asking, sync crashes each time whatever is typed (C108_auto_false, C108_typo_false)."
  },
  {
   "property": "C109",
   "status": "partial",
   "theorems": [
    "Verif.App.C109_dated",
    "Verif.App.C109_show",
    "Verif.App.C109_past",
    "Verif.App.C109_new",
    "Verif.App.C109_sync_partial",
    "Verif.App.C109_line_partial",
    "Verif.App.C109_session_partial",
    "Verif.App.C109_program_partial",
    "Verif.App.C109_tells_partial",
    "Verif.App.C109_later_partial",
    "Verif.App.C109_synced_partial",
    "Verif.App.DateDemo.C109_label_false",
    "Verif.App.DateDemo.C109_passwd_false",
    "Verif.App.DateDemo.C109_same_false",
    "Verif.App.DateDemo.C109_clock_false"
   ],
   "note": "That every entry has a date is proved for everything bpass writes at the prompt, and for sync if the remotes hold such files. That the date tells of every change is false in two cases: when the last label is removed (C109_label_false), and when the password of a user is changed, by passwd, rekey or rekeyall (C109_passwd_false); in all others it holds (C109_tells_partial). Setting a value to what it is counts as a change (C109_same_false). If the clock runs the date never goes back (C109_later_partial), else it can (C109_clock_false). That an import keeps every entry dated is C123_import."
  },
  {
   "property": "C110",
   "status": "partial",
   "theorems": [
    "Verif.Json.C110_dumpall",
    "Verif.Json.C110_history",
    "Verif.Json.C110_backup_partial",
    "Verif.Json.C110_dumpall_false",
    "Verif.App.C110_dump_tells",
    "Verif.App.C110_dump_partial",
    "Verif.App.C110_dump_tame",
    "Verif.App.C110_bare",
    "Verif.App.C110_line",
    "Verif.App.C110_session_partial",
    "Verif.App.C110_synced_partial",
    "Verif.App.C110_sync_partial",
    "Verif.App.C110_key_false",
    "Verif.App.C110_show_false"
   ],
   "note": "dumpall: what is read from it is what is read from the file for every store (C110_dumpall), so the limits are those of C11: ill-formed text is replaced (C110_dumpall_false). It also has what was deleted or replaced (C110_history). dump: proved if no key has a blank in it. No line and no session makes such a key (C110_line, C110_session_partial), nor does sync if the remotes have none (C110_sync_partial). Otherwise false (C110_key_false). show does not quote, so other entries can look the same and a value can reach the terminal as an order (C110_show_false). Colours, and what follows after the bytes are printed, are not modelled."
  },
  {
   "property": "C111",
   "status": "partial",
   "theorems": [
    "Verif.App.C111_rm",
    "Verif.App.C111_rm_false",
    "Verif.App.C111_printed",
    "Verif.App.C111_file_partial",
    "Verif.App.C111_program_partial",
    "Verif.App.C111_years_partial",
    "Verif.App.C111_users_years_partial"
   ],
   "note": "False, and what holds is the opposite: nothing that was saved ever leaves the file. After rm the log is the old one with one more operation, and at an earlier time the file shows the entry with all it had (C111_rm, C111_rm_false). Everybody who can open the file after any number of sessions, with passwords changed and users added or removed, reads every operation that ever was in it (C111_file_partial, without sync; C111_years_partial and C111_users_years_partial with sync, without and with users). A run that ends with an error, overlapping programs (C106) and an entry whose add was given up are not covered."
  },
  {
   "property": "C112",
   "status": "partial",
   "theorems": [
    "Verif.App.C112_offers",
    "Verif.App.C112_line",
    "Verif.App.C112_session_partial",
    "Verif.App.C112_synced_partial",
    "Verif.App.C112_commands",
    "Verif.App.C112_commands_false",
    "Verif.App.C112_past_false",
    "Verif.App.C112_current_false"
   ],
   "note": "Holds for the names and for what every line does (C112_offers, C112_line); sessions without sync (C112_session_partial) and with it (C112_synced_partial), a single line may be any. False in three places: login, dump, dumpall and rekeyall are not offered (C112_commands_false); in a file opened as of an earlier time TAB may crash the program (C112_past_false); with a current entry the name offered after set is taken for a key, and the value goes to the current entry (C112_current_false). Which of the words readline shows for the letters typed, and TAB at the prompts inside a command, are not modelled."
  },
  {
   "property": "C113",
   "status": "partial",
   "theorems": [
    "Verif.App.C113_private",
    "Verif.App.C113_always",
    "Verif.App.C113_edit",
    "Verif.App.C113_export",
    "Verif.App.C113_kept",
    "Verif.App.C113_export_false",
    "Verif.App.C113_existing_false"
   ],
   "note": "Holds for the password file, pushed files and the temporary files of edit, for every umask and at every moment (C113_private, C113_always, C113_edit). False for exports: os.Create asks for 0666, so with the usual umask 022 everybody on the machine can read all passwords (C113_export_false); C113_export says for exactly which umasks. A file that is there keeps its permissions whatever is written (C113_kept, C113_existing_false). Not modelled: directories, links, access lists, files on remote machines (scp sends mode 0600, C25)."
  },
  {
   "property": "C114",
   "status": "partial",
   "theorems": [
    "Verif.App.C114_same",
    "Verif.App.C114_exact",
    "Verif.App.C114_only",
    "Verif.App.C114_answers",
    "Verif.App.C114_value_false",
    "Verif.App.C114_valid_false"
   ],
   "note": "Holds for answers: exactly the lines with a known and permitted command are remembered, whatever is answered (C114_exact, C114_only, C114_answers). False for values given in a line of set (C114_value_false), and lines that the command refused for their syntax are remembered too (C114_valid_false). The memory of the editor itself (a library) is not modelled."
  },
  {
   "property": "C115",
   "status": "partial",
   "theorems": [
    "Verif.App.C115_passwd_partial",
    "Verif.App.C115_rekey",
    "Verif.App.C115_rekey_single",
    "Verif.App.C115_added",
    "Verif.App.C115_reused",
    "Verif.App.C115_passwd_false",
    "Verif.App.C115_rekey_false",
    "Verif.App.C115_created_false",
    "Verif.App.C115_reused_false"
   ],
   "note": "Holds for passwd about oneself, rekey in files with users, rekey without a name in a file that was opened, and adduser with a password. False: passwd with the name of another user (C115_passwd_false); rekey with a name in a file without users asks for a new password, announces it and does nothing (C115_rekey_false); in a new file rekey refuses a passphrase that is not empty, as the session does not have it (C115_created_false); adduser with an empty password says that one's key was reused, but nobody can use that account (C115_reused_false)."
  },
  {
   "property": "C116",
   "status": "partial",
   "theorems": [
    "Verif.App.C116_left",
    "Verif.App.C116_partial",
    "Verif.App.C116_stays_any_false",
    "Verif.App.C116_stays_false",
    "Verif.App.C116_crash_false",
    "Verif.App.C116_start_false"
   ],
   "note": "What is left is told from a file by its length alone, unless it is a multiple of 8 and at least 88: then nobody can decrypt it (C116_left, C116_partial). For the other lengths that it does not decrypt is the assumption that no padding and hash fit by chance. That it is repaired is false: sync sends nothing to a remote whose contents it does not understand (C116_stays_false, C116_stays_any_false), and a torn file for one user crashes sync on every machine, at the start of every program, before any other remote is merged (C116_crash_false, C116_start_false). Only removing the file by hand or turning off the automatic sync helps."
  },
  {
   "property": "C117",
   "status": "partial",
   "theorems": [
    "Verif.App.C117_merge",
    "Verif.App.C117_partial",
    "Verif.App.C117_repaired_partial",
    "Verif.App.C117_password_false"
   ],
   "note": "Holds: however sync ends, credentials and history stay as they were and only lines about known hosts are added (C117_merge, C117_partial); when sync succeeds and the earlier version opens with the credentials of the session, the current file is sent to that remote (C117_repaired_partial). False when only the password of a file without users was changed since: the histories look the same, nothing is sent, and the file for the old password stays at the remote (C117_password_false). An earlier version for another passphrase makes sync ask for it (C108) or may crash it (C45)."
  },
  {
   "property": "C118",
   "status": "partial",
   "theorems": [
    "Verif.App.C118_sync_partial",
    "Verif.App.C118_partial",
    "Verif.App.C118_merged_partial",
    "Verif.App.C118_unrecorded",
    "Verif.App.AfterDemo.C118_password_false",
    "Verif.App.AfterDemo.C118_silent_false",
    "Verif.App.AfterDemo.C118_failed_false"
   ],
   "note": "Holds when something was recorded: if nobody else changed the file, every remote that is empty or behind and opens with the credentials of the session is sent the file with everything recorded (C118_partial); if others did, the file that is sent has every operation of both (C118_merged_partial, if the histories can be merged). False otherwise: the end of a run looks only at the length of the history (C118_unrecorded), and a changed password of a file without users is not in it, so that the remotes keep the file for the old password (C118_password_false); when the histories cannot be merged (C118_silent_false) or a remote cannot be written (C118_failed_false) the run ends well all the same."
  },
  {
   "property": "C119",
   "status": "partial",
   "theorems": [
    "Verif.App.C119_file",
    "Verif.App.C119_partial",
    "Verif.App.AfterDemo.C119_false"
   ],
   "note": "Holds for the file (C119_file), and for the remotes if no line was sync (C119_partial). False after sync: the program says that it did not save, but what was done is at the remotes and comes back at the next start (C119_false)."
  },
  {
   "property": "C120",
   "status": "partial",
   "theorems": [
    "Verif.App.C120_partial",
    "Verif.App.C120_aborted",
    "Verif.App.C120_sent_partial",
    "Verif.App.C120_sync_sent_partial",
    "Verif.App.C120_push",
    "Verif.App.OnceDemo.C120_false",
    "Verif.App.OnceDemo.C120_each_false",
    "Verif.App.OnceDemo.C120_push_false"
   ],
   "note": "Holds if the merge goes through and brings no other key for the address (C120_partial). It is false if the merge is given up: the session is as before, no error is reported, and the next sync asks again (C120_aborted, C120_false). It is false for a server that two sync entries share: each has its own list (C120_each_false). It is false while sending: a line accepted there is dropped if the sending fails (C120_push, C120_push_false). If it succeeds the line is on record as well (C120_sent_partial from the point where the merged log is in place, C120_sync_sent_partial for a whole sync whose merge goes through; it happens when the merge has changed the address of a remote)."
  },
  {
   "property": "C121",
   "status": "partial",
   "theorems": [
    "Verif.App.C121_partial",
    "Verif.App.C121_session_partial",
    "Verif.App.C121_typed_partial",
    "Verif.App.C121_set_partial",
    "Verif.App.C121_copies_partial",
    "Verif.App.C121_ignored",
    "Verif.App.C121_login",
    "Verif.App.ContextDemo.C121_false",
    "Verif.App.ContextDemo.C121_pass_false",
    "Verif.App.ContextDemo.C121_set_false"
   ],
   "note": "The first two parts hold for every command but login with an argument (C121_partial, and for sessions C121_session_partial); C121_typed_partial and C121_set_partial say it of lines as typed. cd and rm are about the current entry itself. The third part is false: open, label, dump, pass, user, email and totp do not look at the name they are given (C121_ignored), so pass shop copies the password of the current entry (C121_pass_false), and set shop pass x makes a key shop there (C121_set_false); login alone looks at the name (C121_login)."
  },
  {
   "property": "C122",
   "status": "partial",
   "theorems": [
    "Verif.App.C122_partial",
    "Verif.App.C122_written_partial",
    "Verif.App.C122_create",
    "Verif.App.C122_adduser",
    "Verif.App.C122_blocked",
    "Verif.App.RandomDemo.C122_false",
    "Verif.App.RandomDemo.C122_lost_false",
    "Verif.App.RandomDemo.C122_key_false"
   ],
   "note": "Holds for whole runs as long as no user is added while no master key can be made (C122_partial, C122_written_partial) and for new files (C122_create); requests made by sync are taken to be answered. It is false for adduser in a single-user file: the error of NewMasterKey is dropped, the command ends as if it had succeeded and leaves a user entry without keys (C122_adduser, C122_false); from the next adduser on the file cannot be saved and everything typed is lost at the end of the run (C122_blocked, C122_lost_false). It is false for addsync: if no ssh key can be made the entry is kept without one (C122_key_false)."
  },
  {
   "property": "C123",
   "status": "partial",
   "theorems": [
    "Verif.App.C123_import",
    "Verif.App.C123_file_partial",
    "Verif.App.C123_accounts",
    "Verif.App.C123_users_partial",
    "Verif.App.C123_past",
    "Verif.App.C123_false",
    "Verif.App.C123_past_false"
   ],
   "note": "C123_import holds for every end of the import, a crash included, if the clock runs and identifiers are new. That the import is saved and read back is proved for tables of valid UTF-8 (other text is changed by the JSON encoder, see C11): for files without users, new ones included (C123_file_partial), and for files with users if no name begins with user/ when in lower case, for everybody who could open the file before (C123_users_partial). Without that it is false: a record whose name begins with User/ makes a user without a key and nothing can be saved (C123_false). It is false with --time: the import ends without an error and nothing is saved (C123_past for all such runs, C123_past_false)."
  },
  {
   "property": "C124",
   "status": "partial",
   "theorems": [
    "Verif.App.C124_scan",
    "Verif.App.C124_long",
    "Verif.App.C124_prompt",
    "Verif.App.C124_unsaved",
    "Verif.App.C124_exit",
    "Verif.App.C124_text",
    "Verif.App.C124_dot",
    "Verif.App.C124_false"
   ],
   "note": "Lines shorter than 65535 bytes that do not end in a carriage return are delivered as typed (C124_scan), and what is typed after exit does not matter (C124_exit). That the end of the input keeps the run is false on Windows: the editor reports an interruption, so without a line exit nothing is ever saved (C124_prompt, C124_unsaved for all texts and files, C124_false), and a text of several lines can be ended with a dot (C124_dot) or two blank lines only (C124_text). After a line of 65536 bytes or more nothing is read, not even exit (C124_long). The console itself and ctrl-c as a signal are not modelled."
  },
  {
   "property": "C125",
   "status": "partial",
   "theorems": [
    "Verif.App.C125_sync",
    "Verif.App.C125_unmerged",
    "Verif.App.C125_single_partial",
    "Verif.App.C125_multi_partial",
    "Verif.App.C125_false"
   ],
   "note": "Proved if no remote can be read and no new key is accepted (C125_sync, and for whole runs C125_single_partial and C125_multi_partial), and for a merge that is declined or fails (C125_unmerged). Whole runs are without the command sync at the prompt, with the JSON codec and valid text, and in files with users the user entries are left to the account commands. In general it is false (C125_false): when the second synchronisation of a run fails, main ends without saving. It fails if a sync entry was deleted by another machine while its server's key is new here, because the key is then recorded in an entry that is gone. Not covered by a positive theorem: runs in which some remotes answer and others do not (for the merge itself see C26, C27, C29)."
  },
  {
   "property": "C126",
   "status": "partial",
   "theorems": [
    "Verif.App.C126_accounts",
    "Verif.App.C126_opens_partial",
    "Verif.App.C126_taken",
    "Verif.App.C126_nobody",
    "Verif.App.C126_crash",
    "Verif.App.C126_self",
    "Verif.App.C126_stuck",
    "Verif.App.C126_self_false",
    "Verif.App.C126_stuck_false"
   ],
   "note": "The accounts after a renaming are exactly those before with the name changed (C126_accounts), and the file is saved and opened under the new name by its user and as before by everybody else (C126_opens_partial, if the hash of the new name differs from the others and the codec is faithful to the store). A name without the prefix takes exactly that account away (C126_taken). For one's own account it is false: the program still knows its user by the old name, so passwd and rekey in the same run crash it (C126_crash, C126_self for all such runs, C126_self_false), and rm of the only, renamed account leaves the master key in place, after which nothing can be saved (C126_nobody, C126_stuck for all such runs, C126_stuck_false)."
  },
  {
   "property": "C127",
   "status": "partial",
   "theorems": [
    "Verif.App.C127_command",
    "Verif.App.C127_shown",
    "Verif.App.C127_run",
    "Verif.App.C127_past",
    "Verif.App.C127_login_false"
   ],
   "note": "Proved for every reading command (C127_command, C127_shown for what is printed or copied) and for whole runs (C127_run; C127_past: a read-only session does what another does without the refused lines). That only lines for writing are refused is false: login changes nothing in any session and is refused (C127_login_false)."
  },
  {
   "property": "C128",
   "status": "partial",
   "theorems": [
    "Verif.App.C128_line_partial",
    "Verif.App.C128_session_partial",
    "Verif.App.C128_printed",
    "Verif.App.C128_save_partial",
    "Verif.App.C128_rekeyall_false",
    "Verif.App.C128_save_false"
   ],
   "note": "Proved for every line but sync in a file in order (C128_line_partial, C128_session_partial: equal results, not only equivalent ones; rekeyall with at most one account), for the lists printed by ls and labels and offered by TAB (C128_printed), and for the saved file with at most one account (C128_save_partial). With several accounts it is false: rekeyall writes the records in the order in which the accounts were visited (C128_rekeyall_false), and the same session is saved as different files, as the header lists the accounts in that order (C128_save_false). The orders met by sync are not compared here."
  },
  {
   "property": "C129",
   "status": "partial",
   "theorems": [
    "Verif.App.C129_line_partial",
    "Verif.App.C129_session_partial",
    "Verif.App.C129_reopen_partial",
    "Verif.App.C129_account_partial",
    "Verif.App.C129_created",
    "Verif.App.C129_created_false",
    "Verif.App.C129_renamed_false"
   ],
   "note": "C129_reopen_partial and C129_account_partial save the file, open it with the password and compare all continuations: single-user files, and files with accounts for the user whose session it is. The session must know its password and user name, no entry may be current (the current entry is not saved), the codec must be faithful to the store (see C11), and the lines are those of SteadyTurn: no sync, and rekeyall with at most one account. In general it is false: the run that created the file does not keep the password, so rekey refuses there, as if the password were empty (C129_created for all such sessions, C129_created_false), and somebody who has renamed their own account crashes the program with passwd until they start again (C129_renamed_false). Values printed by get are compared; what ls, show and dump print depends on the entries only (C127)."
  },
  {
   "property": "C130",
   "status": "partial",
   "theorems": [
    "Verif.App.C130_commands",
    "Verif.App.C130_topics",
    "Verif.App.C130_few",
    "Verif.App.C130_surplus_partial",
    "Verif.App.C130_index",
    "Verif.App.C130_cd",
    "Verif.App.C130_surplus_false"
   ],
   "note": "What the help says is read off its text by Spec.usage: the lines indented by one space, <...> for arguments that must be given, [...] for the others. That a line does nothing means nothing but a message about the syntax, as messages are not modelled. Surplus arguments do not matter except for set and labels, which are described as taking any number, and for get, cp and cd, where it is false: get and cp have a third argument that only their syntax message names, refuse one that is not a number and otherwise ignore it (C130_index, with and without a current entry; witness C130_surplus_false), and cd with two or more arguments does nothing (C130_cd). What the help says about the effect of the commands is prose and is not covered here; other properties are about that."
  },
  {
   "property": "C131",
   "status": "partial",
   "theorems": [
    "Verif.App.C131_back",
    "Verif.App.C131_relay_partial",
    "Verif.App.C131_stay",
    "Verif.App.C131_cuts_partial"
   ],
   "note": "The lines are those of SteadyTurn as in C129: no sync, and rekeyall with at most one account. Whoever leaves must be able to (CanLeave): the session knows its password, the log is text, there is no current entry, and in a file with accounts the account is complete. That these hold is a hypothesis at every parting, stated of the run that stays; C129_created_false and C129_renamed_false show that it is needed. The file is encoded with the JSON codec, and runs do not synchronise by themselves (-no-auto-sync, or no such entries). C131_cuts_partial compares two ways to cut the same lines, where no line ends a run early."
  },
  {
   "property": "C132",
   "status": "partial",
   "theorems": [
    "Verif.App.C132_line_partial",
    "Verif.App.C132_session_partial",
    "Verif.App.C132_rmk_false",
    "Verif.App.C132_edit_false"
   ],
   "note": "Proved of setting: no line other than the commands for accounts, rm and sync changes a system field, provided rmk and edit are not given the name of one. Of these two it is false: rmk removes the salt of an account (C132_rmk_false), and so does edit when the text is emptied (C132_edit_false); what that leads to is in C74_false. The lines must not end in a panic, and the file must be in order (C67)."
  }
 ]
}