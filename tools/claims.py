c("C01","partial",t(T,"C01_false","C01_snapshot_is_replay_partial","C01_no_update_in_tx_partial"),
  "False as stated: Rollback compares Version > txPoint where txPoint is length+1, so exactly one applied operation stays in the snapshot (C01_false). Proved for every history in which Rollback is not called in that state, and for every history without UpdateSnapshot inside an open transaction.")
c("C02","proved",t(T,"C02_writes","C02_last_write","C02_last_write_snapshot"),
  "C02_last_write: replay from scratch, every store. C02_last_write_snapshot: maintained snapshot, histories avoiding the Rollback defect of C01.")
c("C03","proved",t(T,"C03_entry_depends_on_own_operations","C03_operation_is_local","C03_replays_iff_each_entry"))
c("C04","partial",t(T,"C04_rollback_restores_log","C04_false","C04_rollback_restores_reads_partial","C04_do"),
  "Log half proved for all work sequences; read half false when exactly one operation of the transaction was applied to the snapshot (C04_false), proved otherwise.")
c("C05","proved",t(T,"C05_rollbackN"),"For every store reached without the Rollback defect of C01.")
c("C06","proved",t(T,"C06_snapshotAt","C06_ends","C06_negative_panics"),"Negative arguments crash (C06_negative_panics).")
c("C07","proved",t(T,"C07_entrySnapshotAt","C07_too_many","C07_current"))
c("C08","proved",t(T,"C08_nVersions","C08_writes","C08_lastUpdated","C08_lastUpdated_minus_one_iff"))
c("C09","proved",t(T,"C09_log_untouched","C09_reported"))
c("C10","proved",t(T,"C10_save","C10_panics"))

c("C12","partial",t(T,"C12_false","C12_merge_is_union_partial"),
  "False when the logs have equal length and equal first and last timestamps but differ in between: Merge takes them for identical and returns the first (C12_false). Proved for all other pairs of logs.")
c("C13","partial",t(T,"C13_chronological","C13_order_preserved_partial","C13_local","C13_order","C13_false"),"Proved for all pairs of chronological logs: the result is chronological without duplicates, and what it has of either side is in that side's order (C13_order). This machine's log is kept in order whatever the logs are (C13_local). For logs that are not chronological the other side's order is kept unless the look-alike fast path confuses the logs (C13_order_preserved_partial); if it does, it is not (C13_false).")
c("C14","proved",t(T,"C14_self","C14_own_past","C14_own_past_good"))
c("C15","partial",t(T,"C15_commutative_partial","C15_false_fast_path"),"Proved for distinguishable logs; false for logs the fast path confuses (C15_false_fast_path).")
c("C16","partial",t(T,"C16_convergence_partial","C16_associative_partial","C16_false"),"Any number of replicas, any bracketing and repetition, provided no merge step meets two look-alike but different logs; false otherwise (C16_false).")
c("C17","proved",t(T,"C17_merge_replays"))
c("C18","partial",t(T,"C18_conflict_iff_partial","C18_false_fast_path","C18_conflicts_named","C18_every_entry_named"),"iff proved for all chronological logs the fast path does not confuse; false otherwise (C18_false_fast_path).")
c("C19","proved",t(T,"C19_one_round","C19_outcome","C19_panics_on_bad_logs"),"For every pair of histories bpass writes; C19_panics_on_bad_logs shows that the restriction is needed.")
c("C20","proved",t(T,"C20_never_silent","C20_root_reported"))
c("C21","partial",t(T,"C21_unresolved","C21_total_partial","C21_false"),"Two empty logs crash Merge (C21_false); otherwise total without resolutions; with the answers of C19 total for good histories.")

B="Verif.Blob."
c("C30","proved",t(B,"C30_unique_names","C30_unique_names_history"),"Every sequence of calls with any arguments and any map order, also at every earlier point of the history.")
c("C31","partial",t(B,"C31_named_partial","C31_calls_partial","C31_lookups_partial","C31_must_find","C31_false","C31_search_panics","C31_nameless_false"),
  "False for arbitrary arguments: Set and friends on an unknown uuid make the file unreadable (C31_false); Search panics on names that are not valid UTF-8 (C31_search_panics); one entry without a name makes lookups crash (C31_nameless_false). Proved for all sequences of calls on existing entries with fresh uuids for new ones.")
c("C32","partial",t(B,"C32_set_refused","C32_set_effect","C32_delete_refused_partial","C32_delete_effect_partial","C32_delete_false"),
  "Set half proved. DeleteKey protects only the exact keys name and updated; totp, iv, salt, mkey can be deleted (C32_delete_false).")
c("C33","proved",t(B,"C33_search_exact","C33_search_total"))
c("C34","partial",t("Verif.Fuzzy.","C34_match_partial","C34_exact_partial","C34_false","C34_panics"),
  "Proved for well-formed UTF-8 names; false otherwise (C34_false, C34_panics).")
c("C35","partial",t(B,"C35_labels_exact_partial","C35_false"),"Proved when no entry carries a label twice; false otherwise (C35_false).")
c("C36","partial",t(B,"C36_labels","C36_add","C36_add_one","C36_remove_only_partial","C36_remove_actual","C36_remove_first_of_two_partial","C36_remove_out_of_range","C36_false"),
  "AddLabel proved. RemoveLabel keeps only the last label (C36_remove_actual), so it is right only for a sole label and the first of two (C36_false).")
c("C37","partial",t(B,"C37_never_renames","C37_unique_noop_partial","C37_fresh","C37_taken_false","C37_false"),"RenameDuplicates never renames anything: the write is refused and the error dropped (C37_never_renames, C37_false). Nothing calls it either; C87_names_false is the case it is meant for. The name it would give is not one of those before it (C37_fresh) but can be that of a later entry (C37_taken_false).")
c("C38","proved",t(B,"C38_new_sync"),"NewSync; the import loop is covered with C60.")
c("C39","proved",t(B,"C39_selects"))

K="Verif.Pkcs7."
c("C40","proved",t(K,"C40_pad_unpad","C40_bad_k","C40_256"),"Block sizes 1..255; at 256 the padding byte wraps (C40_256).")
c("C41","partial",t(K,"C41_unpad_partial","C41_unpad_nonzero_partial","C41_false"),"A final zero byte is accepted as padding of length zero (C41_false); proved for inputs not ending in zero.")
Y="Verif.Crypt."
c("C42","proved",t(Y,"C42_single_roundtrip"),"For all primitives satisfying Spec.Lawful (sizes and block decryption inverting encryption).")
c("C43","partial",t(Y,"C43_multi_roundtrip_partial","C43_false"),"Proved up to 9999 users; from 10000 on the count does not fit into the header and Decrypt never returns the parameters (C43_false).")
c("C44","proved",t(Y,"C44_authenticated","C44_no_splice"))
c("C45","partial",t(Y,"C45_false","C45_wrong_passphrase_false","C45_mistyped_false","C45_mistyped_partial","C45_users_mistyped_false","C45_users_mistyped_partial","C45_isMultiUser_partial","C45_magic_partial")+["Verif.App.C45_open_false"],"False: truncated files crash Decrypt for every choice of ciphers (C45_false). So does a mistyped passphrase on any intact file if what it makes of the last block ends in a byte 0 or 1 (C45_mistyped_false, C45_users_mistyped_false, C45_open_false), two bytes of 256; with any other byte that differs from the one before it is refused cleanly (C45_mistyped_partial). Files with a bad header are refused cleanly.")
c("C46","partial",t(Y,"C46_unknown_partial","C46_unknownUser_false"),"ErrUnknownUser is never returned (C46_unknownUser_false). With credentials that open the first record, the outcome is a crash or ErrWrongPassphrase unless a named SHA-512 collision exists; other credentials cannot be excluded without assumptions on the ciphers.")
c("C47","partial",t(Y,"C47_single","C47_multi_partial","C47_multi","C47_unlisted","C47_any_single","C47_valid_iff","C47_key_false"),"For any bytes at all that Decrypt accepts, not only outputs of Encrypt, with any credentials whose cached key, if there is one, has 80 bytes: the parameters are valid exactly when the file has no users or the name is listed, and then encrypting with them gives a file the same credentials open to the same parameters. Not without conditions: a cached key that is too long opens the file but gives parameters that are refused, and a name that is not listed (which takes a SHA-512 coincidence, see C46) gives a user count that is one too large.")
c("C48","proved",t(Y,"C48_key_irrelevant","C48_empty_passphrase","C48_empty_passphrase_error"))
c("C49","partial",t(Y,"C49_false","C49_no_panic_partial"),"Users without master key or its iv pass validation and crash Encrypt (C49_false); proved otherwise.")
c("C50","proved",t(Y,"C50_isMultiUser"))

A="Verif.App."
S="Verif.Scp."
c("C54","partial",t(A,"C54_meets_partial","C54_impossible_exact","C54_false"),"Proved for every length that is not a positive multiple of 256; for those genPassword divides by zero (C54_false). The reported impossibility is exact.")
c("C55","partial",t(S,"C55_roundtrip_partial","C55_written","C55_false","C55_space_rejected"),"Proved for contents below 2 GiB; larger ones are sent but never accepted (C55_false). With writes that fail, C55_written.")
c("C56","partial",t(S,"C56_success_complete","C56_no_crash_partial","C56_truncated","C56_remote_error","C56_other_start","C56_response","C56_refusal","C56_not_found","C56_acknowledged","C56_false"),"Completeness proved, also with acknowledgements that cannot be written (C56_acknowledged); a negative length in the header crashes readFile (C56_false), nothing else does (C56_no_crash_partial).")
c("C63","partial",t(A,"C63_returned","C63_accept","C63_adjust","C63_settings_partial","C63_no_crash_partial","C63_false","C63_empty_false"),"Blanks crash the prompt (C63_false), an impossible request can be accepted as the empty password (C63_empty_false); otherwise proved.")
c("C22","partial",t(A,"C22_false","C22_never_completes","C22_without_deletes_partial","C22_good_partial"),"False: an entry deleted on one side and edited on the other can never be merged, the prompt repeats until it is aborted (C22_never_completes). Proved: histories without such a pair complete, and nothing returned is a bad history.")
c("C24","proved",t(A,"C24_unit"))
c("C25","partial",t(A,"C25_newest_wins_partial","C25_same_key","C25_multi_partial","C25_multi_opens_partial","C25_false","C25_several_false","C25_remote_creds"),"Proved for one remote with non-empty logs, and between two files with users; an empty remote log crashes (C25_false), with several remotes an older one can win (C25_several_false).")
c("C28","partial",t(A,"C28_known","C28_unknown","C28_next_time","C28_other_hosts","C28_no_crash_partial","C28_false"),"A malformed known-hosts line crashes the callback (C28_false); otherwise proved.")
c("C29","partial",t(A,"C29_save_hosts_partial","C29_hosts","C29_false"),"Proved for entries that still exist; if the merge deleted the sync entry the store becomes unreadable (C29_false).")
c("C64","partial",t(A,"C64_mode_partial","C64_false"),"Proved for one remote; false for several (C64_false).")
c("C51","partial",t(A,"C51_save_open_single","C51_save_open_multi","C51_sequence_partial","C51_first_user","C51_passwd_single","C51_rekey_single","C51_create","C51_taken","C51_passwd_rekey_false","C51_empty_password_false","C51_passwd_after_rm_false"),
  "Proved for every sequence of adduser, passwd and rekey with non-empty passwords: everybody opens the saved file with the last password given. Not as meant: rekey after passwd brings back the old password (C51_passwd_rekey_false), an empty password is accepted but never opens the file (C51_empty_password_false), passwd does nothing after the last user entry was removed (C51_passwd_after_rm_false).")
c("C52","partial",t(A,"C52_old_master_partial","C52_refused","Demo.C52_false"),"False: the records are written around the old master key, the file is encrypted with the new one (C52_false is a concrete file that nobody can open). What holds: every user gets a record that the printed password opens -- around the old master key.")
c("C53","partial",t(A,"C53_partial","C53_false"),"Proved when the named user is the current one; any other name changes the current user's record instead (C53_false).")
c("C62","partial",t(A,"C62_self_refused","C62_last_user_partial","C62_other_partial","C62_false"),"Proved for names not containing user/<current user> elsewhere than at the start; deleting x/user/<me> makes the session single-user while the user entry stays (C62_false).")
c("C23","proved",t(A,"C23_any_failure","C23_failed_merge","C23_all_or_nothing"))
c("C26","proved",t(A,"C26_pushed","C26_unreadable"))
c("C27","partial",t(A,"SyncDemo.C27_false","C27_sent_partial","C27_opens_single_partial","C27_opens_multi_partial","C27_delivered"),"False: a remote whose log looks like the local one is skipped for good, also when another remote brings changes (C27_false). Proved: all other remotes that were read or absent are sent a file that opens to the merged log.")
c("C65","partial",t(A,"C65_only_syncs","C65_unnamed_partial","C65_false"),"Proved without a name. With a name, an entry without an scp or file url crashes the program (C65_false).")
c("C57","proved",t(A,"C57_read_only","C57_opened","C57_log"))
c("C61","partial",t(A,"C61_parse","C61_parse_ctx","C61_stored_partial","C61_refused","C61_false","C61_tab_false"),"Proved for keys that Set accepts, words separated by single spaces and a value that does not end in white space. `set a name b` reports success and does nothing (C61_false); with a tab the line is misread (C61_tab_false).")
c("C58","partial",t(A,"C58_partial","C58_always_false","C58_false"),"False: the file is truncated before it is written, so every save passes through a state that cannot be opened (C58_always_false). Proved: the file only ever contains the old contents or a beginning of the new ones, and runs that fail before writing leave it alone.")
c("C59","partial",t(A,"C59_as_of_snapshot","C59_current_partial","C59_file_partial","C59_false"),"Proved for files saved with a current snapshot. The export does not bring the snapshot up to date: entries added since are missing (C59_false).")
c("C60","partial",t(A,"C60_partial","C60_header","C60_consent","C60_names","C60_truncated","C60_false","C60_crash_false"),"Proved with the header counted as a record: it is imported as an entry (C60_false). A header in one quoted field crashes the program (C60_crash_false).")
c("C72","partial",["Verif.Csv.C72_roundtrip_partial","Verif.Csv.C72_false","Verif.Csv.C72_empty_false"],"Proved for tables without CR LF inside a field and without records that are one empty field; both are lost otherwise.")
c("C73","partial",t(A,"C73_meaningless","C73_false","C73_crash_partial","C73_export","C73_export_fails"),"False: err is overwritten at Exit, failed runs end with status 0 (C73_false). Only a crash is reported.")
c("C11","partial",["Verif.Json.C11_any","Verif.Json.C11_partial","Verif.Json.C11_save","Verif.Json.C11_kinds","Verif.Json.C11_false","Verif.Json.C11_null","Verif.Json.C11_read","Verif.Json.C11_read_log","Verif.Json.C11_spelling"],"Proved for stores whose strings are well-formed UTF-8, and so for every store that was read from a file, whatever its text (C11_read); for others C11_any says what is read back: ill-formed bytes are replaced, so a password can change and two different ones become equal (C11_false). The text null makes NewLog crash (C11_null).")
c("C66","partial",t(A,"C66_line_partial","C66_session_partial","C66_false","C66_rekey_false"),"False: show with a negative number (C66_false) and rekey for an unknown user (C66_rekey_false) crash. Proved for lines that avoid these and the known defects of the password prompt; sync is C97.")
c("C67","partial",t(A,"C67_line_partial","C67_session_partial","C67_file_partial"),"Proved for all lines other than sync; with sync it is C87.")
c("C68","proved",t(A,"C68_undone","C68_added","C68_sync_undone","C68_cancelled"))
c("C69","partial",t(A,"C69_one_entry","C69_current","C69_stays_partial","C69_session_partial","C69_false"),"False after mv of the current entry: the prompt keeps the old name and the next command changes an entry that merely looks like it (C69_false). Proved for sessions that do not rename the current entry.")
c("C70","proved",t(A,"C70_get","C70_line","C70_word")+t(B,"C70_blob_get"),"The key totp (a code is computed, see C95) and updated (printed as a date) are not covered.")
c("C71","proved",t(A,"C71_verbatim","C71_stored"))
c("C75","partial",t(A,"C75_false","C75_login_false","C68_cancelled"),"False: cancelling the prompt of passwd or of login ends the program without saving (C75_false, C75_login_false). Proved for Ctrl-D in add.")
c("C76","partial",t(A,"C76_line_partial","C76_session_partial","C76_entries_partial","C76_sync_partial","C76_whole_line_partial","C76_whole_session_partial"),"Lines other than sync only append. With sync every operation is kept, in the order they had (C76_whole_session_partial), under the conditions of C87.")
c("C74","partial",t(A,"C74_single_partial","C74_life_partial","C74_multi_partial","C74_shared_life_partial","C74_session_partial","C74_file_partial","C74_exit","C74_autosync","C74_false"),"Proved over the whole life of a file, from its creation through the first adduser to any number of users and sessions (C74_file_partial): everything typed is well-formed text, sync and rekeyall are not used, and entries under user/ are left to the account commands. Without the last condition it is false: add user/x or rmk user/a mkey make the file impossible to save (C74_false).")
c("C77","partial",t(A,"C77_line_partial","C77_session_partial","C77_text_session","C77_saved","C77_sync_partial","C77_sync_saved_partial","C77_net_partial","C77_whole_line_partial","C77_whole_session_partial","C77_false"),"Proved when the lines and answers are well-formed UTF-8. False otherwise: two different passwords leave the same file (C77_false). With sync nothing is supposed of the files that remotes hold (C77_sync_partial); over ssh it is enough that those who answer have addresses made of text (C77_net_partial).")
c("C78","proved",t(A,"C78_yesno","C78_consent","C78_yes_or_no","C78_string","C78_menu","C78_menu_range","C78_multiline"),"A line that is a single full stop, or two blank lines, end a text of several lines.")
c("C79","partial",t(A,"C79_rmk","C79_set","C79_set_refused","C79_set_pass","C79_set_lines","C79_edit","C79_label","C79_label_read_partial","C79_rmlabel_partial","C79_mv","C79_rm","C79_line","C79_label_false","C79_rmlabel_false"),"Proved but for labels: a label with a comma is read back as several (C79_label_false), and rmlabel removes other labels than the one named (C79_rmlabel_false).")
c("C80","partial",t(A,"C80_merge_partial","C80_blobs_partial","C80_all_tried","C80_pulled","C80_sync_partial","C80_overlooked","C80_false"),"Proved for histories of one file that Merge can tell apart; without that a remote is taken for the local file although it differs, nothing is merged and nothing is sent, and sync reports success (C80_overlooked, C80_false).")
c("C81","partial",t(A,"C81_ls","C81_labels_partial","C81_show","C81_show_old","C81_login","C81_open","C81_dump","C81_completion","C81_line","C81_login_line","C81_order","C81_lines","C81_width","C81_stable_partial","C81_stable_false","C81_aligned_partial","C81_aligned_false","C81_multiline_false","C81_distinct_false","C81_tail","C81_labels_text"),"What is shown is proved. The layout is not: the width of the first column depends on the order in which the map is visited (C81_stable_false), a key as long as the column pushes its value one column on (C81_aligned_false), and different values can look alike (C81_multiline_false, C81_distinct_false). labels needs that no entry carries a label twice.")
c("C82","proved",t(A,"C82_port","C82_port_false","C82_unknown","C82_added","C82_counts"),"The prompt for the port takes every number, though its message says 1 to 65534 (C82_port_false).")
c("C83","partial",t(A,"C83_typed","C83_only","C83_cancel_false","C83_long_false","C83_lower_false","C83_prompt"),"Proved for programs that escape as pinentry does and send the password in one line; every other conversation is an error (C83_only). A cancelled window is taken for an empty password, which can then become the password of the file (C83_cancel_false); long passwords are refused (C83_long_false).")
c("C84","partial",t(A,"C84_file_partial","C84_false","C84_short_partial","C84_name","C84_short_false"),"False when the default file is given explicitly and $BPASS is set (C84_false), and for directories that begin with a letter outside ASCII (C84_short_false); proved otherwise.")
c("C85","partial",t(A,"C85_text_partial","C85_units","C85_keys_partial","C85_crash_false","C85_letter_false","C85_trim_false","C85_stale_false","C85_pair_false"),"Proved for text without backspace however it is grouped, and for ASCII keys one at a time with backspace on a line that is not empty, both up to white space at the ends. Otherwise false: crash on an empty line, half letters, lost white space, repeated backspaces.")
c("C86","partial",t(A,"C86_new","C86_line_partial","C86_session_partial","C86_reads","C86_clock_false"),"Proved for all lines other than sync (that is C87) if every reading of the clock is later than the one before and than the log, and uuids are never drawn twice. Without the first it is false: two operations get the same time (C86_clock_false).")
c("C87","partial",t(A,"C87_sync_partial","C87_sound_sync","C87_line_partial","C87_session_partial","C87_program_partial","C87_file_partial","C87_names_false"),"Names are not unique: an entry made on two machines under one name is there twice, and which one a command uses depends on the order of a map (C87_names_false); nothing calls RenameDuplicates. Everything else is proved, and all of it if no name was given twice, for remotes that hold such histories of the same file and clocks that agree; crashes and failures of sync itself are C25, C28, C29 and C65.")
c("C88","partial",t(A,"C88_newest","C88_opens_partial","C88_first_partial","C88_line_partial","C88_sync_partial","C88_session_partial","C88_saved_partial","C88_run_partial","C88_life_partial","C88_next_partial","C88_overlap_false","C88_masters_false","C88_passwd_false"),"Proved for machines that share one master key and do not set passwords of the same user at overlapping times, over any sequence of lines including sync (except rekeyall, which is C52): the file opens with the password set last. C88_life_partial is about any number of runs of the program, with the JSON of the real format: after each the file opens for every user with the password set last for them, and C88_next_partial says where new passwords can come from (given at a prompt, or brought by a sync). False without these: overlapping changes are mixed and the file opens with no password that was ever set (C88_overlap_false); a first user added on two machines gives two master keys and a file that may not open (C88_masters_false); in a file without users a new password is not sent when nothing else changed (C88_passwd_false).")
c("C89","partial",t(A,"C89_intact_partial","C89_agree_partial","C89_text_intact_partial","C89_text_agree_partial","C89_users_intact_partial","C89_users_agree_partial","C89_users_text_intact_partial","C89_users_text_agree_partial","C89_entries","C89_stuck","C89_users_stuck","C89_false"),"Proved for files without users, and for files with users as long as nobody touches the accounts (C89_users_…), and one shared file that can always be read and written, where clocks and uuids of the machines differ and no name is given to two entries: nothing is ever lost (C89_intact_partial), and two rounds of syncs make everybody agree if no entry was changed on one side after it was deleted on the other (C89_agree_partial). The same holds with the JSON codec of bpass for everything typed that is well-formed UTF-8 (C89_text_intact_partial, C89_text_agree_partial). False otherwise: after such a conflict the machine is cut off from the shared file for good, whatever the user answers and whatever else is done, while sync reports no error (C89_stuck, C89_false).")
c("C90","partial",t(A,"C90_scp_partial","C90_file","C90_apart","C90_addsync_partial","C90_addsync_file_partial","C90_ascii","C90_false","C90_port_false","C90_host_false","C90_crash_false"),"Proved for file remotes, and for scp remotes with hosts and ports that URLs can have, up to the first slash of the path. False: an absolute path is looked up in the home directory (C90_false); a port with a sign (C90_port_false) or a host with a character hosts cannot have (C90_host_false) is taken by addsync but the remote is then skipped; set takes an address without path, with which sync crashes (C90_crash_false).")
c("C91","proved",t(A,"C91_pull","C91_push","C91_changed","C91_remember","C91_accepted_once"),"That a server has the private key of the host key it shows is ssh's part and not modelled.")
c("C92","partial",t(A,"C92_command","C92_pull_partial","C92_push_partial","C92_got","C92_done","C92_writes","C92_written","C92_command_false","C92_size_false"),"What is read counts only after a command that ended well (C92_got, C92_done), whoever answers. That it is the right file is proved for paths of characters that mean nothing to a shell and files up to 2 GB. Paths are not quoted, so that they can be several words or run commands on the server (C92_command_false); larger files are pushed but can never be pulled (C92_size_false).")
c("C93","partial",t(A,"C93_same","C93_step_partial","C93_run_partial","C93_agree_partial"),"Proved under the conditions of C89_text_agree_partial, for a server that answers, whose key is on record, and a remote whose address stays the same and has a path without special characters.")
c("C94","partial",t(A,"C94_target","C94_partial","C94_file_partial","C94_false"),"Proved where the address of the remote does not change in the merge. If it does, sync reads the file at the old address and overwrites the one at the new address unread (C94_false).")
c("C95","partial",t(A,"C95_partial","C95_typed_partial","C95_url_partial","C95_digits","C95_set","C95_refused","C95_get","C95_spaces_false","C95_any_false","C95_hotp_false","C95_params_false"),"Proved for keys spelt in base32 and totp addresses. Everything typed as a key is stored, also what never gives a code (C95_any_false, C95_spaces_false), as are keys that count (C95_hotp_false); digits, period and algorithm of an address are ignored (C95_params_false). HMAC-SHA1 is an argument.")
c("C96","partial",t(A,"C96_file","C96_sync_partial","C96_mine_partial")+t(A+"OwnSyncDemo.","C96_silent_false"),"Proved for sync without a name that merges (mergeBlobs without error), under the conditions of C87. The known hosts are excluded: sync writes them. When the histories cannot be merged sync reports success, takes nothing over and sends nothing (C96_silent_false).")
c("C97","partial",t(A,"C97_partial","C97_net","C97_scp","C97_line_partial","C97_session_partial","C97_program_partial","C97_first","C97_cut_false")+t(A+"CrashDemo.","C97_empty_false","C97_path_false","C97_server_false")+t(A+"CrashUsersDemo.","C97_typo_false"),"Proved for files with and without users, also when some machines have users in the file and others not: sync, sessions and the program do not crash if each remote holds nothing or a file that bpass wrote with something in it, each passphrase that is typed is right or refused, servers announce no negative length, and addresses and known hosts are of the form bpass writes. Otherwise false: a file cut within its first 48 bytes (C97_cut_false), a new file without operations under another passphrase (C97_empty_false), an address without a path, which set accepts (C97_path_false), a negative length or a malformed line of known hosts (C97_server_false), a wrong passphrase for which what comes out of the ciphers is shorter than a hash (C97_typo_false).")
c("C98","partial",t(A,"C98_partial","C98_line_partial","C98_session_partial","C98_program_partial","C98_net_partial","C98_run_partial","C98_life_partial","C98_next_partial")+t(A+"OwnSyncDemo.","C98_pass_false","C98_users_false"),"Proved if the remotes hold files without users; C98_partial also when sync fails or crashes. It need not be the passphrase the file was opened with: that of a newer remote replaces it silently (C98_pass_false). With a remote that has users the file here gets users too, and the passphrase alone no longer opens it (C98_users_false); passwords of users are C88. adduser is excluded. C98_life_partial is the whole life of a file, any number of runs with any number of syncs.")
c("C99","partial",t(A,"C99_calendar","C99_typed_partial","C99_accepted","C99_refused","C99_open_partial","C99_life_partial","C99_file_partial","C99_years_partial","C99_users_years_partial","C99_program_partial","C99_shown_partial","C99_local","C99_far_false","C99_zero_false","C99_cut_false","C99_zone_false","C99_date_false"),"Proved for the years 1678 to 2261: C99_open_partial for every file with a history as bpass writes it, C99_life_partial for the life of a file without users and without sync, C99_file_partial for files with users whose accounts change, C99_years_partial and C99_users_years_partial for files that are synced, without and with users. Otherwise false: from 2263 on the file shows nothing (C99_far_false), the first second of the year 1 opens it for writing (C99_zero_false), a time between two operations of one command can show an entry without a name and crash ls (C99_cut_false). The dates shown are in local time, those typed in UTC (C99_zone_false), and the date shown for a change is before it (C99_date_false); in UTC the second after it has it (C99_shown_partial). That sync inserts older operations of other machines is not counted as a change of the past.")
c("C100","partial",t(Y,"C100_size","C100_front","C100_single","C100_fresh","C100_fresh_false","C100_names_false")+t(A,"C100_saved","C100_saved_users_false"),"What of the file does not depend on the plain text is its size and its front (C100_size, C100_front, C100_single); that the cipher text itself gives nothing away is a property of the primitives that is not stated. With users it is false: the initialisation vector is kept like the master key, no random bytes go into the file, and the same contents give the same file (C100_fresh_false), and each name is in the file as its SHA-256, without a salt, so that a guessed name can be checked (C100_names_false).")
c("C101","partial",t(A,"C101_line","C101_session","C101_reads","C101_false","C101_names_partial"),"False: only rekeyall, sync and the removal of the last user change the master key (C101_line, C101_session), it is in the memory of everybody who opened the file, and reading with it needs no passphrase (C101_reads). So a user who was removed, or whose password was changed, reads every later file with what they knew (C101_false). rekeyall does change the key, but then nobody can open the file (C52). What holds is that the name of the removed user is no longer in the file (C101_names_partial).")
c("C102","partial",t(A,"C102_parse","C102_named","C102_reach","C102_line","C102_session_partial","C102_sync_partial","C102_program_partial","C102_import_partial","C102_stuck","C102_query","C102_hidden","C102_false"),"Proved for everything typed at the prompt, and for sync if the remotes hold only such names; C102_reach is about commands without a current entry. False for an import: it replaces only blanks, so an empty name and names with tabs or other white space stay (C102_false). No line can remove or rename such an entry (C102_stuck), and one without a name cannot be read either (C102_query, C102_hidden).")
c("C103","partial",t(A,"C103_taken","C103_text","C103_wiped","C103_partial","C103_others","C103_editor","C103_stored","C103_replaced_false","C103_notRun","C103_failed_false","C103_args_false","C103_lost_false"),"Proved for editors that write into the file they are given and end well. False for those that save a new file under its name (C103_replaced_false), that cannot be run (C103_notRun) or that end with an error after writing more than was there (C103_failed_false). EDITOR with arguments is taken for the name of a program (C103_args_false), and then the program ends and all unsaved work is lost (C103_lost_false). Copies the editor itself makes, and blocks a file system gives back when a file is cut, are not modelled.")
c("C104","partial",t(A,"C104_only","C104_what","C104_session","C104_synced_partial","C104_cp","C104_word","C104_code","C104_login","C104_login_says","C104_accepted","C104_set","C104_add_asks","C104_set_asks","C104_addsync_asks","C104_cleared","C104_alone","C104_crash_false","C104_gen","C104_gen_false","C104_erased_false"),"What is copied is proved for everything typed at the prompt (C104_session for sessions without sync, C104_synced_partial with it). That the clipboard is empty afterwards is false after a crash (C104_crash_false) and for bpass gen (C104_gen, C104_gen_false), and proved for all other runs with a clipboard that works (C104_cleared); such a run also empties a clipboard it did not use (C104_erased_false).")
c("C105","partial",t(A,"C105_bound","C105_any","C105_default","C105_every_partial","C105_uniform_false","C105_backslash_false","C105_digit_false"),"The bounds are proved for all lengths and settings; that every password can come out for lengths up to 255. That all are equally likely is false: a byte modulo the size of the alphabet prefers its first characters (C105_uniform_false), the backslash is listed twice (C105_backslash_false), and the class is picked before the character (C105_digit_false). That the bytes are uniform is an assumption on crypto/rand.")
c("C106","partial",t(A,"C106_opens_partial","C106_last_partial","C106_looking_partial","C106_kept_partial","C106_kept_between_partial","C106_kept_false","C106_password_false","C106_mixed","C106_mixed_partial","C106_mixed_false"),"The file always opens, with the passwords and entries of the program that saved last (C106_opens_partial). But that program leaves what it found at its start and what was typed in it, and everything saved by others in between is gone without a message (C106_last_partial, C106_kept_false). It saves even if nothing was changed, so looking something up also takes back the work of others (C106_looking_partial), and a password that was changed (C106_password_false). Nothing is lost if a program is started only while no other runs (C106_kept_partial). Two saves at the same time can leave a file that nobody can open, if one is longer (C106_mixed, C106_mixed_false). Sessions with sync are not covered.")
c("C107","partial",t(A,"C107_intact_partial","C107_agree_partial","C107_users_intact_partial","C107_users_agree_partial","C107_apart","C107_agree_false","C107_share_false"),"No machine ever loses an operation, and the shared file stays readable with the password (C107_intact_partial, C107_users_intact_partial). But it can lose what was pushed (C107_share_false). What was overwritten comes back when the machines then sync one after the other twice, if no machine takes the log of the share for its own when it is not (C107_agree_partial, C107_users_agree_partial). That can happen after overlapping syncs, since Merge only compares the lengths and the first and last times: then two machines never agree again, however often all sync, and nobody is told (C107_apart, C107_agree_false). Assumed as in C89: one sync entry, distinct times, a codec that writes and reads what there is; in files with users nobody changes the accounts.")
c("C108","partial",t(A,"C108_opens_partial","C108_user_partial","C108_silent","C108_giveUp","C108_only","C108_merged_partial","C108_next","C108_stuck","C108_same_salt","C108_auto_false","C108_typo_false","UnlockDemo.C108_once_false","UnlockDemo.C108_name_false","UnlockDemo.C108_salt_false"),"Proved where the user name of the session, if there is one, is the one in the remote, and the salts differ or the credentials are the same. A user name is never asked for twice, since ErrUnknownUser is never returned (C46): who has another name in the remote, or mistypes it, cannot open the remote (C108_stuck, C108_name_false). With the salt of the session and another key no passphrase is ever looked at (C108_same_salt, C108_salt_false). An answer is forgotten after each remote, so that the same passphrase is asked for again (C108_once_false). That a wrong passphrase is refused and does not crash is a hypothesis (C45). A passphrase that crashes Decrypt (C45) crashes sync in the middle of a session; if it is the one of the session, which is tried first without asking, sync crashes each time whatever is typed (C108_auto_false, C108_typo_false).")
c("C109","partial",t(A,"C109_dated","C109_show","C109_past","C109_new","C109_sync_partial","C109_line_partial","C109_session_partial","C109_program_partial","C109_tells_partial","C109_later_partial","C109_synced_partial")+t(A+"DateDemo.","C109_label_false","C109_passwd_false","C109_same_false","C109_clock_false"),"That every entry has a date is proved for everything bpass writes at the prompt, and for sync if the remotes hold such files. That the date tells of every change is false in two cases: when the last label is removed (C109_label_false), and when the password of a user is changed, by passwd, rekey or rekeyall (C109_passwd_false); in all others it holds (C109_tells_partial). Setting a value to what it is counts as a change (C109_same_false). If the clock runs the date never goes back (C109_later_partial), else it can (C109_clock_false). That an import keeps every entry dated is C123_import.")
c("C110","partial",["Verif.Json.C110_dumpall","Verif.Json.C110_history","Verif.Json.C110_backup_partial","Verif.Json.C110_dumpall_false"]+t(A,"C110_dump_tells","C110_dump_partial","C110_dump_tame","C110_bare","C110_line","C110_session_partial","C110_synced_partial","C110_sync_partial","C110_key_false","C110_show_false"),"dumpall: what is read from it is what is read from the file for every store (C110_dumpall), so the limits are those of C11: ill-formed text is replaced (C110_dumpall_false). It also has what was deleted or replaced (C110_history). dump: proved if no key has a blank in it. No line and no session makes such a key (C110_line, C110_session_partial), nor does sync if the remotes have none (C110_sync_partial). Otherwise false (C110_key_false). show does not quote, so other entries can look the same and a value can reach the terminal as an order (C110_show_false). Colours, and what follows after the bytes are printed, are not modelled.")
c("C111","partial",t(A,"C111_rm","C111_rm_false","C111_printed","C111_file_partial","C111_program_partial","C111_years_partial","C111_users_years_partial"),"False, and what holds is the opposite: nothing that was saved ever leaves the file. After rm the log is the old one with one more operation, and at an earlier time the file shows the entry with all it had (C111_rm, C111_rm_false). Everybody who can open the file after any number of sessions, with passwords changed and users added or removed, reads every operation that ever was in it (C111_file_partial, without sync; C111_years_partial and C111_users_years_partial with sync, without and with users). A run that ends with an error, overlapping programs (C106) and an entry whose add was given up are not covered.")
c("C112","partial",t(A,"C112_offers","C112_line","C112_session_partial","C112_synced_partial","C112_commands","C112_commands_false","C112_past_false","C112_current_false"),"Holds for the names and for what every line does (C112_offers, C112_line); sessions without sync (C112_session_partial) and with it (C112_synced_partial), a single line may be any. False in three places: login, dump, dumpall and rekeyall are not offered (C112_commands_false); in a file opened as of an earlier time TAB may crash the program (C112_past_false); with a current entry the name offered after set is taken for a key, and the value goes to the current entry (C112_current_false). Which of the words readline shows for the letters typed, and TAB at the prompts inside a command, are not modelled.")
c("C113","partial",t(A,"C113_private","C113_always","C113_edit","C113_export","C113_kept","C113_export_false","C113_existing_false"),"Holds for the password file, pushed files and the temporary files of edit, for every umask and at every moment (C113_private, C113_always, C113_edit). False for exports: os.Create asks for 0666, so with the usual umask 022 everybody on the machine can read all passwords (C113_export_false); C113_export says for exactly which umasks. A file that is there keeps its permissions whatever is written (C113_kept, C113_existing_false). Not modelled: directories, links, access lists, files on remote machines (scp sends mode 0600, C25).")
c("C114","partial",t(A,"C114_same","C114_exact","C114_only","C114_answers","C114_value_false","C114_valid_false"),"Holds for answers: exactly the lines with a known and permitted command are remembered, whatever is answered (C114_exact, C114_only, C114_answers). False for values given in a line of set (C114_value_false), and lines that the command refused for their syntax are remembered too (C114_valid_false). The memory of the editor itself (a library) is not modelled.")
c("C115","partial",t(A,"C115_passwd_partial","C115_rekey","C115_rekey_single","C115_added","C115_reused","C115_passwd_false","C115_rekey_false","C115_created_false","C115_reused_false"),"Holds for passwd about oneself, rekey in files with users, rekey without a name in a file that was opened, and adduser with a password. False: passwd with the name of another user (C115_passwd_false); rekey with a name in a file without users asks for a new password, announces it and does nothing (C115_rekey_false); in a new file rekey refuses a passphrase that is not empty, as the session does not have it (C115_created_false); adduser with an empty password says that one's key was reused, but nobody can use that account (C115_reused_false).")
c("C116","partial",t(A,"C116_left","C116_partial","C116_stays_any_false","C116_stays_false","C116_crash_false","C116_start_false"),"What is left is told from a file by its length alone, unless it is a multiple of 8 and at least 88: then nobody can decrypt it (C116_left, C116_partial). For the other lengths that it does not decrypt is the assumption that no padding and hash fit by chance. That it is repaired is false: sync sends nothing to a remote whose contents it does not understand (C116_stays_false, C116_stays_any_false), and a torn file for one user crashes sync on every machine, at the start of every program, before any other remote is merged (C116_crash_false, C116_start_false). Only removing the file by hand or turning off the automatic sync helps.")

c("C117","partial",t(A,"C117_merge","C117_partial","C117_repaired_partial","C117_password_false"),
"Holds: however sync ends, credentials and history stay as they were and only lines about known hosts are added (C117_merge, C117_partial); when sync succeeds and the earlier version opens with the credentials of the session, the current file is sent to that remote (C117_repaired_partial). False when only the password of a file without users was changed since: the histories look the same, nothing is sent, and the file for the old password stays at the remote (C117_password_false). An earlier version for another passphrase makes sync ask for it (C108) or may crash it (C45).")

c("C118","partial",t(A,"C118_sync_partial","C118_partial","C118_merged_partial","C118_unrecorded","AfterDemo.C118_password_false","AfterDemo.C118_silent_false","AfterDemo.C118_failed_false"),
"Holds when something was recorded: if nobody else changed the file, every remote that is empty or behind and opens with the credentials of the session is sent the file with everything recorded (C118_partial); if others did, the file that is sent has every operation of both (C118_merged_partial, if the histories can be merged). False otherwise: the end of a run looks only at the length of the history (C118_unrecorded), and a changed password of a file without users is not in it, so that the remotes keep the file for the old password (C118_password_false); when the histories cannot be merged (C118_silent_false) or a remote cannot be written (C118_failed_false) the run ends well all the same.")
c("C119","partial",t(A,"C119_file","C119_partial","AfterDemo.C119_false"),
"Holds for the file (C119_file), and for the remotes if no line was sync (C119_partial). False after sync: the program says that it did not save, but what was done is at the remotes and comes back at the next start (C119_false).")

c("C120","partial",t(A,"C120_partial","C120_aborted","C120_sent_partial","C120_sync_sent_partial","C120_push","OnceDemo.C120_false","OnceDemo.C120_each_false","OnceDemo.C120_push_false"),"Holds if the merge goes through and brings no other key for the address (C120_partial). It is false if the merge is given up: the session is as before, no error is reported, and the next sync asks again (C120_aborted, C120_false). It is false for a server that two sync entries share: each has its own list (C120_each_false). It is false while sending: a line accepted there is dropped if the sending fails (C120_push, C120_push_false). If it succeeds the line is on record as well (C120_sent_partial from the point where the merged log is in place, C120_sync_sent_partial for a whole sync whose merge goes through; it happens when the merge has changed the address of a remote).")

c("C121","partial",t(A,"C121_partial","C121_session_partial","C121_typed_partial","C121_set_partial","C121_copies_partial","C121_ignored","C121_login","ContextDemo.C121_false","ContextDemo.C121_pass_false","ContextDemo.C121_set_false"),
"The first two parts hold for every command but login with an argument (C121_partial, and for sessions C121_session_partial); C121_typed_partial and C121_set_partial say it of lines as typed. cd and rm are about the current entry itself. The third part is false: open, label, dump, pass, user, email and totp do not look at the name they are given (C121_ignored), so pass shop copies the password of the current entry (C121_pass_false), and set shop pass x makes a key shop there (C121_set_false); login alone looks at the name (C121_login).")

c("C122","partial",t(A,"C122_partial","C122_written_partial","C122_create","C122_adduser","C122_blocked","RandomDemo.C122_false","RandomDemo.C122_lost_false","RandomDemo.C122_key_false"),
"Holds for whole runs as long as no user is added while no master key can be made (C122_partial, C122_written_partial) and for new files (C122_create); requests made by sync are taken to be answered. It is false for adduser in a single-user file: the error of NewMasterKey is dropped, the command ends as if it had succeeded and leaves a user entry without keys (C122_adduser, C122_false); from the next adduser on the file cannot be saved and everything typed is lost at the end of the run (C122_blocked, C122_lost_false). It is false for addsync: if no ssh key can be made the entry is kept without one (C122_key_false).")
c("C123","partial",t(A,"C123_import","C123_file_partial","C123_accounts","C123_users_partial","C123_past","C123_false","C123_past_false"),
"C123_import holds for every end of the import, a crash included, if the clock runs and identifiers are new. That the import is saved and read back is proved for tables of valid UTF-8 (other text is changed by the JSON encoder, see C11): for files without users, new ones included (C123_file_partial), and for files with users if no name begins with user/ when in lower case, for everybody who could open the file before (C123_users_partial). Without that it is false: a record whose name begins with User/ makes a user without a key and nothing can be saved (C123_false). It is false with --time: the import ends without an error and nothing is saved (C123_past for all such runs, C123_past_false).")
c("C124","partial",t(A,"C124_scan","C124_long","C124_prompt","C124_unsaved","C124_exit","C124_text","C124_dot","C124_false"),
"Lines shorter than 65535 bytes that do not end in a carriage return are delivered as typed (C124_scan), and what is typed after exit does not matter (C124_exit). That the end of the input keeps the run is false on Windows: the editor reports an interruption, so without a line exit nothing is ever saved (C124_prompt, C124_unsaved for all texts and files, C124_false), and a text of several lines can be ended with a dot (C124_dot) or two blank lines only (C124_text). After a line of 65536 bytes or more nothing is read, not even exit (C124_long). The console itself and ctrl-c as a signal are not modelled.")
c("C125","partial",t(A,"C125_sync","C125_unmerged","C125_single_partial","C125_multi_partial","C125_false"),
"Proved if no remote can be read and no new key is accepted (C125_sync, and for whole runs C125_single_partial and C125_multi_partial), and for a merge that is declined or fails (C125_unmerged). Whole runs are without the command sync at the prompt, with the JSON codec and valid text, and in files with users the user entries are left to the account commands. In general it is false (C125_false): when the second synchronisation of a run fails, main ends without saving. It fails if a sync entry was deleted by another machine while its server's key is new here, because the key is then recorded in an entry that is gone. Not covered by a positive theorem: runs in which some remotes answer and others do not (for the merge itself see C26, C27, C29).")
c("C126","partial",t(A,"C126_accounts","C126_opens_partial","C126_taken","C126_nobody","C126_crash","C126_self","C126_stuck","C126_self_false","C126_stuck_false"),
"The accounts after a renaming are exactly those before with the name changed (C126_accounts), and the file is saved and opened under the new name by its user and as before by everybody else (C126_opens_partial, if the hash of the new name differs from the others and the codec is faithful to the store). A name without the prefix takes exactly that account away (C126_taken). For one's own account it is false: the program still knows its user by the old name, so passwd and rekey in the same run crash it (C126_crash, C126_self for all such runs, C126_self_false), and rm of the only, renamed account leaves the master key in place, after which nothing can be saved (C126_nobody, C126_stuck for all such runs, C126_stuck_false).")
c("C127","partial",t(A,"C127_command","C127_shown","C127_run","C127_past","C127_login_false"),
"Proved for every reading command (C127_command, C127_shown for what is printed or copied) and for whole runs (C127_run; C127_past: a read-only session does what another does without the refused lines). That only lines for writing are refused is false: login changes nothing in any session and is refused (C127_login_false).")
c("C128","partial",t(A,"C128_line_partial","C128_session_partial","C128_printed","C128_save_partial","C128_rekeyall_false","C128_save_false"),
"Proved for every line but sync in a file in order (C128_line_partial, C128_session_partial: equal results, not only equivalent ones; rekeyall with at most one account), for the lists printed by ls and labels and offered by TAB (C128_printed), and for the saved file with at most one account (C128_save_partial). With several accounts it is false: rekeyall writes the records in the order in which the accounts were visited (C128_rekeyall_false), and the same session is saved as different files, as the header lists the accounts in that order (C128_save_false). The orders met by sync are not compared here.")
c("C129","partial",t(A,"C129_line_partial","C129_session_partial","C129_reopen_partial","C129_account_partial","C129_created","C129_created_false","C129_renamed_false"),
"C129_reopen_partial and C129_account_partial save the file, open it with the password and compare all continuations: single-user files, and files with accounts for the user whose session it is. The session must know its password and user name, no entry may be current (the current entry is not saved), the codec must be faithful to the store (see C11), and the lines are those of SteadyTurn: no sync, and rekeyall with at most one account. In general it is false: the run that created the file does not keep the password, so rekey refuses there, as if the password were empty (C129_created for all such sessions, C129_created_false), and somebody who has renamed their own account crashes the program with passwd until they start again (C129_renamed_false). Values printed by get are compared; what ls, show and dump print depends on the entries only (C127).")
c("C130","partial",t(A,"C130_commands","C130_topics","C130_few","C130_surplus_partial","C130_index","C130_cd","C130_surplus_false"),
"What the help says is read off its text by Spec.usage: the lines indented by one space, <...> for arguments that must be given, [...] for the others. That a line does nothing means nothing but a message about the syntax, as messages are not modelled. Surplus arguments do not matter except for set and labels, which are described as taking any number, and for get, cp and cd, where it is false: get and cp have a third argument that only their syntax message names, refuse one that is not a number and otherwise ignore it (C130_index, with and without a current entry; witness C130_surplus_false), and cd with two or more arguments does nothing (C130_cd). What the help says about the effect of the commands is prose and is not covered here; other properties are about that.")
c("C131","partial",t(A,"C131_back","C131_relay_partial","C131_stay","C131_cuts_partial"),
"The lines are those of SteadyTurn as in C129: no sync, and rekeyall with at most one account. Whoever leaves must be able to (CanLeave): the session knows its password, the log is text, there is no current entry, and in a file with accounts the account is complete. That these hold is a hypothesis at every parting, stated of the run that stays; C129_created_false and C129_renamed_false show that it is needed. The file is encoded with the JSON codec, and runs do not synchronise by themselves (-no-auto-sync, or no such entries). C131_cuts_partial compares two ways to cut the same lines, where no line ends a run early.")
c("C132","partial",t(A,"C132_line_partial","C132_session_partial","C132_rmk_false","C132_edit_false"),
"Proved of setting: no line other than the commands for accounts, rm and sync changes a system field, provided rmk and edit are not given the name of one. Of these two it is false: rmk removes the salt of an account (C132_rmk_false), and so does edit when the text is emptied (C132_edit_false); what that leads to is in C74_false. The lines must not end in a panic, and the file must be in order (C67).")
