# what is modelled for a property, and how it is proved
H = {}
def h(ids, model, proof):
    for i in ids.split(): H[i] = (model, proof)
h("C01", "`DB` step machine", "invariant: the snapshot is the replay of the first `version` operations; induction over calls. The code breaks it at one point of `Rollback` (`Version == txPoint`): witness, and a theorem for histories that avoid it")
h("C02 C03", "`applyTx`, `replay`", "refinement to a last-write specification, induction on the log")
h("C04 C05", "`DB` step machine", "invariant and list reasoning; the snapshot half of C04 is false at the point of C01")
h("C06 C07 C08", "`SnapshotAt`, `EntrySnapshotAt`, `NVersions`, `LastUpdated`", "projection lemma: the replay of the operations on u is entry u of the replay")
h("C09 C10", "`UpdateSnapshot`, `Save`", "case analysis, induction")
h("C11", "JSON encoder and decoder", "round trip by structural induction on values and text")
h("C12 C13 C14 C15 C16", "`Merge`", "`Merge` without resolutions computes the two-pointer union; uniqueness of sorted lists with the same members")
h("C17 C18 C19", "`Merge` and `replay`", "automaton of the life of each uuid, characterisation of conflicts, invariant of the resolving pass")
h("C20 C21", "`Merge`, `mergeLogs`", "case analysis; `Merge([],[])` panics: witness")
h("C22", "`mergeLogs` with an input script", "the prompt never leads to a merge: proved for every script; what completes is proved good")
h("C23 C24 C25 C64", "`mergeBlobs`", "induction over the remotes")
h("C26 C27 C65", "`sync` as a function of what the remotes deliver", "induction over the remotes; C27 and C65 false by witnesses")
h("C28 C29", "`hostAsker.callback`, `saveHosts`", "split and join lemmas; witnesses for the malformed line and the deleted entry")
h("C30 C31 C32", "blob API step machine", "invariant over calls for any order of visiting maps")
h("C33 C34 C39", "`Search`, `Match`, `findOne`", "equivalence with a declarative subsequence relation")
h("C35 C36 C37", "labels, `RenameDuplicates`", "false in general (witnesses); positive theorems under conditions")
h("C38", "`NewSync`", "termination measure: number of entries")
h("C40 C41", "pkcs7", "list arithmetic; C41 false for a zero pad byte")
h("C42 C43 C44 C45 C46 C47 C48 C49 C50", "crypt", "inversion of CBC and of the cascade, printing and parsing of headers, symbolic execution of every check")
h("C51 C52 C53 C62", "account commands on a session", "composition with C42 and C43; C52, C53, C62 false by witnesses")
h("C54", "`genPassword` over arbitrary random bytes", "counting and permutation; panics for multiples of 256")
h("C55 C56", "scp", "printing and parsing")
h("C57", "the prompt in a read-only session", "induction over lines")
h("C58", "`WriteFile` as truncation and writing piece by piece", "the states on disk are prefixes; false: the empty prefix")
h("C59 C60", "export, import", "set of rows; induction over records; false for stale snapshots and for the header")
h("C61", "parsing of a line and `set`", "lemmas about `strings.Fields` and `Split`")
h("C63", "`getPassword`", "induction over the input")
h("C66 C67 C76", "every command at the prompt", "one invariant (`WellFormed`) preserved by each command, induction over lines")
h("C68", "`add`, transactions", "composition of the blob calls inside `Do`")
h("C69 C70", "`findOne`, `cd`, `get`", "an exact name selects its entry; frame conditions of each command")
h("C71 C78", "prompts", "induction over the input: equivalence with `FirstAnswer`")
h("C72", "CSV writer and reader", "the reader's state machine run on the writer's output")
h("C73", "`main`", "case analysis of the control flow at `Exit`")
h("C74", "whole life of a file: create, sessions, save, open", "C51 and C67 and C77 composed; induction over sessions")
h("C75", "prompts inside commands", "witness")
h("C77", "text in the log", "invariant: every string of the log is well-formed UTF-8; C11")
h("C79", "the editing commands", "exact effect of each command on what is visible (`Spec.upd`)")
h("C80", "`sync`", "C12 carried through `mergeLogs`, `mergeBlobs` and `sync`")
h("C81", "the reading commands and what they print", "exact characterisation of the lists and texts; sorting is independent of the order of visiting")
h("C82", "`addsync`", "exact effect on what is visible")
h("C83", "`pinentry.Password` as a function of the lines the program writes", "case analysis of the conversation; the replacer inverts the escapes by induction")
h("C84", "the choice of the file, `shortPath`", "case analysis, split and join")
h("C85", "`LineHidden` as a function of the reads", "invariant of the buffer, induction over reads; witnesses")
h("C86", "all lines other than `sync` and the clock readings they use", "which operations each command appends (C67) and at which readings of the clock; replaying for the rest")
h("C87", "`sync`, `saveHosts`, the prompt and `main`", "C80 gives the union of histories, which is again a history of this kind; induction over lines and sessions")
h("C88", "`sync`, `passwd`, `rekey`, `adduser`, `saveBlob`, the prompt", "a history of records (`Keyring`) is kept by every line and by the union of logs; the value of a key is that of the latest operation, so the three parts of a record come from the same one; C51 then opens the file; over runs by induction on `KeyYears`, with C11 for the JSON and C77 for the texts in it")
h("C89", "`runRepl`, `sync` and all below them; the machines and the shared file are a state machine around them (`Fleet`)", "an invariant over all runs: an operation that two machines have is in the shared file, and a machine that has something new has a last operation the shared file lacks, so that `sync` never takes different logs for the same; a round of syncs makes the shared log the union, and equal sets in order of time are equal lists; with C77 the logs stay well-formed text, so C11 applies to every save; what is needed about passwords is an argument of the lemmas (`Scheme`), which for files with users is that the records and names of users in the log stay the same, so that by C88 each user opens what any of them saved")
h("C90", "`url.URL.String`, `url.Parse` with escaping and the checks of hosts and ports, `addSync`, `sshConfig`", "escaping is undone by unescaping, byte by byte; the special characters cannot occur in escaped parts, so parsing finds the same cuts")
h("C91", "`sshConfig`, the host key callback, `sshPull`, `sshPush`, `Recv`, `Send`, with a trace of what is sent", "case analysis of the conversation with C28 for the callback")
h("C92", "the command line of scp, `Recv`, `Send`, a shell that splits words and commands, an scp server", "splitting of a line without special characters; C55 for the protocol")
h("C93", "`sync` with the network (`netWorld`), the machines and the server as a state machine (`NetFleet`)", "each step of it is a step of the machines of C89, by C92")
h("C94", "`sync` with files and ssh (`netWorld`)", "C26 for what was read; the store that is pushed from differs from the one after the merge in known hosts only")
h("C95", "`SetTwofactor`, `TwoFactor`, `get`, `set`, and of the libraries: `otp.NewKeyFromURL`, `totp.GenerateCode`, base32 decoding, escaping and parsing of queries", "base32 decoding undoes the digits of RFC 4648, group by group; escaping is undone by parsing; the truncation is that of RFC 4226 written as arithmetic")
h("C96", "`sync`, `Merge`, replay", "in a good history the state is given by the last operation on each field; the log after `sync` has the operations of all logs and known hosts only (C87)")
h("C97", "`sync` with its parts, `netWorld`, `Recv`, `readFile`, the session and `main`'s use of both", "what the store can hold for addresses and known hosts follows from the log; a file that bpass wrote decrypts with right credentials (C42, C43); merging good histories of one file does not crash (C22), and in a history as bpass writes it all entries have names, so that listing users and encrypting cannot crash (C49, C87)")
h("C98", "`sync` with `decryptBlob`, `decryptV1Single` and `mergeBlobs`, all commands, `main`'s session and `saveBlob`", "a file without users decrypts with the cached key, which belongs to the old passphrase and needs no other, or with a key derived from the passphrase tried; credentials are taken over as a unit (C24); C51 for writing and opening; for a whole life induction over the runs with C87 and C77")
h("C99", "`time.Parse` with the layout of `--time`, `UnixNano`, `IsZero` and `Format(RFC3339)`, from knowledge of the Go library; `loadBlob` with a time", "the day count of Go in cycles of 400, 100, 4 and 1 years against a calendar defined by counting seconds one by one; a prefix of a history that can be replayed can be replayed; commands append operations stamped with clock readings (C87)")
h("C100", "`encryptV1` with both forms and `saveBlob`", "the length of what the layers return is that of the padded text; the front of the file is built from the parameters only; with users encryption does not look at the random bytes")
h("C101", "the commands that change passwords and users, `makeParams`, `saveBlob` and `encryptV1Multi`; the reader with the master key is `readWith`, which is no part of bpass", "each command keeps the master key by cases, sessions by induction; decryption undoes encryption layer by layer (C42); C51 for what a user learns on opening")
h("C102", "the splitting of lines (`strings.Fields`, `strings.TrimSpace`, `strings.Split`), all commands, `sync`, `importLastpass`", "a word is a text without white space as Unicode has it, split off rune by rune; what each line may write (as in C73), and where the operations after `sync` come from; C70 and C79 for the effect of the commands")
h("C103", "the part of `edit` between the creation and the removal of the temporary file, `RunEditor` for Linux; a disk is the contents of numbered files, which outlive their names, and a directory; the editor is any function on disks", "case by case; for what is stored C79")
h("C104", "the texts a line hands to the clipboard, in step with the model of the commands; the clipboard is one text, and writing it works always or never in a run; the function that shows a date is a parameter", "by cases on the commands; C70, C79 and C81 for the values; that the password prompt is reached where the copies assume it is stated separately (C104_add_asks and others)")
h("C105", "`genPassword` as for C54; probability is the number of contents of the buffer of random bytes, whose size is modelled too", "the picks are independent of each other and of the shuffle, so the count is a product for each fixed shuffle; the shuffle can be undone, so for each of its bytes at most one order of the picks leads to the password")
h("C106", "`loadBlob` at the start and `saveBlob` at the end of each program, in any order; what is typed touches only the memory of the program, so a session is one step at its end", "each program works in the life of a file that branches off when it starts, so C74 and C76 hold for it; commands that read keep the log and the credentials; for runs one after the other, that the branch is always the present file")
h("C107", "`sync` as in C89, but it may read any file that the share has held before; reading and writing are two steps between which others may write", "an invariant over every file the share has ever held: each is an own history of operations that some machine has; a sync is nothing, or the union of both logs; two rounds collect and spread as in C89; two logs of the same length that begin and end at the same times are never merged")
h("C108", "`decryptBlob` as a loop over the lines typed, `pullBlob` and the loop of `sync` over the remotes, `Decrypt` with cached key and salt", "a key cached for another salt has no influence (C48), and with the same salt the passphrase has none; induction over the lines; opening by hand is `Decrypt` without a cached key, as `loadBlob` calls it")
h("C109", "all commands down to the operations they append, `touchUpdated`, `sync`, `show`", "each command appends operations in pairs, a date and what it dates, and the exceptions are listed (`Marks`); a date is one reading of the clock earlier than its operation; sync gives the union of the histories, and the last operation wins (C96)")
h("C110", "`json.MarshalIndent` (the compact text, then `appendIndent` byte by byte), `dumpBlob` with `%#v`, which is `strconv.Quote`, from knowledge of the Go library; which characters are printable is a parameter", "indenting only adds white space between the tokens, which the parser of C11 skips; a reader for quoted text undoes the quoting rune by rune, so quoting is injective and ends itself")
h("C111", "`deleteEntry`, all commands, `sync`, `dumpall`, `--time`, saving and opening", "the history only grows (C76), a file opens with what the last session left (C74, C98), and dumpall prints every operation (C110)")
h("C112", "`entryCompleter`, the table of `readlineAutocompleter`, every command at the prompt", "every command that looks at the store brings its view up to date first, which is idempotent, so each one is shown to do the same from the updated view; then induction over the session")
h("C113", "`ioutil.WriteFile`, `os.Create` and `OpenFile` with `O_EXCL` as bpass calls them, with permissions and umask; from knowledge of the system calls", "bit arithmetic for new files, invariance of the permissions for those that are there, induction over the actions")
h("C114", "`repl.run` with its calls of `AddHistory`; the memory of the editor is the list of these", "induction over the session; a session stays read-only or writable, command by command, and only `exit` ends it")
h("C115", "the messages at the end of `passwd`, `rekey` and `adduser` as functions of what the commands did", "from the theorems on the account commands (C51, C53); the false parts hold for every file of the kind, not just for a witness")
h("C116", "`ioutil.WriteFile` in `pushBlob` as the list of contents one after the other, `Decrypt` and the loop of `sync` as before", "the last cipher of the cascade has blocks of 8 bytes, and all headers are multiples of 8, so `Decrypt` only succeeds on such lengths; `sync` pushes only what it understood (C26); one remote that panics ends the loop")

h("C117","OldCopy, OnlyOld, Settled, SameThere (App/StaleSpec.lean) over the model of sync, mergeRemotes and Merge","Merge of a history with a prefix of it is that history (for histories whose ids and times are the program's own), by induction over the remotes for mergeRemotes; then sync is followed through its stages. Counterexample: a changed passphrase leaves the log as it is, noChanges holds, and the push list is empty.")

h("C118","session with its two synchronisations, LeftPrompt, Behind (App/AfterSpec.lean)","What the last synchronisation does is C74_autosync; with C117_merge the merged history is the one here, with C80 it is the union, and C27_sent_partial gives what is sent. Witnesses by computation for the password, the conflict and the failed push.")
h("C119","session and main, NoSync (App/AfterSpec.lean)","Only sync sends: induction over the lines with a case analysis of the commands; the file is written only after the prompt was left in order to save. Witness by computation: sync, then Ctrl-C, then the next start.")

h("C120","`syncWith` over `netWorld`: fetching, merging, `saveHosts` before and after sending, `sshPull` and `sshPush` with the check of the key","The line a pull reports is the line of the server that was just accepted; `saveHosts` changes only known hosts and appends; a line that is on record stays on record under appending; sealing leaves the store; so the key is on record in the entry at the end. Kernel computation for the witnesses.")

h("C121","runLine with atEntry, SameButQuery, SameTurns (App/ContextSpec.lean); lineCopies","Case analysis over the commands: queryArgs, queryArg and setArgs of the current entry are those of the arguments with the name in front; induction over the turns. Witnesses by computation on a file with two entries.")

h("C122","The commands again with answers that may be missing (App/Random.lean), Spec.drawnAs (App/RandomSpec.lean)","Each function ends with the error of the source or equals the ordinary one whatever is put for the missing answers; by cases for the commands, by induction over the rounds of the password prompt, the users of rekeyall, the names tried by addsync and the turns. Inside Do the rollback cannot fail because the log only grew. Witnesses by computation.")
h("C123","importLastpass (App/Transfer.lean), main with the job lpassimport (App/File.lean), ImportOk (App/ImportedSpec.lean)","Induction over the records: each appends the three operations of New and up to five values at increasing times, which keeps the history, the names and the dates. That fields of valid text are valid: the reader cuts it at ASCII bytes only. Saving with C51_save_open_single and C77_saved. Witnesses by computation.")
h("C124","scanLine, scanned, winTurns (App/Scan.lean), runRepl (App/Repl.lean), main (App/File.lean)","Induction over the lines for the scanner; only the command exit ends the prompt without an error, so the failing prompt at the end is reached and main returns before the save. Witness by computation.")
h("C125","sync, saveHosts (App/Sync.lean), autoSync and session (App/Repl.lean), main (App/File.lean), Offline (App/OfflineProps.lean)","Every sync entry has one of the two schemes, so every pull is skipped; the merge of no remotes is the own log, which replays from an empty snapshot to the same store; encrypting works with C51's lemmas about the parameters. Whole runs with C67, C77 and C51. Witness by computation.")
h("C126","renameCmd (App/Commands.lean), passwd, rekey, deleteEntry (App/Accounts.lean), makeParams, saveBlob (App/Session.lean)","The store after mv differs in the name and the date of one entry (C79_mv), from which the accounts and the conditions of C51_save_open_multi follow. Without user entries the list of keys is empty and the parameters are refused. MustFindUser panics if there is no entry of that name. Witnesses from general theorems and computation.")
h("C127","execRead, runLine, runRepl (App/Repl.lean), the reading commands (App/Commands.lean), Spec.inPlace (App/LookProps.lean)","Each reading command commutes with putting another session around the store, by cases on the calls of the store; then by induction over the lines.")
h("C128","runLine, runRepl (App/Repl.lean) and all commands with two orders (Spec.revisit, App/MapOrderProps.lean), lsLines (App/Show.lean), complete (App/Complete.lean), saveBlob (App/Session.lean)","Names are unique, so FindByName and findOne select the same entry (C39_selects); the uniqueness loops of New and Rename agree; lists of results are permutations of each other and are sorted before they are printed. Then by cases over the commands and by induction over the lines. Witnesses by computation in a file with two accounts.")
h("C129","runLine, runRepl (App/Repl.lean), saveBlob, openFile (App/Session.lean), Spec.Alike and Spec.Continues (App/ResumeLemmas.lean)","Two sessions with equal log, transaction mark and keys, whose snapshots may differ. Both snapshots are made current from the same log, so they show the same entries; each command is shown to keep the relation and to give the same result, then by induction over the lines. C51 gives that the opened session is related to the saved one. Witnesses by computation.")
h("C130","helpCmd and the texts (App/Help.lean), readOnlyFlag, parseLine, runLine (App/Repl.lean)","The usages are computed from the texts; then by cases over the 31 of them, the number of arguments and the current entry.")
h("C131","runRepl (App/Repl.lean), saveBlob, openFile (App/Session.lean)","Induction over the runs; each is C129_session_partial, and coming back is C51 with C77_saved. Whether one can leave depends on the log and the keys only.")
h("C132","runLine and the commands it calls (App/Repl.lean, App/Commands.lean), set, deleteKey (Blob/Model.lean)","Every operation a line adds is one that leaves the fields alone (the rules of App/WriteLemmas2), and the meaning of such operations keeps the fields; induction over the lines.")
