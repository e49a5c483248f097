# Formal model of aarondl/bpass in Lean 4 — design

The properties are in `properties.jsonl` (C01…), the theorems claimed for them in `MANIFEST.json`, the model and the proofs in
`lean/Verif/`. Every model definition cites the Go file and lines it models. This file is written by `tools/design.py` from
`tools/design.md`, `tools/claims.py` and the output of `#print axioms`.

## Trusted base

* Lean's kernel (Lean 4.33.0). `decide +kernel` is evaluated by the kernel; `native_decide` and `bv_decide` are not used, no
  Mathlib module is imported, there is no `sorry`, `admit` or `axiom`.
* The axioms `propext`, `Quot.sound` and `Classical.choice` of Lean. The last section lists which theorem depends on which.
* The model itself: that the Lean definitions say what the Go code does. Nothing checks this but reading; the citations at the
  definitions are there for that purpose. What was simplified is listed below and at the definitions.
* The semantics of Go and of the parts of its standard library and of third-party libraries that appear as Lean definitions
  (`Verif/Go`, `Verif/Csv`, `Verif/Json`: `strings`, `strconv`, `unicode/utf8`, `encoding/hex`, `encoding/csv`, `encoding/json`,
  `sort`), written from their documentation and behaviour.
* For theorems about encrypted files: the hypothesis `Crypt.Spec.Lawful` about block ciphers, hashes and the key derivation
  (sizes; decryption of a block inverts encryption). It is not an axiom but an argument of the theorems; `Crypt.Spec.toy_lawful`
  shows that it can be met. No theorem assumes that the ciphers are hard to break, so secrecy is not a subject of this model.

## Layout

| Layer | Model modules | What is modelled |
|---|---|---|
| base | `Go/*` | byte strings, Go maps (association lists with an explicit order of visiting), `strings.*`, `strconv.*`, hex, UTF-8, sorting, panics as values |
| txlogs | `Txlogs/Model`, `Txlogs/Merge` | `DB` and all its methods, `applyTx`, `Merge`, `Conflict` |
| json | `Json/Model` | the text form of a store: `json.Marshal` and `json.Unmarshal` for the types of `txlogs` |
| blobformat | `Blob/Model`, `Fuzzy/Model` | `Blobs`, `Blob`, search, labels, users, `findOne` |
| crypt | `Pkcs7/Model`, `Crypt/Model` | padding, CBC, the cascade, header layout, `Encrypt`, `Decrypt`, `IsMultiUser`, key wrapping, `validate` |
| csv | `Csv/Model` | `encoding/csv` as used for export and import |
| scp | `Scp/Model`, `Scp/Writes` | the byte protocol of scp; the same when writes to the connection fail |
| app | `App/Input`, `PassGen` | the prompts of `uihelpers.go`, the password generator |
| | `App/Session`, `Accounts`, `Commands`, `Show` | `uicontext.go`, loading and saving, every command of `commands.go`, what the reading commands print |
| | `App/Hosts`, `Merging`, `Sync` | known hosts, `mergeLogs`, `mergeBlobs`, `sync` against arbitrary remotes |
| | `App/Net`, `Go/Url` | `url.Parse` and `URL.String`, `sshConfig`, `sshPull`, `sshPush`, `Recv`, `Send`, the scp command line, against arbitrary servers |
| two factor | `Otp/Model`, `Go/Query` | `SetTwofactor`, `TwoFactor` with what they use of pquerna/otp v1.3.0 and Go's base32 and url packages, written from knowledge of these libraries as their source is not in the repository |
| time | `Go/Time`, `App/Past` | what bpass uses of Go's package time (parsing the time of `--time`, dates, nanoseconds), written from knowledge of the library; opening a file at that time |
| | `App/Transfer`, `File`, `Repl` | export, import, the file on disk while it is saved, the prompt, `main` and the exit status |
| | `App/Random` | the commands, a run and a new file when requests for random bytes fail (requests made by `sync` excepted) |
| | `App/Help` | the texts of `help`, and the commands and arguments they describe |
| | `App/Edges` | `pinentry`, the hidden line editor of Windows, the choice of the file, the short path |

In each layer model files hold only definitions, `*Lemmas*.lean` helper proofs, `*Props.lean` the property theorems (claimed
theorems are called `Cnn_…`), and `*Spec.lean` the definitions that the statements of the theorems use besides the model. Theorems
whose name ends in `_partial` prove less than the property says, those ending in `_false` prove that some form of the property
does not hold, by a concrete witness. Below every theorem or at the end of its file there are `example`s in which its hypotheses
are met.

## Modelling conventions

* Go `string`/`[]byte` = `List UInt8` (`Str`). `int64` timestamps = `Int` (only compared). `uint`/`int`
  lengths = `Nat`/`Int`, unbounded (the code does no arithmetic that could wrap for any log that fits in memory;
  where `byte(...)` truncation matters — pkcs7, the password generator — it is modelled exactly).
* Go map = association list. The order in which a map is visited is an explicit argument: any permutation of the map, so
  theorems hold for every order the Go runtime may pick.
* Errors are values; a run-time panic is the separate outcome `panic`.
* Clock readings, fresh uuids, random bytes, user input, file contents and remote replies are arguments of the functions, and the
  theorems quantify over them.
* A prompt takes one element of the input list: a line, or an interruption. When the list is used up prompts fail (end of
  input). A loop that asks again until it gets an acceptable answer is recursion on this list.
* Slices are values without spare capacity: slicing beyond the length is a panic, and `append` never writes into another slice.
  Where Go slices alias, the comment at the definition says so.

## What is not modelled

| Go code | Not modelled |
|---|---|
| `cli.go` | the flag parser (a library); how the file is chosen after it (C84) and what `--time` means (C99) are modelled |
| `main.go` | set-up of the terminal, colours, clearing the clipboard, `version`; `gen` is `getPassword` |
| `commands.go`, `repl.go` | messages and colours, except what `get`, `ls`, `labels`, `show` print or copy and the text of `help` (C130); starting the editor or browser (the edited text and the outcome are arguments); making keys and two-factor codes (arguments) |
| `sync.go` | the cryptography of ssh: that a server has the private key of the host key it shows is taken for granted. Up to C89 the connection and the parsing of URLs are arbitrary functions; `App/Net` and `Go/Url` model them |
| `scpsync` | — |
| `crypt` | the ciphers, hashes and scrypt (arbitrary functions with `Lawful`), `decryptV0` (always an error); errors of the random source only in `App/Random` (C122) |
| `readline.go`, `line_editing.go` | the line editor (a library): prompts deliver lines. `noreadline.go` is modelled but for the console calls (C85, C124) |
| `osutil` | starting programs |
| `txlogs/errors.go` | texts of messages |

Third-party code (flaggy, readline, color, uuid, ssh, ciphers) is not modelled; it appears as arguments. Of otp the parts that bpass uses are modelled for C95, with HMAC-SHA1 and `strings.ToUpper` as arguments; elsewhere otp is an argument too.

## Plan per property

| Id | Property | Modelled by | Proof | Status |
|---|---|---|---|---|
| C01 | Snapshot always equals the replay of the log | `DB` step machine | invariant: the snapshot is the replay of the first `version` operations; induction over calls. The code breaks it at one point of `Rollback` (`Version == txPoint`): witness, and a theorem for histories that avoid it | partial |
| C02 | A read returns the last write | `applyTx`, `replay` | refinement to a last-write specification, induction on the log | proved |
| C03 | Operations on one entry never affect another | `applyTx`, `replay` | refinement to a last-write specification, induction on the log | proved |
| C04 | Rollback undoes a transaction completely | `DB` step machine | invariant and list reasoning; the snapshot half of C04 is false at the point of C01 | partial |
| C05 | RollbackN removes exactly the last n operations | `DB` step machine | invariant and list reasoning; the snapshot half of C04 is false at the point of C01 | proved |
| C06 | SnapshotAt shows exactly the state n operations ago | `SnapshotAt`, `EntrySnapshotAt`, `NVersions`, `LastUpdated` | projection lemma: the replay of the operations on u is entry u of the replay | proved |
| C07 | EntrySnapshotAt shows exactly the entry n of its own versions ago | `SnapshotAt`, `EntrySnapshotAt`, `NVersions`, `LastUpdated` | projection lemma: the replay of the operations on u is entry u of the replay | proved |
| C08 | Version count and last-updated agree with the log | `SnapshotAt`, `EntrySnapshotAt`, `NVersions`, `LastUpdated` | projection lemma: the replay of the operations on u is entry u of the replay | proved |
| C09 | A log that does not replay is reported, stays reported, and is not altered | `UpdateSnapshot`, `Save` | case analysis, induction | proved |
| C10 | Nothing is saved while a transaction is open | `UpdateSnapshot`, `Save` | case analysis, induction | proved |
| C11 | Save then New returns the same store | JSON encoder and decoder | round trip by structural induction on values and text | partial |
| C12 | Merging loses nothing and invents nothing | `Merge` | `Merge` without resolutions computes the two-pointer union; uniqueness of sorted lists with the same members | partial |
| C13 | Merged history is chronological and preserves each side's order | `Merge` | `Merge` without resolutions computes the two-pointer union; uniqueness of sorted lists with the same members | partial |
| C14 | Merging with oneself or with one's own past changes nothing | `Merge` | `Merge` without resolutions computes the two-pointer union; uniqueness of sorted lists with the same members | proved |
| C15 | Merge does not depend on which side is local | `Merge` | `Merge` without resolutions computes the two-pointer union; uniqueness of sorted lists with the same members | partial |
| C16 | Replicas converge whatever the order of syncing | `Merge` | `Merge` without resolutions computes the two-pointer union; uniqueness of sorted lists with the same members | partial |
| C17 | A conflict-free merge of two good histories is a good history | `Merge` and `replay` | automaton of the life of each uuid, characterisation of conflicts, invariant of the resolving pass | proved |
| C18 | Conflicts are reported exactly when an entry is touched after being deleted elsewhere, or there is no common ancestor | `Merge` and `replay` | automaton of the life of each uuid, characterisation of conflicts, invariant of the resolving pass | partial |
| C19 | Resolving the reported conflicts completes the merge in one round with the chosen outcome | `Merge` and `replay` | automaton of the life of each uuid, characterisation of conflicts, invariant of the resolving pass | proved |
| C20 | Unrelated files are never merged silently | `Merge`, `mergeLogs` | case analysis; `Merge([],[])` panics: witness | proved |
| C21 | Merge refuses half-resolved conflicts and is total | `Merge`, `mergeLogs` | case analysis; `Merge([],[])` panics: witness | partial |
| C22 | Interactive merging terminates with the user's choice | `mergeLogs` with an input script | the prompt never leads to a merge: proved for every script; what completes is proved good | partial |
| C23 | An aborted or failed merge leaves the local file as it was | `mergeBlobs` | induction over the remotes | proved |
| C24 | Merged credentials always come from one side as a unit | `mergeBlobs` | induction over the remotes | proved |
| C25 | For single-user files the newest side's credentials win | `mergeBlobs` | induction over the remotes | partial |
| C26 | A remote that could not be read is never overwritten | `sync` as a function of what the remotes deliver | induction over the remotes; C27 and C65 false by witnesses | proved |
| C27 | After a sync every reachable remote holds the merged history | `sync` as a function of what the remotes deliver | induction over the remotes; C27 and C65 false by witnesses | partial |
| C28 | A known host with a changed key is never accepted | `hostAsker.callback`, `saveHosts` | split and join lemmas; witnesses for the malformed line and the deleted entry | partial |
| C29 | Recording a host key never damages the store | `hostAsker.callback`, `saveHosts` | split and join lemmas; witnesses for the malformed line and the deleted entry | partial |
| C30 | Entry names are unique | blob API step machine | invariant over calls for any order of visiting maps | proved |
| C31 | Every entry always has a name, so name lookups never panic | blob API step machine | invariant over calls for any order of visiting maps | partial |
| C32 | Protected keys cannot be written through Set or removed through DeleteKey | blob API step machine | invariant over calls for any order of visiting maps | partial |
| C33 | Searching returns exactly the matching entries | `Search`, `Match`, `findOne` | equivalence with a declarative subsequence relation | proved |
| C34 | Fuzzy matching is subsequence matching | `Search`, `Match`, `findOne` | equivalence with a declarative subsequence relation | partial |
| C35 | Label search returns exactly the entries carrying all labels | labels, `RenameDuplicates` | false in general (witnesses); positive theorems under conditions | partial |
| C36 | Removing a label removes that label and nothing else | labels, `RenameDuplicates` | false in general (witnesses); positive theorems under conditions | partial |
| C37 | RenameDuplicates makes names unique | labels, `RenameDuplicates` | false in general (witnesses); positive theorems under conditions | partial |
| C38 | NewSync and import always find a fresh name | `NewSync` | termination measure: number of entries | proved |
| C39 | An exact name always selects that entry; ambiguity never does | `Search`, `Match`, `findOne` | equivalence with a declarative subsequence relation | proved |
| C40 | PKCS#7 padding round-trips | pkcs7 | list arithmetic; C41 false for a zero pad byte | proved |
| C41 | Unpad accepts only well-formed padding | pkcs7 | list arithmetic; C41 false for a zero pad byte | partial |
| C42 | A single-user file decrypts to what was encrypted | crypt | inversion of CBC and of the cascade, printing and parsing of headers, symbolic execution of every check | proved |
| C43 | In a multi-user file every user can decrypt | crypt | inversion of CBC and of the cascade, printing and parsing of headers, symbolic execution of every check | partial |
| C44 | Decryption never returns unauthenticated data | crypt | inversion of CBC and of the cascade, printing and parsing of headers, symbolic execution of every check | proved |
| C45 | Decryption of any input fails cleanly | crypt | inversion of CBC and of the cascade, printing and parsing of headers, symbolic execution of every check | partial |
| C46 | Unknown users are rejected | crypt | inversion of CBC and of the cascade, printing and parsing of headers, symbolic execution of every check | partial |
| C47 | What Decrypt returns can be encrypted again | crypt | inversion of CBC and of the cascade, printing and parsing of headers, symbolic execution of every check | partial |
| C48 | Cached keys are used only when their salt matches the file | crypt | inversion of CBC and of the cascade, printing and parsing of headers, symbolic execution of every check | proved |
| C49 | Valid parameters never crash Encrypt | crypt | inversion of CBC and of the cascade, printing and parsing of headers, symbolic execution of every check | partial |
| C50 | IsMultiUser agrees with the file | crypt | inversion of CBC and of the cascade, printing and parsing of headers, symbolic execution of every check | proved |
| C51 | Account operations keep the file openable | account commands on a session | composition with C42 and C43; C52, C53, C62 false by witnesses | partial |
| C52 | rekeyall leaves every user able to open the file with the new password | account commands on a session | composition with C42 and C43; C52, C53, C62 false by witnesses | partial |
| C53 | passwd changes the password of the named user only | account commands on a session | composition with C42 and C43; C52, C53, C62 false by witnesses | partial |
| C54 | Generated passwords meet the request | `genPassword` over arbitrary random bytes | counting and permutation; panics for multiples of 256 | partial |
| C55 | scp transfer preserves the file | scp | printing and parsing | partial |
| C56 | A truncated or malformed scp stream is an error | scp | printing and parsing | partial |
| C57 | Read-only sessions never change the file or its history | the prompt in a read-only session | induction over lines | proved |
| C58 | A crash while saving never loses the file | `WriteFile` as truncation and writing piece by piece | the states on disk are prefixes; false: the empty prefix | partial |
| C59 | Export contains every entry and every key at its current value | export, import | set of rows; induction over records; false for stale snapshots and for the header | partial |
| C60 | Import creates exactly one entry per CSV record | export, import | set of rows; induction over records; false for stale snapshots and for the header | partial |
| C61 | set stores the value exactly as typed | parsing of a line and `set` | lemmas about `strings.Fields` and `Split` | partial |
| C62 | Deleting a user entry keeps the file consistent | account commands on a session | composition with C42 and C43; C52, C53, C62 false by witnesses | partial |
| C63 | The interactive password generator returns what the user accepted and never crashes | `getPassword` | induction over the input | partial |
| C64 | A merge leaves the file multi-user exactly if it has users | `mergeBlobs` | induction over the remotes | partial |
| C65 | sync only touches sync entries and refuses others | `sync` as a function of what the remotes deliver | induction over the remotes; C27 and C65 false by witnesses | partial |
| C66 | No sequence of commands crashes a session | every command at the prompt | one invariant (`WellFormed`) preserved by each command, induction over lines | partial |
| C67 | Files stay in order | every command at the prompt | one invariant (`WellFormed`) preserved by each command, induction over lines | partial |
| C68 | add is all or nothing | `add`, transactions | composition of the blob calls inside `Do` | proved |
| C69 | Commands on the current entry change that entry only | `findOne`, `cd`, `get` | an exact name selects its entry; frame conditions of each command | partial |
| C70 | get prints the current value | `findOne`, `cd`, `get` | an exact name selects its entry; frame conditions of each command | proved |
| C71 | Text of several lines is stored as typed | prompts | induction over the input: equivalence with `FirstAnswer` | proved |
| C72 | Exported CSV can be read back | CSV writer and reader | the reader's state machine run on the writer's output | partial |
| C73 | The exit status tells whether the run succeeded | `main` | case analysis of the control flow at `Exit` | partial |
| C74 | What a session leaves is saved and opens again | whole life of a file: create, sessions, save, open | C51 and C67 and C77 composed; induction over sessions | partial |
| C75 | Cancelling a prompt costs no earlier work | prompts inside commands | witness | partial |
| C76 | History only grows | every command at the prompt | one invariant (`WellFormed`) preserved by each command, induction over lines | partial |
| C77 | Text stays text | text in the log | invariant: every string of the log is well-formed UTF-8; C11 | partial |
| C78 | Every question gets an answer of the kind it asks for | prompts | induction over the input: equivalence with `FirstAnswer` | proved |
| C79 | The editing commands do what they say | the editing commands | exact effect of each command on what is visible (`Spec.upd`) | partial |
| C80 | sync loses no operation | `sync` | C12 carried through `mergeLogs`, `mergeBlobs` and `sync` | partial |
| C81 | The reading commands show what is there | the reading commands and what they print | exact characterisation of the lists and texts; sorting is independent of the order of visiting | partial |
| C82 | addsync records what was typed | `addsync` | exact effect on what is visible | proved |
| C83 | A password typed into pinentry arrives as typed | `pinentry.Password` as a function of the lines the program writes | case analysis of the conversation; the replacer inverts the escapes by induction | partial |
| C84 | The file the user named is opened and shown | the choice of the file, `shortPath` | case analysis, split and join | partial |
| C85 | The hidden prompt on Windows returns what was typed | `LineHidden` as a function of the reads | invariant of the buffer, induction over reads; witnesses | partial |
| C86 | What the program records is a history it can merge | all lines other than `sync` and the clock readings they use | which operations each command appends (C67) and at which readings of the clock; replaying for the rest | partial |
| C87 | sync keeps files in order | `sync`, `saveHosts`, the prompt and `main` | C80 gives the union of histories, which is again a history of this kind; induction over lines and sessions | partial |
| C88 | sync locks nobody out | `sync`, `passwd`, `rekey`, `adduser`, `saveBlob`, the prompt | a history of records (`Keyring`) is kept by every line and by the union of logs; the value of a key is that of the latest operation, so the three parts of a record come from the same one; C51 then opens the file; over runs by induction on `KeyYears`, with C11 for the JSON and C77 for the texts in it | partial |
| C89 | Machines that sync through a shared file end up with the same entries | `runRepl`, `sync` and all below them; the machines and the shared file are a state machine around them (`Fleet`) | an invariant over all runs: an operation that two machines have is in the shared file, and a machine that has something new has a last operation the shared file lacks, so that `sync` never takes different logs for the same; a round of syncs makes the shared log the union, and equal sets in order of time are equal lists; with C77 the logs stay well-formed text, so C11 applies to every save; what is needed about passwords is an argument of the lemmas (`Scheme`), which for files with users is that the records and names of users in the log stay the same, so that by C88 each user opens what any of them saved | partial |
| C90 | Remotes are where addsync was told they are | `url.URL.String`, `url.Parse` with escaping and the checks of hosts and ports, `addSync`, `sshConfig` | escaping is undone by unescaping, byte by byte; the special characters cannot occur in escaped parts, so parsing finds the same cuts | partial |
| C91 | sync sends nothing to a server whose key was not accepted | `sshConfig`, the host key callback, `sshPull`, `sshPush`, `Recv`, `Send`, with a trace of what is sent | case analysis of the conversation with C28 for the callback | proved |
| C92 | What scp stores is what sync sent, and what it reads is what is there | the command line of scp, `Recv`, `Send`, a shell that splits words and commands, an scp server | splitting of a line without special characters; C55 for the protocol | partial |
| C93 | Machines that sync over ssh with one server end up with the same entries | `sync` with the network (`netWorld`), the machines and the server as a state machine (`NetFleet`) | each step of it is a step of the machines of C89, by C92 | partial |
| C94 | What sync overwrites, it has read | `sync` with files and ssh (`netWorld`) | C26 for what was read; the store that is pushed from differs from the one after the merge in known hosts only | partial |
| C95 | Two factor codes are the codes of the secret that was set | `SetTwofactor`, `TwoFactor`, `get`, `set`, and of the libraries: `otp.NewKeyFromURL`, `totp.GenerateCode`, base32 decoding, escaping and parsing of queries | base32 decoding undoes the digits of RFC 4648, group by group; escaping is undone by parsing; the truncation is that of RFC 4226 written as arithmetic | partial |
| C96 | After sync every field holds what was written last on any machine | `sync`, `Merge`, replay | in a good history the state is given by the last operation on each field; the log after `sync` has the operations of all logs and known hosts only (C87) | partial |
| C97 | No remote can crash sync | `sync` with its parts, `netWorld`, `Recv`, `readFile`, the session and `main`'s use of both | what the store can hold for addresses and known hosts follows from the log; a file that bpass wrote decrypts with right credentials (C42, C43); merging good histories of one file does not crash (C22), and in a history as bpass writes it all entries have names, so that listing users and encrypting cannot crash (C49, C87) | partial |
| C98 | sync does not lock anybody out of a file without users | `sync` with `decryptBlob`, `decryptV1Single` and `mergeBlobs`, all commands, `main`'s session and `saveBlob` | a file without users decrypts with the cached key, which belongs to the old passphrase and needs no other, or with a key derived from the passphrase tried; credentials are taken over as a unit (C24); C51 for writing and opening; for a whole life induction over the runs with C87 and C77 | partial |
| C99 | A file opened at a time in the past shows exactly what it held then | `time.Parse` with the layout of `--time`, `UnixNano`, `IsZero` and `Format(RFC3339)`, from knowledge of the Go library; `loadBlob` with a time | the day count of Go in cycles of 400, 100, 4 and 1 years against a calendar defined by counting seconds one by one; a prefix of a history that can be replayed can be replayed; commands append operations stamped with clock readings (C87) | partial |
| C100 | What a file gives away | `encryptV1` with both forms and `saveBlob` | the length of what the layers return is that of the padded text; the front of the file is built from the parameters only; with users encryption does not look at the random bytes | partial |
| C101 | Taking access away | the commands that change passwords and users, `makeParams`, `saveBlob` and `encryptV1Multi`; the reader with the master key is `readWith`, which is no part of bpass | each command keeps the master key by cases, sessions by induction; decryption undoes encryption layer by layer (C42); C51 for what a user learns on opening | partial |
| C102 | Every entry can be named on a command line | the splitting of lines (`strings.Fields`, `strings.TrimSpace`, `strings.Split`), all commands, `sync`, `importLastpass` | a word is a text without white space as Unicode has it, split off rune by rune; what each line may write (as in C73), and where the operations after `sync` come from; C70 and C79 for the effect of the commands | partial |
| C103 | edit leaves nothing of a value on the disk | the part of `edit` between the creation and the removal of the temporary file, `RunEditor` for Linux; a disk is the contents of numbered files, which outlive their names, and a directory; the editor is any function on disks | case by case; for what is stored C79 | partial |
| C104 | What is copied to the clipboard was asked for and does not stay there | the texts a line hands to the clipboard, in step with the model of the commands; the clipboard is one text, and writing it works always or never in a run; the function that shows a date is a parameter | by cases on the commands; C70, C79 and C81 for the values; that the password prompt is reached where the copies assume it is stated separately (C104_add_asks and others) | partial |
| C105 | Generated passwords are hard to guess | `genPassword` as for C54; probability is the number of contents of the buffer of random bytes, whose size is modelled too | the picks are independent of each other and of the shuffle, so the count is a product for each fixed shuffle; the shuffle can be undone, so for each of its bytes at most one order of the picks leads to the password | partial |
| C106 | Programs at work on one file at the same time lose nothing | `loadBlob` at the start and `saveBlob` at the end of each program, in any order; what is typed touches only the memory of the program, so a session is one step at its end | each program works in the life of a file that branches off when it starts, so C74 and C76 hold for it; commands that read keep the log and the credentials; for runs one after the other, that the branch is always the present file | partial |
| C107 | Machines that sync at the same time come to agree | `sync` as in C89, but it may read any file that the share has held before; reading and writing are two steps between which others may write | an invariant over every file the share has ever held: each is an own history of operations that some machine has; a sync is nothing, or the union of both logs; two rounds collect and spread as in C89; two logs of the same length that begin and end at the same times are never merged | partial |
| C108 | At the prompts of sync every remote can be opened with its passphrase | `decryptBlob` as a loop over the lines typed, `pullBlob` and the loop of `sync` over the remotes, `Decrypt` with cached key and salt | a key cached for another salt has no influence (C48), and with the same salt the passphrase has none; induction over the lines; opening by hand is `Decrypt` without a cached key, as `loadBlob` calls it | partial |
| C109 | The date of an entry tells when it was last changed | all commands down to the operations they append, `touchUpdated`, `sync`, `show` | each command appends operations in pairs, a date and what it dates, and the exceptions are listed (`Marks`); a date is one reading of the clock earlier than its operation; sync gives the union of the histories, and the last operation wins (C96) | partial |
| C110 | dump and dumpall print everything there is and nothing else | `json.MarshalIndent` (the compact text, then `appendIndent` byte by byte), `dumpBlob` with `%#v`, which is `strconv.Quote`, from knowledge of the Go library; which characters are printable is a parameter | indenting only adds white space between the tokens, which the parser of C11 skips; a reader for quoted text undoes the quoting rune by rune, so quoting is injective and ends itself | partial |
| C111 | What was deleted or replaced is gone | `deleteEntry`, all commands, `sync`, `dumpall`, `--time`, saving and opening | the history only grows (C76), a file opens with what the last session left (C74, C98), and dumpall prints every operation (C110) | partial |
| C112 | TAB offers the entries and changes nothing | `entryCompleter`, the table of `readlineAutocompleter`, every command at the prompt | every command that looks at the store brings its view up to date first, which is idempotent, so each one is shown to do the same from the updated view; then induction over the session | partial |
| C113 | What bpass writes, others cannot read | `ioutil.WriteFile`, `os.Create` and `OpenFile` with `O_EXCL` as bpass calls them, with permissions and umask; from knowledge of the system calls | bit arithmetic for new files, invariance of the permissions for those that are there, induction over the actions | partial |
| C114 | Only commands can be recalled at the prompt | `repl.run` with its calls of `AddHistory`; the memory of the editor is the list of these | induction over the session; a session stays read-only or writable, command by command, and only `exit` ends it | partial |
| C115 | The account commands do what they say | the messages at the end of `passwd`, `rekey` and `adduser` as functions of what the commands did | from the theorems on the account commands (C51, C53); the false parts hold for every file of the kind, not just for a witness | partial |
| C116 | A push that is cut off does no lasting harm | `ioutil.WriteFile` in `pushBlob` as the list of contents one after the other, `Decrypt` and the loop of `sync` as before | the last cipher of the cascade has blocks of 8 bytes, and all headers are multiples of 8, so `Decrypt` only succeeds on such lengths; `sync` pushes only what it understood (C26); one remote that panics ends the loop | partial |
| C117 | An old copy put at a remote brings nothing back | OldCopy, OnlyOld, Settled, SameThere (App/StaleSpec.lean) over the model of sync, mergeRemotes and Merge | Merge of a history with a prefix of it is that history (for histories whose ids and times are the program's own), by induction over the remotes for mergeRemotes; then sync is followed through its stages. Counterexample: a changed passphrase leaves the log as it is, noChanges holds, and the push list is empty. | partial |
| C118 | What a run changed is at the remotes when it ends | session with its two synchronisations, LeftPrompt, Behind (App/AfterSpec.lean) | What the last synchronisation does is C74_autosync; with C117_merge the merged history is the one here, with C80 it is the union, and C27_sent_partial gives what is sent. Witnesses by computation for the password, the conflict and the failed push. | partial |
| C119 | Leaving without saving undoes the run | session and main, NoSync (App/AfterSpec.lean) | Only sync sends: induction over the lines with a case analysis of the commands; the file is written only after the prompt was left in order to save. Witness by computation: sync, then Ctrl-C, then the next start. | partial |
| C120 | A server that was accepted is not asked about again | `syncWith` over `netWorld`: fetching, merging, `saveHosts` before and after sending, `sshPull` and `sshPush` with the check of the key | The line a pull reports is the line of the server that was just accepted; `saveHosts` changes only known hosts and appends; a line that is on record stays on record under appending; sealing leaves the store; so the key is on record in the entry at the end. Kernel computation for the witnesses. | partial |
| C121 | A current entry saves typing its name and nothing else | runLine with atEntry, SameButQuery, SameTurns (App/ContextSpec.lean); lineCopies | Case analysis over the commands: queryArgs, queryArg and setArgs of the current entry are those of the arguments with the name in front; induction over the turns. Witnesses by computation on a file with two entries. | partial |
| C122 | A failing random source never weakens anything | The commands again with answers that may be missing (App/Random.lean), Spec.drawnAs (App/RandomSpec.lean) | Each function ends with the error of the source or equals the ordinary one whatever is put for the missing answers; by cases for the commands, by induction over the rounds of the password prompt, the users of rekeyall, the names tried by addsync and the turns. Inside Do the rollback cannot fail because the log only grew. Witnesses by computation. | partial |
| C123 | An import leaves a file like any other | importLastpass (App/Transfer.lean), main with the job lpassimport (App/File.lean), ImportOk (App/ImportedSpec.lean) | Induction over the records: each appends the three operations of New and up to five values at increasing times, which keeps the history, the names and the dates. That fields of valid text are valid: the reader cuts it at ASCII bytes only. Saving with C51_save_open_single and C77_saved. Witnesses by computation. | partial |
| C124 | The end of the input keeps what was typed on every system | scanLine, scanned, winTurns (App/Scan.lean), runRepl (App/Repl.lean), main (App/File.lean) | Induction over the lines for the scanner; only the command exit ends the prompt without an error, so the failing prompt at the end is reached and main returns before the save. Witness by computation. | partial |
| C125 | A synchronisation that fails costs nothing that was typed | sync, saveHosts (App/Sync.lean), autoSync and session (App/Repl.lean), main (App/File.lean), Offline (App/OfflineProps.lean) | Every sync entry has one of the two schemes, so every pull is skipped; the merge of no remotes is the own log, which replays from an empty snapshot to the same store; encrypting works with C51's lemmas about the parameters. Whole runs with C67, C77 and C51. Witness by computation. | partial |
| C126 | Accounts can be renamed with mv | renameCmd (App/Commands.lean), passwd, rekey, deleteEntry (App/Accounts.lean), makeParams, saveBlob (App/Session.lean) | The store after mv differs in the name and the date of one entry (C79_mv), from which the accounts and the conditions of C51_save_open_multi follow. Without user entries the list of keys is empty and the parameters are refused. MustFindUser panics if there is no entry of that name. Witnesses from general theorems and computation. | partial |
| C127 | What is shown depends on what is in the file, not on who looks | execRead, runLine, runRepl (App/Repl.lean), the reading commands (App/Commands.lean), Spec.inPlace (App/LookProps.lean) | Each reading command commutes with putting another session around the store, by cases on the calls of the store; then by induction over the lines. | partial |
| C128 | The order in which maps are visited never shows | runLine, runRepl (App/Repl.lean) and all commands with two orders (Spec.revisit, App/MapOrderProps.lean), lsLines (App/Show.lean), complete (App/Complete.lean), saveBlob (App/Session.lean) | Names are unique, so FindByName and findOne select the same entry (C39_selects); the uniqueness loops of New and Rename agree; lists of results are permutations of each other and are sorted before they are printed. Then by cases over the commands and by induction over the lines. Witnesses by computation in a file with two accounts. | partial |
| C129 | Leaving and starting again in between changes nothing | runLine, runRepl (App/Repl.lean), saveBlob, openFile (App/Session.lean), Spec.Alike and Spec.Continues (App/ResumeLemmas.lean) | Two sessions with equal log, transaction mark and keys, whose snapshots may differ. Both snapshots are made current from the same log, so they show the same entries; each command is shown to keep the relation and to give the same result, then by induction over the lines. C51 gives that the opened session is related to the saved one. Witnesses by computation. | partial |
| C130 | The help tells what the prompt does | helpCmd and the texts (App/Help.lean), readOnlyFlag, parseLine, runLine (App/Repl.lean) | The usages are computed from the texts; then by cases over the 31 of them, the number of arguments and the current entry. | partial |
| C131 | A session may be cut into any number of runs | runRepl (App/Repl.lean), saveBlob, openFile (App/Session.lean) | Induction over the runs; each is C129_session_partial, and coming back is C51 with C77_saved. Whether one can leave depends on the log and the keys only. | partial |
| C132 | The system fields of an account cannot be set by hand | runLine and the commands it calls (App/Repl.lean, App/Commands.lean), set, deleteKey (Blob/Model.lean) | Every operation a line adds is one that leaves the fields alone (the rules of App/WriteLemmas2), and the meaning of such operations keeps the fields; induction over the lines. | partial |

## What holds and what does not

For every property that is not proved as stated, and for proved ones with a remark:

* **C01** (partial): False as stated: Rollback compares Version > txPoint where txPoint is length+1, so exactly one applied operation stays in the snapshot (C01_false). Proved for every history in which Rollback is not called in that state, and for every history without UpdateSnapshot inside an open transaction.
* **C02** (proved): C02_last_write: replay from scratch, every store. C02_last_write_snapshot: maintained snapshot, histories avoiding the Rollback defect of C01.
* **C04** (partial): Log half proved for all work sequences; read half false when exactly one operation of the transaction was applied to the snapshot (C04_false), proved otherwise.
* **C05** (proved): For every store reached without the Rollback defect of C01.
* **C06** (proved): Negative arguments crash (C06_negative_panics).
* **C11** (partial): Proved for stores whose strings are well-formed UTF-8, and so for every store that was read from a file, whatever its text (C11_read); for others C11_any says what is read back: ill-formed bytes are replaced, so a password can change and two different ones become equal (C11_false). The text null makes NewLog crash (C11_null).
* **C12** (partial): False when the logs have equal length and equal first and last timestamps but differ in between: Merge takes them for identical and returns the first (C12_false). Proved for all other pairs of logs.
* **C13** (partial): Proved for all pairs of chronological logs: the result is chronological without duplicates, and what it has of either side is in that side's order (C13_order). This machine's log is kept in order whatever the logs are (C13_local). For logs that are not chronological the other side's order is kept unless the look-alike fast path confuses the logs (C13_order_preserved_partial); if it does, it is not (C13_false).
* **C15** (partial): Proved for distinguishable logs; false for logs the fast path confuses (C15_false_fast_path).
* **C16** (partial): Any number of replicas, any bracketing and repetition, provided no merge step meets two look-alike but different logs; false otherwise (C16_false).
* **C18** (partial): iff proved for all chronological logs the fast path does not confuse; false otherwise (C18_false_fast_path).
* **C19** (proved): For every pair of histories bpass writes; C19_panics_on_bad_logs shows that the restriction is needed.
* **C21** (partial): Two empty logs crash Merge (C21_false); otherwise total without resolutions; with the answers of C19 total for good histories.
* **C22** (partial): False: an entry deleted on one side and edited on the other can never be merged, the prompt repeats until it is aborted (C22_never_completes). Proved: histories without such a pair complete, and nothing returned is a bad history.
* **C25** (partial): Proved for one remote with non-empty logs, and between two files with users; an empty remote log crashes (C25_false), with several remotes an older one can win (C25_several_false).
* **C27** (partial): False: a remote whose log looks like the local one is skipped for good, also when another remote brings changes (C27_false). Proved: all other remotes that were read or absent are sent a file that opens to the merged log.
* **C28** (partial): A malformed known-hosts line crashes the callback (C28_false); otherwise proved.
* **C29** (partial): Proved for entries that still exist; if the merge deleted the sync entry the store becomes unreadable (C29_false).
* **C30** (proved): Every sequence of calls with any arguments and any map order, also at every earlier point of the history.
* **C31** (partial): False for arbitrary arguments: Set and friends on an unknown uuid make the file unreadable (C31_false); Search panics on names that are not valid UTF-8 (C31_search_panics); one entry without a name makes lookups crash (C31_nameless_false). Proved for all sequences of calls on existing entries with fresh uuids for new ones.
* **C32** (partial): Set half proved. DeleteKey protects only the exact keys name and updated; totp, iv, salt, mkey can be deleted (C32_delete_false).
* **C34** (partial): Proved for well-formed UTF-8 names; false otherwise (C34_false, C34_panics).
* **C35** (partial): Proved when no entry carries a label twice; false otherwise (C35_false).
* **C36** (partial): AddLabel proved. RemoveLabel keeps only the last label (C36_remove_actual), so it is right only for a sole label and the first of two (C36_false).
* **C37** (partial): RenameDuplicates never renames anything: the write is refused and the error dropped (C37_never_renames, C37_false). Nothing calls it either; C87_names_false is the case it is meant for. The name it would give is not one of those before it (C37_fresh) but can be that of a later entry (C37_taken_false).
* **C38** (proved): NewSync; the import loop is covered with C60.
* **C40** (proved): Block sizes 1..255; at 256 the padding byte wraps (C40_256).
* **C41** (partial): A final zero byte is accepted as padding of length zero (C41_false); proved for inputs not ending in zero.
* **C42** (proved): For all primitives satisfying Spec.Lawful (sizes and block decryption inverting encryption).
* **C43** (partial): Proved up to 9999 users; from 10000 on the count does not fit into the header and Decrypt never returns the parameters (C43_false).
* **C45** (partial): False: truncated files crash Decrypt for every choice of ciphers (C45_false). So does a mistyped passphrase on any intact file if what it makes of the last block ends in a byte 0 or 1 (C45_mistyped_false, C45_users_mistyped_false, C45_open_false), two bytes of 256; with any other byte that differs from the one before it is refused cleanly (C45_mistyped_partial). Files with a bad header are refused cleanly.
* **C46** (partial): ErrUnknownUser is never returned (C46_unknownUser_false). With credentials that open the first record, the outcome is a crash or ErrWrongPassphrase unless a named SHA-512 collision exists; other credentials cannot be excluded without assumptions on the ciphers.
* **C47** (partial): For any bytes at all that Decrypt accepts, not only outputs of Encrypt, with any credentials whose cached key, if there is one, has 80 bytes: the parameters are valid exactly when the file has no users or the name is listed, and then encrypting with them gives a file the same credentials open to the same parameters. Not without conditions: a cached key that is too long opens the file but gives parameters that are refused, and a name that is not listed (which takes a SHA-512 coincidence, see C46) gives a user count that is one too large.
* **C49** (partial): Users without master key or its iv pass validation and crash Encrypt (C49_false); proved otherwise.
* **C51** (partial): Proved for every sequence of adduser, passwd and rekey with non-empty passwords: everybody opens the saved file with the last password given. Not as meant: rekey after passwd brings back the old password (C51_passwd_rekey_false), an empty password is accepted but never opens the file (C51_empty_password_false), passwd does nothing after the last user entry was removed (C51_passwd_after_rm_false).
* **C52** (partial): False: the records are written around the old master key, the file is encrypted with the new one (C52_false is a concrete file that nobody can open). What holds: every user gets a record that the printed password opens -- around the old master key.
* **C53** (partial): Proved when the named user is the current one; any other name changes the current user's record instead (C53_false).
* **C54** (partial): Proved for every length that is not a positive multiple of 256; for those genPassword divides by zero (C54_false). The reported impossibility is exact.
* **C55** (partial): Proved for contents below 2 GiB; larger ones are sent but never accepted (C55_false). With writes that fail, C55_written.
* **C56** (partial): Completeness proved, also with acknowledgements that cannot be written (C56_acknowledged); a negative length in the header crashes readFile (C56_false), nothing else does (C56_no_crash_partial).
* **C58** (partial): False: the file is truncated before it is written, so every save passes through a state that cannot be opened (C58_always_false). Proved: the file only ever contains the old contents or a beginning of the new ones, and runs that fail before writing leave it alone.
* **C59** (partial): Proved for files saved with a current snapshot. The export does not bring the snapshot up to date: entries added since are missing (C59_false).
* **C60** (partial): Proved with the header counted as a record: it is imported as an entry (C60_false). A header in one quoted field crashes the program (C60_crash_false).
* **C61** (partial): Proved for keys that Set accepts, words separated by single spaces and a value that does not end in white space. `set a name b` reports success and does nothing (C61_false); with a tab the line is misread (C61_tab_false).
* **C62** (partial): Proved for names not containing user/<current user> elsewhere than at the start; deleting x/user/<me> makes the session single-user while the user entry stays (C62_false).
* **C63** (partial): Blanks crash the prompt (C63_false), an impossible request can be accepted as the empty password (C63_empty_false); otherwise proved.
* **C64** (partial): Proved for one remote; false for several (C64_false).
* **C65** (partial): Proved without a name. With a name, an entry without an scp or file url crashes the program (C65_false).
* **C66** (partial): False: show with a negative number (C66_false) and rekey for an unknown user (C66_rekey_false) crash. Proved for lines that avoid these and the known defects of the password prompt; sync is C97.
* **C67** (partial): Proved for all lines other than sync; with sync it is C87.
* **C69** (partial): False after mv of the current entry: the prompt keeps the old name and the next command changes an entry that merely looks like it (C69_false). Proved for sessions that do not rename the current entry.
* **C70** (proved): The key totp (a code is computed, see C95) and updated (printed as a date) are not covered.
* **C72** (partial): Proved for tables without CR LF inside a field and without records that are one empty field; both are lost otherwise.
* **C73** (partial): False: err is overwritten at Exit, failed runs end with status 0 (C73_false). Only a crash is reported.
* **C74** (partial): Proved over the whole life of a file, from its creation through the first adduser to any number of users and sessions (C74_file_partial): everything typed is well-formed text, sync and rekeyall are not used, and entries under user/ are left to the account commands. Without the last condition it is false: add user/x or rmk user/a mkey make the file impossible to save (C74_false).
* **C75** (partial): False: cancelling the prompt of passwd or of login ends the program without saving (C75_false, C75_login_false). Proved for Ctrl-D in add.
* **C76** (partial): Lines other than sync only append. With sync every operation is kept, in the order they had (C76_whole_session_partial), under the conditions of C87.
* **C77** (partial): Proved when the lines and answers are well-formed UTF-8. False otherwise: two different passwords leave the same file (C77_false). With sync nothing is supposed of the files that remotes hold (C77_sync_partial); over ssh it is enough that those who answer have addresses made of text (C77_net_partial).
* **C78** (proved): A line that is a single full stop, or two blank lines, end a text of several lines.
* **C79** (partial): Proved but for labels: a label with a comma is read back as several (C79_label_false), and rmlabel removes other labels than the one named (C79_rmlabel_false).
* **C80** (partial): Proved for histories of one file that Merge can tell apart; without that a remote is taken for the local file although it differs, nothing is merged and nothing is sent, and sync reports success (C80_overlooked, C80_false).
* **C81** (partial): What is shown is proved. The layout is not: the width of the first column depends on the order in which the map is visited (C81_stable_false), a key as long as the column pushes its value one column on (C81_aligned_false), and different values can look alike (C81_multiline_false, C81_distinct_false). labels needs that no entry carries a label twice.
* **C82** (proved): The prompt for the port takes every number, though its message says 1 to 65534 (C82_port_false).
* **C83** (partial): Proved for programs that escape as pinentry does and send the password in one line; every other conversation is an error (C83_only). A cancelled window is taken for an empty password, which can then become the password of the file (C83_cancel_false); long passwords are refused (C83_long_false).
* **C84** (partial): False when the default file is given explicitly and $BPASS is set (C84_false), and for directories that begin with a letter outside ASCII (C84_short_false); proved otherwise.
* **C85** (partial): Proved for text without backspace however it is grouped, and for ASCII keys one at a time with backspace on a line that is not empty, both up to white space at the ends. Otherwise false: crash on an empty line, half letters, lost white space, repeated backspaces.
* **C86** (partial): Proved for all lines other than sync (that is C87) if every reading of the clock is later than the one before and than the log, and uuids are never drawn twice. Without the first it is false: two operations get the same time (C86_clock_false).
* **C87** (partial): Names are not unique: an entry made on two machines under one name is there twice, and which one a command uses depends on the order of a map (C87_names_false); nothing calls RenameDuplicates. Everything else is proved, and all of it if no name was given twice, for remotes that hold such histories of the same file and clocks that agree; crashes and failures of sync itself are C25, C28, C29 and C65.
* **C88** (partial): Proved for machines that share one master key and do not set passwords of the same user at overlapping times, over any sequence of lines including sync (except rekeyall, which is C52): the file opens with the password set last. C88_life_partial is about any number of runs of the program, with the JSON of the real format: after each the file opens for every user with the password set last for them, and C88_next_partial says where new passwords can come from (given at a prompt, or brought by a sync). False without these: overlapping changes are mixed and the file opens with no password that was ever set (C88_overlap_false); a first user added on two machines gives two master keys and a file that may not open (C88_masters_false); in a file without users a new password is not sent when nothing else changed (C88_passwd_false).
* **C89** (partial): Proved for files without users, and for files with users as long as nobody touches the accounts (C89_users_…), and one shared file that can always be read and written, where clocks and uuids of the machines differ and no name is given to two entries: nothing is ever lost (C89_intact_partial), and two rounds of syncs make everybody agree if no entry was changed on one side after it was deleted on the other (C89_agree_partial). The same holds with the JSON codec of bpass for everything typed that is well-formed UTF-8 (C89_text_intact_partial, C89_text_agree_partial). False otherwise: after such a conflict the machine is cut off from the shared file for good, whatever the user answers and whatever else is done, while sync reports no error (C89_stuck, C89_false).
* **C90** (partial): Proved for file remotes, and for scp remotes with hosts and ports that URLs can have, up to the first slash of the path. False: an absolute path is looked up in the home directory (C90_false); a port with a sign (C90_port_false) or a host with a character hosts cannot have (C90_host_false) is taken by addsync but the remote is then skipped; set takes an address without path, with which sync crashes (C90_crash_false).
* **C91** (proved): That a server has the private key of the host key it shows is ssh's part and not modelled.
* **C92** (partial): What is read counts only after a command that ended well (C92_got, C92_done), whoever answers. That it is the right file is proved for paths of characters that mean nothing to a shell and files up to 2 GB. Paths are not quoted, so that they can be several words or run commands on the server (C92_command_false); larger files are pushed but can never be pulled (C92_size_false).
* **C93** (partial): Proved under the conditions of C89_text_agree_partial, for a server that answers, whose key is on record, and a remote whose address stays the same and has a path without special characters.
* **C94** (partial): Proved where the address of the remote does not change in the merge. If it does, sync reads the file at the old address and overwrites the one at the new address unread (C94_false).
* **C95** (partial): Proved for keys spelt in base32 and totp addresses. Everything typed as a key is stored, also what never gives a code (C95_any_false, C95_spaces_false), as are keys that count (C95_hotp_false); digits, period and algorithm of an address are ignored (C95_params_false). HMAC-SHA1 is an argument.
* **C96** (partial): Proved for sync without a name that merges (mergeBlobs without error), under the conditions of C87. The known hosts are excluded: sync writes them. When the histories cannot be merged sync reports success, takes nothing over and sends nothing (C96_silent_false).
* **C97** (partial): Proved for files with and without users, also when some machines have users in the file and others not: sync, sessions and the program do not crash if each remote holds nothing or a file that bpass wrote with something in it, each passphrase that is typed is right or refused, servers announce no negative length, and addresses and known hosts are of the form bpass writes. Otherwise false: a file cut within its first 48 bytes (C97_cut_false), a new file without operations under another passphrase (C97_empty_false), an address without a path, which set accepts (C97_path_false), a negative length or a malformed line of known hosts (C97_server_false), a wrong passphrase for which what comes out of the ciphers is shorter than a hash (C97_typo_false).
* **C98** (partial): Proved if the remotes hold files without users; C98_partial also when sync fails or crashes. It need not be the passphrase the file was opened with: that of a newer remote replaces it silently (C98_pass_false). With a remote that has users the file here gets users too, and the passphrase alone no longer opens it (C98_users_false); passwords of users are C88. adduser is excluded. C98_life_partial is the whole life of a file, any number of runs with any number of syncs.
* **C99** (partial): Proved for the years 1678 to 2261: C99_open_partial for every file with a history as bpass writes it, C99_life_partial for the life of a file without users and without sync, C99_file_partial for files with users whose accounts change, C99_years_partial and C99_users_years_partial for files that are synced, without and with users. Otherwise false: from 2263 on the file shows nothing (C99_far_false), the first second of the year 1 opens it for writing (C99_zero_false), a time between two operations of one command can show an entry without a name and crash ls (C99_cut_false). The dates shown are in local time, those typed in UTC (C99_zone_false), and the date shown for a change is before it (C99_date_false); in UTC the second after it has it (C99_shown_partial). That sync inserts older operations of other machines is not counted as a change of the past.
* **C100** (partial): What of the file does not depend on the plain text is its size and its front (C100_size, C100_front, C100_single); that the cipher text itself gives nothing away is a property of the primitives that is not stated. With users it is false: the initialisation vector is kept like the master key, no random bytes go into the file, and the same contents give the same file (C100_fresh_false), and each name is in the file as its SHA-256, without a salt, so that a guessed name can be checked (C100_names_false).
* **C101** (partial): False: only rekeyall, sync and the removal of the last user change the master key (C101_line, C101_session), it is in the memory of everybody who opened the file, and reading with it needs no passphrase (C101_reads). So a user who was removed, or whose password was changed, reads every later file with what they knew (C101_false). rekeyall does change the key, but then nobody can open the file (C52). What holds is that the name of the removed user is no longer in the file (C101_names_partial).
* **C102** (partial): Proved for everything typed at the prompt, and for sync if the remotes hold only such names; C102_reach is about commands without a current entry. False for an import: it replaces only blanks, so an empty name and names with tabs or other white space stay (C102_false). No line can remove or rename such an entry (C102_stuck), and one without a name cannot be read either (C102_query, C102_hidden).
* **C103** (partial): Proved for editors that write into the file they are given and end well. False for those that save a new file under its name (C103_replaced_false), that cannot be run (C103_notRun) or that end with an error after writing more than was there (C103_failed_false). EDITOR with arguments is taken for the name of a program (C103_args_false), and then the program ends and all unsaved work is lost (C103_lost_false). Copies the editor itself makes, and blocks a file system gives back when a file is cut, are not modelled.
* **C104** (partial): What is copied is proved for everything typed at the prompt (C104_session for sessions without sync, C104_synced_partial with it). That the clipboard is empty afterwards is false after a crash (C104_crash_false) and for bpass gen (C104_gen, C104_gen_false), and proved for all other runs with a clipboard that works (C104_cleared); such a run also empties a clipboard it did not use (C104_erased_false).
* **C105** (partial): The bounds are proved for all lengths and settings; that every password can come out for lengths up to 255. That all are equally likely is false: a byte modulo the size of the alphabet prefers its first characters (C105_uniform_false), the backslash is listed twice (C105_backslash_false), and the class is picked before the character (C105_digit_false). That the bytes are uniform is an assumption on crypto/rand.
* **C106** (partial): The file always opens, with the passwords and entries of the program that saved last (C106_opens_partial). But that program leaves what it found at its start and what was typed in it, and everything saved by others in between is gone without a message (C106_last_partial, C106_kept_false). It saves even if nothing was changed, so looking something up also takes back the work of others (C106_looking_partial), and a password that was changed (C106_password_false). Nothing is lost if a program is started only while no other runs (C106_kept_partial). Two saves at the same time can leave a file that nobody can open, if one is longer (C106_mixed, C106_mixed_false). Sessions with sync are not covered.
* **C107** (partial): No machine ever loses an operation, and the shared file stays readable with the password (C107_intact_partial, C107_users_intact_partial). But it can lose what was pushed (C107_share_false). What was overwritten comes back when the machines then sync one after the other twice, if no machine takes the log of the share for its own when it is not (C107_agree_partial, C107_users_agree_partial). That can happen after overlapping syncs, since Merge only compares the lengths and the first and last times: then two machines never agree again, however often all sync, and nobody is told (C107_apart, C107_agree_false). Assumed as in C89: one sync entry, distinct times, a codec that writes and reads what there is; in files with users nobody changes the accounts.
* **C108** (partial): Proved where the user name of the session, if there is one, is the one in the remote, and the salts differ or the credentials are the same. A user name is never asked for twice, since ErrUnknownUser is never returned (C46): who has another name in the remote, or mistypes it, cannot open the remote (C108_stuck, C108_name_false). With the salt of the session and another key no passphrase is ever looked at (C108_same_salt, C108_salt_false). An answer is forgotten after each remote, so that the same passphrase is asked for again (C108_once_false). That a wrong passphrase is refused and does not crash is a hypothesis (C45). A passphrase that crashes Decrypt (C45) crashes sync in the middle of a session; if it is the one of the session, which is tried first without asking, sync crashes each time whatever is typed (C108_auto_false, C108_typo_false).
* **C109** (partial): That every entry has a date is proved for everything bpass writes at the prompt, and for sync if the remotes hold such files. That the date tells of every change is false in two cases: when the last label is removed (C109_label_false), and when the password of a user is changed, by passwd, rekey or rekeyall (C109_passwd_false); in all others it holds (C109_tells_partial). Setting a value to what it is counts as a change (C109_same_false). If the clock runs the date never goes back (C109_later_partial), else it can (C109_clock_false). That an import keeps every entry dated is C123_import.
* **C110** (partial): dumpall: what is read from it is what is read from the file for every store (C110_dumpall), so the limits are those of C11: ill-formed text is replaced (C110_dumpall_false). It also has what was deleted or replaced (C110_history). dump: proved if no key has a blank in it. No line and no session makes such a key (C110_line, C110_session_partial), nor does sync if the remotes have none (C110_sync_partial). Otherwise false (C110_key_false). show does not quote, so other entries can look the same and a value can reach the terminal as an order (C110_show_false). Colours, and what follows after the bytes are printed, are not modelled.
* **C111** (partial): False, and what holds is the opposite: nothing that was saved ever leaves the file. After rm the log is the old one with one more operation, and at an earlier time the file shows the entry with all it had (C111_rm, C111_rm_false). Everybody who can open the file after any number of sessions, with passwords changed and users added or removed, reads every operation that ever was in it (C111_file_partial, without sync; C111_years_partial and C111_users_years_partial with sync, without and with users). A run that ends with an error, overlapping programs (C106) and an entry whose add was given up are not covered.
* **C112** (partial): Holds for the names and for what every line does (C112_offers, C112_line); sessions without sync (C112_session_partial) and with it (C112_synced_partial), a single line may be any. False in three places: login, dump, dumpall and rekeyall are not offered (C112_commands_false); in a file opened as of an earlier time TAB may crash the program (C112_past_false); with a current entry the name offered after set is taken for a key, and the value goes to the current entry (C112_current_false). Which of the words readline shows for the letters typed, and TAB at the prompts inside a command, are not modelled.
* **C113** (partial): Holds for the password file, pushed files and the temporary files of edit, for every umask and at every moment (C113_private, C113_always, C113_edit). False for exports: os.Create asks for 0666, so with the usual umask 022 everybody on the machine can read all passwords (C113_export_false); C113_export says for exactly which umasks. A file that is there keeps its permissions whatever is written (C113_kept, C113_existing_false). Not modelled: directories, links, access lists, files on remote machines (scp sends mode 0600, C25).
* **C114** (partial): Holds for answers: exactly the lines with a known and permitted command are remembered, whatever is answered (C114_exact, C114_only, C114_answers). False for values given in a line of set (C114_value_false), and lines that the command refused for their syntax are remembered too (C114_valid_false). The memory of the editor itself (a library) is not modelled.
* **C115** (partial): Holds for passwd about oneself, rekey in files with users, rekey without a name in a file that was opened, and adduser with a password. False: passwd with the name of another user (C115_passwd_false); rekey with a name in a file without users asks for a new password, announces it and does nothing (C115_rekey_false); in a new file rekey refuses a passphrase that is not empty, as the session does not have it (C115_created_false); adduser with an empty password says that one's key was reused, but nobody can use that account (C115_reused_false).
* **C116** (partial): What is left is told from a file by its length alone, unless it is a multiple of 8 and at least 88: then nobody can decrypt it (C116_left, C116_partial). For the other lengths that it does not decrypt is the assumption that no padding and hash fit by chance. That it is repaired is false: sync sends nothing to a remote whose contents it does not understand (C116_stays_false, C116_stays_any_false), and a torn file for one user crashes sync on every machine, at the start of every program, before any other remote is merged (C116_crash_false, C116_start_false). Only removing the file by hand or turning off the automatic sync helps.
* **C117** (partial): Holds: however sync ends, credentials and history stay as they were and only lines about known hosts are added (C117_merge, C117_partial); when sync succeeds and the earlier version opens with the credentials of the session, the current file is sent to that remote (C117_repaired_partial). False when only the password of a file without users was changed since: the histories look the same, nothing is sent, and the file for the old password stays at the remote (C117_password_false). An earlier version for another passphrase makes sync ask for it (C108) or may crash it (C45).
* **C118** (partial): Holds when something was recorded: if nobody else changed the file, every remote that is empty or behind and opens with the credentials of the session is sent the file with everything recorded (C118_partial); if others did, the file that is sent has every operation of both (C118_merged_partial, if the histories can be merged). False otherwise: the end of a run looks only at the length of the history (C118_unrecorded), and a changed password of a file without users is not in it, so that the remotes keep the file for the old password (C118_password_false); when the histories cannot be merged (C118_silent_false) or a remote cannot be written (C118_failed_false) the run ends well all the same.
* **C119** (partial): Holds for the file (C119_file), and for the remotes if no line was sync (C119_partial). False after sync: the program says that it did not save, but what was done is at the remotes and comes back at the next start (C119_false).
* **C120** (partial): Holds if the merge goes through and brings no other key for the address (C120_partial). It is false if the merge is given up: the session is as before, no error is reported, and the next sync asks again (C120_aborted, C120_false). It is false for a server that two sync entries share: each has its own list (C120_each_false). It is false while sending: a line accepted there is dropped if the sending fails (C120_push, C120_push_false). If it succeeds the line is on record as well (C120_sent_partial from the point where the merged log is in place, C120_sync_sent_partial for a whole sync whose merge goes through; it happens when the merge has changed the address of a remote).
* **C121** (partial): The first two parts hold for every command but login with an argument (C121_partial, and for sessions C121_session_partial); C121_typed_partial and C121_set_partial say it of lines as typed. cd and rm are about the current entry itself. The third part is false: open, label, dump, pass, user, email and totp do not look at the name they are given (C121_ignored), so pass shop copies the password of the current entry (C121_pass_false), and set shop pass x makes a key shop there (C121_set_false); login alone looks at the name (C121_login).
* **C122** (partial): Holds for whole runs as long as no user is added while no master key can be made (C122_partial, C122_written_partial) and for new files (C122_create); requests made by sync are taken to be answered. It is false for adduser in a single-user file: the error of NewMasterKey is dropped, the command ends as if it had succeeded and leaves a user entry without keys (C122_adduser, C122_false); from the next adduser on the file cannot be saved and everything typed is lost at the end of the run (C122_blocked, C122_lost_false). It is false for addsync: if no ssh key can be made the entry is kept without one (C122_key_false).
* **C123** (partial): C123_import holds for every end of the import, a crash included, if the clock runs and identifiers are new. That the import is saved and read back is proved for tables of valid UTF-8 (other text is changed by the JSON encoder, see C11): for files without users, new ones included (C123_file_partial), and for files with users if no name begins with user/ when in lower case, for everybody who could open the file before (C123_users_partial). Without that it is false: a record whose name begins with User/ makes a user without a key and nothing can be saved (C123_false). It is false with --time: the import ends without an error and nothing is saved (C123_past for all such runs, C123_past_false).
* **C124** (partial): Lines shorter than 65535 bytes that do not end in a carriage return are delivered as typed (C124_scan), and what is typed after exit does not matter (C124_exit). That the end of the input keeps the run is false on Windows: the editor reports an interruption, so without a line exit nothing is ever saved (C124_prompt, C124_unsaved for all texts and files, C124_false), and a text of several lines can be ended with a dot (C124_dot) or two blank lines only (C124_text). After a line of 65536 bytes or more nothing is read, not even exit (C124_long). The console itself and ctrl-c as a signal are not modelled.
* **C125** (partial): Proved if no remote can be read and no new key is accepted (C125_sync, and for whole runs C125_single_partial and C125_multi_partial), and for a merge that is declined or fails (C125_unmerged). Whole runs are without the command sync at the prompt, with the JSON codec and valid text, and in files with users the user entries are left to the account commands. In general it is false (C125_false): when the second synchronisation of a run fails, main ends without saving. It fails if a sync entry was deleted by another machine while its server's key is new here, because the key is then recorded in an entry that is gone. Not covered by a positive theorem: runs in which some remotes answer and others do not (for the merge itself see C26, C27, C29).
* **C126** (partial): The accounts after a renaming are exactly those before with the name changed (C126_accounts), and the file is saved and opened under the new name by its user and as before by everybody else (C126_opens_partial, if the hash of the new name differs from the others and the codec is faithful to the store). A name without the prefix takes exactly that account away (C126_taken). For one's own account it is false: the program still knows its user by the old name, so passwd and rekey in the same run crash it (C126_crash, C126_self for all such runs, C126_self_false), and rm of the only, renamed account leaves the master key in place, after which nothing can be saved (C126_nobody, C126_stuck for all such runs, C126_stuck_false).
* **C127** (partial): Proved for every reading command (C127_command, C127_shown for what is printed or copied) and for whole runs (C127_run; C127_past: a read-only session does what another does without the refused lines). That only lines for writing are refused is false: login changes nothing in any session and is refused (C127_login_false).
* **C128** (partial): Proved for every line but sync in a file in order (C128_line_partial, C128_session_partial: equal results, not only equivalent ones; rekeyall with at most one account), for the lists printed by ls and labels and offered by TAB (C128_printed), and for the saved file with at most one account (C128_save_partial). With several accounts it is false: rekeyall writes the records in the order in which the accounts were visited (C128_rekeyall_false), and the same session is saved as different files, as the header lists the accounts in that order (C128_save_false). The orders met by sync are not compared here.
* **C129** (partial): C129_reopen_partial and C129_account_partial save the file, open it with the password and compare all continuations: single-user files, and files with accounts for the user whose session it is. The session must know its password and user name, no entry may be current (the current entry is not saved), the codec must be faithful to the store (see C11), and the lines are those of SteadyTurn: no sync, and rekeyall with at most one account. In general it is false: the run that created the file does not keep the password, so rekey refuses there, as if the password were empty (C129_created for all such sessions, C129_created_false), and somebody who has renamed their own account crashes the program with passwd until they start again (C129_renamed_false). Values printed by get are compared; what ls, show and dump print depends on the entries only (C127).
* **C130** (partial): What the help says is read off its text by Spec.usage: the lines indented by one space, <...> for arguments that must be given, [...] for the others. That a line does nothing means nothing but a message about the syntax, as messages are not modelled. Surplus arguments do not matter except for set and labels, which are described as taking any number, and for get, cp and cd, where it is false: get and cp have a third argument that only their syntax message names, refuse one that is not a number and otherwise ignore it (C130_index, with and without a current entry; witness C130_surplus_false), and cd with two or more arguments does nothing (C130_cd). What the help says about the effect of the commands is prose and is not covered here; other properties are about that.
* **C131** (partial): The lines are those of SteadyTurn as in C129: no sync, and rekeyall with at most one account. Whoever leaves must be able to (CanLeave): the session knows its password, the log is text, there is no current entry, and in a file with accounts the account is complete. That these hold is a hypothesis at every parting, stated of the run that stays; C129_created_false and C129_renamed_false show that it is needed. The file is encoded with the JSON codec, and runs do not synchronise by themselves (-no-auto-sync, or no such entries). C131_cuts_partial compares two ways to cut the same lines, where no line ends a run early.
* **C132** (partial): Proved of setting: no line other than the commands for accounts, rm and sync changes a system field, provided rmk and edit are not given the name of one. Of these two it is false: rmk removes the salt of an account (C132_rmk_false), and so does edit when the text is emptied (C132_edit_false); what that leads to is in C74_false. The lines must not end in a panic, and the file must be in order (C67).

## Testing the theorems against wrong programs

`tools/mutants.py` lists edits of model definitions that resemble realistic bugs, each with the property it breaks.
`tools/mutate.py` applies them one by one to a scratch copy, builds it and records in `seeded/LOG.jsonl` which claimed theorems no
longer hold. Mutants that survived led to stronger theorems (field `tightened`).

## Axioms of the claimed theorems

No axioms:
App.C109_new, App.C82_port_false, App.C84_short_false, App.C89_entries, Blob.C35_false, Blob.C36_labels, Txlogs.C09_log_untouched.

`Quot.sound`:
App.C122_create.

`propext`:
App.C102_named, App.C103_args_false, App.C103_taken, App.C103_text, App.C104_add_asks, App.C104_gen_false, App.C104_login_says, App.C104_only, App.C110_key_false, App.C110_show_false, App.C112_commands_false, App.C113_existing_false, App.C113_kept, App.C120_push, App.C121_copies_partial, App.C124_dot, App.C130_commands, App.C130_topics, App.C28_false, App.C28_known, App.C29_false, App.C51_create, App.C60_consent, App.C60_crash_false, App.C60_false, App.C60_header, App.C60_truncated, App.C61_tab_false, App.C73_crash_partial, App.C73_meaningless, App.C78_multiline, App.C78_yes_or_no, App.C81_aligned_false, App.C81_distinct_false, App.C81_labels_text, App.C81_multiline_false, App.C81_stable_false, App.C81_tail, App.C82_unknown, App.C83_lower_false, App.C83_prompt, App.C84_false, App.C84_file_partial, App.C90_crash_false, App.C90_false, App.C92_command_false, App.C92_done, App.C92_got, App.C92_written, App.C95_hotp_false, App.C95_refused, App.ContextDemo.C121_pass_false, App.OnceDemo.C120_push_false, Blob.C31_false, Blob.C32_delete_refused_partial, Blob.C37_taken_false, Csv.C72_empty_false, Csv.C72_false, Fuzzy.C34_panics, Json.C110_dumpall_false, Json.C11_false, Json.C11_null, Json.C11_save, Pkcs7.C40_bad_k, Scp.C55_written, Scp.C56_false, Scp.C56_other_start, Txlogs.C02_writes.

`Quot.sound`, `propext`:
App.C102_parse, App.C103_editor, App.C103_failed_false, App.C103_notRun, App.C103_others, App.C103_partial, App.C103_replaced_false, App.C103_wiped, App.C104_accepted, App.C104_addsync_asks, App.C104_gen, App.C104_set_asks, App.C106_mixed, App.C106_mixed_partial, App.C108_stuck, App.C109_dated, App.C109_past, App.C110_bare, App.C112_commands, App.C113_always, App.C113_edit, App.C113_export, App.C113_export_false, App.C113_private, App.C115_created_false, App.C115_rekey_false, App.C122_adduser, App.C122_blocked, App.C124_long, App.C124_scan, App.C124_text, App.C127_command, App.C127_shown, App.C129_created, App.C25_remote_creds, App.C27_delivered, App.C28_next_time, App.C28_no_crash_partial, App.C28_other_hosts, App.C28_unknown, App.C29_hosts, App.C51_passwd_after_rm_false, App.C52_refused, App.C54_impossible_exact, App.C57_opened, App.C58_always_false, App.C59_as_of_snapshot, App.C59_current_partial, App.C59_file_partial, App.C60_names, App.C61_parse, App.C61_parse_ctx, App.C62_other_partial, App.C65_only_syncs, App.C71_verbatim, App.C73_export_fails, App.C78_consent, App.C78_string, App.C78_yesno, App.C80_all_tried, App.C80_pulled, App.C81_aligned_partial, App.C81_width, App.C82_port, App.C83_long_false, App.C83_only, App.C83_typed, App.C85_crash_false, App.C85_letter_false, App.C85_pair_false, App.C85_stale_false, App.C85_trim_false, App.C86_new, App.C86_reads, App.C91_accepted_once, App.C91_pull, App.C91_push, App.C91_remember, App.C92_command, App.C92_writes, App.C95_digits, App.C97_net, App.C99_refused, App.C99_zone_false, App.RandomDemo.C122_key_false, App.UnlockDemo.C108_name_false, App.UnlockDemo.C108_once_false, Blob.C32_delete_effect_partial, Blob.C32_delete_false, Blob.C32_set_effect, Blob.C32_set_refused, Blob.C70_blob_get, Crypt.C100_fresh_false, Crypt.C45_isMultiUser_partial, Crypt.C45_magic_partial, Crypt.C45_wrong_passphrase_false, Crypt.C46_unknownUser_false, Crypt.C47_key_false, Crypt.C49_false, Csv.C72_roundtrip_partial, Scp.C56_acknowledged, Scp.C56_no_crash_partial, Scp.C56_not_found, Scp.C56_refusal, Scp.C56_remote_error, Scp.C56_response, Scp.C56_success_complete, Txlogs.C01_false, Txlogs.C02_last_write, Txlogs.C03_entry_depends_on_own_operations, Txlogs.C03_operation_is_local, Txlogs.C03_replays_iff_each_entry, Txlogs.C04_do, Txlogs.C04_false, Txlogs.C04_rollback_restores_log, Txlogs.C06_negative_panics, Txlogs.C06_snapshotAt, Txlogs.C07_current, Txlogs.C07_entrySnapshotAt, Txlogs.C07_too_many, Txlogs.C08_nVersions, Txlogs.C10_panics, Txlogs.C10_save, Txlogs.C12_false, Txlogs.C15_false_fast_path, Txlogs.C16_false, Txlogs.C18_false_fast_path, Txlogs.C19_panics_on_bad_logs, Txlogs.C20_never_silent, Txlogs.C21_false, Txlogs.C21_unresolved.

`Classical.choice`, `Quot.sound`, `propext`:
App.AfterDemo.C118_failed_false, App.AfterDemo.C118_password_false, App.AfterDemo.C118_silent_false, App.AfterDemo.C119_false, App.C100_saved, App.C100_saved_users_false, App.C101_false, App.C101_line, App.C101_names_partial, App.C101_reads, App.C101_session, App.C102_false, App.C102_hidden, App.C102_import_partial, App.C102_line, App.C102_program_partial, App.C102_query, App.C102_reach, App.C102_session_partial, App.C102_stuck, App.C102_sync_partial, App.C103_lost_false, App.C103_stored, App.C104_alone, App.C104_cleared, App.C104_code, App.C104_cp, App.C104_crash_false, App.C104_erased_false, App.C104_login, App.C104_session, App.C104_set, App.C104_synced_partial, App.C104_what, App.C104_word, App.C105_any, App.C105_backslash_false, App.C105_bound, App.C105_default, App.C105_digit_false, App.C105_every_partial, App.C105_uniform_false, App.C106_kept_between_partial, App.C106_kept_false, App.C106_kept_partial, App.C106_last_partial, App.C106_looking_partial, App.C106_mixed_false, App.C106_opens_partial, App.C106_password_false, App.C107_agree_false, App.C107_agree_partial, App.C107_apart, App.C107_intact_partial, App.C107_share_false, App.C107_users_agree_partial, App.C107_users_intact_partial, App.C108_auto_false, App.C108_giveUp, App.C108_merged_partial, App.C108_next, App.C108_only, App.C108_opens_partial, App.C108_same_salt, App.C108_silent, App.C108_typo_false, App.C108_user_partial, App.C109_later_partial, App.C109_line_partial, App.C109_program_partial, App.C109_session_partial, App.C109_show, App.C109_sync_partial, App.C109_synced_partial, App.C109_tells_partial, App.C110_dump_partial, App.C110_dump_tame, App.C110_dump_tells, App.C110_line, App.C110_session_partial, App.C110_sync_partial, App.C110_synced_partial, App.C111_file_partial, App.C111_printed, App.C111_program_partial, App.C111_rm, App.C111_rm_false, App.C111_users_years_partial, App.C111_years_partial, App.C112_current_false, App.C112_line, App.C112_offers, App.C112_past_false, App.C112_session_partial, App.C112_synced_partial, App.C114_answers, App.C114_exact, App.C114_only, App.C114_same, App.C114_valid_false, App.C114_value_false, App.C115_added, App.C115_passwd_false, App.C115_passwd_partial, App.C115_rekey, App.C115_rekey_single, App.C115_reused, App.C115_reused_false, App.C116_crash_false, App.C116_left, App.C116_partial, App.C116_start_false, App.C116_stays_any_false, App.C116_stays_false, App.C117_merge, App.C117_partial, App.C117_password_false, App.C117_repaired_partial, App.C118_merged_partial, App.C118_partial, App.C118_sync_partial, App.C118_unrecorded, App.C119_file, App.C119_partial, App.C120_aborted, App.C120_partial, App.C120_sent_partial, App.C120_sync_sent_partial, App.C121_ignored, App.C121_login, App.C121_partial, App.C121_session_partial, App.C121_set_partial, App.C121_typed_partial, App.C122_partial, App.C122_written_partial, App.C123_accounts, App.C123_false, App.C123_file_partial, App.C123_import, App.C123_past, App.C123_past_false, App.C123_users_partial, App.C124_exit, App.C124_false, App.C124_prompt, App.C124_unsaved, App.C125_false, App.C125_multi_partial, App.C125_single_partial, App.C125_sync, App.C125_unmerged, App.C126_accounts, App.C126_crash, App.C126_nobody, App.C126_opens_partial, App.C126_self, App.C126_self_false, App.C126_stuck, App.C126_stuck_false, App.C126_taken, App.C127_login_false, App.C127_past, App.C127_run, App.C128_line_partial, App.C128_printed, App.C128_rekeyall_false, App.C128_save_false, App.C128_save_partial, App.C128_session_partial, App.C129_account_partial, App.C129_created_false, App.C129_line_partial, App.C129_renamed_false, App.C129_reopen_partial, App.C129_session_partial, App.C130_cd, App.C130_few, App.C130_index, App.C130_surplus_false, App.C130_surplus_partial, App.C131_back, App.C131_cuts_partial, App.C131_relay_partial, App.C131_stay, App.C132_edit_false, App.C132_line_partial, App.C132_rmk_false, App.C132_session_partial, App.C22_false, App.C22_good_partial, App.C22_never_completes, App.C22_without_deletes_partial, App.C23_all_or_nothing, App.C23_any_failure, App.C23_failed_merge, App.C24_unit, App.C25_false, App.C25_multi_opens_partial, App.C25_multi_partial, App.C25_newest_wins_partial, App.C25_same_key, App.C25_several_false, App.C26_pushed, App.C26_unreadable, App.C27_opens_multi_partial, App.C27_opens_single_partial, App.C27_sent_partial, App.C29_save_hosts_partial, App.C45_open_false, App.C51_empty_password_false, App.C51_first_user, App.C51_passwd_rekey_false, App.C51_passwd_single, App.C51_rekey_single, App.C51_save_open_multi, App.C51_save_open_single, App.C51_sequence_partial, App.C51_taken, App.C52_old_master_partial, App.C53_false, App.C53_partial, App.C54_false, App.C54_meets_partial, App.C57_log, App.C57_read_only, App.C58_false, App.C58_partial, App.C59_false, App.C60_partial, App.C61_false, App.C61_refused, App.C61_stored_partial, App.C62_false, App.C62_last_user_partial, App.C62_self_refused, App.C63_accept, App.C63_adjust, App.C63_empty_false, App.C63_false, App.C63_no_crash_partial, App.C63_returned, App.C63_settings_partial, App.C64_false, App.C64_mode_partial, App.C65_false, App.C65_unnamed_partial, App.C66_false, App.C66_line_partial, App.C66_rekey_false, App.C66_session_partial, App.C67_file_partial, App.C67_line_partial, App.C67_session_partial, App.C68_added, App.C68_cancelled, App.C68_sync_undone, App.C68_undone, App.C69_current, App.C69_false, App.C69_one_entry, App.C69_session_partial, App.C69_stays_partial, App.C70_get, App.C70_line, App.C70_word, App.C71_stored, App.C73_export, App.C73_false, App.C74_autosync, App.C74_exit, App.C74_false, App.C74_file_partial, App.C74_life_partial, App.C74_multi_partial, App.C74_session_partial, App.C74_shared_life_partial, App.C74_single_partial, App.C75_false, App.C75_login_false, App.C76_entries_partial, App.C76_line_partial, App.C76_session_partial, App.C76_sync_partial, App.C76_whole_line_partial, App.C76_whole_session_partial, App.C77_false, App.C77_line_partial, App.C77_net_partial, App.C77_saved, App.C77_session_partial, App.C77_sync_partial, App.C77_sync_saved_partial, App.C77_text_session, App.C77_whole_line_partial, App.C77_whole_session_partial, App.C78_menu, App.C78_menu_range, App.C79_edit, App.C79_label, App.C79_label_false, App.C79_label_read_partial, App.C79_line, App.C79_mv, App.C79_rm, App.C79_rmk, App.C79_rmlabel_false, App.C79_rmlabel_partial, App.C79_set, App.C79_set_lines, App.C79_set_pass, App.C79_set_refused, App.C80_blobs_partial, App.C80_false, App.C80_merge_partial, App.C80_overlooked, App.C80_sync_partial, App.C81_completion, App.C81_dump, App.C81_labels_partial, App.C81_line, App.C81_lines, App.C81_login, App.C81_login_line, App.C81_ls, App.C81_open, App.C81_order, App.C81_show, App.C81_show_old, App.C81_stable_partial, App.C82_added, App.C82_counts, App.C83_cancel_false, App.C84_name, App.C84_short_partial, App.C85_keys_partial, App.C85_text_partial, App.C85_units, App.C86_clock_false, App.C86_line_partial, App.C86_session_partial, App.C87_file_partial, App.C87_line_partial, App.C87_names_false, App.C87_program_partial, App.C87_session_partial, App.C87_sound_sync, App.C87_sync_partial, App.C88_first_partial, App.C88_life_partial, App.C88_line_partial, App.C88_masters_false, App.C88_newest, App.C88_next_partial, App.C88_opens_partial, App.C88_overlap_false, App.C88_passwd_false, App.C88_run_partial, App.C88_saved_partial, App.C88_session_partial, App.C88_sync_partial, App.C89_agree_partial, App.C89_false, App.C89_intact_partial, App.C89_stuck, App.C89_text_agree_partial, App.C89_text_intact_partial, App.C89_users_agree_partial, App.C89_users_intact_partial, App.C89_users_stuck, App.C89_users_text_agree_partial, App.C89_users_text_intact_partial, App.C90_addsync_file_partial, App.C90_addsync_partial, App.C90_apart, App.C90_ascii, App.C90_file, App.C90_host_false, App.C90_port_false, App.C90_scp_partial, App.C91_changed, App.C92_pull_partial, App.C92_push_partial, App.C92_size_false, App.C93_agree_partial, App.C93_run_partial, App.C93_same, App.C93_step_partial, App.C94_false, App.C94_file_partial, App.C94_partial, App.C94_target, App.C95_any_false, App.C95_get, App.C95_params_false, App.C95_partial, App.C95_set, App.C95_spaces_false, App.C95_typed_partial, App.C95_url_partial, App.C96_file, App.C96_mine_partial, App.C96_sync_partial, App.C97_cut_false, App.C97_first, App.C97_line_partial, App.C97_partial, App.C97_program_partial, App.C97_scp, App.C97_session_partial, App.C98_life_partial, App.C98_line_partial, App.C98_net_partial, App.C98_next_partial, App.C98_partial, App.C98_program_partial, App.C98_run_partial, App.C98_session_partial, App.C99_accepted, App.C99_calendar, App.C99_cut_false, App.C99_date_false, App.C99_far_false, App.C99_file_partial, App.C99_life_partial, App.C99_local, App.C99_open_partial, App.C99_program_partial, App.C99_shown_partial, App.C99_typed_partial, App.C99_users_years_partial, App.C99_years_partial, App.C99_zero_false, App.ContextDemo.C121_false, App.ContextDemo.C121_set_false, App.CrashDemo.C97_empty_false, App.CrashDemo.C97_path_false, App.CrashDemo.C97_server_false, App.CrashUsersDemo.C97_typo_false, App.DateDemo.C109_clock_false, App.DateDemo.C109_label_false, App.DateDemo.C109_passwd_false, App.DateDemo.C109_same_false, App.Demo.C52_false, App.OnceDemo.C120_each_false, App.OnceDemo.C120_false, App.OwnSyncDemo.C96_silent_false, App.OwnSyncDemo.C98_pass_false, App.OwnSyncDemo.C98_users_false, App.RandomDemo.C122_false, App.RandomDemo.C122_lost_false, App.SyncDemo.C27_false, App.UnlockDemo.C108_salt_false, Blob.C30_unique_names, Blob.C30_unique_names_history, Blob.C31_calls_partial, Blob.C31_lookups_partial, Blob.C31_must_find, Blob.C31_named_partial, Blob.C31_nameless_false, Blob.C31_search_panics, Blob.C33_search_exact, Blob.C33_search_total, Blob.C35_labels_exact_partial, Blob.C36_add, Blob.C36_add_one, Blob.C36_false, Blob.C36_remove_actual, Blob.C36_remove_first_of_two_partial, Blob.C36_remove_only_partial, Blob.C36_remove_out_of_range, Blob.C37_false, Blob.C37_fresh, Blob.C37_never_renames, Blob.C37_unique_noop_partial, Blob.C38_new_sync, Blob.C39_selects, Crypt.C100_fresh, Crypt.C100_front, Crypt.C100_names_false, Crypt.C100_single, Crypt.C100_size, Crypt.C42_single_roundtrip, Crypt.C43_false, Crypt.C43_multi_roundtrip_partial, Crypt.C44_authenticated, Crypt.C44_no_splice, Crypt.C45_false, Crypt.C45_mistyped_false, Crypt.C45_mistyped_partial, Crypt.C45_users_mistyped_false, Crypt.C45_users_mistyped_partial, Crypt.C46_unknown_partial, Crypt.C47_any_single, Crypt.C47_multi, Crypt.C47_multi_partial, Crypt.C47_single, Crypt.C47_unlisted, Crypt.C47_valid_iff, Crypt.C48_empty_passphrase, Crypt.C48_empty_passphrase_error, Crypt.C48_key_irrelevant, Crypt.C49_no_panic_partial, Crypt.C50_isMultiUser, Fuzzy.C34_exact_partial, Fuzzy.C34_false, Fuzzy.C34_match_partial, Json.C110_backup_partial, Json.C110_dumpall, Json.C110_history, Json.C11_any, Json.C11_kinds, Json.C11_partial, Json.C11_read, Json.C11_read_log, Json.C11_spelling, Pkcs7.C40_256, Pkcs7.C40_pad_unpad, Pkcs7.C41_false, Pkcs7.C41_unpad_nonzero_partial, Pkcs7.C41_unpad_partial, Scp.C55_false, Scp.C55_roundtrip_partial, Scp.C55_space_rejected, Scp.C56_truncated, Txlogs.C01_no_update_in_tx_partial, Txlogs.C01_snapshot_is_replay_partial, Txlogs.C02_last_write_snapshot, Txlogs.C04_rollback_restores_reads_partial, Txlogs.C05_rollbackN, Txlogs.C06_ends, Txlogs.C08_lastUpdated, Txlogs.C08_lastUpdated_minus_one_iff, Txlogs.C08_writes, Txlogs.C09_reported, Txlogs.C12_merge_is_union_partial, Txlogs.C13_chronological, Txlogs.C13_false, Txlogs.C13_local, Txlogs.C13_order, Txlogs.C13_order_preserved_partial, Txlogs.C14_own_past, Txlogs.C14_own_past_good, Txlogs.C14_self, Txlogs.C15_commutative_partial, Txlogs.C16_associative_partial, Txlogs.C16_convergence_partial, Txlogs.C17_merge_replays, Txlogs.C18_conflict_iff_partial, Txlogs.C18_conflicts_named, Txlogs.C18_every_entry_named, Txlogs.C19_one_round, Txlogs.C19_outcome, Txlogs.C20_root_reported, Txlogs.C21_total_partial.

