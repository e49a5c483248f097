{"id": "C01", "title": "Snapshot always equals the replay of the log", "statement": "After any sequence of store calls (Add, Set, Delete, DeleteKey, Begin, Commit, Rollback, RollbackN, ResetSnapshot, UpdateSnapshot), whenever UpdateSnapshot returns nil the visible snapshot is exactly what replaying the whole current log from nothing gives: same entries, same keys, same values.", "quantifier": "every finite sequence of store API calls from a new store, every uuid/key/value/timestamp", "why_tests_cant": "The snapshot is a cache maintained incrementally across an unbounded history with truncations; a test covers a handful of histories and misses the one truncation offset where the cache is kept although stale.", "anchors": ["txlogs/txlogs.go:UpdateSnapshot", "txlogs/txlogs.go:Rollback", "txlogs/txlogs.go:RollbackN", "txlogs/txlogs.go:applyTx"]}
{"id": "C02", "title": "A read returns the last write", "statement": "If the log replays, the value shown for key k of entry u is the value of the last Set(u,k,_) in the log, unless a later DeleteKey(u,k), Delete(u) or re-Add of u occurred, in which case it is absent; and u itself is visible iff its last Add/Delete in the log is an Add.", "quantifier": "every log that replays, every entry uuid and key", "why_tests_cant": "Ranges over all histories and all interleavings of operations on other entries and keys.", "anchors": ["txlogs/txlogs.go:applyTx", "txlogs/txlogs.go:UpdateSnapshot"]}
{"id": "C03", "title": "Operations on one entry never affect another", "statement": "Appending an operation on entry u leaves every entry with a different uuid exactly as it was; consequently what an entry contains depends only on the sub-log of operations carrying its uuid.", "quantifier": "every log, every operation, every pair of distinct uuids", "why_tests_cant": "Non-interference is a statement about all logs and all pairs of entries.", "anchors": ["txlogs/txlogs.go:applyTx"]}
{"id": "C04", "title": "Rollback undoes a transaction completely", "statement": "After Begin, any sequence of writes and snapshot updates, then Rollback: the log is exactly the log at Begin, no transaction is active, and from then on the store reads (after UpdateSnapshot) as it did at Begin. Do(fn) with a failing fn behaves the same; with a succeeding fn it keeps every appended operation.", "quantifier": "every store state, every sequence of writes / snapshot updates inside the transaction", "why_tests_cant": "The stale-snapshot test in Rollback depends on the exact number of operations snapshotted inside the transaction; tests only use three.", "anchors": ["txlogs/txlogs.go:Begin", "txlogs/txlogs.go:Commit", "txlogs/txlogs.go:Rollback", "txlogs/txlogs.go:Do"]}
{"id": "C05", "title": "RollbackN removes exactly the last n operations", "statement": "RollbackN(n) with n <= log length removes exactly the last n operations and later reads equal the replay of the shortened log; with n > log length it returns an error and changes nothing.", "quantifier": "every consistent store state and every n", "why_tests_cant": "All n and all snapshot versions relative to the cut point.", "anchors": ["txlogs/txlogs.go:RollbackN", "txlogs/txlogs.go:ResetSnapshot"]}
{"id": "C06", "title": "SnapshotAt shows exactly the state n operations ago", "statement": "SnapshotAt(n) for 0 <= n <= length returns the replay of the log without its last n operations (n = 0 agrees with the current snapshot, n = length is empty), returns an error for larger n, and never changes the store.", "quantifier": "every store whose log replays, every n", "why_tests_cant": "Off-by-one over all lengths and n.", "anchors": ["txlogs/txlogs.go:SnapshotAt"]}
{"id": "C07", "title": "EntrySnapshotAt shows exactly the entry n of its own versions ago", "statement": "EntrySnapshotAt(u,n) equals entry u as it stood before the last n operations on u, regardless of how operations on other entries interleave; n = 0 agrees with the current entry; history before the entry existed is reported as not found or too many versions.", "quantifier": "every store whose log replays, every uuid, every n", "why_tests_cant": "Requires projecting arbitrary interleavings on one uuid.", "anchors": ["txlogs/txlogs.go:EntrySnapshotAt", "txlogs/txlogs.go:NVersions", "commands.go:show"]}
{"id": "C08", "title": "Version count and last-updated agree with the log", "statement": "NVersions(u) is the number of operations in the log on u; LastUpdated(u) is the timestamp of the last of them, or -1 exactly when there are none.", "quantifier": "every log and uuid", "why_tests_cant": "All logs.", "anchors": ["txlogs/txlogs.go:NVersions", "txlogs/txlogs.go:LastUpdated"]}
{"id": "C09", "title": "A log that does not replay is reported, stays reported, and is not altered", "statement": "If some operation in the log cannot be applied (add of a present entry, delete/set/delete-key of an absent one) UpdateSnapshot returns an error, never skips the offending operation, returns the same error when called again, and leaves the log untouched.", "quantifier": "every store state with an unreplayable log", "why_tests_cant": "All logs and all offending positions.", "anchors": ["txlogs/txlogs.go:UpdateSnapshot", "txlogs/txlogs.go:applyTx"]}
{"id": "C10", "title": "Nothing is saved while a transaction is open", "statement": "Save fails whenever Begin has not yet been matched by Commit or Rollback, and succeeds otherwise; Commit and Rollback without Begin panic.", "quantifier": "every sequence of store API calls", "why_tests_cant": "All call sequences.", "anchors": ["txlogs/txlogs.go:Save", "txlogs/txlogs.go:Begin", "txlogs/txlogs.go:Commit"]}
{"id": "C11", "title": "Save then New returns the same store", "statement": "For every store without an open transaction, parsing the saved bytes gives back the same version, the same snapshot (as a map of maps) and the same log; NewLog on the same bytes gives the same log.", "quantifier": "every store, every string content", "why_tests_cant": "Encoding round-trip over all strings (escapes, control characters, non-ASCII, ill-formed UTF-8) and all sizes.", "anchors": ["txlogs/txlogs.go:Save", "txlogs/txlogs.go:New", "txlogs/txlogs.go:NewLog", "txlogs/tx.go:Tx"]}
{"id": "C12", "title": "Merging loses nothing and invents nothing", "statement": "When Merge returns a log without conflicts and without resolutions, that log contains every operation of both inputs and no other.", "quantifier": "all pairs of chronologically ordered logs in which equal timestamps mean equal operations", "why_tests_cant": "All pairs of histories of any length and any fork shape.", "anchors": ["txlogs/txlogs.go:Merge"]}
{"id": "C13", "title": "Merged history is chronological and preserves each side's order", "statement": "A conflict-free merge of two chronologically ordered logs is chronologically ordered without duplicates; for arbitrary logs each input's own operations keep their order.", "quantifier": "all pairs of logs", "why_tests_cant": "All interleavings.", "anchors": ["txlogs/txlogs.go:Merge"]}
{"id": "C14", "title": "Merging with oneself or with one's own past changes nothing", "statement": "Merge(a,a) = a for every nonempty log; merging a log that extends another with that other returns the longer one, in either argument order, when the extension itself deletes nothing that it later touches.", "quantifier": "all logs and all prefixes", "why_tests_cant": "All logs, all lengths.", "anchors": ["txlogs/txlogs.go:Merge"]}
{"id": "C15", "title": "Merge does not depend on which side is local", "statement": "Merge(a,b) and Merge(b,a) report a conflict for the same inputs, and return the same log when neither does.", "quantifier": "all pairs of chronologically ordered logs in which equal timestamps mean equal operations", "why_tests_cant": "Symmetry over all pairs.", "anchors": ["txlogs/txlogs.go:Merge"]}
{"id": "C16", "title": "Replicas converge whatever the order of syncing", "statement": "If three replicas merge conflict-free, (a+b)+c and a+(b+c) give the same log, so all replicas end up with the same history regardless of order.", "quantifier": "all triples of chronologically ordered logs in which equal timestamps mean equal operations", "why_tests_cant": "All triples and all orders.", "anchors": ["txlogs/txlogs.go:Merge", "merging.go:mergeBlobs"]}
{"id": "C17", "title": "A conflict-free merge of two good histories is a good history", "statement": "If both logs replay, each uuid is added at most once, shared uuids come from the same add, and Merge reports no conflict, then the merged log replays without error.", "quantifier": "all pairs of valid histories", "why_tests_cant": "All fork shapes.", "anchors": ["txlogs/txlogs.go:Merge", "txlogs/txlogs.go:applyTx", "sync.go:sync"]}
{"id": "C18", "title": "Conflicts are reported exactly when an entry is touched after being deleted elsewhere, or there is no common ancestor", "statement": "Merge(a,b,nil) reports a conflict if and only if the two logs do not start with the same operation, or the merged history contains an operation present on one side only that follows a deletion of the same entry; every reported delete conflict names a delete and a later operation on the same entry.", "quantifier": "all pairs of logs", "why_tests_cant": "Both directions over all logs.", "anchors": ["txlogs/txlogs.go:Merge"]}
{"id": "C19", "title": "Resolving the reported conflicts completes the merge in one round with the chosen outcome", "statement": "If every conflict returned by Merge is resolved (keep delete / restore entry / force root) and passed back, Merge returns a log, no conflicts and does not panic; where the delete was kept the entry stays deleted, where it was discarded the entry keeps all its edits, and everything else is untouched; the result replays.", "quantifier": "all pairs of valid histories and every assignment of resolutions", "why_tests_cant": "All combinations of conflicts and resolutions.", "anchors": ["txlogs/txlogs.go:Merge", "txlogs/tx.go:Conflict"]}
{"id": "C20", "title": "Unrelated files are never merged silently", "statement": "If two nonempty logs do not share their first operation, Merge returns a root conflict and no log unless the first resolution passed in is Force; at the UI this requires an explicit yes.", "quantifier": "all pairs of nonempty logs, all resolutions, all user inputs", "why_tests_cant": "All inputs.", "anchors": ["txlogs/txlogs.go:Merge", "merging.go:mergeLogs"]}
{"id": "C21", "title": "Merge refuses half-resolved conflicts and is total", "statement": "If any resolution passed in is unset, Merge returns no log and the same conflicts; and Merge without resolutions never panics, for any two logs.", "quantifier": "all logs and resolution lists", "why_tests_cant": "All inputs including empty logs.", "anchors": ["txlogs/txlogs.go:Merge"]}
{"id": "C22", "title": "Interactive merging terminates with the user's choice", "statement": "When Merge reports an edit-after-delete conflict, answering R or D at the prompt resolves it and the merge completes; only an aborted prompt aborts the merge.", "quantifier": "all pairs of logs with a conflict, all finite user input scripts", "why_tests_cant": "All inputs and all scripts.", "anchors": ["merging.go:mergeLogs"]}
{"id": "C23", "title": "An aborted or failed merge leaves the local file as it was", "statement": "If merging any remote fails or the user aborts, log, snapshot contents and credentials of the local session are exactly what they were.", "quantifier": "all local states, all lists of remotes, all user inputs", "why_tests_cant": "All failure points in a list of remotes.", "anchors": ["merging.go:mergeBlobs", "sync.go:sync"]}
{"id": "C24", "title": "Merged credentials always come from one side as a unit", "statement": "After mergeBlobs, (user, pass, key, salt, master, ivm) are all the local ones or all those of a single remote; never a mix.", "quantifier": "all local states and lists of remotes", "why_tests_cant": "All remote sequences and mode combinations.", "anchors": ["merging.go:mergeBlobs"]}
{"id": "C25", "title": "For single-user files the newest side's credentials win", "statement": "Merging a single-user remote with a different key adopts the remote's credentials iff its last operation is newer, or equally new and the user says yes.", "quantifier": "all logs and keys", "why_tests_cant": "All time orders.", "anchors": ["merging.go:mergeBlobs"]}
{"id": "C26", "title": "A remote that could not be read is never overwritten", "statement": "During sync a remote whose pull failed (other than file-not-found), failed to decrypt, or failed to parse is not pushed to.", "quantifier": "all sets of remotes and pull outcomes", "why_tests_cant": "All combinations of outcomes.", "anchors": ["sync.go:sync"]}
{"id": "C27", "title": "After a sync every reachable remote holds the merged history", "statement": "After a successful sync with push, each remote that was pulled successfully (or was absent) holds the merged log.", "quantifier": "all sets of remotes and contents", "why_tests_cant": "Depends on the combination of all remotes, not on one.", "anchors": ["sync.go:sync"]}
{"id": "C28", "title": "A known host with a changed key is never accepted", "statement": "If the sync entry already has a line for the host, connecting with a different key type or key hash is rejected without prompting, and with the same key is accepted without prompting; an unknown host is accepted only after y/Y, and what is then stored makes the same key accepted and any other key rejected next time.", "quantifier": "all known_hosts contents, hosts, keys and answers", "why_tests_cant": "All stored contents and keys.", "anchors": ["sync.go:callback", "sync.go:saveHosts"]}
{"id": "C29", "title": "Recording a host key never damages the store", "statement": "After sync stored newly accepted host keys the store still replays.", "quantifier": "all stores, all merges, all sets of new hosts", "why_tests_cant": "Depends on what the merge did to the sync entries.", "anchors": ["sync.go:saveHosts", "sync.go:sync"]}
{"id": "C30", "title": "Entry names are unique", "statement": "Starting from an empty file, no sequence of New, Rename, Set, DeleteKey, SetTwofactor, AddLabel, RemoveLabel, Delete, NewSync, NewUser produces two visible entries with the same name.", "quantifier": "every finite sequence of blob API calls, every map iteration order", "why_tests_cant": "All histories.", "anchors": ["blobformat/blobs.go:New", "blobformat/blobs.go:Rename", "blobformat/blobs.go:NewSync", "blobformat/blobs.go:NewUser"]}
{"id": "C31", "title": "Every entry always has a name, so name lookups never panic", "statement": "In every state reachable as in C30 the log replays and every visible entry has a name; Search, SearchLabels, FindByName, Users, New and Rename never panic.", "quantifier": "every finite sequence of blob API calls", "why_tests_cant": "All histories.", "anchors": ["blobformat/blob.go:Name", "blobformat/blobs.go:New", "blobformat/blobs.go:DeleteKey"]}
{"id": "C32", "title": "Protected keys cannot be written through Set or removed through DeleteKey", "statement": "Set with any case variant of name, updated, totp, iv, salt, mkey fails and changes nothing; DeleteKey follows the same rule.", "quantifier": "all key strings including every case folding", "why_tests_cant": "All strings.", "anchors": ["blobformat/blobs.go:Set", "blobformat/blobs.go:DeleteKey", "blobformat/constants.go:protectedKeys"]}
{"id": "C33", "title": "Searching returns exactly the matching entries", "statement": "Search(q) returns exactly the visible entries whose name matches q: all of them for the empty query, fuzzy match for a query without /, otherwise fragment-by-fragment fuzzy match against the leading fragments of the name; each is returned with its name.", "quantifier": "all stores, queries, iteration orders", "why_tests_cant": "All names and queries.", "anchors": ["blobformat/blobs.go:Search", "fuzzy/fuzzy.go:Match"]}
{"id": "C34", "title": "Fuzzy matching is subsequence matching", "statement": "Match(s,q) holds iff the characters of q can be found in order in s, where a character matches itself or a character whose lower case it is.", "quantifier": "all strings s, q", "why_tests_cant": "All pairs of Unicode strings.", "anchors": ["fuzzy/fuzzy.go:Match"]}
{"id": "C35", "title": "Label search returns exactly the entries carrying all labels", "statement": "SearchLabels(ls) returns exactly the visible entries that carry every label in ls (all entries for no labels).", "quantifier": "all stores and label lists, duplicates included", "why_tests_cant": "All label multisets.", "anchors": ["blobformat/blobs.go:SearchLabels"]}
{"id": "C36", "title": "Removing a label removes that label and nothing else", "statement": "RemoveLabel(u,i) leaves exactly the other labels of u in order; AddLabel(u,l) appends l after the existing labels.", "quantifier": "all entries, label lists and indexes", "why_tests_cant": "All lists and indexes.", "anchors": ["blobformat/blobs.go:RemoveLabel", "blobformat/blobs.go:AddLabel", "commands.go:deleteLabel"]}
{"id": "C37", "title": "RenameDuplicates makes names unique", "statement": "After RenameDuplicates no two visible entries share a name, and the returned map describes the renames.", "quantifier": "all stores, all map iteration orders", "why_tests_cant": "All iteration orders.", "anchors": ["blobformat/blobs.go:RenameDuplicates"]}
{"id": "C38", "title": "NewSync and import always find a fresh name", "statement": "NewSync(kind) terminates for every store and creates an entry with a name not in use, formed from sync/kind by appending 1s.", "quantifier": "all stores", "why_tests_cant": "Termination over all stores.", "anchors": ["blobformat/blobs.go:NewSync", "import.go:importLastpass"]}
{"id": "C39", "title": "An exact name always selects that entry; ambiguity never does", "statement": "findOne(q) returns an entry only if its name matches q and either it is the only match or its name is exactly q; if an entry is named exactly q (q nonempty) findOne returns an entry named q.", "quantifier": "all stores, queries, iteration orders", "why_tests_cant": "All names, fuzzy collisions.", "anchors": ["uihelpers.go:findOne", "blobformat/blobs.go:Search"]}
{"id": "C40", "title": "PKCS#7 padding round-trips", "statement": "For 1 <= k <= 255, Pad(b,k) has length a positive multiple of k, extends b by 1..k bytes, and Unpad(Pad(b,k)) = b.", "quantifier": "all byte strings, all k", "why_tests_cant": "All lengths and block sizes.", "anchors": ["pkcs7/pad.go:Pad", "pkcs7/pad.go:Unpad"]}
{"id": "C41", "title": "Unpad accepts only well-formed padding", "statement": "If Unpad(x) = y then x = y followed by n bytes all equal to n, with 1 <= n.", "quantifier": "all byte strings", "why_tests_cant": "All inputs.", "anchors": ["pkcs7/pad.go:Unpad"]}
{"id": "C42", "title": "A single-user file decrypts to what was encrypted", "statement": "Decrypt with the right passphrase (or the cached key and salt) of Encrypt's output returns the plaintext, the same key and salt, and version 1.", "quantifier": "all plaintexts, keys, salts, IVs, passphrases; any block ciphers, hash and KDF of the right sizes", "why_tests_cant": "All payload lengths and contents.", "anchors": ["crypt/crypto_v1.go:encryptV1Single", "crypt/crypto_v1.go:decryptV1Single", "crypt/crypto.go:Decrypt"]}
{"id": "C43", "title": "In a multi-user file every user can decrypt", "statement": "If user i's wrapped master key was made with EncryptMasterKey under a key derived from i's passphrase and salt, Decrypt(name_i, pass_i) of Encrypt's output returns the plaintext, the master key and all other users' data verbatim.", "quantifier": "all numbers of users, all user positions, all plaintexts", "why_tests_cant": "All user counts.", "anchors": ["crypt/crypto_v1.go:encryptV1Multi", "crypt/crypto_v1.go:decryptV1Multi", "crypt/crypto_v1.go:encryptMasterKeyV1"]}
{"id": "C44", "title": "Decryption never returns unauthenticated data", "statement": "Whenever Decrypt succeeds, the returned plaintext together with the complete plaintext header of the file hashes to the hash stored inside the encrypted payload.", "quantifier": "all byte strings given as a file, all credentials", "why_tests_cant": "All possible corruptions.", "anchors": ["crypt/crypto_v1.go:decryptV1Single", "crypt/crypto_v1.go:decryptV1Multi"]}
{"id": "C45", "title": "Decryption of any input fails cleanly", "statement": "For every byte string and all credentials Decrypt and IsMultiUser return a result or an error; they never crash.", "quantifier": "all byte strings, all credentials", "why_tests_cant": "All malformed inputs, all wrong passphrases.", "anchors": ["crypt/crypto.go:Decrypt", "crypt/crypto.go:IsMultiUser", "crypt/crypto.go:verifyMagic", "crypt/crypto_v1.go:decryptV1"]}
{"id": "C46", "title": "Unknown users are rejected", "statement": "Decrypt with a user name that is not in a multi-user file never succeeds (absent a SHA-512 collision), and the caller can tell by ErrUnknownUser.", "quantifier": "all files made by Encrypt, all other names and passphrases", "why_tests_cant": "All names and passphrases.", "anchors": ["crypt/crypto_v1.go:decryptV1Multi"]}
{"id": "C47", "title": "What Decrypt returns can be encrypted again", "statement": "The parameters returned by a successful Decrypt pass validation, and encrypting with them gives a file the same credentials open.", "quantifier": "all files, made by Encrypt or not, all credentials", "why_tests_cant": "All user counts and all bytes.", "anchors": ["crypt/params.go:validate", "crypt/crypto.go:Encrypt"]}
{"id": "C48", "title": "Cached keys are used only when their salt matches the file", "statement": "If the given salt differs from the file's, the given key has no influence on the result of Decrypt; with an empty passphrase the result is then ErrWrongPassphrase.", "quantifier": "all inputs", "why_tests_cant": "All keys and salts.", "anchors": ["crypt/crypto_v1.go:decryptV1Single", "crypt/crypto_v1.go:decryptV1Multi"]}
{"id": "C49", "title": "Valid parameters never crash Encrypt", "statement": "If the parameters pass validation Encrypt returns a file or an error.", "quantifier": "all parameters", "why_tests_cant": "All combinations of nil/non-nil fields.", "anchors": ["crypt/params.go:validate", "crypt/crypto_v1.go:encryptV1Multi"]}
{"id": "C50", "title": "IsMultiUser agrees with the file", "statement": "On every output of Encrypt, IsMultiUser says true exactly when the parameters had users.", "quantifier": "all parameters, all user counts", "why_tests_cant": "All user counts.", "anchors": ["crypt/crypto.go:IsMultiUser", "crypt/crypto_v1.go:encryptV1Multi"]}
{"id": "C51", "title": "Account operations keep the file openable", "statement": "After adduser, passwd, rekey followed by save, every user (including the current one with the new password) can open the saved file and sees the same entries.", "quantifier": "all stores, users, passwords, random choices", "why_tests_cant": "All sequences of account operations.", "anchors": ["commands.go:adduser", "commands.go:passwd", "commands.go:rekey", "uicontext.go:makeParams", "main.go:saveBlob"]}
{"id": "C52", "title": "rekeyall leaves every user able to open the file with the new password", "statement": "After rekeyall and save, Decrypt with each user's newly printed password succeeds.", "quantifier": "all multi-user files", "why_tests_cant": "All users and keys.", "anchors": ["commands.go:rekeyAll"]}
{"id": "C53", "title": "passwd changes the password of the named user only", "statement": "passwd u changes the wrapped master key, iv and salt of user u and of nobody else.", "quantifier": "all files, users", "why_tests_cant": "All users.", "anchors": ["commands.go:passwd"]}
{"id": "C54", "title": "Generated passwords meet the request", "statement": "genPassword(length, ...) either reports impossibility or returns exactly length characters, containing at least the requested number from each required class and only characters from classes that are not switched off.", "quantifier": "all lengths and class settings, all random bytes", "why_tests_cant": "All randomness.", "anchors": ["passwd_gen.go:genPassword"]}
{"id": "C55", "title": "scp transfer preserves the file", "statement": "The byte stream produced by the sending side, read by the receiving side, yields the same name, mode, length and contents.", "quantifier": "all contents, names without white space, modes", "why_tests_cant": "All contents.", "anchors": ["scpsync/scpsync.go:sendFile", "scpsync/scpsync.go:readFile"]}
{"id": "C56", "title": "A truncated or malformed scp stream is an error", "statement": "If readFile succeeds, the stream contained a complete header and exactly the announced number of content bytes followed by a zero byte; otherwise it returns an error and never crashes.", "quantifier": "all byte streams", "why_tests_cant": "All streams.", "anchors": ["scpsync/scpsync.go:readFile"]}
{"id": "C57", "title": "Read-only sessions never change the file or its history", "statement": "With a history time set, no sequence of commands changes the log or writes the file; the log shown is the part up to that time.", "quantifier": "all stores, times, command sequences", "why_tests_cant": "All command sequences.", "anchors": ["repl.go:run", "main.go:loadBlob", "main.go:saveBlob"]}
{"id": "C58", "title": "A crash while saving never loses the file", "statement": "At every crash point during save the file on disk is either the complete old or the complete new file.", "quantifier": "all old and new contents, all crash points", "why_tests_cant": "All crash points.", "anchors": ["main.go:saveBlob"]}
{"id": "C59", "title": "Export contains every entry and every key at its current value", "statement": "The exported CSV has one row per visible entry (current state of the log) and a column for every key in use, each cell holding the current value.", "quantifier": "all loadable files", "why_tests_cant": "All stores including ones saved with a stale snapshot.", "anchors": ["export.go:export"]}
{"id": "C60", "title": "Import creates exactly one entry per CSV record", "statement": "importLastpass creates one uniquely named entry per data record with its user, pass, url, notes and labels, and nothing else.", "quantifier": "all CSV contents and stores", "why_tests_cant": "All record lists and name collisions.", "anchors": ["import.go:importLastpass"]}
{"id": "C61", "title": "set stores the value exactly as typed", "statement": "For a command line `set q k v` (single spaces; q and k without white space; v not starting or ending in white space) the value stored is v verbatim, inner white space included.", "quantifier": "all queries, keys, values", "why_tests_cant": "All strings.", "anchors": ["repl.go:run", "repl.go:replCmds"]}
{"id": "C62", "title": "Deleting a user entry keeps the file consistent", "statement": "A user cannot delete their own user entry while other users exist; deleting the last user turns the file into a single-user file that the same password opens; deleting any other entry does not change whether the file is multi-user.", "quantifier": "all stores, names", "why_tests_cant": "All names, including those that merely contain user/.", "anchors": ["commands.go:deleteEntry", "blobformat/blobs.go:SplitUsername"]}
{"id": "C63", "title": "The interactive password generator returns what the user accepted and never crashes", "statement": "getPassword returns a password only if it was typed twice, or was generated for the settings in force and accepted; an accepted password meets the settings; no input crashes the prompt.", "quantifier": "all input lines, all random bytes", "why_tests_cant": "All sequences of adjustments.", "anchors": ["uihelpers.go:getPassword"]}
{"id": "C64", "title": "A merge leaves the file multi-user exactly if it has users", "statement": "When a single-user file is merged with a multi-user one (or the reverse), the file has a master key afterwards exactly if the merged log contains user entries, so it can be saved and opened.", "quantifier": "all pairs of logs and credentials, any number of remotes", "why_tests_cant": "All histories and remote orders.", "anchors": ["merging.go:mergeBlobs"]}
{"id": "C65", "title": "sync only touches sync entries and refuses others", "statement": "sync without a name contacts only entries with sync=true, a name and an scp or file url; sync with a name refuses an entry that has no usable url with a message.", "quantifier": "all stores, entries, remotes", "why_tests_cant": "All entry contents and url kinds.", "anchors": ["sync.go:sync", "sync.go:collectSyncs", "sync.go:pullBlob"]}
{"id": "C72", "title": "Exported CSV can be read back", "statement": "Reading the exported file with a CSV reader gives exactly the records that were written.", "quantifier": "all record lists, all bytes", "why_tests_cant": "All field contents: quotes, separators, line ends of every kind.", "anchors": ["export.go:export"]}
{"id": "C73", "title": "The exit status tells whether the run succeeded", "statement": "A run that printed an error (wrong password, failed synchronisation, failed save, ...) ends with a status other than 0; a successful one with 0.", "quantifier": "all runs", "why_tests_cant": "All ways a run can fail.", "anchors": ["main.go:main"]}
{"id": "C66", "title": "No sequence of commands crashes a session", "statement": "For every file in order and every sequence of lines at the prompt (other than sync), the session does not panic, so unsaved work is not lost.", "quantifier": "all files in order, all lines, inputs, random bytes, map orders", "why_tests_cant": "All command sequences and inputs.", "anchors": ["repl.go:run", "commands.go:show", "commands.go:rekey"]}
{"id": "C67", "title": "Files stay in order", "statement": "A file in which every entry has a name, names are unique and the log can be read is still so after any number of sessions of any lines (other than sync).", "quantifier": "all sequences of sessions and lines", "why_tests_cant": "All command sequences.", "anchors": ["repl.go:run", "blobformat/blobs.go:New", "blobformat/blobs.go:Rename", "commands.go:addNew", "commands.go:rename"]}
{"id": "C68", "title": "add is all or nothing", "statement": "add either fails and changes nothing, or finds the name taken and changes nothing, or adds one entry holding exactly the name and what was typed and changes no other entry.", "quantifier": "all files in order, names, inputs", "why_tests_cant": "All inputs and interruption points.", "anchors": ["commands.go:addNew", "commands.go:addNewInterruptible", "txlogs/txlogs.go:Do"]}
{"id": "C69", "title": "Commands on the current entry change that entry only", "statement": "With a current entry chosen by cd, set, edit, rmk, label and rmlabel change only that entry, through any sequence of further commands.", "quantifier": "all files in order, all lines", "why_tests_cant": "All names and fuzzy matches.", "anchors": ["repl.go:run", "uihelpers.go:findOne", "commands.go:set"]}
{"id": "C70", "title": "get prints the current value", "statement": "get and cp print exactly the value the key has in the entry named, nothing if it has none, and change nothing; so do user, pass and email.", "quantifier": "all files in order, entries, keys", "why_tests_cant": "All values.", "anchors": ["commands.go:get", "repl.go:run"]}
{"id": "C71", "title": "Text of several lines is stored as typed", "statement": "Lines typed at the prompt for several lines are stored joined by newlines, exactly as typed, as long as they contain no end marker.", "quantifier": "all lists of lines", "why_tests_cant": "All lists of lines.", "anchors": ["uihelpers.go:promptMultiline", "commands.go:set"]}
{"id": "C75", "title": "Cancelling a prompt costs no earlier work", "statement": "Giving up a command at one of its prompts does not lose what earlier commands of the session did.", "quantifier": "all commands with prompts", "why_tests_cant": "All sequences.", "anchors": ["repl.go:run", "commands.go:passwd", "main.go:main"]}
{"id": "C76", "title": "History only grows", "statement": "No line other than sync removes or changes an operation of the log, and an entry keeps its name unless rm or mv names it.", "quantifier": "all files in order, all sequences of lines", "why_tests_cant": "All command sequences.", "anchors": ["txlogs/txlogs.go:appendLog", "repl.go:run", "txlogs/txlogs.go:Rollback"]}
{"id": "C74", "title": "What a session leaves is saved and opens again", "statement": "A session that ends normally is saved, and the file then opens with the password given last and holds exactly what the session left.", "quantifier": "all sequences of lines and sessions over the life of a file", "why_tests_cant": "All sequences of lines over all sessions.", "anchors": ["main.go:main", "main.go:saveBlob", "main.go:loadBlob", "repl.go:run"]}
{"id": "C77", "title": "Text stays text", "statement": "Everything a session puts into the log survives being written to the file and read again.", "quantifier": "all sequences of lines and answers", "why_tests_cant": "All sequences and all bytes typed.", "anchors": ["repl.go:run", "txlogs/txlogs.go:Save", "txlogs/txlogs.go:New"]}
{"id": "C78", "title": "Every question gets an answer of the kind it asks for", "statement": "A yes/no question is answered by the first line that is one of the accepted words and by nothing else; a text prompt returns the first line that is not empty; a menu returns the number of an item that exists; a text of several lines is taken over as typed.", "quantifier": "all input lines", "why_tests_cant": "All sequences of answers, also nonsensical ones.", "anchors": ["uihelpers.go:getYesNo", "uihelpers.go:getString", "uihelpers.go:getMenuChoice", "uihelpers.go:promptMultiline"]}
{"id": "C79", "title": "The editing commands do what they say", "statement": "set, edit, rmk, label, rmlabel, mv and rm change exactly the key, the labels, the name or the existence of exactly the entry named, to exactly what was typed, and nothing if they refuse.", "quantifier": "all files in order, entries, keys, values, answers", "why_tests_cant": "All entries, keys, values and answers.", "anchors": ["commands.go:set", "commands.go:edit", "commands.go:deleteKey", "commands.go:addLabels", "commands.go:deleteLabel", "commands.go:rename", "commands.go:deleteEntry"]}
{"id": "C80", "title": "sync loses no operation", "statement": "After a successful merge the session has every operation it had and every operation of every remote file that was read, and no operation that none of them had, apart from the known hosts.", "quantifier": "all numbers of remotes, all histories of one file, all answers", "why_tests_cant": "All histories and any number of remotes.", "anchors": ["sync.go:sync", "merging.go:mergeBlobs", "merging.go:mergeLogs"]}
{"id": "C81", "title": "The reading commands show what is there", "statement": "ls and labels list exactly the names selected, once each and in order. show prints every key of the entry selected with its value, now or before its last n operations, in a fixed order. login, open and dump use exactly the values of the entry selected. None of them changes the file.", "quantifier": "all files, queries, entries and orders of visiting a map", "why_tests_cant": "All entries and all orders in which Go may visit a map.", "anchors": ["commands.go:list", "commands.go:listByLabels", "commands.go:show", "commands.go:login", "commands.go:openurl", "commands.go:dump"]}
{"id": "C82", "title": "addsync records what was typed", "statement": "A successful addsync adds one entry with the first free name sync/kind, marked as a remote, with the address made of the answers and the new keys if these were asked for, and nothing else. Every other entry and the credentials stay as they were, and the remote takes part in later syncs.", "quantifier": "all files, kinds, answers and keys", "why_tests_cant": "All sequences of answers, including ones that are asked again.", "anchors": ["commands.go:addSync", "commands.go:addSCPEntry"]}
{"id": "C83", "title": "A password typed into pinentry arrives as typed", "statement": "Password returns exactly what the user typed into the pinentry program, an error if the program does not follow the protocol, and tells a cancelled window from an empty password.", "quantifier": "all passwords, all conversations", "why_tests_cant": "All passwords with escapes and all misbehaving programs.", "anchors": ["pinentry/pinentry.go:Password", "uihelpers.go:promptPassword"]}
{"id": "C84", "title": "The file the user named is opened and shown", "statement": "The file given with -f is opened; without it the one in $BPASS, else the default. The prompt shows its name and the first letter of each directory.", "quantifier": "all paths and settings", "why_tests_cant": "All paths.", "anchors": ["cli.go:parseCli", "main.go:shortPath"]}
{"id": "C85", "title": "The hidden prompt on Windows returns what was typed", "statement": "LineHidden returns the keys typed up to Enter, with backspace taking back the last one, and never crashes.", "quantifier": "all sequences of keys and all ways the console groups them", "why_tests_cant": "All groupings of keys into reads.", "anchors": ["noreadline.go:LineHidden"]}
{"id": "C86", "title": "What the program records is a history it can merge", "statement": "Whatever is typed, the log stays in the order of time with one time per operation, can be replayed, holds only known operations, adds each entry once, and gives each entry a name that is text and is never taken away.", "quantifier": "all files in order, all sequences of lines, answers and draws", "why_tests_cant": "All command sequences; the merge algorithm assumes this of every log it meets.", "anchors": ["txlogs/txlogs.go:appendLog", "repl.go:run", "commands.go:addNewInterruptible", "commands.go:rekeyAll"]}
{"id": "C87", "title": "sync keeps files in order", "statement": "After a successful sync the file can be read, every entry has a name, names are unique, and the log is again one that can be merged; so it stays over any number of sessions with sync on any number of machines.", "quantifier": "all sequences of sessions and lines including sync, any number of remotes", "why_tests_cant": "All histories on all machines and every interleaving of their syncs.", "anchors": ["sync.go:sync", "sync.go:saveHosts", "merging.go:mergeBlobs", "main.go:main"]}
{"id": "C88", "title": "sync locks nobody out", "statement": "After a successful sync every user of the file opens it with the password that was set last for them on any of the machines.", "quantifier": "all histories of accounts on any number of machines, all passwords, all sequences of lines including sync", "why_tests_cant": "Passwords are set on different machines in every order, and the record of a user is three separate operations that a merge can mix.", "anchors": ["sync.go:sync", "merging.go:mergeBlobs", "commands.go:passwd", "commands.go:adduser", "commands.go:rekey", "main.go:saveBlob"]}
{"id": "C89", "title": "Machines that sync through a shared file end up with the same entries", "statement": "Any number of machines start with copies of one file and a shared file they all sync with. Whatever is done on them in whatever order, no operation is lost and the shared file stays readable; and after every machine has synced twice all have the same entries, with everything done on any of them.", "quantifier": "any number of machines, all sessions on them, every interleaving of sessions and syncs, all answers to the questions of sync", "why_tests_cant": "Needs all interleavings of unboundedly many machines; a test fixes the number of machines and a schedule.", "anchors": ["sync.go:sync", "merging.go:mergeBlobs", "merging.go:mergeLogs", "txlogs/txlogs.go:Merge", "repl.go:run"]}
{"id": "C90", "title": "Remotes are where addsync was told they are", "statement": "After addsync, sync connects to the host and port that were typed, logs in as the user that was typed with the password or key that was chosen, and reads and writes the file that was typed; two remotes that were typed differently stay different.", "quantifier": "all users, passwords, hosts, ports and paths, as bytes", "why_tests_cant": "The address goes through escaping and parsing of URLs; needs all strings with all special characters.", "anchors": ["commands.go:addSync", "commands.go:addSCPEntry", "sync.go:sshConfig", "sync.go:pullBlob", "sync.go:pushBlob"]}
{"id": "C91", "title": "sync sends nothing to a server whose key was not accepted", "statement": "User name, password, key, commands and files go only to the server at the address of the remote, and only if its host key is the one on record or the user has just accepted it; a server that was accepted is not asked about again, and one that shows another key than the one on record gets nothing.", "quantifier": "all servers, all known-hosts records, all answers", "why_tests_cant": "All servers and all contents of the record, including malformed ones.", "anchors": ["sync.go:sshPull", "sync.go:sshPush", "sync.go:sshConfig", "sync.go:hostAsker", "scpsync/scpsync.go:Recv", "scpsync/scpsync.go:Send"]}
{"id": "C92", "title": "What scp stores is what sync sent, and what it reads is what is there", "statement": "With a server that speaks scp, a pull gives exactly the file at the path or finds that there is none, and a push makes scp store exactly the new file at the path.", "quantifier": "all files, all paths, all servers that speak scp", "why_tests_cant": "All file contents and names pass through a command line and a byte protocol.", "anchors": ["scpsync/scpsync.go:Recv", "scpsync/scpsync.go:Send", "scpsync/scpsync.go:sendFile", "scpsync/scpsync.go:readFile", "sync.go:sshPull", "sync.go:sshPush"]}
{"id": "C93", "title": "Machines that sync over ssh with one server end up with the same entries", "statement": "What C89 says of an abstract shared file holds for a file on a server that is reached over ssh and scp: nothing is lost, and after every machine has synced twice all have the same entries.", "quantifier": "any number of machines, all sessions on them, every interleaving of sessions and syncs", "why_tests_cant": "As C89, with the network in between.", "anchors": ["sync.go:sync", "sync.go:sshPull", "sync.go:sshPush", "scpsync/scpsync.go:Recv", "scpsync/scpsync.go:Send", "merging.go:mergeBlobs"]}
{"id": "C94", "title": "What sync overwrites, it has read", "statement": "The file that sync writes to a remote is the one it read from that remote in the same run, or one that was not there: nothing that another machine put there is overwritten unread.", "quantifier": "all stores, remotes, replies and contents of files", "why_tests_cant": "The entry that says where a remote is can itself change in the merge; a test would have to move a remote on one machine and sync on another.", "anchors": ["sync.go:sync", "sync.go:pushBlob", "sync.go:pullBlob", "sync.go:saveHosts", "merging.go:mergeBlobs"]}
{"id": "C95", "title": "Two factor codes are the codes of the secret that was set", "statement": "After set of totp to a key in base32 or to an otpauth address, get totp prints the code of RFC 6238 for that key and the current time; what cannot give codes is refused.", "quantifier": "all keys and their spellings in base32, all labels and parameters of addresses, all times", "why_tests_cant": "Tests try one key with a length that needs no padding; padding, case, escapes in addresses and secrets that are stored but never give a code are left out.", "anchors": ["blobformat/blobs.go:SetTwofactor", "blobformat/blob.go:TwoFactor", "commands.go:get", "commands.go:set"]}
{"id": "C96", "title": "After sync every field holds what was written last on any machine", "statement": "After sync has merged any number of remotes, an entry exists exactly if it was added on some machine and deleted on none, and each of its fields (other than the known hosts, which sync writes itself) holds the value written last on any of the machines, and nothing if it was removed last.", "quantifier": "all histories bpass writes, all numbers of remotes, all orders, all clocks that run", "why_tests_cant": "What a field holds depends on every interleaving of writes, removals and deletions on all machines.", "anchors": ["sync.go:sync", "merging.go:mergeBlobs", "merging.go:mergeLogs", "txlogs/txlogs.go:Merge", "txlogs/txlogs.go:UpdateSnapshot"]}
{"id": "C97", "title": "No remote can crash sync", "statement": "Whatever the remotes hold and the servers answer, and whatever is typed, sync, a session with it and the whole program end with a result or an error message, never with a crash that loses what was typed before.", "quantifier": "all sessions, all remotes, all replies of servers, all input", "why_tests_cant": "A crash needs a particular combination of what a remote holds, what a server announces and what was recorded about it; tests run against well-behaved remotes.", "anchors": ["sync.go:sync", "sync.go:pullBlob", "sync.go:decryptBlob", "sync.go:sshConfig", "sync.go:pushBlob", "merging.go:mergeBlobs", "scpsync/scpsync.go:readFile", "crypt/crypto.go:Decrypt"]}
{"id": "C98", "title": "sync does not lock anybody out of a file without users", "statement": "After any sequence of commands and syncs in a file without users, the file that is written opens with a passphrase that the user knows: the one it was opened with, one given to passwd, or one typed when sync asked for the passphrase of a remote; and it holds what the session left.", "quantifier": "all sessions, all remotes and their passphrases, salts and contents, everything typed", "why_tests_cant": "Which passphrase counts depends on salts, cached keys, which file is newer and how often the prompt was answered; a test tries one combination.", "anchors": ["sync.go:sync", "sync.go:decryptBlob", "merging.go:mergeBlobs", "crypt/crypto_v1.go:decryptV1Single", "main.go:main"]}
{"id": "C99", "title": "A file opened at a time in the past shows exactly what it held then", "statement": "With --time, the instant typed is the instant meant, the file is opened for reading only, and it shows exactly what it held at that instant, whatever was done in it later; the dates that bpass shows can be typed to return to them.", "quantifier": "all dates, all files and histories, all later sessions", "why_tests_cant": "Leap years, the width of a nanosecond count, time zones and commands that write several operations at different instants; a test tries a few dates on a small file.", "anchors": ["cli.go:parseCli", "main.go:main", "main.go:loadBlob", "commands.go:get", "blobformat/blob.go:getTimestamp", "txlogs/txlogs.go:ResetSnapshot"]}
{"id": "C100", "title": "What a file gives away", "statement": "Whoever sees only the encrypted file learns from it its size, from which follow the number of users and the length of the plain text up to 16 bytes, the salts and the initialisation vectors, and nothing else that depends on the contents outside the cipher text; two files saved with different random bytes are different, even when nothing changed; the names of the users are not in it.", "quantifier": "for all primitives, all parameters, all random bytes and all plain texts; for the saved files: all sessions", "why_tests_cant": "a test cannot compare the files of all contents", "anchors": ["crypt/crypto_v1.go:encryptV1", "crypt/crypto_v1.go:encryptV1Single", "crypt/crypto_v1.go:encryptV1Multi", "main.go:saveBlob", "uicontext.go:makeParams"]}
{"id": "C101", "title": "Taking access away", "statement": "Once the entry of a user was removed, or got another password, what is saved later cannot be read with what that user had before: the file is encrypted with a key that they do not have.", "quantifier": "for all primitives, all files with users, all users who could open them and all later sessions", "why_tests_cant": "a test looks at one session, and would have to decrypt without the program", "anchors": ["commands.go:deleteEntry", "commands.go:passwd", "commands.go:rekey", "commands.go:adduser", "main.go:saveBlob", "crypt/crypto_v1.go:encryptV1Multi"]}
{"id": "C102", "title": "Every entry can be named on a command line", "statement": "Every entry that bpass makes has a name that can be typed as one argument at the prompt, and typing it with the command selects, shows, changes, renames or removes exactly that entry.", "quantifier": "all names, all commands and their arguments, all files, all sessions and syncs", "why_tests_cant": "A test types names without white space; which of the many white space characters of Unicode end a word, and who writes names into a file, is not seen from one command.", "anchors": ["repl.go:run", "commands.go:deleteEntry", "commands.go:rename", "commands.go:addNewInterruptible", "import.go:importLastpass", "blobformat/blobs.go:FindByName"]}
{"id": "C103", "title": "edit leaves nothing of a value on the disk", "statement": "When edit is done, its temporary file is gone and no file on the disk holds anything of the value before or after, whatever the editor does; the other files are as they were, and what the editor saved is what is stored.", "quantifier": "all disks, names, values, editors and exit codes", "why_tests_cant": "Editors differ in how they save (into the file, or by renaming a new one), and tests run none; what is left in a removed file is not visible through the file system.", "anchors": ["commands.go:edit", "osutil/osutil_linux.go:RunEditor"]}
{"id": "C104", "title": "What is copied to the clipboard was asked for and does not stay there", "statement": "Only cp, user, pass, email, totp, login and the password prompt of add, set and addsync copy anything; what they copy is a value of an entry, its current code, a date or a generated password; the password accepted after copying is the copied one and is what is stored; and after a run the clipboard is empty.", "quantifier": "for all lines, sessions, files, inputs, random bytes and starting jobs", "why_tests_cant": "What gets copied depends on the whole session and on the input at the password prompt; that the clipboard is emptied concerns every way the program can end.", "anchors": ["commands.go:copyToClipboard", "commands.go:get", "commands.go:login", "commands.go:addNewInterruptible", "uihelpers.go:getPassword", "main.go:main"]}
{"id": "C105", "title": "Generated passwords are hard to guess", "statement": "If the random bytes are uniform, then every password that meets the request can come out, no password comes out with a probability above 1 in 8 to the power of its length (1 in 40 to that power with the settings the prompt starts with), and all passwords that meet the request are equally likely.", "quantifier": "for all lengths, all settings of the classes and all passwords, over all contents of the buffer of random bytes", "why_tests_cant": "A probability cannot be seen in a test, and a bias of one in 25 not without thousands of runs; the contents of the buffer cannot be enumerated.", "anchors": ["passwd_gen.go:genPassword", "passwd_gen.go:alphabetExtraSymbols"]}
{"id": "C106", "title": "Programs at work on one file at the same time lose nothing", "statement": "If several programs have the same file open at the same time, then after they have ended the file opens, and everything that was saved by one of them is in it; a program in which nothing was changed changes nothing.", "quantifier": "for all numbers of programs, all orders in which they start, end or are killed, and all sessions of text in files with and without users", "why_tests_cant": "The result depends on how the runs overlap; a test runs one program at a time.", "anchors": ["main.go:loadBlob", "main.go:saveBlob", "repl.go:run"]}
{"id": "C107", "title": "Machines that sync at the same time come to agree", "statement": "If machines sync with a shared file at the same time, so that one overwrites what another has just pushed, then no machine loses anything, the shared file stays readable and keeps everything that was ever pushed, and after everybody has synced twice more, one after the other, all have the same entries.", "quantifier": "for all numbers of machines and rounds, all orders in which reads and writes of the shared file follow each other, and all sessions between them, in files with and without users", "why_tests_cant": "The result depends on the order of reads and writes on different machines, which a test cannot arrange, and on what is never seen again in any number of later syncs.", "anchors": ["sync.go:sync", "sync.go:pullBlob", "sync.go:pushBlob", "txlogs/txlogs.go:Merge"]}
{"id": "C108", "title": "At the prompts of sync every remote can be opened with its passphrase", "statement": "If a remote does not open with the user name and passphrase of the session, sync asks for them; whatever was refused before, the user name and passphrase that open the file otherwise open it here, its history is merged, nothing else is accepted, what is known is not asked for again, and who gives up loses this remote only.", "quantifier": "for all files, sessions, numbers of refused answers and remotes, with and without users", "why_tests_cant": "The answers interact with the cached key and salt of the session and with the errors of Decrypt, some of which are never returned; tests use one passphrase for everything.", "anchors": ["sync.go:decryptBlob", "sync.go:sync", "crypt/crypto_v1.go:decryptV1Single", "crypt/crypto_v1.go:decryptV1Multi"]}
{"id": "C109", "title": "The date of an entry tells when it was last changed", "statement": "Every entry of a file bpass made has a date; it is a number, lies in the past, and show never fails because of it. After a line the date of an entry is either one the clock showed during the line, or the entry is as it was; after sync it is the one that was written last on any machine.", "quantifier": "for all files, command lines, sessions, syncs and runs of the program", "why_tests_cant": "Some commands write through helpers that set the date and some write the operations directly; a test looks at one command at a time and rarely at the date.", "anchors": ["blobformat/blobs.go:touchUpdated", "blobformat/blobs.go:Set", "blobformat/blobs.go:RemoveLabel", "commands.go:deleteLabel", "commands.go:passwd", "commands.go:show"]}
{"id": "C110", "title": "dump and dumpall print everything there is and nothing else", "statement": "What dumpall prints, read as a file, is the same store as the one in memory, so it is a backup; it has every operation ever made. What dump prints tells every key and value of the entry byte by byte, and no value can send orders to the terminal.", "quantifier": "for all stores and entries, all bytes in keys and values, every order of the map, and whatever counts as printable", "why_tests_cant": "Whether two different entries can print the same is a statement about all pairs of texts; a test tries a few strange values.", "anchors": ["commands.go:dumpall", "commands.go:dumpBlob", "commands.go:dump", "commands.go:show", "txlogs/txlogs.go:New"]}
{"id": "C111", "title": "What was deleted or replaced is gone", "statement": "After rm, rmk, set or passwd and saving, the values that were deleted or replaced cannot be read from the file any more. rm says so before it asks: all data associated with the entry will be deleted, including all history, irrecoverably.", "quantifier": "for all files, entries and values, and any number of later sessions by anybody", "why_tests_cant": "A test sees that the entry is no longer listed; that no later session by any user ever removes the value from what is encrypted is a statement about all of them.", "anchors": ["commands.go:deleteEntry", "commands.go:dumpall", "txlogs/txlogs.go:Delete", "txlogs/txlogs.go:Save", "main.go:loadBlob"]}
{"id": "C112", "title": "TAB offers the entries and changes nothing", "statement": "Pressing TAB offers the names of all entries, in order, and every name offered stands for its entry. It does not change what the line does, nor the file. The commands and keys offered are those there are.", "quantifier": "for all files, lines and sessions, with TAB pressed at any of the lines", "why_tests_cant": "Completion runs inside the line editor and brings the program's view of the file up to date behind its back, so every command may start from another view than in a test that feeds lines to it.", "anchors": ["readline.go:entryCompleter", "readline.go:readlineAutocompleter", "blobformat/blobs.go:Search", "txlogs/txlogs.go:UpdateSnapshot", "repl.go:run"]}
{"id": "C113", "title": "What bpass writes, others cannot read", "statement": "A file that bpass makes cannot be read by other users of the machine, at any moment, whatever the umask: the password file, remotes of the kind file, the temporary files of edit, and exports.", "quantifier": "for all umasks, all file systems, and all sequences of saving, pushing, editing and exporting", "why_tests_cant": "Permissions depend on the umask and on what was there before, and a test runs with one umask in an empty directory; nor can a test look at every moment in between.", "anchors": ["main.go:saveBlob", "sync.go:pushBlob", "commands.go:edit", "export.go:export"]}
{"id": "C114", "title": "Only commands can be recalled at the prompt", "statement": "The arrow keys bring back the valid commands of this session, in order, and nothing else: no answers to questions, no passwords, whether typed as answers or in a line.", "quantifier": "for all sessions, lines, answers and remotes, with any end", "why_tests_cant": "A test would have to drive the line editor and look at its memory after each of the questions that a command may ask.", "anchors": ["repl.go:run", "readline.go:AddHistory", "readline.go:readlineConfig", "line_editing.go:LineEditor"]}
{"id": "C115", "title": "The account commands do what they say", "statement": "When passwd or rekey say that the passphrase or the key was updated, the saved file opens for the user named with the password typed. When they refuse a password as empty, it was. When adduser says that a user was added with a password, or with one's key, that user can open the saved file with it.", "quantifier": "for all files, users, passwords and random draws", "why_tests_cant": "The messages are printed on paths that leave the session untouched, in combinations of kinds of file, arguments and earlier commands that tests have to think of, and only opening the saved file would tell.", "anchors": ["commands.go:passwd", "commands.go:rekey", "commands.go:adduser", "main.go:loadBlob"]}
{"id": "C116", "title": "A push that is cut off does no lasting harm", "statement": "If a push to a remote is cut off at any moment, what is left there is never taken for a file, and the next sync of any machine puts a whole file there again.", "quantifier": "for all files, moments of the interruption, machines, passphrases and later sessions", "why_tests_cant": "Every length of what is left has to be tried, and with each what every later program on every machine does with it.", "anchors": ["sync.go:pushBlob", "sync.go:pullBlob", "sync.go:sync", "sync.go:decryptBlob", "crypt/crypto_v1.go:decryptV1"]}
{"id": "C117", "title": "An old copy put at a remote brings nothing back", "statement": "If whoever keeps the remote puts an earlier version of the file there, sync brings back no deleted entry, no old value, no removed user and no old password, loses nothing, and puts the current file there again.", "quantifier": "all histories written by the program, all earlier versions of them at any number of remotes, all inputs and outcomes of sync, all password changes", "why_tests_cant": "Tests sync two files that grew apart; a remote that plays back an earlier version, for every history and every prefix of it, is not tried.", "anchors": ["merging.go:mergeBlobs", "merging.go:mergeLogs", "sync.go:sync", "txlogs/txlogs.go:Merge"]}
{"id": "C118", "title": "What a run changed is at the remotes when it ends", "statement": "When a run of the program ends well, every automatic remote that could be read has been sent a file with everything that was done in the run.", "quantifier": "all files, all sequences of lines at the prompt, all remotes and what they hold, all outcomes of the synchronisation at the end", "why_tests_cant": "Needs whole runs against remotes in every state; the project has no test of main or of sync.", "anchors": ["main.go:main", "sync.go:sync", "repl.go:run"]}
{"id": "C119", "title": "Leaving without saving undoes the run", "statement": "If the program is left with Ctrl-C or ends with an error at the prompt, nothing that was done in the run is kept, neither in the file nor at a remote.", "quantifier": "all files, all sequences of lines, all ways to leave the prompt", "why_tests_cant": "Needs runs that are broken off at every point, together with the remotes; the project has no test of main.", "anchors": ["main.go:main", "repl.go:run", "sync.go:sync"]}
{"id": "C120", "title": "A server that was accepted is not asked about again", "statement": "When somebody says yes to the key of a new server during a sync, the key is on record in the sync entry after that sync, and neither fetching from nor sending to the server asks again as long as it shows that key.", "quantifier": "for all files, remotes, merges, answers, clocks and visiting orders", "why_tests_cant": "Tests answer the question once and look at the line; that every path through fetching, merging, recording, sealing and sending keeps the line and puts it where the next check finds it is a statement about all of them.", "anchors": ["sync.go:sync", "sync.go:saveHosts", "sync.go:hostAsker.callback", "sync.go:sshPush", "scpsync/scpsync.go:Recv"]}
{"id": "C121", "title": "A current entry saves typing its name and nothing else", "statement": "With a current entry chosen by cd, a command that takes a query does exactly what it does without one when the name of that entry is put before its arguments; all other commands do what they do without one; and a command that is given the name of another entry acts on that entry.", "quantifier": "all commands, arguments, entries, files and sequences of lines", "why_tests_cant": "The two ways to type a command are two branches in each of fifteen commands; the project has no test of the prompt, and agreement for all arguments cannot be tried out.", "anchors": ["repl.go:replCmds", "repl.go:getCopy", "repl.go:quickCopy", "repl.go:run"]}
{"id": "C122", "title": "A failing random source never weakens anything", "statement": "If a request for random bytes fails, the program ends with an error before anything is written, or the bytes were not needed: no key, salt, initialisation vector, identifier or password in a file is ever made of bytes that were not delivered, and no command carries on with half of its work done.", "quantifier": "all commands, sessions, files and combinations of failed requests", "why_tests_cant": "The random source never fails in a test, and each of eleven places that ask it has its own error path in front of which something has already happened.", "anchors": ["crypt/crypto.go:DeriveKey", "crypt/crypto_v1.go:newMasterKeyV1", "crypt/crypto_v1.go:encryptV1Single", "crypt/crypto_v1.go:encryptMasterKeyV1", "passwd_gen.go:genPassword", "txlogs/txlogs.go:Add", "commands.go:adduser", "commands.go:rekeyAll", "commands.go:addSCPEntry", "uihelpers.go:getPassword"]}
{"id": "C123", "title": "An import leaves a file like any other", "statement": "After lpassimport, however it ends, the file is in order: its history replays, names are unique, every entry has a name and a date, nothing of the old history is gone; an import that is said to be complete is saved, and the file opens to exactly what was imported.", "quantifier": "all printed tables, all files, all names and collisions, all clock readings and identifiers", "why_tests_cant": "A test imports one list into an empty file and looks at the entries; that every later guarantee still holds, for any list and any file, and what names like User/Joe or the flag --time do to the save, is not seen there.", "anchors": ["import.go:importLastpass", "main.go:main", "main.go:saveBlob", "blobformat/blobs.go:New"]}
{"id": "C124", "title": "The end of the input keeps what was typed on every system", "statement": "The prompt delivers every line as typed, and a run that is ended at the prompt by the end of the input is saved as one ended by exit, on Windows as elsewhere.", "quantifier": "all texts typed, of any number of lines and any length, with either kind of line end; all files; all commands", "why_tests_cant": "The Windows editor is compiled on Windows only and needs a console; no test there types a text to its end, or a line longer than the buffer of the scanner.", "anchors": ["noreadline.go:Line", "repl.go:run", "main.go:main", "uihelpers.go:promptMultiline"]}
{"id": "C125", "title": "A synchronisation that fails costs nothing that was typed", "statement": "When remotes cannot be reached, or a merge is not carried out, the program starts with what the file holds, sends nothing, and what is typed in the run is written to the file at its end as it would be without synchronising.", "quantifier": "all files, with and without users, all sync entries and remotes, all lines typed, both synchronisations of a run", "why_tests_cant": "A test of sync needs servers that answer at the start of a run and not at its end, or the other way round; the project has no test of main, and the order of merging, recording keys and saving only shows in what is on disk afterwards.", "anchors": ["main.go:main", "sync.go:sync", "sync.go:saveHosts", "merging.go:mergeBlobs"]}
{"id": "C126", "title": "Accounts can be renamed with mv", "statement": "After mv user/old user/new the file is saved, whoever had the account old opens it as new with the same password, old opens nothing, everybody else is unaffected, and the run goes on as with any other entry; a name without the prefix takes the account away.", "quantifier": "all files with users, all names, all passwords, renaming oneself or somebody else, all commands afterwards", "why_tests_cant": "The help says that user entries are unremarkable and can be renamed; the name is also kept in the running program, and only commands given later in the same run meet the difference. No test of the project renames a user.", "anchors": ["commands.go:rename", "commands.go:passwd", "commands.go:rekey", "commands.go:deleteEntry", "uicontext.go:makeParams", "repl.go:usersHelp"]}
{"id": "C127", "title": "What is shown depends on what is in the file, not on who looks", "statement": "Every command that only reads shows the same, asks the same and ends in the same way for all users of a file, whatever keys their session has, and whether the file was opened for writing or as of an earlier time; in a session of an earlier time the lines for writing are left out, and only those.", "quantifier": "all stores, sessions, commands, arguments and sequences of lines", "why_tests_cant": "It compares two sessions that differ in everything but the entries; a test compares few, and the project has none of the prompt.", "anchors": ["repl.go:run", "repl.go:replCmds", "commands.go:list", "commands.go:get", "commands.go:show", "commands.go:login", "uihelpers.go:findOne"]}
{"id": "C128", "title": "The order in which maps are visited never shows", "statement": "Go visits the entries of a map in an order that differs from run to run. Whatever the orders are, a line typed at the prompt gives the same outcome, selects the same entry, changes the file in the same way and prints the same; so do sessions of any length, TAB, and the file that is written at the end.", "quantifier": "all files in order, sessions, lines, orders of visiting, and sequences of lines each with its own orders", "why_tests_cant": "The orders are chosen at random by the runtime and cannot be set by a test; a dependence shows now and then only, in maps with many entries.", "anchors": ["blobs.go:Search", "blobs.go:SearchLabels", "blobs.go:FindByName", "blobs.go:New", "blobs.go:Rename", "blobs.go:Users", "uihelpers.go:findOne", "uicontext.go:makeParams", "commands.go:rekeyAll"]}
{"id": "C129", "title": "Leaving and starting again in between changes nothing", "statement": "Somebody who leaves the program, opens the saved file again and goes on gets what they would have got had they stayed: every later command has the same outcome, selects the same entry, prints the same value and changes the file in the same way, so that at the end the log, the keys, the current entry and the values printed are the same.", "quantifier": "all files in order, single-user and with accounts, sessions, passwords, and sequences of lines of any length typed afterwards", "why_tests_cant": "What a run holds in memory and what it reads back are different objects (a snapshot grown step by step and one decoded from the file; keys drawn and keys unwrapped); tests run one command in a fresh process, or all in one, and do not compare the two for arbitrary continuations.", "anchors": ["main.go:main", "main.go:saveBlob", "main.go:loadBlob", "commands.go:rekey", "commands.go:passwd", "repl.go:run"]}
{"id": "C130", "title": "The help tells what the prompt does", "statement": "The commands described in the help and its topics are exactly the commands that are known, and the topics named are exactly those that exist. A line with fewer arguments than the help asks for does nothing at all; the query may be left out when there is a current entry. Arguments beyond those described do not matter.", "quantifier": "all words typed as a command or topic, all lines, numbers of arguments, sessions and current entries", "why_tests_cant": "The help is prose in one place, the commands are a table in another and each checks its own arguments; a test would have to read the help, and try every command with every number of arguments in every state.", "anchors": ["repl.go:replHelp", "repl.go:syncHelp", "repl.go:usersHelp", "repl.go:otherHelp", "repl.go:replCmds", "repl.go:getCopy", "repl.go:quickCopy"]}
{"id": "C131", "title": "A session may be cut into any number of runs", "statement": "However the lines somebody types are cut into runs, with the file saved and opened again in between, the file can be saved and opened every time, and in the end the log, the keys and the values printed are the same as if all had been typed in one run.", "quantifier": "all files in order, single-user and with accounts, all sequences of lines of any length, all ways to cut them, any number of runs", "why_tests_cant": "Tests of the project do not start the program twice on one file; that nothing drifts over any number of runs needs an induction over the runs.", "anchors": ["main.go:main", "main.go:saveBlob", "main.go:loadBlob", "repl.go:run", "crypt/crypto.go:Encrypt", "crypt/crypto.go:Decrypt"]}
{"id": "C132", "title": "The system fields of an account cannot be set by hand", "statement": "The salt, the iv and the encrypted master key of an account are changed by the commands for accounts only: whatever else is typed at the prompt, in whatever spelling, these fields stay as they are in all entries, and no other entry gets such a field.", "quantifier": "all lines but adduser, passwd, rekey, rekeyall, rm and sync, all entries, and sequences of lines of any length", "why_tests_cant": "The help promises it; the check is in one function of the library, while many commands write to entries, some of them past it. A test of the library function does not see the commands.", "anchors": ["repl.go:usersHelp", "blobformat/blobs.go:Set", "blobformat/blobs.go:DeleteKey", "blobformat/constants.go:protectedKeys", "commands.go:edit", "commands.go:deleteKey"]}
