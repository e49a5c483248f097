"""Wrong versions of the model, each like a bug somebody could have made in the Go code."""
MUTANTS = []

def m(file, d, old, new, breaks, claim, **kw):
    MUTANTS.append(dict(file=file, **{'def': d}, old=old, new=new, breaks=breaks.split(), claim=claim, **kw))

F = 'Txlogs/Model.lean'
m(F, 'DB.rollback', 'let s\' := if s.version > s.txPoint then s.resetSnapshot else s\n    if s.txPoint - 1', 'let s\' := s\n    if s.txPoint - 1', 'C01 C04', 'a rolled back transaction no longer shows in reads')
m(F, 'DB.rollback', 'log := s.log.take (s.txPoint - 1), txPoint := 0', 'log := s.log.take s.txPoint, txPoint := 0', 'C04', 'rollback restores the log')
m(F, 'DB.rollback', 'log := s.log.take (s.txPoint - 1), txPoint := 0', 'log := s.log.take (s.txPoint - 1)', 'C04', 'after a rollback the store is as before, outside a transaction')
m(F, 'DB.begin', 'txPoint := s.log.length + 1', 'txPoint := s.log.length', 'C04', 'a transaction begun on an empty store can be committed or rolled back')
m(F, 'DB.commit', 'if s.txPoint = 0 then none else some { s with txPoint := 0 }', 'if s.txPoint = 0 then none else some s', 'C04 C10', 'after a commit the store can be saved')
m(F, 'DB.rollbackN', 'if s.version > s.log.length - n then s.resetSnapshot else s', 's', 'C05', 'operations removed by RollbackN are gone from the reads too')
m(F, 'DB.rollbackN', 'if s.version > s.log.length - n then', 'if s.version > s.log.length - n + 1 then', 'C05', 'the reads follow the log after RollbackN')
m(F, 'DB.rollbackN', '({ s\' with log := s.log.take (s.log.length - n) }, none)', '({ s\' with log := s.log.drop n }, none)', 'C05', 'RollbackN removes the last operations, not the first')
m(F, 'DB.rollbackN', 'else if n > s.log.length then', 'else if n ≥ s.log.length then', 'C05', 'all operations can be rolled back')
m(F, 'updateLoop', 'updateLoop pending (v + 1) snap\'', 'updateLoop pending v snap\'', 'C01', 'operations are applied to the snapshot once')
m(F, 'updateLoop', '| .error e => (v, snap, some e)\n', '| .error _ => updateLoop pending (v + 1) snap\n', 'C09', 'an operation that cannot be applied is reported')
m(F, 'DB.updateSnapshot', 'updateLoop (s.log.drop s.version) s.version s.snapshot', 'updateLoop s.log s.version s.snapshot', 'C01', 'the snapshot is the replay of the log')
m(F, 'DB.updateSnapshot', 'if s.version ≥ s.log.length then (s, none)', 'if s.version + 1 ≥ s.log.length then (s, none)', 'C01', 'the last operation reaches the snapshot')
m(F, 'applyTx', '| some _ => .error (.alreadyExists tx.uuid)\n', '| some _ => .ok (dst.set tx.uuid [])\n', 'C09', 'adding an existing entry is an error')
m(F, 'applyTx', '    | none => .error (.notInSnapshot tx.uuid)\n    | some _ => .ok (dst.del tx.uuid)', '    | none => .ok dst\n    | some _ => .ok (dst.del tx.uuid)', 'C09', 'deleting a missing entry is an error')
m(F, 'applyTx', '.ok (dst.set tx.uuid (entry.set tx.key tx.value))', '.ok (dst.set tx.uuid [(tx.key, tx.value)])', 'C02', 'setting a key keeps the other keys')
m(F, 'applyTx', '.ok (dst.set tx.uuid (entry.set tx.key tx.value))', '.ok (dst.set tx.uuid (if (entry.get? tx.key).isSome then entry else entry.set tx.key tx.value))', 'C02', 'the last value written wins, not the first')
m(F, 'applyTx', '.ok (dst.set tx.uuid (entry.del tx.key))', '.ok (dst.del tx.uuid)', 'C02', 'deleting a key keeps the entry')
m(F, 'applyTx', '.ok (dst.set tx.uuid (entry.del tx.key))', '.ok (dst.set tx.uuid (entry.set tx.key []))', 'C02', 'a deleted key is absent, not empty')
m(F, 'applyTx', '    | some _ => .ok (dst.del tx.uuid)', '    | some _ => .ok []', 'C03', 'deleting an entry leaves the others alone')
m(F, 'DB.setKey', 'kind := .setk, uuid := uuid, key := key, value := value', 'kind := .setk, uuid := uuid, key := value, value := key', 'C02', 'Set records key and value in their places', tightened=['Txlogs.C02_writes'])
m(F, 'DB.delete', 'kind := .del, uuid := uuid', 'kind := .delk, uuid := uuid', 'C02 C62', 'Delete records the deletion of the entry', tightened=['Txlogs.C02_writes'])
m(F, 'DB.appendLog', 'log := s.log ++ [{ tx with time := now }]', 'log := { tx with time := now } :: s.log', 'C02', 'operations are appended at the end')
m(F, 'DB.appendLog', 'log := s.log ++ [{ tx with time := now }]', 'log := s.log ++ [tx]', 'C08', 'operations carry the time they were made', tightened=['Txlogs.C08_writes'])
m(F, 'DB.snapshotAt', 'let stopVersion : Int := s.log.length - 1 - versionsAgo', 'let stopVersion : Int := s.log.length - versionsAgo', 'C06', 'SnapshotAt(n) leaves out exactly the last n operations')
m(F, 'DB.snapshotAt', 'if versionsAgo > s.log.length then', 'if versionsAgo ≥ s.log.length then', 'C06', 'the state before the first operation can be read')
m(F, 'entryTxIndices', 'if tx.uuid ≠ uuid then', 'if tx.uuid = uuid then', 'C07', 'the operations of the entry itself are replayed')
m(F, 'DB.entrySnapshotAt', 'let stopVersion : Int := idx.length - 1 - versionsAgo', 'let stopVersion : Int := idx.length - 2 - versionsAgo', 'C07', 'EntrySnapshotAt(0) is the current entry')
m(F, 'DB.entrySnapshotAt', 'if versionsAgo ≥ s.log.length then .err', 'if versionsAgo > s.log.length then .err', 'C07', 'too many versions asked for is an error')
m(F, 'DB.entrySnapshotAt', 'if versionsAgo > idx.length then .err', 'if versionsAgo > s.log.length then .err', 'C07', 'more versions than the entry has is an error')
m(F, 'DB.nVersions', 'versions + 1 else versions) 0', 'versions + 1 else versions) 1', 'C08', 'NVersions counts the operations of the entry')
m(F, 'DB.nVersions', 'if l.uuid = uuid then versions + 1 else versions', 'if l.uuid = uuid ∧ l.kind = .setk then versions + 1 else versions', 'C08', 'NVersions counts all operations of the entry')
m(F, 'DB.lastUpdated', 's.log.reverse.find?', 's.log.find?', 'C08', 'LastUpdated is the last operation, not the first')
m(F, 'DB.lastUpdated', '| none => -1', '| none => 0', 'C08', 'LastUpdated is -1 exactly for unknown entries')
m(F, 'DB.save', 'if s.txPoint ≠ 0 then .error .saveInTransaction else .ok s', '.ok s', 'C10', 'saving inside a transaction is refused')
m(F, 'DB.save', 'if s.txPoint ≠ 0 then', 'if s.txPoint > 1 then', 'C10', 'saving inside a transaction is refused, also on an empty log')
m(F, 'doTx', 'if fails then s\'.rollback else s\'.commit', 's\'.commit', 'C04', 'Do undoes everything when the lambda fails')

F = 'Txlogs/Merge.lean'
m(F, 'checkConflict', 'if x.kind ≠ .del then some st\n      else if resolved', 'if True then some st\n      else if resolved', 'C18 C20', 'an edit after a deletion is reported as a conflict')
m(F, 'checkConflict', 'deleted := st.deleted.set x.uuid (st.c.length - 1)', 'deleted := st.deleted.set x.uuid st.c.length', 'C18 C21', 'the conflict names the deletion; no crash')
m(F, 'checkConflict', '          if r.resolution ≠ .discardConflict then none\n          else some { st with c := st.c.dropLast }', '          if r.resolution ≠ .discardConflict then none\n          else some st', 'C19', 'an edit that was to be discarded does not reach the merged log')
m(F, 'checkConflict', 'some { st with c := st.c.dropLast }\n      else some', 'some st\n      else some', 'C19', 'a deletion that was to be discarded does not reach the merged log')
m(F, 'checkConflict', 'decide (r.initial.time = x.time) &&\n          decide (r.resolution = .discardInitial)', 'decide (r.resolution = .discardInitial)', 'C19', 'only the deletion of the resolved conflict is discarded')
m(F, 'checkConflict', 'if st.conflicts.any (fun con => con.initial.time = deleteTx.time) then some st\n', 'if st.conflicts ≠ [] then some st\n', 'C18 C20', 'every conflicting entry is reported')
m(F, 'appendRest', '  | x :: rest, st =>\n    match checkConflict resolved (st.push x) with\n    | none => none\n    | some st\' => appendRest', '  | x :: rest, st =>\n    match some (st.push x) with\n    | none => none\n    | some st\' => appendRest', 'C18', 'conflicts in the tail of the longer log are reported')
m(F, 'rootForced', '| [] => false\n', '| [] => true\n', 'C20', 'unrelated histories are not merged silently')
m(F, 'mergeLoop', 'if x.time < y.time then', 'if x.time > y.time then', 'C13', 'the merged log is in order of time')
m(F, 'mergeLoop', 'deleted := deleted, c := st.c ++ [x] }', 'deleted := deleted, c := st.c ++ [x, y] }', 'C12 C14', 'an operation both logs have appears once')
m(F, 'mergeLoop', 'if x.kind = .del then st.deleted.set x.uuid i else st.deleted', 'st.deleted', 'C18 C17', 'a deletion both logs have still conflicts with a later edit')
m(F, 'mergeLoop', 'st.deleted.set x.uuid i else', 'st.deleted.set x.uuid j else', 'C18 C21', 'the deletion is found again where it was recorded')
m(F, 'mergeLoop', 'if i = 0 ∧ j = 0 ∧ rootForced', 'if i = 0 ∧ rootForced', 'C14 C18', 'a log merged with its own past is no root conflict')
m(F, 'mergeLoop', '| [], b => appendRest resolved b st', '| [], _ => some st', 'C12', 'the rest of the longer log is kept')
m(F, 'fastPath', 'some (decide (x.time = y.time) && decide (x\'.time = y\'.time))', 'some (decide (x.time = y.time))', 'C12', 'logs with the same beginning are not taken for equal')
m(F, 'fastPath', 'some (decide (x.time = y.time) && decide (x\'.time = y\'.time))', 'some (decide (x\'.time = y\'.time))', 'C12 C20', 'logs with the same end are not taken for equal')
m(F, 'merge', 'if resolved.any (fun r => r.resolution = .none) then .conflicts resolved\n  else', 'if False then .conflicts resolved\n  else', 'C21', 'unresolved conflicts are handed back')
m(F, 'merge', '| some true => .log a', '| some true => .log b', 'C14 C12', 'EQUIVALENT for equal logs; with look-alike logs the other one is returned')
m(F, 'merge', 'if st.conflicts = [] then .log st.c else .conflicts st.conflicts', '.log st.c', 'C18 C20', 'conflicts are reported')

F = 'Blob/Model.lean'
m(F, 'protectedKeys', '[keyTwoFactor, keyName, keyIV,', '[keyTwoFactor, keyIV,', 'C30 C32', 'Set cannot change the name')
m(F, 'protectedKeys', 'keySalt, keyMKey, keyUpdated]', 'keySalt, keyUpdated]', 'C32', 'Set cannot change the master key')
m(F, 'protectedKeys', 'keyMKey, keyUpdated]', 'keyMKey]', 'C32', 'Set cannot change the time stamp', tightened=['Blob.C32_set_refused'])
m(F, 'nameTaken', 'if n = nm then some true else nameTaken nm rest', 'nameTaken nm rest', 'C30', 'a name is used once')
m(F, 'nameTaken', 'if n = nm then some true else nameTaken nm rest', 'some (n = nm)', 'C30', 'all entries are compared, not only the first visited')
m(F, 'new', '(s.setKey (now 3) uuid keyName nm, .ok uuid)', '(s, .ok uuid)', 'C31 C38', 'a new entry has its name')
m(F, 'new', '      let s := touchUpdated s (fun i => now (i + 1)) uuid\n      (s.setKey', '      (s.setKey', 'C38', 'a new entry has a time stamp')
m(F, 'new', '| some true => (s, .err .nameNotUnique)\n    | some false =>\n      let s := s.add', '| some true => (s, .ok uuid)\n    | some false =>\n      let s := s.add', 'C38', 'an existing name is refused')
m(F, 'rename', '      | none => (s, .err .uuidNotFound)\n', '      | none => ((touchUpdated s now uuid).setKey (now 2) uuid keyName newName, .ok ())\n', 'C31', 'only an existing entry can be renamed')
m(F, 'rename', '| some true => (s, .err .nameNotUnique)\n    | some false =>\n      match s.snapshot', '| some true => ((touchUpdated s now uuid).setKey (now 2) uuid keyName newName, .ok ())\n    | some false =>\n      match s.snapshot', 'C30', 'renaming to an existing name is refused')
m(F, 'set', 'else ((touchUpdated s now uuid).setKey (now 2) uuid key value, .ok ())', 'else (s.setKey (now 2) uuid key value, .ok ())', 'C32', 'Set moves the time stamp')
m(F, 'set', 'if protectedKeys.any (fun p => equalFold key p) then (s, .err (.keyNotAllowed key))', 'if protectedKeys.contains key then (s, .err (.keyNotAllowed key))', 'C32', 'protected keys are compared without regard to case')
m(F, 'deleteKey', 'if key = keyName ∨ key = keyUpdated then', 'if key = keyUpdated then', 'C31 C32', 'the name cannot be deleted')
m(F, 'deleteKey', 'if key = keyName ∨ key = keyUpdated then', 'if key = keyName then', 'C32', 'the time stamp cannot be deleted')
m(F, 'deleteKey', '((touchUpdated s now uuid).deleteKey (now 2) uuid key, .ok ())', '(touchUpdated s now uuid, .ok ())', 'C32', 'the key is gone afterwards')
m(F, 'addLabel', 'join comma (split comma v ++ [label])', 'label', 'C36', 'the labels before are kept')
m(F, 'addLabel', 'join comma (split comma v ++ [label])', 'join comma (label :: split comma v)', 'C36', 'a label is added at the end')
m(F, 'removeLabel', 'if index ≥ ls.length then', 'if index > ls.length then', 'C36', 'an index out of range is refused')
m(F, 'removeLabel', 'let ls := copied.drop (copied.length - 1)', 'let ls := copied.drop copied.length', 'C36', 'the labels left are stored')
m(F, 'removeLabel', '(s.deleteKey (now 0) uuid keyLabels, .ok ())', '(s, .ok ())', 'C36', 'the only label can be removed')
m(F, 'findNameLoop', 'if n = nm then some (some (u, e)) else', 'if hasPrefix n nm then some (some (u, e)) else', 'C33 C46', 'a name is found exactly')
m(F, 'findUser', 'findByName ord s (userPrefix ++ user)', 'findByName ord s user', 'C51 C62', 'users are looked up under user/')
m(F, 'collect', '      | some n => collect keep rest (acc.set u n)', '      | some n => collect keep rest (acc.set n u)', 'C33', 'results are uuid to name')
m(F, 'collect', '    | some false => collect keep rest acc', '    | some false => some acc', 'C33', 'the search goes on after an entry that does not match')
m(F, 'searchKeep', 'if keyFrags.length < fragments.length then', 'if keyFrags.length ≤ fragments.length then', 'C33', 'a path of the same depth can match')
m(F, 'searchKeep', 'else fragsMatch lower fragments keyFrags', 'else fragsMatch lower fragments.reverse keyFrags', 'C33', 'parts are matched in order')
m(F, 'fragsMatch', '    | some true => fragsMatch lower fs ks', '    | some true => some true', 'C33', 'all parts of a path must match')
m(F, 'countInner', 'else if found + 1 = n then found + 1\n', 'else if found + 1 = n then found\n', 'C35', 'an entry with all labels is found')
m(F, 'countInner', 'else countInner n want hs (found + 1)', 'else countInner n want hs found', 'C35', 'an entry with several labels is found')
m(F, 'labelsKeep', 'some (countOuter ls.length (split comma v) ls 0 = ls.length)', 'some (countOuter ls.length (split comma v) ls 0 > 0)', 'C35', 'all labels are needed, not one')
m(F, 'isUserEntry', 'hasPrefix nm userPrefix', 'hasPrefix userPrefix nm', 'C51 C65', 'user entries are those under user/')
m(F, 'splitUsername', 'nm.drop (i + userPrefix.length)', 'nm.drop i', 'C62', 'the user name is what follows user/')
m(F, 'newSyncLoop', 'newSyncLoop ord now uuid fuel s\' (nm ++ b! "1")', 'newSyncLoop ord now uuid fuel s\' nm', 'C38', 'the next name is tried when one is taken')
m(F, 'newSync', 'fuel s (syncPrefix ++ kind)', 'fuel s kind', 'C38', 'sync entries are under sync/')
m(F, 'exactMatch', 'if n = q then u else exactMatch q rest', 'u', 'C39', 'of several matches only the exact one is chosen')
m(F, 'findOne', '    | [(id, _)] => (s, .ok id)\n', '', 'C39', 'a single match is chosen')
m(F, 'findOne', '    | es => (s, .ok (exactMatch q es))', '    | (id, _) :: _ => (s, .ok id)', 'C39', 'of several matches the first is not chosen at random')
m(F, 'mustFind', '  | (s, .ok none) => (s, .panic)', '  | (s, .ok none) => (s, .ok [])', 'C31', 'a missing entry is not taken for an empty one', tightened=['Blob.C31_must_find'])
m(F, 'labels', 'if v = [] then [] else split comma v', 'split comma v', 'C36', 'an entry without labels has none', tightened=['Blob.C36_labels'])
m(F, 'withSnapshot', '  | (s\', some e) => (s\', .err (.tx e))\n  | (s\', none) => k s\'', '  | (s\', _) => k s\'', 'C31', 'a log that cannot be replayed is reported')
m(F, 'renameLoop', 'renameLoop rest (fun i => now (i + 5)) names (renames.set nm nm\') s\n      else renameLoop rest now (nm :: names) renames s', 'renameLoop rest (fun i => now (i + 5)) names renames s\n      else renameLoop rest now (nm :: names) renames s', 'C37', 'the renames are reported')

F = 'Pkcs7/Model.lean'
m(F, 'pad', 'let padBytes := k.toNat - b.length % k.toNat', 'let padBytes := b.length % k.toNat', 'C40', 'padding fills the last block')
m(F, 'pad', 'List.replicate padBytes (UInt8.ofNat padBytes)', 'List.replicate padBytes 0', 'C40', 'padding can be removed again')
m(F, 'unpad', 'if (b.drop (b.length - n)).all (· == padByte) then', 'if True then', 'C41', 'every byte of the padding is checked')
m(F, 'unpad', 'if n > b.length then', 'if n ≥ b.length then', 'C40', 'a block of padding only can be removed')
m(F, 'unpad', '.ok (b.take (b.length - n))', '.ok (b.take (b.length - n - 1))', 'C40', 'only the padding is removed')
F = 'Fuzzy/Model.lean'
m(F, 'charMatch', 'searchChar = char || searchChar = lower char', 'searchChar = char', 'C34', 'capitals match small letters typed')
m(F, 'charMatch', 'searchChar = char || searchChar = lower char', 'lower searchChar = lower char', 'C34', 'a capital typed matches only a capital')
m(F, 'advance', 'some (if runeLen char + i ≤ s.length then some (s.drop (runeLen char + i)) else none)', 'some (some (s.drop i))', 'C34', 'a letter of the name is used once')
m(F, 'matchLoop', '| none => some false\n    | some none', '| none => matchLoop lower cs s\n    | some none', 'C34', 'every letter typed must occur')
m(F, 'fuzzyMatch', 'else matchLoop lower (runes search) s', 'else some false', 'C34 C33', 'a subsequence matches')
F = 'Scp/Model.lean'
m(F, 'readFile', 'let buf := rest.take (length.toNat + 1)\n                if buf.length < length.toNat + 1 then', 'let buf := rest.take (length.toNat + 1)\n                if buf.length < length.toNat then', 'C56', 'a file cut off is not accepted')
m(F, 'readFile', 'else if buf.getLast? ≠ some 0 then .err .noZero\n                else', 'else', 'C56', 'the final zero byte is checked')
m(F, 'readFile', 'contents := buf.dropLast }', 'contents := buf }', 'C55', 'what was sent is received')
m(F, 'readFile', 'if c = 1 ∨ c = 2 then .err (.remote c.toNat str)\n      else if c ≠ 67', 'if c = 2 then .err (.remote c.toNat str)\n      else if c ≠ 67', 'C56', 'an error reported by the other side is passed on', tightened=['Scp.C56_remote_error'])
m(F, 'sendFile', 'fmtOct mode', 'fmtNat mode', 'C55', 'the mode is sent in octal')
m(F, 'sendFile', 'fmtNat contents.length', 'fmtNat (contents.length + 1)', 'C55', 'the length is that of the contents')
m(F, 'sendFile', '++ contents ++ [0]', '++ contents', 'C55', 'the zero byte ends the file')
m(F, 'sendFile', 'base filename', 'filename', 'C55', 'only the last part of the path is sent')
F = 'Crypt/Model.lean'
m(F, 'layers', '(key.drop a.keySize) (iv.drop a.blockSize)', 'key (iv.drop a.blockSize)', 'C42', 'every cipher of the cascade has its own part of the key')
m(F, 'cbcD', 'xor iv (D c) :: cbcD D c cs', 'xor iv (D c) :: cbcD D iv cs', 'C42 C43', 'decryption chains the blocks')
m(F, 'cbcE', 'E (xor iv b) :: cbcE E (E (xor iv b)) bs', 'E (xor iv b) :: cbcE E iv bs', 'C42 C43', 'encryption chains the blocks')
m(F, 'decUnpad', '        match Pkcs7.unpad w with\n        | .ok w => .ok w\n        | _ => .err .wrongPassphrase', '        .ok w', 'C42', 'the padding is removed')
m(F, 'checkHash', 'if P.sha512 (header ++ work.drop sha512Size) = work.take sha512Size then', 'if True then', 'C44 C47', 'the hash is compared')
m(F, 'checkHash', 'P.sha512 (header ++ work.drop sha512Size)', 'P.sha512 (work.drop sha512Size)', 'C44', 'the hash covers the header')
m(F, 'magic', 'magicStr ++ fmt4 1 ++ fmt4 nUsers', 'magicStr ++ fmt4 nUsers ++ fmt4 1', 'C42 C50', 'version and number of users are in their places')
m(F, 'fmt4', 'List.replicate (4 - (fmtNat n).length) 48 ++ fmtNat n', 'fmtNat n', 'C42', 'numbers have four digits')
m(F, 'records', 'u ++ s ++ iv ++ k ++ records us ss ivs ks', 'u ++ iv ++ s ++ k ++ records us ss ivs ks', 'C43', 'the fields of a record are in the order in which they are read')
m(F, 'parseUsers', 'mkey := (f.drop (sha256Size + saltSize + blockSize)).take keySize }', 'mkey := (f.drop (sha256Size + saltSize + keySize)).take keySize }', 'C43', 'the wrapped key is found where it was written')
m(F, 'encryptMulti', '  | some ls =>\n    match encPad P ls (P.sha512 (header ++ pt) ++ pt) with', '  | some ls =>\n    match encPad P ls (P.sha512 pt ++ pt) with', 'C43 C44', 'the hash covers the header')
m(F, 'encryptSingle', 'let header := magic 0 ++ salt ++ iv', 'let header := magic 0 ++ iv ++ salt', 'C42', 'salt and iv are found where they were written')
m(F, 'findUserRec', 'if r.hash = h then some 0 else (findUserRec h rs).map (· + 1)', 'if r.hash = h then some 0 else findUserRec h rs', 'C43', 'the record of the user is used')
m(F, 'decryptMulti', 'keys := (List.replicate n.toNat []).set i key', 'keys := List.replicate n.toNat key', 'C43', 'only the own key is known after decryption')
m(F, 'decryptMulti', 'let headerLen := magicLen + userSize * n.toNat + blockSize', 'let headerLen := magicLen + userSize * n.toNat', 'C43', 'the hash is computed over the same header')
m(F, 'decryptSingle', 'let derive : Bool := key.isNone || salt != newSalt', 'let derive : Bool := key.isNone', 'C48', 'a cached key is used only for its salt')
m(F, 'decryptSingle', 'let derive : Bool := key.isNone || salt != newSalt', 'let derive : Bool := true', 'C48', 'a cached key saves the derivation')
m(F, 'decryptMulti', 'let derive : Bool := (key.getD []).length == 0 || salt != me.salt', 'let derive : Bool := (key.getD []).length == 0', 'C48', 'a cached key is used only for its salt')
m(F, 'decryptSingle', '    if derive && pass.length == 0 then .err .wrongPassphrase\n    else\n      let key', '    if False then .err .wrongPassphrase\n    else\n      let key', 'C48', 'an empty passphrase is refused')
m(F, 'decrypt', 'if n ≠ 0 ∧ user.length = 0 then .err .needUser', 'if n = 0 ∧ user.length = 0 then .err .needUser', 'C42', 'single-user files need no user')
m(F, 'decrypt', 'if v ≠ 1 then .err .unknownVersion\n      else\n        match', 'if v ≠ 1 ∧ v ≠ 2 then .err .unknownVersion\n      else\n        match', 'C45', 'unknown versions are refused')
m(F, 'isMultiUser', '.ok (i != 0)', '.ok (i > 1)', 'C50', 'a file with one user record is a multi-user file')
m(F, 'Params.validate', '  else if (p.ivs.length : Int) ≠ p.nUsers then false\n', '', 'C43 C49', 'parameters with missing ivs are refused')
m(F, 'Params.validate', '  else if p.user < 0 ∨ p.user ≥ p.nUsers then false\n', '', 'C49', 'EQUIVALENT for the file: Encrypt does not use the user number')
m(F, 'Params.validate', '  else if p.salts.any (fun s => s.length != saltSize) then false\n', '', 'C43 C49', 'salts of a wrong size are refused')
m(F, 'encryptMasterKey', 'else if userKey.length ≠ keySize then .err .userKeySize\n  else', 'else', 'C43', 'a short user key is refused')
m(F, 'encryptMasterKey', '| some c => .ok (c, iv)', '| some c => .ok (c, userKey)', 'C43 C51', 'the iv returned is the one used')
m(F, 'decryptSingle', 'let iv := (f.drop (magicLen + saltSize)).take blockSize', 'let iv := (f.drop magicLen).take blockSize', 'C42', 'the iv is read from its place')

F = 'App/PassGen.lean'
m(F, 'Classes.needLen', 'fun i => if i > 0 then i else 0', 'fun i => i', 'C54', 'classes that are off take no room')
m(F, 'Classes.pairs', 'c.all.filter (fun p => p.2 ≥ 0)', 'c.all.filter (fun p => p.2 > 0)', 'C54', 'optional classes are used')
m(F, 'Classes.pairs', 'c.all.filter (fun p => p.2 ≥ 0)', 'c.all', 'C54', 'classes that are off are not used')
m(F, 'required', '(required ent rest (e + num.toNat))', '(required ent rest e)', 'C54', 'fresh random bytes for every class')
m(F, 'genPassword', 'if c.needLen > length then .err .impossible', 'if c.needLen ≥ length then .err .impossible', 'C54', 'a password of exactly the needed length is possible')
m(F, 'genPassword', 'let n := (length - c.needLen).toNat', 'let n := length.toNat', 'C54', 'the password has the length asked for')
m(F, 'swap', 'some ((l.set i b).set j a)', 'some ((l.set i b).set j b)', 'C54', 'shuffling keeps the required characters')
m(F, 'alphabetNumbers', 'b! "0123456789"', 'b! "O123456789"', 'C54', 'numbers are digits')
F = 'App/Input.lean'
m(F, 'getYesNo', 'if s ∈ [b! "yes", b! "y", b! "YES", b! "Y"] then (some true, rest)', 'if s ∈ [b! "yes", b! "y", b! "YES", b! "Y", []] then (some true, rest)', 'C78', 'an empty line is no consent', tightened=['App.C78_yesno', 'App.C78_consent'])
m(F, 'choose', 'if initial ≠ verify then .again true st rest\' else .ret initial', '.ret initial', 'C63', 'both hidden entries must agree')
m(F, 'choose', 'else if choice = b! "y" then .ret st.password', 'else if choice = b! "y" then .ret (b! "y")', 'C63', 'y accepts the password shown')
m(F, 'setSetting', '| [_] => if n ≥ 0 then -1 else 0', '| [_] => 0', 'C63', 'a class can be switched off', tightened=['App.C63_adjust', 'App.C63_settings_partial'])
m(F, 'choose', '| some n => .again true { st with length := n } rest', '| some n => .again false { st with length := n } rest', 'C63', 'a new password is made for a new length')
m(F, 'promptMultiline', 'let lines := if oneBlank then lines ++ [[]] else lines', 'let lines := lines', 'C71', 'single blank lines inside a text are kept')
m(F, 'promptMultiline', 'promptMultiline ctrlC rest (lines ++ [line]) false', 'promptMultiline ctrlC rest (line :: lines) false', 'C71', 'lines are kept in order')
F = 'App/Hosts.lean'
m(F, 'checkKnown', 'if h ≠ keyHash sha k then .err .keyChanged else .ok true', '.ok true', 'C28', 'a changed host key is refused')
m(F, 'checkKnown', 'if t ≠ k.keyType then .err .typeChanged\n        else', 'if False then .err .typeChanged\n        else', 'C28', 'a changed key type is refused')
m(F, 'checkKnown', 'if vals.head? ≠ some k.hostname then checkKnown sha k lines', 'if vals.head? ≠ some k.hostname then .ok false', 'C28', 'all known lines are looked at')
m(F, 'callback', 'if line = b! "y" ∨ line = b! "Y" then', 'if line ≠ b! "n" then', 'C28', 'an unknown host is accepted only on y')
m(F, 'callback', '| .err e => (.err e, inp)\n  | .ok true', '| .err _ => (.ok none, inp)\n  | .ok true', 'C28', 'a changed key ends the connection')
m(F, 'appendHost', 'if hosts = [] then hostentry else join newline (split newline hosts ++ [hostentry])', 'hostentry', 'C28 C29', 'hosts known before stay known')
m(F, 'saveHostsLoop', 's.setKey (now 0) uuid keyKnownHosts (appendHost hosts hostentry)', 's.setKey (now 0) uuid keyPub (appendHost hosts hostentry)', 'C29', 'accepted hosts are stored as known hosts')
F = 'App/Merging.lean'
m(F, 'askRestore', 'askRestore c.discardInitial rest\n    else if', '(some c.discardInitial, rest)\n    else if', 'C22', 'CORRECTED program: the prompt ends; the refutation must fail', model=False)
m(F, 'resolveAll', '| (some false, rest) => (.err .totalFork, rest)', '| (some false, rest) => (.ok c.force, rest)', 'C22 C23', 'a fork is merged only with consent', model=False)
m(F, 'mergeLogs', 'if rem = [] then (.ok loc, inp) else', 'if rem = [] then (.ok [], inp) else', 'C23 C24', 'an empty remote does not erase the log')
m(F, 'takeRemote', 'if l.time < r\'.time then (.ok true, inp)', 'if l.time > r\'.time then (.ok true, inp)', 'C25', 'the newer password wins')
m(F, 'takeRemote', 'if u.key = r.creds.key then (.ok false, inp)\n    else', 'if False then (.ok false, inp)\n    else', 'C25', 'equal keys need no choice')
m(F, 'takeRemote', 'if us = [] ∧ u.master ≠ [] then (.ok true, inp)', 'if us = [] ∧ u.master ≠ [] then (.ok false, inp)', 'C64', 'without users the file is single-user')
m(F, 'takeRemote', 'else if us ≠ [] ∧ u.master = [] then (.ok true, inp)', 'else if us ≠ [] ∧ u.master = [] then (.ok false, inp)', 'C64', 'with users the file is multi-user')
m(F, 'takeRemote', '(.ok (val lu keyMKey ≠ val mu keyMKey), inp)', '(.ok (val lu keyMKey = val mu keyMKey), inp)', 'C25', 'the master key the merged record wraps is kept', tightened=['App.C25_multi_partial'])
m(F, 'mergeRemotes', 'creds := if take then r.creds else m.creds', 'creds := if take then m.creds else r.creds', 'C25 C64', 'the chosen credentials are used')
F = 'App/Session.lean'
m(F, 'paramLoop', 'user := if c.user = user then p.nUsers else p.user', 'user := p.user', 'C51', 'EQUIVALENT for the file: Encrypt does not use the user number; validate only checks its range')
m(F, 'paramLoop', 'users := p.users ++ [P.sha256 user]', 'users := p.users ++ [user]', 'C51', 'users find their record by the hash of their name')
m(F, 'paramLoop', 'salts := p.salts ++ [salt]', 'salts := salt :: p.salts', 'C51', 'salts belong to their users')
m(F, 'paramLoop', 'user := splitUsername nm', 'user := nm', 'C51', 'the user is named without the prefix')
m(F, 'makeParams', 'if c.master = [] then (s, .ok { keys := [c.key], salts := [c.salt] })', 'if c.master = [] then (s, .ok { keys := [c.key], salts := [c.key] })', 'C51', 'the salt stored is the one of the key')
m(F, 'sealFile', 'match encrypt P 1 p iv (C.marshal s) with', 'match encrypt P 1 p iv (C.marshal s.resetSnapshot) with', 'C51', 'NOT WRONG unless the snapshot matters: reading replays the log')
m(F, 'saveBlob', 'if u.readOnly then .ok none\n  else', 'if False then .ok none\n  else', 'C57', 'a read-only session writes nothing')
m(F, 'cutLog', 'if tx.time > t then [] else', 'if tx.time ≥ t then [] else', 'C57', 'operations at the time asked for belong to the history shown')
m(F, 'cutLog', 'if tx.time > t then [] else', 'if tx.time < t then [] else', 'C57', 'history shows the operations up to the time')
m(F, 'openStore', '| (s, none) => .ok { creds := c, store := s, readOnly := true,', '| (s, none) => .ok { creds := c, store := s, readOnly := false,', 'C57', 'history is read-only')
m(F, 'openStore', '{ s.resetSnapshot with log := cutLog t s.log }', '{ s with log := cutLog t s.log }', 'C57', 'history does not show the current snapshot')
m(F, 'createFile', 'if pwd ≠ verify then (.err .noMatch, inp)\n        else', 'if False then (.err .noMatch, inp)\n        else', 'C51', 'the password of a new file is typed twice', tightened=['App.C51_create'])
m(F, 'createFile', 'if pwd = [] then (.err .emptyPassword, inp)\n    else', 'if False then (.err .emptyPassword, inp)\n    else', 'C51', 'a new file has a password that can open it', tightened=['App.C51_create'])
m(F, 'openFile', 'master := p.master.getD [], ivm := p.ivm.getD [] }\n            match', 'master := [], ivm := [] }\n            match', 'C51', 'a multi-user file stays one')

F = 'App/Accounts.lean'
m(F, 'mustFindUser', '| (s, .ok none) => (s, .panic)', '| (s, .ok none) => (s, .ok ([], []))', 'C51 C53', 'EQUIVALENT in reachable stores unless the user is unknown')
m(F, 'setRecord', 'keySalt (hexEncode salt)', 'keySalt (hexEncode iv)', 'C51', 'the stored salt is the one of the key')
m(F, 'setRecord', '(now 2) uuid\n    keyMKey (hexEncode mkey)', '(now 2) uuid\n    keyPub (hexEncode mkey)', 'C51', 'the wrapped key is stored')
m(F, 'storeUser', '    match encryptMasterKey P 1 key u.creds.master d.iv with', '    match encryptMasterKey P 1 u.creds.key u.creds.master d.iv with', 'C51', 'the master key is wrapped with the new key')
m(F, 'passwd', '{ u with creds := { u.creds with pass := pass, key := key, salt := salt } } else u\n        if u.creds.master = [] then (u, .ok ())\n        else storeUser P ord d u u.creds.user key salt', '{ u with creds := { u.creds with pass := pass, key := key } } else u\n        if u.creds.master = [] then (u, .ok ())\n        else storeUser P ord d u u.creds.user key salt', 'C51', 'the new salt is saved with the new key')
m(F, 'passwd', 'if u.creds.user = [] ∨ u.creds.user = user then', 'if u.creds.user = user then', 'C51', 'the password of a single-user file can be changed')
m(F, 'passwd', 'else storeUser P ord d u u.creds.user key salt\n\n', 'else storeUser P ord d u user key salt\n\n', 'C53', 'CORRECTED program for a named user: C53_false must fail')
m(F, 'finishUser', 'setRecord (fun i => d.now (i + 4)) u.store uuid salt iv mkey', 'u.store', 'C51', 'a new user gets a record')
m(F, 'adduser', 'u.creds with master := d.master, ivm := d.ivm, user := user }', 'u.creds with master := d.master, ivm := d.ivm }', 'C51', 'the first user is the current one')
m(F, 'adduser', 'finishUser P d u uuid u.creds.key u.creds.salt', 'finishUser P d u uuid u.creds.key d.salt', 'C51', 'the first user keeps the password of the file')
m(F, 'adduser', '| (s, .err .nameNotUnique) => ({ u with store := s }, .ok ())\n  | (s, .err e) => ({ u with store := s }, .err (.blob e))\n  | (s, .ok uuid) =>\n    let u := { u with store := s }\n    if u.creds.master = [] then', '| (s, .err .nameNotUnique) => ({ u with store := s, creds := { u.creds with master := d.master } }, .ok ())\n  | (s, .err e) => ({ u with store := s }, .err (.blob e))\n  | (s, .ok uuid) =>\n    let u := { u with store := s }\n    if u.creds.master = [] then', 'C51', 'a refused adduser changes nothing', tightened=['App.C51_taken'])
m(F, 'rekey', 'else storeUser P ord d u (if user = [] then u.creds.user else user) key salt', 'else storeUser P ord d u u.creds.user key salt', 'C51 C53', 'rekey of another user stores the record there')
m(F, 'rekey', 'let pass : Res Unit Str := if user = [] then .ok u.creds.pass else', 'let pass : Res Unit Str := if user = [] then .ok u.creds.key else', 'C51', 'rekey keeps the password')
m(F, 'rekeyLoop', 'let u := if username = u.creds.user then\n          { u with creds := { u.creds with pass := pass, key := key, salt := salt } } else u\n        match encryptMasterKey P 1 key u.creds.master (ds 0).iv', 'let u := u\n        match encryptMasterKey P 1 key u.creds.master (ds 0).iv', 'C52', 'rekeyall changes the current key too')
m(F, 'rekeyLoop', '(out ++ [(username, pass)])', '(out ++ [(username, salt)])', 'C52', 'the password printed is the one set')
m(F, 'rekeyAll', '| (some false, _) => (u, .ok [])', '| (some false, _) => ({ u with creds := { u.creds with master := d.master } }, .ok [])', 'C52', 'a refused rekeyall changes nothing')
m(F, 'rekeyAll', 'u.creds with master := d.master, ivm := d.ivm } }, .ok out)', 'u.creds with ivm := d.ivm } }, .ok out)', 'C52', 'CORRECTED in part: records and file use the same key; C52_false must fail')
m(F, 'deleteEntry', 'if us.length > 1 then ({ u with store := s }, .ok ()) else confirm', 'confirm', 'C62', 'the current user is deleted only as the last one')
m(F, 'deleteEntry', 'let u := if deleteSelf then { u with creds := { u.creds with master := [], ivm := [] } } else u', 'let u := u', 'C62', 'without users the session is single-user')
m(F, 'deleteEntry', 'if ((prompt inp).1.getD []) ≠ nm then (u, .ok ())\n        else', 'if False then (u, .ok ())\n        else', 'C62', 'a deletion is confirmed by typing the name')
F = 'App/Sync.lean'
m(F, 'isSync', 'val e keySync = b! "true" && ', '', 'C65', 'only entries marked for sync are used')
m(F, 'isSync', '|| w.scheme (val e keyURL) = some syncFile)', ')', 'C65 C27', 'file remotes are synced')
m(F, 'pullBlob', 'if sc = syncSCP then w.sshPull uuid e inp', 'if sc ≠ syncFile then w.sshPull uuid e inp', 'C65', 'DIFFERENT only for urls of other schemes')
m(F, 'tryDecrypt', 'decrypt P user pass (orNil c.key) c.salt ct', 'decrypt P user pass (orNil c.key) [] ct', 'C26', 'MAY BE EQUIVALENT for the result: the key is derived again')
m(F, 'decryptBlob', '| .askPass => if line = [] then (.ok none, rest) else decryptBlob P c ct user line rest', '| .askPass => decryptBlob P c ct user line rest', 'C26', 'an empty line gives up; only prompts differ')
m(F, 'noChanges', 'if log.length ≠ loc.length then some false\n', 'if log.length ≠ loc.length then some true\n', 'C27', 'remotes with a different log are merged and pushed')
m(F, 'pullOne', '| (some (.notFound, h), inp) => (some (.absent, h), inp)', '| (some (.notFound, h), inp) => (some (.skip, h), inp)', 'C27', 'a new remote gets the file')
m(F, 'pullOne', '| (some (.failed, h), inp) => (some (.skip, h), inp)', '| (some (.failed, h), inp) => (some (.absent, h), inp)', 'C26', 'a remote that could not be read is not overwritten')
m(F, 'pullOne', '    | (.ok none, inp) => (some (.skip, h), inp)\n', '    | (.ok none, inp) => (some (.absent, h), inp)\n', 'C26', 'a remote that could not be decrypted is not overwritten')
m(F, 'pullOne', '        | .err _ => (some (.skip, h), inp)\n        | .ok log', '        | .err _ => (some (.absent, h), inp)\n        | .ok log', 'C26', 'a remote that is not understood is not overwritten')
m(F, 'targets', '  | (_, .skip, _) :: l => targets l\n', '', 'C26', 'skipped remotes are not pushed to')
m(F, 'remotes', '| (_, .merge r, _) :: l => r :: remotes l', '| (_, .merge r, _) :: _ => [r]', 'C80', 'all remotes are merged', tightened=['App.C80_sync_partial'])
m(F, 'newHosts', 'newHosts l (if h = [] then m else m.set uuid h)', 'newHosts l m', 'C29', 'accepted hosts are remembered', tightened=['App.C29_hosts'])
m(F, 'pushAll', '((uuid, ok) :: done, crash, m, inp)', '(done, crash, m, inp)', 'C27', 'the pushes are recorded')
m(F, 'syncWith', '{ u.store.resetSnapshot with log := m.log }', '{ u.store with log := m.log }', 'C23 C27', 'reads follow the merged log')
m(F, 'syncWith', '| (.err _, inp) => { session := u, result := .ok (), rest := inp }', '| (.err _, inp) => { session := { u with store := {} }, result := .ok (), rest := inp }', 'C23', 'a failed merge leaves the session alone')
m(F, 'syncWith', '(newHosts l []) (targets l) { u with creds := m.creds, store := s } inp', '(newHosts l []) (targets l) { u with store := s } inp', 'C25 C27', 'the merged credentials are used')
m(F, 'pushBack', 'match sealFile P C v.ord v.ord\' v.iv u.creds s with', 'match sealFile P C v.ord v.ord\' v.iv u.creds u.store with', 'C27', 'what is pushed contains the accepted hosts')
m(F, 'pushBack', 'if push = false then', 'if push = true then', 'C27', 'sync pushes')
F = 'App/Commands.lean'
m(F, 'doCmd', '    match u.store.rollback with\n    | some s => ({ u with store := s }, .err e)', '    match u.store.commit with\n    | some s => ({ u with store := s }, .err e)', 'C68', 'an aborted command leaves no traces')
m(F, 'interruptible', '| .err .aborted => if v.ctrlC then .err .aborted else .ok ()', '| .err _ => .ok ()', 'C68', 'only the end of input is taken for giving up')
m(F, 'addNew', 'let s := setNonEmpty s (v.d.now 6) uuid keyPass pass', 'let s := setNonEmpty s (v.d.now 6) uuid keyPass user', 'C70', 'a new entry holds the password chosen')
m(F, 'renameCmd', 'match lift u (findByName v.ord u.store src) with', 'match lift u (findByName v.ord u.store dst) with', 'C69', 'mv renames the entry named first')
m(F, 'deleteKeyCmd', 'if (e.get? key).isSome then lift_', 'if (e.get? key).isNone then lift_', 'C79', 'rmk removes a key that is there', tightened=['App.C79_rmk'])
m(F, 'getCmd', '| some value => (u, .ok (some value))', '| some value => (u, .ok (some (value ++ b! " ")))', 'C70', 'get yields the stored value')
m(F, 'getCmd', '      match e.get? key with\n      | none => if name e', '      match e.get? keyPass with\n      | none => if name e', 'C70', 'get yields the value of the key asked for')
m(F, 'setCmd', '| (some text, _) => lift_ u (Blob.set v.d.now u.store uuid key text)\n    else lift_ u (Blob.set v.d.now u.store uuid key value)', '| (some text, _) => lift_ u (Blob.set v.d.now u.store uuid key text)\n    else lift_ u (Blob.set v.d.now u.store uuid key (trimSpace value))', 'C61', 'the value typed is stored')
m(F, 'setCmd', 'if v.urlOk value then lift_', 'if True then lift_', 'C79', 'a bad url is refused', tightened=['App.C79_set_refused'])
m(F, 'edit', 'if value = [] then lift_ u (Blob.deleteKey', 'if value ≠ [] then lift_ u (Blob.deleteKey', 'C79', 'edit stores the new text', tightened=['App.C79_edit'])
m(F, 'validateLabel', '&& !ls.contains l', '', 'C79', 'no label twice', tightened=['App.C79_label'])
m(F, 'labelLoop', 'labelLoop v rest (ls ++ [line]) true', 'labelLoop v rest [line] true', 'C79', 'labels before are kept', tightened=['App.C79_label'])
m(F, 'one', 'if uuid = [] then (u, .ok dflt) else k u uuid', 'k u uuid', 'C61 C69', 'nothing selected means nothing done')
F = 'App/Repl.lean'
m(F, 'readOnlyFlag', 'b! "edit", b! "label", b! "rmlabel", b! "sync", b! "addsync"] then some false', 'b! "label", b! "rmlabel", b! "sync", b! "addsync"] then some false\n  else if cmd = b! "edit" then some true', 'C57', 'MAY SURVIVE: execRead does not know edit')
m(F, 'runLine', 'if r.u.readOnly then (r, .ok false) else execWrite', 'if False then (r, .ok false) else execWrite', 'C57', 'writing commands are refused in a read-only session')
m(F, 'parseLine', 'some (cmd, (split 32 line).drop 1)', 'some (cmd, args)', 'C61', 'spaces in the value are kept')
m(F, 'setArgs', 'some (q, k, join 32 rest)', 'some (q, k, rest.headD [])', 'C61', 'the whole rest of the line is the value')
m(F, 'queryArgs', '| k :: rest => some (ctx, k, rest)', '| k :: rest => some (k, ctx, rest)', 'C61', 'with a current entry the first word is the key')
m(F, 'runRepl', '| (r, .ok true) => (r, .ok ())', '| (r, .ok true) => (r, .err .aborted)', 'C58', 'exit saves')
m(F, 'autoSync', 'if r.u.readOnly = false ∧ auto = true then', 'if auto = true then', 'C57', 'a read-only session does not sync')
m(F, 'execWrite', '| (r, .ok b) => (if r.ctx = nm then { r with ctx := [] } else r, .ok b)', '| (r, .ok b) => (r, .ok b)', 'C69', 'a deleted entry is no longer the current one')
F = 'App/File.lean'
m(F, 'writeFile', 'old :: (List.range (data.length + 1)).map fun k => some (data.take k)', '[old, some data]', 'C58', 'CORRECTED program: an atomic write; C58_always_false must fail')
m(F, 'main', '| (_, .err e) => ([old], .err e)\n    | (_, .panic) => ([old], .panic)\n    | (u, .ok ())', '| (u, .err _) => (saveTrace P C v\'.ord v\'.ord\' iv u old, .ok ())\n    | (_, .panic) => ([old], .panic)\n    | (u, .ok ())', 'C58', 'a failed run does not touch the file')
m(F, 'exitStatus', 'let err := if closeFails then true else (fun _ => false) err', 'let err := if closeFails then true else err', 'C73', 'CORRECTED program: C73_false must fail')
F = 'App/Transfer.lean'
m(F, 'exportEntries', 'sortStr (s.snapshot.map Prod.fst)', '(sortStr (s.snapshot.map Prod.fst)).drop 1', 'C59', 'all entries are exported')
m(F, 'exportKeys', 'sortStr (dedup (s.snapshot.flatMap', 'sortStr (dedup ((s.snapshot.take 1).flatMap', 'C59', 'all keys are columns')
m(F, 'exportRecords', 'exportKeys s :: ', '', 'C59', 'the first record holds the keys')
m(F, 'importRecord', 'let s := setSome s (d.now 5) uuid keyPass pass', 'let s := setSome s (d.now 5) uuid keyPass user', 'C60', 'the password is imported')
m(F, 'importRecord', '(underscores (toLower nm))', '(toLower nm)', 'C60', 'names have no spaces')
m(F, 'importLabels', 'if fav = b! "1" then', 'if fav = b! "0" then', 'C60', 'favourites are labelled')
m(F, 'importRecords', '    | (s, .ok ()) => importRecords toLower ord (fun i => ds (i + 1)) s rest', '    | (s, .ok ()) => (s, .ok ())', 'C60', 'all records are imported')
m(F, 'headerOk', 'join comma r = lastpassHeader', 'True', 'C60', 'a file of another kind is refused', tightened=['App.C60_header'])
m(F, 'importLastpass', 'if line = b! "y" ∨ line = b! "Y" then go else', 'if line ≠ b! "n" then go else', 'C60', 'importing into an existing file needs consent', tightened=['App.C60_consent'])
F = 'Csv/Model.lean'
m(F, 'needsQuotes', 'f.contains comma || f.contains quote || f.contains cr || f.contains lf', 'f.contains quote || f.contains cr || f.contains lf', 'C72', 'fields with commas are quoted')
m(F, 'needsQuotes', '|| f.contains cr || f.contains lf then', '|| f.contains cr then', 'C72', 'fields with line breaks are quoted')
m(F, 'escape', 'if b = quote then [quote, quote] else [b]', '[b]', 'C72', 'quotes are doubled')
m(F, 'parse', 'if c = quote then parse .quoted (cur ++ [quote]) rec s', 'if c = quote then parse .quoted cur rec s', 'C72', 'doubled quotes are read as one')
m(F, 'writeFields', 'writeField f ++ comma :: writeFields rest', 'f ++ comma :: writeFields rest', 'C72', 'every field is quoted when needed')
m(F, 'sameWidth', '(r :: ·) id) else ([], false)', '(r :: ·) id) else ([r], false)', 'C60 C72', 'a record with a wrong number of fields is not delivered')
F = 'Json/Model.lean'
m(F, 'escAscii', 'if b = 34 ∨ b = 92 then [92, b]', 'if b = 34 then [92, b]', 'C11', 'a backslash survives')
m(F, 'escAscii', 'if b = 34 ∨ b = 92 then [92, b]', 'if b = 92 then [92, b]', 'C11', 'a quote survives')
m(F, 'escAscii', 'else if b = 10 then [92, 110]', 'else if b = 10 then [92, 114]', 'C11', 'a line break survives')
m(F, 'marshalTx', 'strField (b! "key") t.key ++ strField (b! "value") t.value', 'strField (b! "value") t.key ++ strField (b! "key") t.value', 'C11', 'key and value are not confused')
m(F, 'marshalTx', '(if t.time = 0 then [] else', '(if t.time ≤ 0 then [] else', 'C11', 'times before 1970 survive')
m(F, 'marshal', '++ (if s.log = [] then [] else [member', '++ (if s.log.length ≤ 1 then [] else [member', 'C11', 'the log is written')
m(F, 'marshal', '(if s.version = 0 then [] else [member (b! "version") (fmtNat s.version)])', '[]', 'C11', 'the version is written with the snapshot')
m(F, 'kindStr', '| .setk => b! "setk"', '| .setk => b! "set"', 'C11', 'kinds are read back', tightened=['Json.C11_kinds'])
m(F, 'save', 'if s.txPoint ≠ 0 then .err .saveInTransaction else', '', 'C11', 'a store in a transaction is not saved')

# second round: commands, sessions, prompts, and definitions not touched before
F = 'App/Commands.lean'
m(F, 'lift', '| (s, .ok a) => ({ u with store := s }, .ok a)', '| (_, .ok a) => (u, .ok a)', 'C79', 'rmlabel changes the entry')
m(F, 'lift_', '| (s, _) => ({ u with store := s }, .ok ())', '| (_, _) => (u, .ok ())', 'C79', 'set changes the entry')
m(F, 'one', '| (u, .ok uuid) => if uuid = [] then (u, .ok dflt) else k u uuid', '| (u, .ok uuid) => k u uuid', 'C66', 'a query that selects nothing does not crash the program')
m(F, 'askPort', 'if port = [] then (some (b! "22"), rest)', 'if port = [] then (some (b! "21"), rest)', 'C82', 'the port is 22 unless one is typed')
m(F, 'askPort', 'if (atoi port).isSome then (some port, rest) else askPort rest', '(some port, rest)', 'C82', 'the port is a number')
m(F, 'addSCPEntry', 'if choice = 2 then', 'if choice = 1 then', 'C82', 'a password is asked for exactly if that was chosen')
m(F, 'addSCPEntry', '| .ok pass => (u, .ok (v.scpUrl user host port path (some pass)))', '| .ok _ => (u, .ok (v.scpUrl user host port path none))', 'C82', 'the password typed is used')
m(F, 'addSCPEntry', 'u.store uuid keyPriv priv).1', 'u.store uuid keyPriv pub).1', 'C82', 'the private key is stored')
m(F, 'addSync', 'uuid keySync (b! "true")).setKey (v.d.now 11) uuid keyURL uri', 'uuid keySync (b! "false")).setKey (v.d.now 11) uuid keyURL uri', 'C82', 'the entry is one that sync uses')
m(F, 'addSync', 'if kind ≠ syncSCP ∧ kind ≠ syncFile then (u, .ok ())\n  else\n    doCmd u fun u =>', 'if kind ≠ syncSCP ∧ kind ≠ syncFile then (u, .ok ())\n  else\n    (fun f => f u) fun u =>', 'C68', 'an interrupted addsync leaves nothing behind')
m(F, 'setNonEmpty', 'if value = [] then s else s.setKey now uuid key value', 's.setKey now uuid key value', 'C68', 'add records what was typed and nothing else')
m(F, 'addNew', 'let s := setNonEmpty s (v.d.now 4) uuid keyUser user\n            let s := setNonEmpty s (v.d.now 5) uuid keyEmail email', 'let s := setNonEmpty s (v.d.now 4) uuid keyUser email\n            let s := setNonEmpty s (v.d.now 5) uuid keyEmail user', 'C68', 'user name and address are not mixed up')
m(F, 'list', 'lift u (search v.lower v.ord u.store q)', 'lift u (search v.lower v.ord u.store [])', 'C81', 'ls lists the matches only')
m(F, 'listByLabels', 'lift u (searchLabels v.ord u.store ls)', 'lift u (searchLabels v.ord u.store (ls.take 1))', 'C81', 'labels lists the entries with all the labels')
m(F, 'loginValues', '[keyUser, keyEmail, keyPass].filterMap', '[keyUser, keyPass].filterMap', 'C81', 'login copies the address too')
m(F, 'loginLoop', '| (some _, inp) => loginLoop (y :: rest) inp (out ++ [x])', '| (some _, inp) => loginLoop rest inp (out ++ [x])', 'C81', 'login copies every value')
m(F, 'login', '| none => (u, .err .json)\n      | some l =>', '| none => (u, .ok [])\n      | some l =>', 'C81', 'a bad one-time password secret is reported')
m(F, 'addLabels', 'uuid keyLabels (join comma ls))', 'uuid keyLabels (join slash ls))', 'C79', 'labels are separated by commas')
m(F, 'deleteLabel', '(labels e).findIdx? (· = label)', '(labels e).findIdx? (· ≠ label)', 'C79', 'the label named is looked for')
m(F, 'showCmd', 'match u.store.entrySnapshotAt uuid snapshot with', 'match u.store.entrySnapshotAt uuid (snapshot - 1) with', 'C81', 'show n shows the entry n operations ago')
m(F, 'showCmd', 'if snapshot ≠ 0 then', 'if snapshot > 1 then', 'C81', 'show 1 shows the entry before the last operation')
m(F, 'openurl', 'else (u, .ok (some (val e keyURL)))) with', 'else (u, .ok (some (val e keyNotes)))) with', 'C81', 'open opens the url of the entry')
m(F, 'dump', 'none fun u _ e => (u, .ok (some e))', 'none fun u _ _ => (u, .ok (some []))', 'C81', 'dump shows the whole entry')
m(F, 'renameCmd', 'findByName v.ord u.store src)', 'findByName v.ord u.store dst)', 'C79', 'mv renames the entry named')
m(F, 'doCmd', '| some s => ({ u with store := s }, .err e)\n    | none => (u, .panic)', '| some _ => (u, .err e)\n    | none => (u, .panic)', 'C68', 'a failed command leaves nothing behind')
m(F, 'interruptible', 'if v.ctrlC then .err .aborted else .ok ()', '.err .aborted', 'C68', 'Ctrl-D in add goes back to the prompt')

F = 'App/Repl.lean'
m(F, 'queryArg', 'if ctx = [] then args.head? else some ctx', 'if args = [] then some ctx else args.head?', 'C69', 'with a current entry its name is used')
m(F, 'back', '| (u, .err e) => ({ r with u := u }, .err e)\n  | (u, .panic) => ({ r with u := u }, .panic)\n\n/-- the same for commands with', '| (u, .err _) => ({ r with u := u }, .ok false)\n  | (u, .panic) => ({ r with u := u }, .panic)\n\n/-- the same for commands with', 'C75', 'an error in a command ends the session')
m(F, 'back', '| (u, .ok ()) => ({ r with u := u }, .ok false)', '| (_, .ok ()) => (r, .ok false)', 'C79', 'commands change the session')
m(F, 'backOut', 'out := r.out ++ [x] }', 'out := r.out }', 'C70', 'get prints the value')
m(F, 'entryName', '| some n => (u, .ok (some n))', '| some _ => (u, .ok none)', 'C69', 'cd makes an entry the current one')
m(F, 'cd', 'ctx := n }, .ok false)', 'ctx := q }, .ok false)', 'C69', 'cd makes the entry found the current one')
m(F, 'execRead', 'else backOut r (getCmd v r.u q k)', 'else backOut r (getCmd v r.u k q)', 'C70', 'get prints the value of the key named')
m(F, 'execRead', 'some q => backOut r (getCmd v r.u q cmd)', 'some q => backOut r (getCmd v r.u q keyPass)', 'C70', 'user prints the user name')
m(F, 'execRead', '((rest.head?.bind atoi).getD 0)', '((rest.head?.bind atoi).getD 1)', 'C81', 'show without a number shows the entry as it is')
m(F, 'execRead', 'else if cmd = b! "exit" then (r, .ok true)', 'else if cmd = b! "exit" then (r, .ok false)', 'C74', 'exit ends the session', tightened=['App.C74_exit'])
m(F, 'execWrite', '(if r.ctx = nm then { r with ctx := [] } else r, .ok b)', '(r, .ok b)', 'C69', 'the current entry is left when it is removed')
m(F, 'execWrite', '| src :: dst :: _ => back r (renameCmd v r.u src dst)', '| src :: dst :: _ => back r (renameCmd v r.u dst src)', 'C79', 'mv renames the first to the second')
m(F, 'execWrite', '| some (q, k, value) => back r (setCmd v r.u q k value)', '| some (q, k, value) => back r (setCmd v r.u k q value)', 'C79 C71', 'set changes the key of the entry')
m(F, 'execWrite', '| some (q, l, _) => back r (deleteLabel v r.u q l)', '| some (q, l, _) => back r (deleteLabel v r.u l q)', 'C79', 'rmlabel removes the label from the entry')
m(F, 'execWrite', '| user :: _ => back r (adduser P v.ord v.d r.u user)', '| user :: _ => back r (passwd P v.ord v.d r.u user)', 'C74', 'adduser adds a user')
m(F, 'runLine', 'if r.u.readOnly then (r, .ok false) else execWrite', 'execWrite', 'C57', 'a read-only session changes nothing')
m(F, 'runRepl', '| (r, .ok false) => runRepl P C rest r', '| (r, .ok false) => (fun _ => (r, .ok ())) rest', 'C74', 'the session goes on after a command')
m(F, 'runRepl', '| (r, .err e) => (r, .err e)\n    | (r, .panic) => (r, .panic)\n\n/-- a `sync', '| (r, .err _) => runRepl P C rest r\n    | (r, .panic) => (r, .panic)\n\n/-- a `sync', 'C75', 'an error ends the session')
m(F, 'session', '(auto && r.u.startTx ≠ r.u.store.log.length) r with\n      | (r, .err e) => (r, .err e)', '(auto && r.u.startTx = r.u.store.log.length) r with\n      | (r, .err e) => (r, .err e)', 'C74', 'changes are synchronised at the end', tightened=['App.C74_autosync'])
m(F, 'session', '| (r, .ok ()) => (r, saveBlob P C v\'.ord v\'.ord\' iv r.u)', '| (r, .ok ()) => (r, saveBlob P C v\'.ord v\'.ord\' iv u)', 'C74', 'what the session left is saved')
m(F, 'parseLine', 'some (cmd, (split 32 line).drop 1)', 'some (cmd, args)', 'C61', 'spaces inside a value are kept')
m(F, 'setArgs', 'if q = [] ∨ k = [] then none', 'if k = [] then none', 'C61', 'set without a name is refused', tightened=['App.C61_refused'])

F = 'App/File.lean'
m(F, 'writeFile', 'old :: (List.range (data.length + 1)).map fun k => some (data.take k)', '[old, some data]', 'C58', 'a crash can leave half a file')
m(F, 'saveTrace', '| _ => [old]', '| _ => [old, none]', 'C58', 'a file that is not saved stays as it is')
m(F, 'work', '| .ok _ => (u, .ok ())\n    | .err e => (u, .err e)', '| .ok _ => (u, .ok ())\n    | .err _ => (u, .ok ())', 'C73', 'a failed export is reported', tightened=['App.C73_export'])
m(F, 'load', '| none => createFile P history salt inp', '| none => openFile P C history [] inp', 'C51 C74', 'a new file is created')
m(F, 'main', '| (_, .err e) => ([old], .err e)\n    | (_, .panic) => ([old], .panic)\n    | (u, .ok ()) =>', '| (_, .panic) => ([old], .panic)\n    | (u, _) =>', 'C58', 'after an error nothing is saved')
m(F, 'exitStatus', 'if err then 1 else 0', '0', 'C73', 'an error is reported by the exit status')

F = 'App/Input.lean'
m(F, 'getString', 'if s = [] then getString rest else (some s, rest)', '(some s, rest)', 'C78', 'an empty answer is not accepted')
m(F, 'getMenuChoice', 'if i - 1 < 0 ∨ i - 1 ≥ items then', 'if i - 1 < 0 ∨ i - 1 > items then', 'C78', 'the choice is one of the items')
m(F, 'getMenuChoice', 'else (some (i - 1), rest)', 'else (some i, rest)', 'C78', 'the item chosen is the one numbered')
m(F, 'promptMultiline', 'let lines := if oneBlank then lines ++ [[]] else lines', 'let lines := lines', 'C71 C78', 'blank lines inside a text are kept')
m(F, 'promptMultiline', 'if oneBlank then (some (join 10 lines), rest) else promptMultiline ctrlC rest lines true', '(some (join 10 lines), rest)', 'C71 C78', 'one blank line does not end a text')
m(F, 'promptMultiline', 'if line = b! "." then (some (join 10 lines), rest)', 'if line = b! "." then (some (join 10 (lines ++ [line])), rest)', 'C71 C78', 'the end marker is not part of the text')
m(F, 'choose', 'if initial ≠ verify then .again true st rest\' else .ret initial', '.ret initial', 'C63', 'a password typed is verified')
m(F, 'choose', 'else if choice = b! "y" then .ret st.password', 'else if choice = b! "y" then .ret []', 'C63', 'the password shown is used')
m(F, 'pwLoop', 'next { st with password := pw, shown := true } (i + 1)', 'next { st with shown := true } (i + 1)', 'C63', 'the password generated is used')

F = 'App/Hosts.lean'
m(F, 'keyHash', 'hexEncode (sha k.blob)', 'hexEncode (sha k.hostname)', 'C28', 'the key of the host is checked')
m(F, 'hostLine', '[k.hostname, k.addr, k.keyType, keyHash sha k]', '[k.hostname, k.keyType, keyHash sha k]', 'C28', 'an accepted host is known afterwards')
m(F, 'appendHost', 'join newline (split newline hosts ++ [hostentry])', 'hostentry', 'C29', 'hosts known before stay known')
m(F, 'saveHostsLoop', '(s.setKey (now 0) uuid keyKnownHosts', '(s.setKey (now 0) uuid keyNotes', 'C29', 'hosts are remembered where they are looked for')
m(F, 'callback', 'if line = b! "y" ∨ line = b! "Y" then', 'if line ≠ b! "n" then', 'C28', 'only consent accepts a host')

F = 'App/PassGen.lean'
m(F, 'Classes.all', '(alphabetNumbers, c.numbers)', '(alphabetNumbers, c.lower)', 'C54', 'each setting is for its own class')
m(F, 'pickFrom', 'l[(b % ln).toNat]?', 'l[(b % ln).toNat + 1]?', 'C54', 'picking does not crash')
m(F, 'pickN', '(pickN ent alphabet n (e + 1)).map (c :: ·)', '(pickN ent alphabet n e).map (c :: ·)', 'C54', 'each character is drawn with entropy of its own')
m(F, 'randomPicks', '(randomPicks ent pairs n (e + 2)).map (c :: ·)', '(randomPicks ent pairs n (e + 1)).map (c :: ·)', 'C54', 'each character is drawn with entropy of its own')
m(F, 'shuffle', 'shuffle ent length n (i + 1) (e + 1) l', 'shuffle ent length n (i + 1) e l', 'C54', 'each step of the shuffle has entropy of its own')
m(F, 'alphabetUppercase', 'b! "ABCDEFGHIJKLMNOPQRSTUVWXYZ"', 'b! "ABCDEFGHIJKLMNOPQRSTUVWXYz"', 'C54', 'the alphabet has capitals only')

F = 'App/Sync.lean'
m(F, 'collectSyncs', '((ord s.snapshot).filter (fun p => isSync w p.2)).map Prod.fst', '((ord s.snapshot).filter (fun p => isSync w p.2)).map Prod.fst |>.take 1', 'C27', 'all remotes are synchronised')
m(F, 'pushBlob', 'if sc = syncSCP then w.sshPush uuid e ct inp', 'if sc = syncSCP then (some (true, []), inp)', 'C27', 'the file is sent', tightened=['App.C27_delivered'])
m(F, 'pullAll', '| (some (f, h), inp) =>\n      match pullAll', '| (some (.merge _, h), inp) => (some [(uuid, .skip, h)], inp)\n    | (some (f, h), inp) =>\n      match pullAll', 'C80', 'what was pulled is merged')
m(F, 'pullOne', '| (.err _, inp) => (some (.skip, h), inp)\n    | (.ok none', '| (.err _, inp) => (some (.absent, h), inp)\n    | (.ok none', 'C26', 'a file that cannot be read is not overwritten')
m(F, 'pullOne', 'master := p.master.getD [], ivm := p.ivm.getD [] }\n                              log := log }, h), inp)', 'master := [], ivm := p.ivm.getD [] }\n                              log := log }, h), inp)', 'C25', 'the master key of the remote is kept', tightened=['App.C25_remote_creds'])
m(F, 'sync', 'else syncWith P C w v push { u with store := s } [uuid] inp', 'else syncWith P C w v push { u with store := s } (collectSyncs w v.ord s) inp', 'C65', 'sync with a name uses that remote only')
m(F, 'syncWith', '| (.err _, inp) => { session := u, result := .ok (), rest := inp }', '| (.err _, inp) => pushBack P C w v push (newHosts l []) (targets l) u inp', 'C23', 'a failed merge sends nothing')
m(F, 'pushBack', 'if push = false then', 'if push = true then', 'C27', 'the result is sent')

F = 'App/Transfer.lean'
m(F, 'export_', 'if format ≠ b! "CSV" then .err .csv', 'if format ≠ b! "csv" then .err .csv', 'C59', 'the format is called CSV')
m(F, 'underscores', 'if b = 32 then 95 else b', 'b', 'C60', 'names of imported entries have no spaces', tightened=['App.C60_names'])
m(F, 'setSome', 'if value = [] then s else s.setKey t uuid key value', 's', 'C60', 'the values of a record are imported')
m(F, 'importCsv', '| (s, .ok ()) => (s, if eof then .ok () else .err .csv)', '| (s, .ok ()) => (s, .ok ())', 'C60', 'a file that cannot be read to the end is reported', tightened=['App.C60_truncated'])
m(F, 'importRecord', 'setSome s (d.now 6) uuid keyURL url', 'setSome s (d.now 6) uuid keyURL extra', 'C60', 'the columns are not mixed up')

# third round: definitions without mutants so far
F = 'Txlogs/Model.lean'
m(F, 'getEntry', '  | none => .error (.notInSnapshot uuid)\n  | some e => .ok e', '  | none => .ok []\n  | some e => .ok e', 'C09', 'a key set on an entry that is not there is reported')
m(F, 'DB.add', 'log := s.log ++ [{ time := now, kind := .add, uuid := uuid }]', 'log := { time := now, kind := .add, uuid := uuid } :: s.log', 'C02 C76', 'Add is recorded after what was there')
m(F, 'DB.deleteKey', 'kind := .delk, uuid := uuid, key := key }', 'kind := .delk, uuid := key, key := uuid }', 'C02', 'DeleteKey names entry and key in their places')
m(F, 'DB.resetSnapshot', '{ s with version := 0, snapshot := [] }', '{ s with version := 0 }', 'C01', 'the snapshot is emptied before it is rebuilt')
m(F, 'DB.resetSnapshot', '{ s with version := 0, snapshot := [] }', '{ s with snapshot := [] }', 'C01', 'the snapshot is rebuilt from the beginning')
m(F, 'applyIdx', '      | .error e => .err e\n      | .ok snap\' => applyIdx log is snap\'', '      | .error _ => applyIdx log is snap\n      | .ok snap\' => applyIdx log is snap\'', 'C06 C07 C09', 'a log that does not replay is reported by SnapshotAt too')
F = 'Txlogs/Merge.lean'
m(F, 'Conflict.discardConflict', '{ c with resolution := .discardConflict }', '{ c with resolution := .discardInitial }', 'C22', 'the answer of the user is the one recorded')
m(F, 'Conflict.discardInitial', '{ c with resolution := .discardInitial }', '{ c with resolution := .discardConflict }', 'C22', 'the answer of the user is the one recorded')
m(F, 'Conflict.force', '{ c with resolution := .force }', '{ c with resolution := .discardInitial }', 'C22', 'a forced merge is carried out')
m(F, 'MState.push', '{ st with c := st.c ++ [x] }', '{ st with c := x :: st.c }', 'C13', 'operations are appended')
F = 'Blob/Model.lean'
m(F, 'val', '(e.get? key).getD []', '(e.get? key).getD key', 'C36', 'a missing key has no value')
m(F, 'get', 'then none else some (val e key)', 'then none else some (val e keyPass)', 'C70', 'Get returns the value of that key', tightened=['Blob.C70_blob_get'])
m(F, 'updated', '  | none => some none\n  | some ts', '  | none => none\n  | some ts', 'C81', 'an entry without a time stamp can be shown')
m(F, 'touchUpdated', 's.setKey (now 1) uuid keyUpdated (fmtInt (now 0))', 's.setKey (now 1) uuid keyUpdated (fmtInt 0)', 'C32 C79', 'the time stamp is the present time')
m(F, 'touchUpdated', 's.setKey (now 1) uuid keyUpdated (fmtInt (now 0))', 's.setKey (now 1) keyUpdated uuid (fmtInt (now 0))', 'C31 C32', 'the time stamp is set on the entry')
m(F, 'setTwofactor', 'if hasPrefix uriOrKey (b! "otpauth://") then uriOrKey else uri uuid uriOrKey', 'uri uuid uriOrKey', 'C79', 'a URL is stored as it is')
m(F, 'setTwofactor', '  else (s, .err .badTotp)', '  else (s, .ok ())', 'C79', 'a refused secret is reported', tightened=['App.C95_refused'])
m(F, 'find', '(s, .ok (s.snapshot.get? uuid))', '(s, .ok ((s.snapshot.head?).map Prod.snd))', 'C31 C36', 'the entry asked for is the one found')
m(F, 'findByName', '    | none => (s, .panic)\n    | some r => (s, .ok r)\n\n/-- `FindUser`', '    | none => (s, .ok none)\n    | some r => (s, .ok r)\n\n/-- `FindUser`', 'C31', 'a nameless entry crashes the lookup', tightened=['Blob.C31_nameless_false'])
m(F, 'search', 'let keep := if q = [] then fun _ => some true else searchKeep lower (split slash q)', 'let keep := searchKeep lower (split slash q)', 'C33', 'EQUIVALENT: the empty text matches every name')
m(F, 'search', 'searchKeep lower (split slash q)\n      match collect keep (ord s.snapshot) [] with', 'searchKeep lower [q]\n      match collect keep (ord s.snapshot) [] with', 'C33', 'a query with slashes is matched part by part')
m(F, 'searchLabels', 'let keep := if ls = [] then fun _ => some true else labelsKeep ls', 'let keep := labelsKeep ls', 'C35', 'without labels everything is listed')
m(F, 'users', 'collect (fun e => (name e).map isUserEntry) (ord s.snapshot) []', 'collect (fun _ => some true) (ord s.snapshot) []', 'C51 C64', 'only user entries are users')
m(F, 'newUser', 'new ord now uuid s (userPrefix ++ nm)', 'new ord now uuid s nm', 'C51', 'users are recorded under user/')
m(F, 'freshName', 'if nm ++ b! "1" ∈ names then freshName names fuel (nm ++ b! "1") else nm ++ b! "1"', 'nm ++ b! "1"', 'C37', 'the new name is one that nobody has', tightened=['Blob.C37_fresh'])
F = 'Crypt/Model.lean'
m(F, 'suite', '[.aes, .camellia, .cast5]', '[.aes, .cast5, .camellia]', 'C42', 'EQUIVALENT for the properties: any order of the ciphers round-trips')
m(F, 'saltSize', 'def saltSize : Nat := 32', 'def saltSize : Nat := 16', 'C42', 'EQUIVALENT for round trips: the size of the salt is a constant')
m(F, 'cbcEnc', 'if s.length % n = 0 then some (cbcE E iv', 'if s.length % n = 0 then some (cbcD E iv', 'C42', 'encryption is the inverse of decryption')
m(F, 'cbcDec', 'if s.length % n = 0 then some (cbcD D iv (chunk n (s.length / n) s)).flatten else none', 'some (cbcD D iv (chunk n (s.length / n) s)).flatten', 'C45', 'a file that is not made of full blocks crashes the program (in the code)')
m(F, 'encPad', '    match Pkcs7.pad work a.blockSize with\n    | none => none\n    | some padded =>', '    match (some work : Option Str) with\n    | none => none\n    | some padded =>', 'C42 C49', 'the text is padded before it is encrypted')
m(F, 'decRaw', '| some w => cbcDec (P.dec a k) a.blockSize iv w', '| some w => some w', 'C43', 'the master key is unwrapped through all ciphers')
m(F, 'encRaw', '    | some w => encRaw P ls w', '    | some w => some w', 'C43', 'the master key is wrapped by all ciphers')
m(F, 'encrypt', 'else if ¬ p.validate then .err .badParams\n  else if', 'else if', 'C49', 'parameters are checked')
m(F, 'encrypt', 'else if p.nUsers = 0 then encryptSingle P p iv pt', 'else if p.nUsers ≤ 1 then encryptSingle P p iv pt', 'C43', 'a file with one user record is a multi-user file')
m(F, 'deriveKey', '.ok (P.kdf pass salt, salt)', '.ok (P.kdf salt pass, salt)', 'C51', 'the key is derived from the password')
m(F, 'verifyMagic', 'else if f.take 8 ≠ magicStr then .err .invalidFormat\n  else', 'else', 'C45', 'a file of another kind is refused')
m(F, 'checkHash', 'if work.length < sha512Size then .panic\n  else if', 'if', 'C45', 'EQUIVALENT for authenticity: short plaintext is refused anyway')
m(F, 'Params.validate', '  else if p.master.any (fun k => k.length != keySize) then false\n', '', 'C49', 'a master key of a wrong size is refused')
m(F, 'Params.validate', '  else if p.ivm.any (fun iv => iv.length != blockSize) then false\n', '', 'C49', 'an iv of a wrong size is refused')
m(F, 'Params.validate', '  else if p.keys.any (fun k => k.length != 0 && k.length != keySize) then false\n', '', 'C49', 'EQUIVALENT: the size of the key is checked again')
m(F, 'Params.validate', '  else if p.mkeys.any (fun k => k.length != keySize) then false\n', '', 'C43', 'wrapped keys of a wrong size are refused')
F = 'Scp/Model.lean'
m(F, 'parseOctSigned', 'if c = 45 then (parseOctDigits d).map (fun n => -(n : Int))', 'if c = 45 then (parseOctDigits d).map (fun n => (n : Int))', 'C56', 'EQUIVALENT for files sent by scp: modes have no sign')
m(F, 'base', '    else (t.reverse.takeWhile (· ≠ 47)).reverse', '    else t', 'C55', 'only the last part of the path is sent')
m(F, 'base', 'if s = [] then b! "."\n  else', 'if s = [] then []\n  else', 'C55', 'the name sent is not empty')
m(F, 'readResponse', 'if c = 0 then .ok ()\n    else if c = 1 ∨ c = 2', 'if c = 0 ∨ c = 1 then .ok ()\n    else if c = 2', 'C56', 'a refusal of the other side is an error', tightened=['Scp.C56_response'])
m(F, 'isNotFoundErr', 'code = 1 && (indexOf', 'code = 1 || (indexOf', 'C26 C56', 'not every error means that there is no file', tightened=['Scp.C56_not_found'])
m(F, 'readLine', 'if b = 10 then some ([10], s)', 'if b = 10 then some ([], s)', 'C56', 'EQUIVALENT for the header; for replies the line break is kept')
F = 'Csv/Model.lean'
m(F, 'writeRecord', 'writeFields r ++ [lf]', 'writeFields r', 'C72', 'every record is on a line of its own')
m(F, 'writeField', 'if needsQuotes f then quote :: escape f ++ [quote] else f', 'if needsQuotes f then quote :: f ++ [quote] else f', 'C72', 'quotes inside a field are doubled')
m(F, 'normalize', 'if c = cr ∧ d = lf then lf :: normalize rest', 'if c = cr then lf :: normalize rest', 'C72', 'only a carriage return before a line break is dropped')
m(F, 'parse', '    else if c = comma then parse .field [] [[]] s\n', '    else if c = comma then parse .field [] [] s\n', 'C72', 'an empty first field is a field')
m(F, 'needsQuotes', 'else isSpaceRune (decodeRune f).1', 'else false', 'C72', 'EQUIVALENT for this reader: leading spaces are kept without quotes')
F = 'Json/Model.lean'
m(F, 'escPiece', 'else if p.1 = 0x2028 then b! "\\\\u2028"', 'else if p.1 = 0x2028 then b! "\\\\u2029"', 'C11', 'a line separator survives')
m(F, 'escAscii', '[92, 117, 48, 48, hexDigit (b.toNat / 16), hexDigit (b.toNat % 16)]', '[92, 117, 48, 48, hexDigit (b.toNat % 16), hexDigit (b.toNat / 16)]', 'C11', 'control characters survive')
m(F, 'strField', 'if v = [] then [] else [member name (quote v)]', 'if v = [] then [] else [member name v]', 'C11', 'strings are quoted')
m(F, 'shortEsc', 'else if e = 110 then some 10', 'else if e = 110 then some 13', 'C11', 'a line break is read back')
m(F, 'scanStr', '    if c = 34 then some ([], r)', '    if c = 34 ∨ c = 44 then some ([], r)', 'C11', 'a string ends at the quote only')
m(F, 'unitBytes', 'encodeRune (if isSurrogate u then runeError else u) ++ unitBytes l', 'encodeRune u ++ unitBytes l', 'C11 C77', 'half a surrogate pair becomes the replacement character', tightened=['Json.C11_spelling'])
m(F, 'number', '    | some (l, r) => some (45 :: l, r)', '    | some (l, r) => some (l, r)', 'C11', 'the sign of a time is read')
m(F, 'unsigned', '    | 48 :: r => ([48], r)', '    | 48 :: r => ([], r)', 'C11', 'zero is a number')
m(F, 'parseElems', '          | some (vs, r) => some (v :: vs, r)', '          | some (vs, r) => some (vs ++ [v], r)', 'C11', 'the order of the log is kept')
m(F, 'parseMembers', '                    | some (ms, r) => some ((k, v) :: ms, r)', '                    | some (_, r) => some ([(k, v)], r)', 'C11', 'all members are read')
m(F, 'parse', 'if skipWs r = [] then some v else none', 'some v', 'C45', 'EQUIVALENT for what the program writes: text after the value is refused')
F = 'App/Show.lean'
m(F, 'lsLines', 'sortStr ((ord\' r).map Prod.snd)', 'sortStr ((ord\' r).map Prod.fst)', 'C81', 'ls prints names')
m(F, 'lsLines', 'else sortStr ((ord\' r).map Prod.snd)', 'else (ord\' r).map Prod.snd', 'C81', 'ls prints in order')
m(F, 'keyValueText', 'keyColumn width key ++ 32 :: value ++ [10]', 'keyColumn width key ++ value ++ [10]', 'C81', 'key and value are separated')
m(F, 'multilineText', 'trimSpace (joinStr (10 :: b! "    ") (split 10 value))', 'trimSpace value', 'C81', 'the lines of a note are indented')
m(F, 'dropKey', '| none => [] | some z => z :: l.dropLast)', '| none => [] | some _ => l.dropLast)', 'C81', 'no key is lost')
m(F, 'showKeys', 'showFirst ++ sortStr (showFirst.foldl (fun ks o => dropKey o ks) keys)', 'showFirst ++ sortStr keys', 'C81', 'no key is shown twice')
m(F, 'showKeys', 'showFirst ++ sortStr (showFirst.foldl (fun ks o => dropKey o ks) keys)', 'showFirst', 'C81', 'keys of the user are shown')
m(F, 'showOne', 'if k = keyPass then some (keyValueText width k x)\n      else', 'if k = keyPass then none\n      else', 'C81', 'the password is shown')
m(F, 'showOne', 'if k = keyUpdated then none\n  else', 'if k = keyUpdated ∨ k = keyUser then none\n  else', 'C81', 'the user name is shown')
m(F, 'showTail', 'if snaps = 0 then [] else', 'if snaps ≤ 1 then [] else', 'C81', 'the number of versions is shown', tightened=['App.C81_tail'])
m(F, 'spreadLabels', 'if c = comma then [comma, 32] else [c]', 'if c = comma then [32] else [c]', 'C81', 'labels are separated by commas', tightened=['App.C81_labels_text'])
F = 'App/Edges.lean'
m(F, 'pinReplace', '| 48 :: 68 :: r => 13 :: pinReplace r', '| 48 :: 68 :: r => 10 :: pinReplace r', 'C83', 'a carriage return in a password arrives')
m(F, 'pinReplace', '| 50 :: 53 :: r => 37 :: pinReplace r', '| 50 :: 53 :: r => pinReplace (37 :: r)', 'C83', 'a percent sign is replaced once')
m(F, 'pinentry', 'if resp\' = b! "OK" then (if exits', 'if True then (if exits', 'C83', 'an error after the password is noticed')
m(F, 'pinSetup', 'if l = b! "OK" then pinSetup n ls else none', 'pinSetup n ls', 'C83', 'a refused setting is an error')
m(F, 'promptPassword', '  | .err => none\n', '  | .err => hidden\n', 'C83', 'after an error of pinentry nothing is read from the terminal', tightened=['App.C83_prompt'])
m(F, 'hiddenLoop', 'if builder = [] then .panic else hiddenLoop buf builder.dropLast rest', 'hiddenLoop buf builder.dropLast rest', 'C85', 'backspace at the beginning crashes (in the code)')
m(F, 'hiddenLoop', 'let buf := chunk ++ buf.drop chunk.length', 'let buf := chunk', 'C85', 'what was read before is looked at again (in the code)')
m(F, 'utf16Decode', '((a.toNat - 0xD800) * 1024 + (b.toNat - 0xDC00) + 0x10000) :: utf16Decode r\'', '((a.toNat - 0xD800) * 1024 + (b.toNat - 0xDC00)) :: utf16Decode r\'', 'C85', 'characters outside the first plane arrive')
m(F, 'chooseFile', 'if file = dflt then (if bpass ≠ [] then bpass else file) else file', 'if bpass ≠ [] then bpass else file', 'C84', 'the file named with -f is opened')
m(F, 'shortPath', '++ [parts.getLast?.getD []])', ')', 'C84', 'the last part of the path is shown')
F = 'Go/Strings.lean'
m(F, 'atoi', 'if -9223372036854775808 ≤ i ∧ i ≤ 9223372036854775807 then some i else none', 'some i', 'C11', 'numbers that do not fit are refused', model=False, tightened=['Json.C11_read_log'])
m(F, 'equalFold', '(runes s).map foldAscii = (runes t).map foldAscii', 's = t', 'C32', 'protected keys are compared without regard to case', model=False)
# aimed at C86-C89
F = 'App/Sync.lean'
m(F, 'noChanges', 'if log.length ≠ loc.length then some false\n  else', 'if log.length < loc.length then some false\n  else', 'C80 C89', 'a longer remote log is merged')
m(F, 'noChanges', 'some (a.time = b.time ∧ c.time = d.time)', 'some (a.time = b.time ∨ c.time = d.time)', 'C89 C80', 'logs that end differently are merged')
m(F, 'pushBack', 'match pushAll w s ct ts [] inp with', 'match pushAll w u.store [] ts [] inp with', 'C27 C89', 'what is sent is the file')
m(F, 'pushBack', 'if push = false then { session', 'if push then { session', 'C27 C89', 'with push, the remotes are written')
m(F, 'pushBack', 'match sealFile P C v.ord v.ord\' v.iv u.creds s with', 'match sealFile P C v.ord v.ord\' v.iv {} s with', 'C27 C88', 'the file sent is encrypted with the credentials of the session')
# round 4: addresses, ssh, two factor codes, several machines
F = 'Go/Url.lean'
m(F, 'shouldEscape', 'm = .userPassword then c = 64 || c = 47 || c = 63 || c = 58', 'm = .userPassword then c = 64 || c = 47 || c = 63', 'C90', 'a colon in the user name is escaped', model=False)
m(F, 'shouldEscape', '∧ m = .path then c = 63', '∧ m = .path then false', 'C90', 'a question mark in a path is escaped', model=False)
m(F, 'upperHex', 'if n < 10 then 48 + n else 55 + n', 'if n < 10 then 48 + n else 56 + n', 'C90', 'escapes are hexadecimal', model=False)
m(F, 'unhex', "some (c.toNat - 55)", "none", 'C90', 'escapes in capitals are read', model=False)
m(F, 'lastCut', '    | some (x, y) => some (b :: x, y)\n    | none => if b = c then some ([], s) else none', '    | some (x, y) => if b = c then some ([], s) else some (b :: x, y)\n    | none => if b = c then some ([], s) else none', 'C90', 'the port follows the last colon', model=False)
m(F, 'parse\'', 'let scheme := scheme.map lower', 'let scheme := scheme', 'C65 C90', 'EQUIVALENT for addresses bpass writes: the scheme is read in lower case', model=False)
m(F, 'parseAuthority', 'some (some (u, some p), host)', 'some (some (u, none), host)', 'C90 C91', 'the password in an address is read', model=False)
m(F, 'parseHost', 'if validOptionalPort (58 :: p) then unescape .host host else none', 'unescape .host host', 'C90', 'a port that is not a number is refused', model=False)
m(F, 'toString', 'if path ≠ [] ∧ path.head? ≠ some 47 ∧ u.host ≠ [] then [47] else []', '[]', 'C90', 'a path after a host begins with a slash', model=False)
m(F, 'splitHostPort', 'if host.head? = some 91 ∧ host.getLast? = some 93 then (host.drop 1).dropLast else host', 'host', 'C90', 'the brackets are not part of the host name', model=False)
m(F, 'joinHostPort', 'if host.contains 58 then [91] ++ host ++ [93, 58] ++ port else', '', 'C90', 'numeric addresses with colons are put in brackets', model=False)
m(F, 'dropQuery', '((cut 63 s).map Prod.fst).getD s', 's', 'C90 C95', 'the query is not part of the path', model=False)
F = 'Go/Query.lean'
m(F, 'queryEscapes', '!(isAlnum c || (b! "-_.~")', '!(isAlnum c || (b! "-_.~&")', 'C95', 'an ampersand in a secret is escaped', model=False)
m(F, 'rawQuery', 'getD raw)).map Prod.snd).getD []', 'getD raw)).map Prod.fst).getD []', 'C95', 'the query follows the question mark', model=False)
F = 'App/Net.lean'
m(F, 'scpUrl', 'Url.joinHostPort host port', 'Url.joinHostPort host (b! "22")', 'C90', 'the port that was typed is recorded')
m(F, 'scpUrl', 'user := some (user, pass)', 'user := some (user, none)', 'C90', 'the password that was typed is recorded')
m(F, 'fileUrl', 'path := abs', 'path := abs.drop 1', 'C90', 'the path that was typed is recorded')
m(F, 'sshConfig', 'address := Url.joinHostPort uri.hostname uri.port', 'address := Url.joinHostPort uri.hostname (b! "22")', 'C90 C91', 'the server is dialled at its port')
m(F, 'sshConfig', 'if pass ≠ [] then [.password pass] else []', '[.password pass]', 'C91', 'an empty password is not offered')
m(F, 'sshConfig', 'c.auth ++ [.key k]', '[.key k]', 'C91', 'the password is offered too')
m(F, 'sshConfig', 'else if uri.hostname = [] then .err .noHost', 'else if false then .err .noHost', 'C65 C91', 'an address without host is refused')
m(F, 'dial', '(.err _, rest) => { out := .failed, rest := rest }', '(.err _, rest) => { out := if s.login c.user c.auth then .up s else .failed, sent := [.login s c.user c.auth], rest := rest }', 'C91', 'a host key that was not accepted ends the conversation')
m(F, 'dial', 'if s.keyType ≠ b! "ssh-ed25519" ∧ s.keyType ≠ b! "ssh-rsa" then', 'if false then', 'C91', 'other kinds of host keys are refused')
m(F, 'dial', 'host := h.getD []', 'host := []', 'C80 C91 C29', 'an accepted host key is remembered')
m(F, 'hostKey', 'hostname := address', 'hostname := []', 'C91 C50', 'the host key is looked up under the address that was dialled')
m(F, 'received', 'if r.exit && r.close then .bytes f.contents else .failed', '.bytes f.contents', 'C92', 'a command that failed has sent nothing', tightened=['App.C92_got'])
m(F, 'received', 'if r.close && Scp.isNotFoundErr e then .notFound else .failed', '.notFound', 'C26 C92 C94', 'an error of the connection does not mean that there is no file')
m(F, 'delivered', '&& r.exit && r.close', '', 'C92', 'the end of the command is waited for')
m(F, 'sshPull', 'out := received (s.run (recvCmd c.path) [0, 0, 0])', 'out := received (s.run (recvCmd (b! "bpass")) [0, 0, 0])', 'C90 C92', 'the file of the address is fetched')
m(F, 'sshPush', 'let ok := delivered (s.run (sendCmd c.path) (sendInput c.path ct))', 'let ok := delivered (s.run (sendCmd c.path) (sendInput c.path []))', 'C92', 'what is sent is the file', tightened=['App.C92_done'])
m(F, 'sshPush', 'host := if ok then t.host else []', 'host := t.host', 'C91', 'the line of a host where the push failed is dropped')
m(F, 'recvCmd', '"scp -qf "', '"scp -qt "', 'C92', 'the other side is asked to send')
m(F, 'filePath', '(·.path)', '(·.host)', 'C90 C94', 'the path of a file address is used')
F = 'Otp/Model.lean'
m(F, 'digit', 'some (c.toNat - 24)', 'some (c.toNat - 22)', 'C95', 'digits of base 32')
m(F, 'group', 'take (d.length * 5 / 8)', 'take (d.length * 5 / 8 + 1)', 'C95', 'the last bits of a group are no byte')
m(F, 'quantum', 'if s.length + d.length < 7 then .bad', 'if false then .bad', 'C95', 'EQUIVALENT after padding: too little padding')
m(F, 'padded', 'List.replicate (8 - s.length % 8) 61', 'List.replicate (s.length % 8) 61', 'C95', 'secrets are padded to full groups')
m(F, 'be64', 'n / 256 ^ (7 - i)', 'n / 256 ^ i', 'C95', 'the counter is big endian')
m(F, 'truncate', 'b 0 % 128 * 16777216', 'b 0 * 16777216', 'C95', 'the first bit is dropped')
m(F, 'sixDigits', 'n / 100000 % 10, ', '', 'C95', 'codes have six digits', tightened=['App.C95_typed_partial'])
m(F, 'generate', 'be64 (unix / 30)', 'be64 (unix / 60)', 'C95', 'codes last 30 seconds')
m(F, 'makeUri', 'Url.queryEscape secret', 'secret', 'C95', 'the secret is escaped')
m(F, 'code', 'if u.host ≠ b! "totp" then none', 'if u.host = [] then none', 'C95', 'other kinds of codes are refused')
m(F, 'code', 'b! "secret"', 'b! "key"', 'C95', 'the secret is read from the address')
F = 'Go/Time.lean'
m(F, 'isLeap', 'y % 4 = 0 && (y % 100 ≠ 0 || y % 400 = 0)', 'y % 4 = 0', 'C99', 'centuries are leap years only every 400 years')
m(F, 'isLeap', 'y % 4 = 0 && (y % 100 ≠ 0 || y % 400 = 0)', 'y % 4 = 0 && y % 100 ≠ 0', 'C99', 'the year 2000 was a leap year')
m(F, 'daysBefore', '| 9 => 273', '| 9 => 274', 'C99', 'September has 30 days')
m(F, 'daysIn', 'then 29 else', 'then 30 else', 'C99', 'the 30th of February is refused')
m(F, 'unixDays', '719162', '719163', 'C99', 'times are counted from the first of January 1970')
m(F, 'unix', '3 ≤ t.month', '2 ≤ t.month', 'C99', 'the leap day is the last of February')
m(F, 'unix', 't.min * 60', 't.min * 100', 'C99', 'a minute has 60 seconds')
m(F, 'monthDay', 'yday > 59 then yday - 1', 'yday > 59 then yday', 'C99', 'the days after the leap day are shifted by one')
m(F, 'yearDay', 'let n := d / 36524\n  let n := n - n / 4', 'let n := d / 36524', 'C99', 'the last day of 400 years belongs to them')
m(F, 'civil', 'hour := r / 3600', 'hour := r / 3600 % 12', 'C99', 'the hours go to 23')
m(F, 'zoneText', 'offset.tdiv 60 < 0', 'offset.tdiv 60 > 0', 'C99', 'the sign of the zone is shown', tightened=['App.C99_local'])
m(F, 'rfc3339', 'civil (ns / 1000000000 + offset)', 'civil (ns / 1000000 + offset)', 'C99', 'dates are kept in nanoseconds')
m(F, 'getnum', 'some (digitVal a * 10 + digitVal b, s)', 'some (digitVal b * 10 + digitVal a, s)', 'C99', 'the digits are read from left to right')
m(F, 'parse', 'if 60 ≤ mi then none', 'if 61 ≤ mi then none', 'C99', 'the 60th minute is refused')
m(F, 'parse', 'if s ≠ [] then none\n', '', 'C99', 'what follows the time is refused')
m(F, 'unixNano', 'unix t * 1000000000 + ns', 'unix t * 1000000 + ns', 'C99', 'times are in nanoseconds')

F = 'App/Past.lean'
m(F, 'cliTime', '| none => none\n', '| none => some none\n', 'C99', 'a time that cannot be read does not open the file as it is', tightened=['App.C99_refused'])
m(F, 'cliTime', 'some (some (Time.unixNano t ns))', 'some (some (Time.unix t))', 'C99', 'the time is passed on in nanoseconds')
m(F, 'shownDate', 'Time.rfc3339 zone t', 'Time.rfc3339 zone (t + 1000000000)', 'C99', 'the date shown is that of the change')

F = 'App/Merging.lean'
m(F, 'takeRemote', 'if u.key = r.creds.key then (.ok false, inp)', 'if u.key = r.creds.key then (.ok true, inp)', 'C24', 'EQUIVALENT for the key: with the same key there is nothing to take over but the passphrase')
m(F, 'mergeRemotes', 'creds := if take then r.creds else m.creds', 'creds := if take then { r.creds with salt := m.creds.salt } else m.creds', 'C98 C24', 'a key is taken over with its salt')
m(F, 'mergeRemotes', 'creds := if take then r.creds else m.creds', 'creds := if take then { r.creds with pass := m.creds.pass } else m.creds', 'C24 C98', 'the passphrase is taken over with its key')

F = 'App/Sync.lean'
m(F, 'syncWith', '{ u with creds := m.creds, store := s } inp', '{ u with store := s } inp', 'C98', 'after sync the session goes on with the credentials that were chosen')
m(F, 'noChanges', 'if log.length ≠ loc.length then some false\n  else\n', '', 'C97 C80', 'histories of different lengths differ')

F = 'Crypt/Model.lean'
m(F, 'encryptSingle', 'let header := magic 0 ++ salt ++ iv', 'let header := magic 0 ++ salt ++ List.replicate 40 0', 'C100 C42', 'the random bytes are in the file')
m(F, 'encryptSingle', '| some ct => .ok (header ++ ct)\n  | _, _ => .panic\n\n/-- the user', '| some ct => .ok (header ++ ct ++ P.sha512 pt)\n  | _, _ => .panic\n\n/-- the user', 'C100 C42', 'a checksum of the plain text is not in the open')
m(F, 'encryptSingle', 'let header := magic 0 ++ salt ++ iv\n        match encPad P ls (P.sha512 (header ++ pt) ++ pt) with', 'let header := magic 0 ++ salt ++ iv\n        match encPad P ls (P.sha512 (header ++ pt) ++ pt ++ [0]) with', 'C100 C42', 'the text is padded up to the next block')

F = 'App/Accounts.lean'
m(F, 'passwd', 'else storeUser P ord d u u.creds.user key salt', 'else storeUser P ord d { u with creds := { u.creds with master := d.master } } u.creds.user key salt', 'C101 C88', 'passwd keeps the master key')
m(F, 'adduser', '| .ok (key, salt) => finishUser P d u uuid key salt', '| .ok (key, salt) => finishUser P d { u with creds := { u.creds with master := d.master, ivm := d.ivm } } uuid key salt', 'C101 C88', 'adduser keeps the master key')
m(F, 'passwd', 'u.creds.user = user then\n          { u with creds := { u.creds with pass := pass, key := key, salt := salt } } else u', 'u.creds.user = user then\n          { u with creds := { u.creds with pass := pass, key := pass, salt := salt } } else u', 'C97 C98', 'the key is derived from the passphrase')
m(F, 'rekeyAll', 'master := d.master, ivm := d.ivm } }, .ok out)', 'master := d.master, ivm := [] } }, .ok out)', 'C97 C52', 'the master key is changed with its initialisation vector')
m(F, 'deleteEntry', 'master := []', 'master := u.creds.key', 'C101', 'without users there is no master key')

F = 'App/Repl.lean'
m(F, 'execWrite', '| src :: dst :: _ => back r (renameCmd v r.u src dst)', '| src :: dst :: rest => back r (renameCmd v r.u src (join 32 (dst :: rest)))', 'C102', 'the new name is one word')
m(F, 'execWrite', '| nm :: _ => back r ((fun x => (x.1, interruptible v x.2)) (addNew v r.u nm))', '| nm :: rest => back r ((fun x => (x.1, interruptible v x.2)) (addNew v r.u (join 32 (nm :: rest))))', 'C102', 'the name of a new entry is one word')
m(F, 'parseLine', 'if cmd = b! "set" then some (cmd, (split 32 line).drop 1)', 'if cmd = b! "set" then some (cmd, split 32 line)', 'C102', 'the command is not one of its arguments')
m(F, 'cd', '({ r with u := u, ctx := n }, .ok false)', '({ r with u := u }, .ok false)', 'C102', 'cd selects the entry')

F = 'App/Transfer.lean'
m(F, 'underscores', 'if b = 32 then 95 else b', 'b', 'C60 C102', 'blanks in names are replaced')

F = 'Fuzzy/Model.lean'
m(F, 'fuzzyMatch', 'if search.length > s.length then some false', 'if search.length > s.length then some true', 'C102 C33', 'a name shorter than the query does not match')

F = 'Go/Fields.lean'
m(F, 'fieldsAux', 'if cur = [] then fieldsAux rest []', 'if cur = [] then [] :: fieldsAux rest []', 'C102', 'two blanks are one separator')

F = 'App/TempFile.lean'
m(F, 'editFile', 'max old.length (D.data j).length', 'old.length', 'C103', 'a longer new value is overwritten too')
m(F, 'editFile', '((D.wipe j (max old.length (D.data j).length)).remove nm, .text (D.data j))', '(D.remove nm, .text (D.data j))', 'C103', 'the file is overwritten before it is removed')
m(F, 'editFile', '(D.wipe j (max old.length (D.data j).length)).remove nm', 'D.wipe j (max old.length (D.data j).length)', 'C103', 'the file is removed')
m(F, 'editFile', '.text (D.data j))', '.text old)', 'C103', 'what the editor saved is read')
m(F, 'editFile', '  | some _ => (D, .taken)\n', '  | some j => (D.wipe j old.length, .taken)\n', 'C103', 'a file that exists is not touched')
m(F, 'Volume.wipe', 'List.replicate n 0 ++ (D.data j).drop n', 'List.replicate n 0 ++ D.data j', 'C103', 'the zeros replace what was there', model=False)
m(F, 'runEditor', '| some p => ((p D nm).1, some (p D nm).2)', '| some p => ((p D nm).1, none)', 'C103', 'an editor that ended is not one that could not be run')
m(F, 'editorName', 'if env ≠ [] then env else', 'if env = [] then env else', 'C103', 'the editor of the user is run')
m(F, 'Edited.answer', '| .text s => some (some s)', '| .text s => some (if s.length ≤ 1 then none else some s)', 'C103', 'short values are stored')

F = 'App/Accounts.lean'
m(F, 'rekey', 'if user = [] then .ok u.creds.pass else getPassword d.ent d.inp', '.ok u.creds.pass', 'C88', 'rekey of another user asks for a password')
m(F, 'rekey', '{ u with creds := { u.creds with pass := pass, key := key, salt := salt } } else u\n        if u.creds.master = [] then (u, .ok ())\n        else storeUser P ord d u (if user = [] then u.creds.user else user) key salt', '{ u with creds := { u.creds with pass := pass, key := key, salt := salt } } else u\n        if u.creds.master = [] then (u, .ok ())\n        else storeUser P ord d u u.creds.user key salt', 'C51 C75 C88', 'rekey changes the record of the user that was named')

# aimed at C104
F = 'App/Clip.lean'
m(F, 'copyChoice', "(fields choice).head? = some (b! \"c\")", "choice = b! \"c\"", 'C104', 'the choice is the first word')
m(F, 'pwCopies', '(if copyChoice inp then [st.password] else []) ++', '(if copyChoice inp then [] else [st.password]) ++', 'C104', 'the password is copied when that is chosen')
m(F, 'passwordCopies', 'pwCopies ent (inp.length + 1) 0 true {} inp', 'pwCopies ent (inp.length + 1) 0 false {} inp', 'C104', 'what is copied is the password that was generated')
m(F, 'pwCopies', '| .ok pw => next { st with password := pw, shown := true } (i + 1)', '| .ok pw => next { st with password := pw, shown := true } i', 'C104', 'the copied password is the one shown')
m(F, 'getCopies', '[if key = keyUpdated then date x else x]', '[x]', 'C104', 'the time is copied as a date')
m(F, 'getCopies', '| .ok (some x) => [if', '| .ok (some x) => [key, if', 'C104', 'only the value is copied')
m(F, 'loginCopies', '.map Prod.snd', '.map Prod.fst', 'C104', 'login copies the values')
m(F, 'loginCopies', '| some l => (loginLoop l v.d.inp []).1.map Prod.snd', '| some l => l.map Prod.snd', 'C104', 'login waits between the values')
m(F, 'addInput', '      match prompt inp with\n      | (none, _) => none\n      | (some _, inp) => some inp', '      some inp', 'C104', 'add asks for two more lines before the password')
m(F, 'scpInput', 'if choice = 2 then some inp', 'if choice = 1 then some inp', 'C104', 'a password is asked for when a password was chosen')
m(F, 'addSyncInput', 'if kind ≠ syncSCP then none', 'if kind ≠ syncFile then none', 'C104', 'only scp has passwords')
m(F, 'setInput', 'key = keyPass ∧ value = []', 'key = keyPass', 'C104', 'a password that was given is not asked for')
m(F, 'setInput', 'uuid ≠ [] ∧ key = keyPass ∧ value = []', 'uuid ≠ [] ∧ value = []', 'C104', 'only passwords are asked for in this way')
m(F, 'readCopies', 'if cmd = b! "cp" then', 'if cmd = b! "cp" ∨ cmd = b! "get" then', 'C104', 'get prints and does not copy')
m(F, 'readCopies', '| some q => getCopies date v r.u q cmd', '| some q => getCopies date v r.u q keyPass', 'C104', 'user copies the user')
m(F, 'lineCopies', '| some false => if r.u.readOnly then [] else writeCopies v cmd args r', '| some false => writeCopies v cmd args r', 'C104', 'nothing is set in a session that only reads')
m(F, 'writeCopies', 'else if cmd = b! "set" then', 'else if cmd = b! "set" ∨ cmd = b! "edit" then', 'C104', 'edit copies nothing')
m(F, 'copyAll', 'copies.getLast?.getD clip', 'copies.head?.getD clip', 'C104', 'the last text stays')
m(F, 'copyAll', 'copies.getLast?.getD clip', 'copies.getLast?.getD []', 'C104', 'a run that copies nothing leaves the clipboard')
m(F, 'clipAtExit', '| _ => if clear && works then [] else clip', '| .ok _ => if clear && works then [] else clip\n  | _ => clip', 'C104', 'the clipboard is emptied after an error too')
m(F, 'clipAtExit', 'if clear && works then [] else clip', 'if works then [] else clip', 'C104', 'with --no-clear-clip nothing is emptied')
m(F, 'replCopies', '| (r, .ok false) => replCopies P C date rest r', '| (r, .ok true) => replCopies P C date rest r', 'C104', 'copying goes on in the next line', model=False)

# aimed at C89 in files with users
F = 'App/Sync.lean'
m(F, 'pullOne', 'decryptBlob P u.creds ct u.creds.user u.creds.pass inp', 'decryptBlob P u.creds ct [] u.creds.pass inp', 'C89 C98', 'the remote is opened as the user of the session')
m(F, 'pullOne', 'master := p.master.getD [], ivm := p.ivm.getD []', 'master := [], ivm := p.ivm.getD []', 'C89', 'a remote with users has a master key')
m(F, 'pushBack', 'match sealFile P C v.ord v.ord\' v.iv u.creds s with', 'match sealFile P C v.ord v.ord\' v.iv { u.creds with master := [] } s with', 'C89 C98', 'the file with users is sent as one')
m(F, 'syncWith', 'pushBack P C w v push (newHosts l []) (targets l) { u with creds := m.creds, store := s } inp', 'pushBack P C w v push (newHosts l []) (targets l) { u with store := s } inp', 'C89 C98 C97', 'the credentials of the newest log are used')

# aimed at C105
F = 'App/PassGen.lean'
m(F, 'randomPicks', 'match pickFrom p.1 (ent (e + 1)) with', 'match pickFrom p.1 (ent e) with', 'C105', 'class and character are picked by different bytes')
m(F, 'randomPicks', '| some c => (randomPicks ent pairs n (e + 2)).map (c :: ·)', '| some c => (randomPicks ent pairs n e).map (c :: ·)', 'C105', 'each character has its own bytes')
m(F, 'pickN', '| some c => (pickN ent alphabet n (e + 1)).map (c :: ·)', '| some c => (pickN ent alphabet n e).map (c :: ·)', 'C105', 'each character has its own byte')
m(F, 'required', '(required ent rest (e + num.toNat))', '(required ent rest e)', 'C105', 'each class has its own bytes')
m(F, 'genPassword', 'match randomPicks ent c.pairs n e with', 'match randomPicks ent c.pairs n 0 with', 'C105', 'required and other characters are picked by different bytes')
m(F, 'genPassword', 'shuffle ent length.toNat length.toNat 0 (e + 2 * n) (req ++ rnd)', 'shuffle ent length.toNat length.toNat 0 e (req ++ rnd)', 'C105', 'the shuffle does not depend on the characters')
m(F, 'genPassword', 'match shuffle ent length.toNat length.toNat 0 (e + 2 * n) (req ++ rnd) with', 'match some (req ++ rnd) with', 'C105', 'required characters can be anywhere')
m(F, 'pickFrom', 'if ln = 0 then none else l[(b % ln).toNat]?', 'if ln = 0 then none else l[(b % ln).toNat / 2]?', 'C105', 'all characters can be picked')
m(F, 'alphabetExtraSymbols', '/~\\"\\\\\'`"', '/~\\"\'`"', 'C105', 'the backslash is listed twice', model=False)

# aimed at C106
F = 'App/Session.lean'
m(F, 'saveBlob', 'if u.readOnly then .ok none\n  else\n    match (sealFile', 'if u.readOnly ∨ u.startTx = u.store.log.length then .ok none\n  else\n    match (sealFile', 'C106 C74 C88', 'the file is written even if nothing was changed')

# aimed at C107
F = 'Txlogs/Merge.lean'
m(F, 'fastPath', 'some (decide (x.time = y.time) && decide (x\'.time = y\'.time))', 'some (decide (a = b))', 'C107 C12', 'logs of the same length with the same first and last times are taken for equal')
F = 'App/Sync.lean'
m(F, 'pushBack', 'match pushAll w s ct ts [] inp with', 'match pushAll w s (if ts.length < 2 then [] else ct) ts [] inp with', 'C107 C27 C89', 'what is sent is the file', model=False)
m(F, 'syncWith', '({ u.store.resetSnapshot with log := m.log } : DB)', '({ u.store.resetSnapshot with log := if m.log.length < u.store.log.length then u.store.log else ((remotes l).head?.map (·.log)).getD m.log } : DB)', 'C107 C89 C23', 'a machine keeps what it had when it syncs')

# aimed at C108
F = 'App/Sync.lean'
m(F, 'decryptBlob', '| .askUser => decryptBlob P c ct line pass rest', '| .askUser => decryptBlob P c ct user line rest', 'C108', 'what is typed at the prompt for the user is the user')
m(F, 'decryptBlob', 'if line = [] then (.ok none, rest) else decryptBlob P c ct user line rest', 'decryptBlob P c ct user line rest', 'C108', 'an empty line gives up')
m(F, 'decryptBlob', '| .askPass => if line = [] then (.ok none, rest) else decryptBlob P c ct user line rest', '| .askPass => if line = [] then (.ok none, rest) else decryptBlob P c ct [] line rest', 'C108', 'the user stays the same at the prompt for the passphrase')
m(F, 'tryDecrypt', 'match decrypt P user pass (orNil c.key) c.salt ct with', 'match decrypt P user c.pass (orNil c.key) c.salt ct with', 'C108', 'the passphrase that was typed is tried')
m(F, 'tryDecrypt', '| .ok (_, p, pt) => .done (.ok (some (user, pass, p, pt)))', '| .ok (_, p, pt) => .done (.ok (some (c.user, pass, p, pt)))', 'C108', 'the user that opened the remote is kept')
m(F, 'tryDecrypt', 'else if e = .wrongPassphrase then .askPass', 'else if e = .wrongPassphrase ∧ pass = [] then .askPass', 'C108', 'after a wrong passphrase another is asked for')
F = 'Crypt/Model.lean'
m(F, 'decryptSingle', 'let derive : Bool := key.isNone || salt != newSalt', 'let derive : Bool := key.isNone', 'C108 C48', 'a key for another salt is not used')

# aimed at C81
F = 'App/Commands.lean'
m(F, 'openLink', 'if v.urlParses (val e keyURL) then (u, .ok (some (val e keyURL))) else (u, .ok none)', '(u, .ok (some (val e keyURL)))', 'C81', 'only what parses is opened')

# aimed at C109
F = 'Blob/Model.lean'
m(F, 'set', 'else ((touchUpdated s now uuid).setKey (now 2) uuid key value, .ok ())', 'else (s.setKey (now 2) uuid key value, .ok ())', 'C109', 'set changes the date')
m(F, 'deleteKey', '((touchUpdated s now uuid).deleteKey (now 2) uuid key, .ok ())', '(s.deleteKey (now 2) uuid key, .ok ())', 'C109', 'rmk changes the date')
m(F, 'rename', '((touchUpdated s now uuid).setKey (now 2) uuid keyName newName, .ok ())', '(s.setKey (now 2) uuid keyName newName, .ok ())', 'C109', 'mv changes the date')
m(F, 'removeLabel', '((touchUpdated s now uuid).setKey (now 2) uuid keyLabels (join comma ls), .ok ())', '(s.setKey (now 2) uuid keyLabels (join comma ls), .ok ())', 'C109', 'rmlabel changes the date if other labels remain')
m(F, 'touchUpdated', 'fmtInt (now 0)', 'fmtInt (now 0 + 10)', 'C109', 'the date is that of the change')
m(F, 'touchUpdated', 'fmtInt (now 0)', 'fmtInt (now 0 / 1000000000)', 'C109', 'the date is in nanoseconds')

# round 9: aimed at C110
F = 'Json/Indent.lean'
m(F, 'indentByte', 'else if c = 58 then ([c, 32], .out, need, d)', 'else if c = 58 then ([c], .out, need, d)', 'C110', 'dumpall writes a blank after a colon')
m(F, 'indentByte', 'else if c = 34 then ([c], .str, need, d)', 'else if c = 34 then ([c], .out, need, d)', 'C110', 'what is in a string is not laid out')
m(F, 'indent', '| .esc, need, d, c :: r => c :: indent .str need d r', '| .esc, need, d, c :: r => c :: indent .out need d r', 'C110', 'an escaped quote does not end a string')
F = 'Go/Quote.lean'
m(F, 'quotePiece', 'else if p.1 = 34 ∨ p.1 = 92 then [92, UInt8.ofNat p.1]', 'else if p.1 = 34 then [92, UInt8.ofNat p.1]', 'C110', 'a backslash is escaped')
m(F, 'quotePiece', 'if p.1 = runeError ∧ p.2.length = 1 then [92, 120] ++ hexDigits 2 (p.2.headD 0).toNat\n  else if', 'if', 'C110', 'bytes that are not UTF-8 can be told apart')
m(F, 'goShort', 'else if r = 13 then some 114', 'else if r = 13 then some 110', 'C110', 'a carriage return is not shown as a line feed')
m(F, 'quotePiece', '[92, 117] ++ hexDigits 4 p.1', '[92, 117] ++ hexDigits 3 p.1', 'C110', 'four digits after u')
F = 'App/Dump.lean'
m(F, 'dumpText', 'goQuote isPrint p.2 ++ [10]', 'p.2 ++ [10]', 'C110', 'values are quoted')

# aimed at C112
F = 'App/Complete.lean'
m(F, 'complete', 'search v.lower v.ord u.store []', 'search v.lower v.ord u.store (b! "/")', 'C112', 'all names are offered')
m(F, 'complete', '(u, .ok (sortStr ((v.ord\' r).map Prod.snd)))', '(u, .ok ((v.ord\' r).map Prod.snd))', 'C112', 'the names offered are in order')
m(F, 'complete', '(u, .ok (sortStr ((v.ord\' r).map Prod.snd)))', '(u, .ok (sortStr ((v.ord\' r).map Prod.fst)))', 'C112', 'names are offered, not uuids')
m(F, 'completed', '(b! "rekey", false)]', '(b! "rekey", false), (b! "keys", false)]', 'C112', 'every command offered exists')
m(F, 'completedKeys', 'b! "totp", b! "notes"', 'b! "twofactor", b! "notes"', 'C112', 'the key offered for codes is the one get knows')
F = 'Blob/Model.lean'
m(F, 'find', 'withSnapshot s fun s => (s, .ok (s.snapshot.get? uuid))', '(s, .ok (s.snapshot.get? uuid))', 'C112', 'a lookup sees the last changes, TAB or not')
F = 'Txlogs/Model.lean'
m(F, 'updateSnapshot', 'if s.version ≥ s.log.length then (s, none)', 'if s.version + 1 ≥ s.log.length then (s, none)', 'C112', 'TAB brings the view up to date')
m(F, 'rollback', '{ s\' with log := s.log.take (s.txPoint - 1), txPoint := 0 }', '{ s\' with log := s.log.take s.txPoint, txPoint := 0 }', 'C111', 'the log after an aborted add is the old one')

# aimed at C99 and C111
F = 'App/Session.lean'
m(F, 'cutLog', 'if tx.time > t then [] else tx :: cutLog t rest', 'if tx.time ≥ t then [] else tx :: cutLog t rest', 'C99 C111', 'a change made at the very time asked for is part of the past')
m(F, 'cutLog', 'if tx.time > t then [] else tx :: cutLog t rest', 'if tx.time > t then cutLog t rest else tx :: rest', 'C99 C111', 'later changes are left out')

# aimed at C45 and C108
F = 'Crypt/Model.lean'
m(F, 'decUnpad', '| none => .panic\n      | some w =>\n        match Pkcs7.unpad w with', '| none => .err .wrongPassphrase\n      | some w =>\n        match Pkcs7.unpad w with', 'C45', 'a mistyped passphrase crashes Decrypt')
m(F, 'suite', '[.aes, .camellia, .cast5]', '[.cast5, .camellia, .aes]', 'C45', 'the outermost cipher has the small blocks')
F = 'App/Sync.lean'
m(F, 'tryDecrypt', '| .panic => .done .panic', '| .panic => .askPass', 'C108', 'a crash of Decrypt is a crash of sync')

# round 10, aimed at C113
F = 'App/Modes.lean'
m(F, 'act', '| .save p d => put umask 0o600 p d fs', '| .save p d => put umask 0o644 p d fs', 'C113', 'the password file is made for its owner only')
m(F, 'act', '| .push p d => put umask 0o600 p d fs', '| .push p d => put umask 0o640 p d fs', 'C113', 'a pushed file is made for its owner only')
m(F, 'act', '| .edit p d => putNew umask 0o600 p d fs', '| .edit p d => put umask 0o600 p d fs', 'C113', 'the temporary file of edit must not be there before')
m(F, 'act', '| .edit p d => putNew umask 0o600 p d fs', '| .edit p d => putNew umask 0o666 p d fs', 'C113', 'the temporary file of edit is private')
m(F, 'act', '| .exportTo p d => put umask 0o666 p d fs', '| .exportTo p d => put umask 0o600 p d fs', 'C113', 'an export can be read by others if the umask allows it')
m(F, 'put', '| some n => n.mode | none', '| some _ => newMode umask perm | none', 'C113', 'a file that is there keeps its permissions')
m(F, 'newMode', 'perm &&& (0x1ff ^^^ (umask &&& 0x1ff))', 'perm ||| (0x1ff ^^^ (umask &&& 0x1ff))', 'C113', 'the umask takes permissions away')
m(F, 'seen', 'n.mode &&& 4 ≠ 0', 'n.mode &&& 0o400 ≠ 0', 'C113', 'the bit of others')
# aimed at C114
F = 'App/Recall.lean'
m(F, 'runRecall', '      | none => runRecall P C rest r\n      | some ro', '      | none =>\n        let x := runRecall P C rest r\n        (x.1, trimSpace line :: x.2)\n      | some ro', 'C114', 'lines without a command are not remembered')
m(F, 'runRecall', 'if r.u.readOnly = true ∧ ro = false then runRecall P C rest r', 'if r.u.readOnly = true ∧ ro = false then (let x := runRecall P C rest r; (x.1, trimSpace line :: x.2))', 'C114', 'commands that are not permitted are not remembered')
m(F, 'runRecall', '(x.1, trimSpace line :: x.2)', '(x.1, line :: x.2)', 'C114', 'lines are remembered without the spaces around them')
m(F, 'runRecall', '(x.1, trimSpace line :: x.2)', '(x.1, trimSpace line :: ((v.d.inp.filterMap id) ++ x.2))', 'C114', 'answers are not remembered')
m(F, 'runRecall', '(x.1, trimSpace line :: x.2)', '(x.1, x.2 ++ [trimSpace line])', 'C114', 'lines are remembered in the order typed')
m(F, 'runRecall', '| (r, .ok true) => ((r, .ok ()), [])', '| (r, .ok true) => ((r, .ok ()), [trimSpace line])', 'C114', 'exit is not remembered')
m(F, 'runRecall', '| (r, .err e) => ((r, .err e), [])', '| (r, .err e) => ((r, .err e), [trimSpace line, trimSpace line])', 'C114', 'a command that fails is not remembered')
F = 'App/Accounts.lean'
m(F, 'rekeyAll', '({ u with creds := { u.creds with master := d.master, ivm := d.ivm } }, .ok out)', '({ u with creds := { u.creds with master := d.master, ivm := d.ivm }, readOnly := true }, .ok out)', 'C114', 'the session stays writable')
# aimed at C115
F = 'App/Said.lean'
m(F, 'saidRekey', 'if (if user = [] then Res.ok u.creds.pass else getPassword d.ent d.inp) = .ok [] then .refused else .key', 'if getPassword d.ent d.inp = .ok [] then .refused else .key', 'C115', 'rekey without a name does not look at what is typed')
m(F, 'saidAdd', 'if u.creds.master = [] then Res.ok [] else', 'if u.creds.master ≠ [] then Res.ok [] else', 'C115', 'the first user is not asked for a password')
m(F, 'saidAdd', 'if pass = [] then .reused user else .added user pass', '.added user pass', 'C115', 'the key of the file is reused for the first user')
F = 'App/Accounts.lean'
m(F, 'rekey', 'if u.creds.master = [] then (u, .ok ())\n        else storeUser P ord d u (if', 'if u.creds.master = [] then ({ u with creds := { u.creds with pass := pass, key := key, salt := salt } }, .ok ())\n        else storeUser P ord d u (if', 'C115', 'rekey with a name changes nothing in a file without users')
F = 'App/Session.lean'
m(F, 'createFile', '(.ok { creds := { key := key, salt := salt }', '(.ok { creds := { pass := pwd, key := key, salt := salt }', 'C115', 'the session of a new file does not have its passphrase')
F = 'App/Sync.lean'
m(F, 'pullOne', '| (.panic, inp) => (none, inp)\n    | (.err _, inp) => (some (.skip, h), inp)\n    | (.ok none', '| (.panic, inp) => (some (.absent, h), inp)\n    | (.err _, inp) => (some (.skip, h), inp)\n    | (.ok none', 'C116', 'a file that crashes Decrypt is written over')
m(F, 'pullOne', '| (.ok none, inp) => (some (.skip, h), inp)', '| (.ok none, inp) => (some (.absent, h), inp)', 'C116', 'a file that cannot be opened is written over')
F = 'App/File.lean'
m(F, 'writeFile', 'old :: (List.range (data.length + 1)).map fun k => some (data.take k)', '[old, some data]', 'C116', 'the file is replaced in one step')
F = 'Crypt/Model.lean'
m(F, 'cbcDec', 'if s.length % n = 0 then some (cbcD', 'if s.length % n ≤ n then some (cbcD', 'C116', 'what is left over of the last block is ignored')
m(F, 'decryptSingle', 'if f.length < magicLen + saltSize + blockSize then .panic', 'if f.length < magicLen + saltSize + blockSize then .err .wrongPassphrase', 'C116', 'a file that ends in its header is refused')
# aimed at C117
F = 'App/Merging.lean'
m(F, 'takeRemote', 'if l.time < r\'.time then (.ok true, inp)', 'if r\'.time < l.time then (.ok true, inp)', 'C117', 'the credentials of the later file are kept')
m(F, 'takeRemote', 'if us = [] ∧ u.master ≠ [] then (.ok true, inp)', 'if us ≠ [] ∧ u.master ≠ [] then (.ok true, inp)', 'C117', 'an earlier version without users does not take the users away')
m(F, 'mergeRemotes', 'creds := if take then r.creds else m.creds, log := merged', 'creds := if take then r.creds else m.creds, log := r.log', 'C117', 'the merged history is kept')
F = 'App/Sync.lean'
m(F, 'noChanges', 'if log.length ≠ loc.length then some false', 'if loc.length < log.length then some false', 'C117', 'an earlier version is a change')
m(F, 'targets', '| (_, .skip, _) :: l => targets l', '| (_, .skip, _) :: l => targets l\n  | (_, .merge _, _) :: l => targets l', 'C117', 'what was merged is pushed to')
m(F, 'pullOne', '| some true => (some (.skip, h), inp)', '| some true => (some (.absent, h), inp)', 'C117', 'nothing is sent where nothing changed')
# aimed at C118 and C119
F = 'App/Repl.lean'
m(F, 'session', 'autoSync P C v\' (auto && r.u.startTx ≠ r.u.store.log.length) r', 'autoSync P C v\' (auto && r.u.startTx = r.u.store.log.length) r', 'C118', 'the end of a run looks for new operations')
m(F, 'session', 'autoSync P C v\' (auto && r.u.startTx ≠ r.u.store.log.length) r', 'autoSync P C v\' auto r', 'C118', 'without new operations there is no synchronisation at the end')
m(F, 'autoSync', 'let x := sync P C v.w v.v [] true r.u v.d.inp\n    let r := if x.pushed = [] then r else { r with pushed := r.pushed ++ [(x.sent, x.pushed)] }\n    ({ r', 'let x := sync P C v.w v.v [] false r.u v.d.inp\n    let r := if x.pushed = [] then r else { r with pushed := r.pushed ++ [(x.sent, x.pushed)] }\n    ({ r', 'C118', 'the automatic synchronisation also sends')
m(F, 'runRepl', '(r, if v.ctrlC then .err .aborted else .ok ())', '(r, .ok ())', 'C119', 'Ctrl-C does not save')
m(F, 'session', '| (r, .err e) => (r, .err e)\n    | (r, .panic) => (r, .panic)\n    | (r, .ok ()) =>\n      match', '| (r, .err _) => (r, saveBlob P C v\'.ord v\'.ord\' iv r.u)\n    | (r, .panic) => (r, .panic)\n    | (r, .ok ()) =>\n      match', 'C119', 'an error at the prompt does not save')
F = 'App/File.lean'
m(F, 'work', '| (r, .err e) => (r.u, .err e)\n      | (r, .panic) => (r.u, .panic)\n      | (r, .ok ()) =>', '| (r, .err _) => (r.u, .ok ())\n      | (r, .panic) => (r.u, .panic)\n      | (r, .ok ()) =>', 'C119', 'an error at the prompt does not save')
F = 'App/Sync.lean'
m(F, 'syncWith', '| (.err _, inp) => { session := u, result := .ok ()', '| (.err _, inp) => { session := u, result := .err .poisoned', 'C118', 'a merge that fails is not reported')
# aimed at C120
F = 'App/Sync.lean'
m(F, 'newHosts', '| (uuid, _, h) :: l, m => newHosts l (if h = [] then m else m.set uuid h)', '| (_, .skip, _) :: l, m => newHosts l m\n  | (uuid, _, h) :: l, m => newHosts l (if h = [] then m else m.set uuid h)', 'C120', 'a line is recorded even if the copy cannot be used')
m(F, 'newHosts', '| (uuid, _, h) :: l, m => newHosts l (if h = [] then m else m.set uuid h)', '| (uuid, _, h) :: l, m => newHosts l (if m = [] then m.set uuid h else m)', 'C120', 'every new line is recorded')
m(F, 'pushBack', 'saveHosts v.now\' s (v.ordH hosts) with', 'saveHosts v.now\' s ((v.ordH hosts).map fun p => (p.1, [])) with', 'C120', 'a line from sending is recorded')
F = 'App/Hosts.lean'
m(F, 'appendHost', 'join newline (split newline hosts ++ [hostentry])', 'hosts ++ hostentry', 'C120', 'each line stands alone')
m(F, 'appendHost', 'if hosts = [] then hostentry else', 'if hosts ≠ [] then hostentry else', 'C120', 'earlier lines stay')
F = 'App/Net.lean'
m(F, 'sshPush', 'host := if ok then t.host else []', 'host := t.host', 'C120', 'a line accepted while sending is dropped if that fails')
m(F, 'dial', 'host := h.getD []', 'host := if s.login c.user c.auth then h.getD [] else []', 'C120', 'a line is reported even if the login fails')
# aimed at C121
F = 'App/Repl.lean'
m(F, 'queryArg', 'if ctx = [] then args.head? else some ctx', 'if ctx = [] then args.head? else some (args.head?.getD ctx)', 'C121', 'a name that is given is not looked at')
m(F, 'execRead', 'let (q, rest) := if r.ctx = [] then (args.head?, args.drop 1) else (some r.ctx, args)', 'let (q, rest) := if r.ctx = [] then (args.head?, args.drop 1) else (some r.ctx, args.drop 1)', 'C121', 'show takes the snapshot from the first argument')
m(F, 'execWrite', '(match args with | q :: _ => q | [] => r.ctx)', '(if r.ctx = [] then args.head?.getD [] else r.ctx)', 'C121', 'login looks at the name it is given')
m(F, 'execWrite', '| some (q, k, _) => back r (edit v r.u q k)', '| some (q, k, _) => back r (edit v r.u (if args.length = 1 then k else q) k)', 'C121', 'edit in the current entry')
m(F, 'setArgs', 'if q = [] ∨ k = [] then none else some (q, k, join 32 rest)', 'if q = [] ∨ k = [] then none else some (q, k, if ctx = [] then join 32 rest else rest.head?.getD [])', 'C121', 'set in the current entry takes the whole value')
m(F, 'queryArgs', '| k :: rest => some (ctx, k, rest)', '| k :: rest => some (ctx, k, rest.drop 1)', 'C121', 'the arguments after the key')
F = 'App/Clip.lean'
m(F, 'writeCopies', '(match args with | q :: _ => q | [] => r.ctx)', '(match args with | q :: _ => if r.ctx = [] then q else r.ctx | [] => r.ctx)', 'C121', 'login copies from the entry it is given')
# aimed at failing writes (C55, C56, C92)
F = 'Scp/Writes.lean'
m(F, 'readFileW', 'else if w2.isSome then .err none\n                  else .ok', 'else .ok', 'C56', 'the last acknowledgement counts')
m(F, 'sendFileW', 'else if w2.isSome then (header ++ contents, .err none)\n', '', 'C55', 'the last byte counts')
m(F, 'sendFileW', 'if contents ≠ [] ∧ w1.isSome then (header ++ through w1 contents, .err none)', 'if contents ≠ [] ∧ w1.isSome then (header ++ through w1 contents, .ok ())', 'C55', 'a short copy is an error')
m(F, 'receivedW', '| .err none => some .failed', '| .err none => some .notFound', 'C92', 'an error of the connection does not mean that the file is missing')
m(F, 'deliveredW', '&& r.exit && r.close)', '&& r.close)', 'C92', 'the exit status counts')
# aimed at C122
F = 'App/Random.lean'
m(F, 'pwLoopR', '| .err none => .err none\n      | .err (some _) => next', '| .err none => next { st with password := [], shown := false } (i + 1)\n      | .err (some _) => next', 'C122', 'a failed request ends the password prompt')
m(F, 'deriveKeyR', '| none => .err none\n  | some salt => asked (deriveKey P 1 pass salt)', '| none => asked (deriveKey P 1 pass (List.replicate saltSize 0))\n  | some salt => asked (deriveKey P 1 pass salt)', 'C122', 'the error of the request for a salt counts')
m(F, 'encryptMasterKeyR', '| none => .err none\n    | some iv => asked', '| none => asked (encryptMasterKey P 1 userKey master (List.replicate blockSize 0))\n    | some iv => asked', 'C122', 'the error of the request for an iv counts')
m(F, 'newR', '| none => (s, .err none)\n      | some uuid =>', '| none => (s.add (now 0) [], .ok [])\n      | some uuid =>', 'C122', 'the error of the request for an identifier counts')
m(F, 'rekeyAllR', '      | _, _ => (u, .err none)', '      | _, _ => (u, .ok [])', 'C122', 'rekeyall reports that no master key could be made')
m(F, 'encryptR', '        | none => .err none\n        | some iv => asked (encryptSingle P p iv pt)', '        | none => asked (encryptSingle P p salt pt)\n        | some iv => asked (encryptSingle P p iv pt)', 'C122', 'the error of the request for the iv of the file counts')
m(F, 'interruptibleR', '| .err (some .aborted) => if v.ctrlC then .err (some .aborted) else .ok ()', '| .err (some .aborted) => if v.ctrlC then .err (some .aborted) else .ok ()\n  | .err none => .ok ()', 'C122', 'add and addsync forgive the end of input only')
m(F, 'adduserR', '| _, _ => ({ u with creds := { u.creds with master := [], ivm := [] } }, .ok ())', '| _, _ => ({ u with creds := { u.creds with master := [], ivm := [] } }, .err none)', 'C122', 'adduser drops the error of NewMasterKey')
m(F, 'rekeyLoopR', '| .err none => (u, .err none)\n    | .err (some _) => (u, .err (some .genPassword))', '| .err none => (u, .ok out)\n    | .err (some _) => (u, .err (some .genPassword))', 'C122', 'rekeyall does not stop half way')
# aimed at C123
F = 'App/Transfer.lean'
m(F, 'importRecord', 'setSome s (d.now 5) uuid keyPass pass', 'setSome s (d.now 3) uuid keyPass pass', 'C123', 'operations are dated in order')
m(F, 'importRecord', 'setSome s (d.now 7) uuid keyNotes extra', 'setSome s (d.now 7) uuid keyName extra', 'C123', 'values do not go into the name')
m(F, 'underscores', 'if b = 32 then 95 else b', 'if b = 32 then 195 else b', 'C123', 'names are text')
m(F, 'importRecords', '| (s, .ok ()) => importRecords toLower ord (fun i => ds (i + 1)) s rest', '| (s, .ok ()) => importRecords toLower ord ds s rest', 'C123', 'each record gets its own identifier')
m(F, 'importLastpass', '({ u with store := s }, r)', '({ u with store := s, startTx := s.log.length }, r)', 'C123', 'an import changes the store only')
F = 'App/Session.lean'
m(F, 'createFile', 'salt := salt }, store := {}, readOnly := history.isSome, startTx := 0', 'salt := salt }, store := {}, readOnly := false, startTx := 0', 'C123', 'a new file with --time is read-only')
# aimed at C124
F = 'App/Scan.lean'
m(F, 'scanLine', 'scanMax ≤ (s.takeWhile (· ≠ 10)).length then none', 'false then none', 'C124', 'a line that does not fit ends the input')
m(F, 'dropCR', 'if s.getLast? = some 13 then s.dropLast else s', 's', 'C124', 'a carriage return before the line feed is dropped')
m(F, 'scanLine', '(s.dropWhile (· ≠ 10)).drop 1', '(s.dropWhile (· ≠ 10))', 'C124', 'the line feed is consumed')
m(F, 'winEnv', '{ v with ctrlC := true }', '{ v with ctrlC := false }', 'C124', 'the end of the input is an interruption')
F = 'App/Repl.lean'
m(F, 'execRead', 'else if cmd = b! "exit" then', 'else if cmd = b! "quit" then', 'C124', 'only exit ends the prompt')
F = 'App/Input.lean'
m(F, 'promptMultiline', '| none :: rest, lines, _ => (if ctrlC then none else some (join 10 lines), rest)', '| none :: rest, lines, _ => (some (join 10 lines), rest)', 'C124', 'an interrupted text is not kept')
# aimed at C123 with users
F = 'App/Transfer.lean'
m(F, 'importRecord', 'setSome s (d.now 7) uuid keyNotes extra', 'setSome s (d.now 7) uuid keyMKey extra', 'C123', 'an import writes no keys of accounts')
m(F, 'importRecords', '| (s, .ok ()) => importRecords toLower ord (fun i => ds (i + 1)) s rest', '| (s, .ok ()) => importRecords toLower ord (fun i => ds (i + 1)) (s.delete ((ds 0).now 8) ((s.log.head?.map Tx.uuid).getD [])) rest', 'C123', 'an import deletes nothing')
# aimed at C125
F = 'App/Sync.lean'
m(F, 'pullOne', '| (some (.failed, h), inp) => (some (.skip, h), inp)', '| (some (.failed, h), inp) => (some (.absent, h), inp)', 'C125', 'a remote that cannot be reached is not written to')
m(F, 'pullOne', '| (some (.failed, h), inp) => (some (.skip, h), inp)', '| (some (.failed, _), inp) => (none, inp)', 'C125', 'a remote that cannot be reached ends nothing')
m(F, 'syncWith', '| (.err _, inp) => { session := u, result := .ok (), rest := inp }', '| (.err _, inp) => { session := u, result := .err .aborted, rest := inp }', 'C125', 'a merge that is declined loses nothing')
m(F, 'syncWith', '| (.err _, inp) => { session := u, result := .ok (), rest := inp }', '| (.err _, inp) => { session := { u with store := u.store.resetSnapshot }, result := .ok (), rest := inp }', 'C125', 'a merge that is declined changes nothing')
m(F, 'syncWith', '({ u.store.resetSnapshot with log := m.log } : DB).updateSnapshot', '({ u.store with log := m.log } : DB).updateSnapshot', 'C125', 'the snapshot is built from the merged log')
F = 'App/Repl.lean'
m(F, 'autoSync', '({ r with u := x.session }, x.result)', '({ r with u := x.session }, .ok ())', 'C125', 'a failed synchronisation ends the run')
# aimed at C47 for any file
F = 'Crypt/Model.lean'
m(F, 'decryptMulti', 'users := rs.map UserRec.hash', 'users := rs.map UserRec.hash ++ (if found.isSome then [] else [P.sha256 user])', 'C47', 'a name that is not listed is not added')
m(F, 'decryptMulti', 'ivs := rs\'.map UserRec.iv', 'ivs := (rs\'.map UserRec.iv).reverse', 'C47', 'each user keeps their own vector')
m(F, 'decryptMulti', 'keys := (List.replicate n.toNat []).set i key', 'keys := (List.replicate n.toNat []).set i master', 'C47', 'the key returned is the user key')
m(F, 'decryptSingle', 'salts := [salt], ivs := [iv] }, pt)', 'salts := [iv], ivs := [salt] }, pt)', 'C47', 'the salt returned is that of the file')
# aimed at C13 and C80
F = 'Txlogs/Merge.lean'
m(F, 'merge', '| some true => .log a', '| some true => .log b', 'C13', 'this machine keeps its own log')
F = 'App/Sync.lean'
m(F, 'pullOne', '| some true => (some (.skip, h), inp)', '| some true => (some (.absent, h), inp)', 'C80', 'a remote that is taken for the own file is not overwritten')
# aimed at C126
F = 'App/Commands.lean'
m(F, 'renameCmd', '(s, .ok ()) => ({ u with store := s }, .ok ())', '(s, .ok ()) => ({ u with store := s, creds := { u.creds with user := dst } }, .ok ())', 'C126', 'a renaming leaves the credentials')
m(F, 'renameCmd', '| (u, .ok none) => (u, .ok ())', '| (u, .ok none) => (u, .err .aborted)', 'C126', 'control: an unknown name is not an error (C79)')
F = 'App/Session.lean'
m(F, 'makeParams', '.ok us) =>\n      match paramLoop', '.ok us) =>\n      if us.isEmpty then (s, .ok { keys := [c.key], salts := [c.salt] }) else\n      match paramLoop', 'C126', 'without users and with a master key nothing is saved')
F = 'App/Accounts.lean'
m(F, 'storeUser', 'u.store user with\n  | (s, .panic) => ({ u with store := s }, .panic)\n  | (s, .err e) => ({ u with store := s }, .err (.blob e))\n  | (s, .ok (uuid, _)) =>\n    match encryptMasterKey', 'u.store user with\n  | (s, .panic) => ({ u with store := s }, .ok ())\n  | (s, .err e) => ({ u with store := s }, .err (.blob e))\n  | (s, .ok (uuid, _)) =>\n    match encryptMasterKey', 'C126', 'a missing own entry crashes passwd')
m(F, 'deleteEntry', 'if deleteSelf then { u with creds', 'if deleteSelf || true then { u with creds', 'C126', 'rm of a renamed account keeps the master key')
# aimed at C127
F = 'App/Commands.lean'
m(F, 'list', 'lift u (search v.lower v.ord u.store q)', 'if u.readOnly then (u, .ok []) else lift u (search v.lower v.ord u.store q)', 'C127', 'ls lists the entries in every mode')
m(F, 'dump', 'none fun u _ e => (u, .ok (some e))', 'none fun u _ e => if u.creds.user = [] then (u, .ok (some e)) else (u, .ok none)', 'C127', 'dump prints for every user')
m(F, 'getCmd', '| some value => (u, .ok (some value))', '| some value => if u.creds.master = [] then (u, .ok (some value)) else (u, .ok none)', 'C127', 'get does not depend on the keys')
F = 'App/Repl.lean'
m(F, 'readOnlyFlag', 'b! "show", b! "dump"', 'b! "dump"', 'C127', 'control: show is a known command (C81)')
# aimed at C128
F = 'Blob/Model.lean'
m(F, 'exactMatch', '| [] => []\n', '| [] => []\n  | [(u, _)] => u\n', 'C128', 'without an exact match findOne selects nothing')
m(F, 'findOne', '| es => (s, .ok (exactMatch q es))', '| (id, _) :: _ => (s, .ok id)', 'C128', 'findOne does not take the first result')
F = 'App/Show.lean'
m(F, 'lsLines', 'sortStr ((ord\' r).map Prod.snd)', '(ord\' r).map Prod.snd', 'C128', 'ls sorts the names')
F = 'App/Complete.lean'
m(F, 'complete', '(u, .ok (sortStr ((v.ord\' r).map Prod.snd)))', '(u, .ok ((v.ord\' r).map Prod.snd))', 'C128', 'TAB sorts the names')
F = 'App/Accounts.lean'
m(F, 'deleteEntry', 'if us.length > 1 then', 'if us.head?.map Prod.fst ≠ some uuid then', 'C128', 'rm of oneself does not depend on the first account visited')
# aimed at C129
F = 'App/Commands.lean'
m(F, 'renameCmd', 'if uuid = [] then (u, .ok ())\n    else\n      match Blob.rename', 'if uuid = [] ∨ u.startTx = u.store.log.length then (u, .ok ())\n    else\n      match Blob.rename', 'C129', 'mv does not depend on when the run began')
m(F, 'addLabels', 'v.d.inp (labels e) false', 'v.d.inp (if u.startTx = 0 then [] else labels e) false', 'C129', 'labels does not depend on when the run began')
F = 'App/Accounts.lean'
m(F, 'deleteEntry', 'if uuid = [] then (u, .ok ())', 'if uuid = [] ∨ u.store.version = 0 then (u, .ok ())', 'C129', 'rm does not depend on the version of the snapshot')
m(F, 'rekey', 'if u.creds.master = [] then (u, .ok ())\n        else storeUser P ord d u (if', 'if u.creds.master = [] ∨ u.startTx = 0 then (u, .ok ())\n        else storeUser P ord d u (if', 'C129', 'rekey works in every run')
# aimed at C130
F = 'App/Repl.lean'
m(F, 'readOnlyFlag', 'b! "sync", b! "addsync"]', 'b! "sync", b! "addsync", b! "rmuser"]', 'C130', 'every command is described')
m(F, 'queryArg', 'if ctx = [] then args.head? else some ctx', 'if ctx = [] then some (args.head?.getD []) else some ctx', 'C130', 'open without a query does nothing')
m(F, 'queryArgs', '| q :: k :: rest => some (q, k, rest)\n    | _ => none', '| q :: k :: rest => some (q, k, rest)\n    | [q] => some (q, [], [])\n    | _ => none', 'C130', 'rmk without a key does nothing')
F = 'App/Help.lean'
m(F, 'helpCmd', 'if t = b! "sync" then syncHelp', 'if t = b! "addsync" then syncHelp', 'C130', 'help sync prints the topic')
# aimed at C131
F = 'App/Session.lean'
m(F, 'openStore', '| none => .ok { creds := c, store := s, readOnly := false, startTx := s.log.length }', '| none => .ok { creds := c, store := s, readOnly := s.log.length > 3, startTx := s.log.length }', 'C131', 'a file can be changed after it was opened')
m(F, 'openFile', 'user := user, pass := pwd, key := key', 'user := user, pass := [], key := key', 'C131', 'the password is kept after opening')
m(F, 'openFile', 'ivm := p.ivm.getD []', 'ivm := []', 'C131', 'the iv of the master key is kept after opening')
# aimed at C132
F = 'Blob/Model.lean'
m(F, 'protectedKeys', '[keyTwoFactor, keyName, keyIV, keySalt, keyMKey, keyUpdated]', '[keyTwoFactor, keyName, keyIV, keySalt, keyUpdated]', 'C132', 'set refuses mkey')
m(F, 'protectedKeys', '[keyTwoFactor, keyName, keyIV, keySalt, keyMKey, keyUpdated]', '[keyTwoFactor, keyName, keySalt, keyMKey, keyUpdated]', 'C132', 'set refuses iv')
# C120_sent_partial was added because the edit of pushBack aimed at C120 was noticed by other claims only
F = 'App/Sync.lean'
m(F, 'pushBack', "saveHosts v.now' s (v.ordH hosts) with", "saveHosts v.now' s [] with", 'C120', 'a line accepted while sending is recorded', tightened=['App.C120_sent_partial', 'App.C120_sync_sent_partial'])
