# Formal model of aarondl/bpass in Lean 4 — design

The properties are in `properties.jsonl` (C01…), the theorems claimed for them in `MANIFEST.json`, the model and the proofs in
`lean/Verif/`. Every model definition cites the Go file and lines it models. This file is written by `tools/design.py` from
`tools/design.md`, `tools/claims.py` and the output of `#print axioms`.

## Trusted base

* Lean's kernel (Lean 4.33.0). `decide +kernel` is evaluated by the kernel; `native_decide` and `bv_decide` are not used, no
  Mathlib module is imported, there is no `sorry`, `admit` or `axiom`.
* The axioms `propext`, `Quot.sound` and `Classical.choice` of Lean. The last section lists which theorem depends on which.
* The model itself: that the Lean definitions say what the Go code does. Nothing checks this but reading; the citations at the
  definitions are there for that purpose. What was simplified is listed below and at the definitions.
* The semantics of Go and of the parts of its standard library and of third-party libraries that appear as Lean definitions
  (`Verif/Go`, `Verif/Csv`, `Verif/Json`: `strings`, `strconv`, `unicode/utf8`, `encoding/hex`, `encoding/csv`, `encoding/json`,
  `sort`), written from their documentation and behaviour.
* For theorems about encrypted files: the hypothesis `Crypt.Spec.Lawful` about block ciphers, hashes and the key derivation
  (sizes; decryption of a block inverts encryption). It is not an axiom but an argument of the theorems; `Crypt.Spec.toy_lawful`
  shows that it can be met. No theorem assumes that the ciphers are hard to break, so secrecy is not a subject of this model.

## Layout

| Layer | Model modules | What is modelled |
|---|---|---|
| base | `Go/*` | byte strings, Go maps (association lists with an explicit order of visiting), `strings.*`, `strconv.*`, hex, UTF-8, sorting, panics as values |
| txlogs | `Txlogs/Model`, `Txlogs/Merge` | `DB` and all its methods, `applyTx`, `Merge`, `Conflict` |
| json | `Json/Model` | the text form of a store: `json.Marshal` and `json.Unmarshal` for the types of `txlogs` |
| blobformat | `Blob/Model`, `Fuzzy/Model` | `Blobs`, `Blob`, search, labels, users, `findOne` |
| crypt | `Pkcs7/Model`, `Crypt/Model` | padding, CBC, the cascade, header layout, `Encrypt`, `Decrypt`, `IsMultiUser`, key wrapping, `validate` |
| csv | `Csv/Model` | `encoding/csv` as used for export and import |
| scp | `Scp/Model`, `Scp/Writes` | the byte protocol of scp; the same when writes to the connection fail |
| app | `App/Input`, `PassGen` | the prompts of `uihelpers.go`, the password generator |
| | `App/Session`, `Accounts`, `Commands`, `Show` | `uicontext.go`, loading and saving, every command of `commands.go`, what the reading commands print |
| | `App/Hosts`, `Merging`, `Sync` | known hosts, `mergeLogs`, `mergeBlobs`, `sync` against arbitrary remotes |
| | `App/Net`, `Go/Url` | `url.Parse` and `URL.String`, `sshConfig`, `sshPull`, `sshPush`, `Recv`, `Send`, the scp command line, against arbitrary servers |
| two factor | `Otp/Model`, `Go/Query` | `SetTwofactor`, `TwoFactor` with what they use of pquerna/otp v1.3.0 and Go's base32 and url packages, written from knowledge of these libraries as their source is not in the repository |
| time | `Go/Time`, `App/Past` | what bpass uses of Go's package time (parsing the time of `--time`, dates, nanoseconds), written from knowledge of the library; opening a file at that time |
| | `App/Transfer`, `File`, `Repl` | export, import, the file on disk while it is saved, the prompt, `main` and the exit status |
| | `App/Random` | the commands, a run and a new file when requests for random bytes fail (requests made by `sync` excepted) |
| | `App/Help` | the texts of `help`, and the commands and arguments they describe |
| | `App/Edges` | `pinentry`, the hidden line editor of Windows, the choice of the file, the short path |

In each layer model files hold only definitions, `*Lemmas*.lean` helper proofs, `*Props.lean` the property theorems (claimed
theorems are called `Cnn_…`), and `*Spec.lean` the definitions that the statements of the theorems use besides the model. Theorems
whose name ends in `_partial` prove less than the property says, those ending in `_false` prove that some form of the property
does not hold, by a concrete witness. Below every theorem or at the end of its file there are `example`s in which its hypotheses
are met.

## Modelling conventions

* Go `string`/`[]byte` = `List UInt8` (`Str`). `int64` timestamps = `Int` (only compared). `uint`/`int`
  lengths = `Nat`/`Int`, unbounded (the code does no arithmetic that could wrap for any log that fits in memory;
  where `byte(...)` truncation matters — pkcs7, the password generator — it is modelled exactly).
* Go map = association list. The order in which a map is visited is an explicit argument: any permutation of the map, so
  theorems hold for every order the Go runtime may pick.
* Errors are values; a run-time panic is the separate outcome `panic`.
* Clock readings, fresh uuids, random bytes, user input, file contents and remote replies are arguments of the functions, and the
  theorems quantify over them.
* A prompt takes one element of the input list: a line, or an interruption. When the list is used up prompts fail (end of
  input). A loop that asks again until it gets an acceptable answer is recursion on this list.
* Slices are values without spare capacity: slicing beyond the length is a panic, and `append` never writes into another slice.
  Where Go slices alias, the comment at the definition says so.

## What is not modelled

| Go code | Not modelled |
|---|---|
| `cli.go` | the flag parser (a library); how the file is chosen after it (C84) and what `--time` means (C99) are modelled |
| `main.go` | set-up of the terminal, colours, clearing the clipboard, `version`; `gen` is `getPassword` |
| `commands.go`, `repl.go` | messages and colours, except what `get`, `ls`, `labels`, `show` print or copy and the text of `help` (C130); starting the editor or browser (the edited text and the outcome are arguments); making keys and two-factor codes (arguments) |
| `sync.go` | the cryptography of ssh: that a server has the private key of the host key it shows is taken for granted. Up to C89 the connection and the parsing of URLs are arbitrary functions; `App/Net` and `Go/Url` model them |
| `scpsync` | — |
| `crypt` | the ciphers, hashes and scrypt (arbitrary functions with `Lawful`), `decryptV0` (always an error); errors of the random source only in `App/Random` (C122) |
| `readline.go`, `line_editing.go` | the line editor (a library): prompts deliver lines. `noreadline.go` is modelled but for the console calls (C85, C124) |
| `osutil` | starting programs |
| `txlogs/errors.go` | texts of messages |

Third-party code (flaggy, readline, color, uuid, ssh, ciphers) is not modelled; it appears as arguments. Of otp the parts that bpass uses are modelled for C95, with HMAC-SHA1 and `strings.ToUpper` as arguments; elsewhere otp is an argument too.

## Plan per property

