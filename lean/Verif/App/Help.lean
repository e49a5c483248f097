import Verif.App.Repl
/-!
# Model of the help at the prompt (repl.go:13-107, 547-562)

The texts are those of the source, as lists of lines. `usage` reads a line of the help as a person does: the command, then its
arguments, `<...>` for those that must be given and `[...]` for the others, up to a dash.
-/
namespace Verif.App
open Verif Verif.Txlogs Verif.Blob Verif.Crypt

/-- `replHelp` (repl.go:13-57), line by line -/
def replHelp : List Str :=
  [b! "Bpass repl uses analogs to basic unix commands for general",
   b! "familiarity and brevity however it's important to note that there is no actual",
   b! "directory hierarchy, you can however \"cd\" into an entry to omit specifying",
   b! "the entry name as a query in the key commands below.",
   b! "",
   b! "General Commands:",
   b! " passwd       - Change the file's password for current user",
   b! " help [topic] - This help (how did you find this without seeing this help?)",
   b! " exit         - Exit the repl",
   b! "",
   b! "Entry Commands (manage entries in the file):",
   b! " add <name>      - Add a new entry",
   b! " rm  <name>      - Delete an entry",
   b! " mv  <old> <new> - Rename an entry",
   b! " ls  [query]     - Lists entries, query restricts entries to a fuzzy match",
   b! " cd  [query]     - \"cd\" into an entry, omit argument to return to root",
   b! " labels <lbl...> - List entries by labels (entry must have all given labels)",
   b! "",
   b! "Key commands (manage keys in entries, use \"cd\" command to omit query from these commands):",
   b! " show <query> [snapshot]    - Show all keys for an entry (optionally at a specific snapshot)",
   b! " set  <query> <key> [value] - Set a value on an entry (omit value for multi-line or password gen)",
   b! " get  <query> <key>         - Show a specific key of an entry",
   b! " cp   <query> <key>         - Copy a specific key of an entry to the clipboard",
   b! " edit <query> <key>         - Open $EDITOR to edit an existing value",
   b! " open <query>               - Launch browser using value in url key",
   b! " rmk  <query> <key>         - Delete a key from an entry",
   b! "",
   b! " label   <query>            - Add labels in an easier way than with set",
   b! " rmlabel <query> <label>    - Remove labels in an easier way than with edit",
   b! "",
   b! "Clipboard copy shortcuts (alias of cp <query> <key>):",
   b! " pass  <query>       - Copy password to clipboard",
   b! " user  <query>       - Copy username to clipboard",
   b! " email <query>       - Copy email to clipboard",
   b! " totp  <query>       - Copy twofactor to clipboard",
   b! " login <query>       - Copy username, email, password and totp one after another",
   b! "",
   b! "Other help topics (use help <topic>):",
   b! " sync, users, other",
   b! "",
   b! "Common Arguments:",
   b! "  name:   a fully qualified name",
   b! "  query:  a fuzzy search (breaks on / for pseudo-folder structuring)",
   b! "  index:  the number representing the item, not 0-based"]

/-- `syncHelp` (repl.go:59-83), line by line -/
def syncHelp : List Str :=
  [b! "Syncing the file with remotes in bpass is done via sync entries.",
   b! "",
   b! "A sync entry must have a url key with the type of sync as it's schema",
   b! "(eg. scp://) as the most basic requirement.",
   b! "",
   b! "Certain sync types (such as scp) may require other keys to be present to work",
   b! "correctly. The best way to ensure that you have a properly configured sync",
   b! "entry is to use the \"addsync\" command.",
   b! "",
   b! "Additionally if the \"sync\" key of an entry is set to \"true\" then this entry",
   b! "will be automatically synchronized when an auto-sync occurs (usually",
   b! "when opening/closing the file, or running \"sync\" with no arguments)",
   b! "",
   b! "Types of sync: scp, file",
   b! "",
   b! "Example of values in an auto-sync scp account:",
   b! " url: scp://myuser@localhost.com:22/folder/filename.blob",
   b! " sync: true",
   b! " privkey: ======= RSA PRIVATE KEY ======= ...",
   b! " pubkey: ssh-rsa AAA...238da friend@bpass.com",
   b! "",
   b! "Sync Commands:",
   b! " sync    [name]  - Sync (Pull, Merge, Push) the file to all auto-sync accounts (or a given account)",
   b! " addsync <kind>  - Sync entry setup wizard (help sync for more details)"]

/-- `usersHelp` (repl.go:85-103), line by line -/
def usersHelp : List Str :=
  [b! "Users in bpass are managed using user entries.",
   b! "",
   b! "When you first start a file, it is a single-user file and multi-user is not",
   b! "considered at all. When you first call adduser, the current user (you) are",
   b! "converted to a user entry in the database (user/<username>).",
   b! "",
   b! "Users are just entries with a particular naming scheme of: user/<username>",
   b! "",
   b! "These entries contain many system fields that cannot be set manually but apart",
   b! "from those user entries are unremarkable and can be renamed with mv or deleted",
   b! "with rm. (Remember when renaming to keep the user/ prefix intact or the user",
   b! "will no longer be considered a user).",
   b! "",
   b! "User/Password Commands:",
   b! " adduser <user> - Add user to the file (first add should use current user's username)",
   b! " passwd  [user] - Change the file's password for current user, or a specific user",
   b! " rekey   [user] - Rekey the file (change salt) for current user, or a specific user",
   b! " rekeyall       - Nuclear button, change all passwords & master key for all users"]

/-- `otherHelp` (repl.go:105-108), line by line -/
def otherHelp : List Str :=
  [b! "Debug commands:",
   b! " dump <query>      - Dumps an entire entry in debug mode",
   b! " dumpall           - Dumps the entire store in debug mode"]

/-- the command `help` (repl.go:547-562): the lines printed -/
def helpCmd (args : List Str) : List Str :=
  match args with
  | [] => replHelp
  | t :: _ =>
    if t = b! "sync" then syncHelp
    else if t = b! "users" then usersHelp
    else if t = b! "other" then otherHelp
    else []

namespace Spec

/-- the words before a dash; `none` if there is none -/
def beforeDash : List Str → Option (List Str)
  | [] => none
  | w :: rest => if w = b! "-" then some [] else (beforeDash rest).map (w :: ·)

/-- an argument that must be given -/
def mandatory (w : Str) : Bool := w.head? = some 60

/-- what the help says about a command: its name, how many arguments it needs, how many it has, and whether the first is a query,
which can be left out when there is a current entry -/
structure Usage where
  cmd : Str
  need : Nat
  all : Nat
  query : Bool
  deriving DecidableEq

/-- what a line of the help says about a command. Such lines are indented by one space. -/
def usage (line : Str) : Option Usage :=
  match line with
  | 32 :: c :: _ =>
    if c = 32 then none
    else
      match beforeDash (fields line) with
      | some (cmd :: args) => some ⟨cmd, (args.filter mandatory).length, args.length, args.head? = some (b! "<query>")⟩
      | _ => none
  | _ => none

/-- the topics named in the main help: the words after the line that announces them, without commas -/
def topics : List Str → List Str
  | a :: b :: rest =>
    if a = b! "Other help topics (use help <topic>):" then (fields b).map (fun w => w.filter (· ≠ 44)) else topics (b :: rest)
  | _ => []

/-- everything the help says about commands: the main help and the topics it names -/
def usages : List Usage :=
  (helpCmd [] ++ (topics (helpCmd [])).flatMap fun t => helpCmd [t]).filterMap usage

end Spec
end Verif.App
