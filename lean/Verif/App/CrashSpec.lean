import Verif.App.HistorySpec
import Verif.App.FleetSpec
import Verif.App.NetSpec
import Verif.App.OwnSyncSpec
/-!
# What the property that `sync` does not crash talks about
-/
namespace Verif.App.Spec
open Verif Verif.Txlogs Verif.Txlogs.Spec Verif.Blob Verif.Crypt Verif.App

/-- `url` and `hosts` tell which addresses and which lists of known hosts the outside world can be asked about without a crash; a
line that it wants to be remembered keeps a list of known hosts such. -/
structure Gentle (w : World) (url hosts : Str → Prop) : Prop where
  url_nil : url []
  hosts_nil : hosts []
  pull : ∀ uuid e inp, url (val e keyURL) → hosts (val e keyKnownHosts) → ∃ x h rest, pullBlob w uuid e inp = (some (x, h), rest) ∧
    (h ≠ [] → ∀ k, hosts k → hosts (appendHost k h))
  push : ∀ uuid e ct inp, url (val e keyURL) → hosts (val e keyKnownHosts) → ∃ ok h rest, pushBlob w uuid e ct inp = (some (ok, h), rest) ∧
    (h ≠ [] → ∀ k, hosts k → hosts (appendHost k h))

/-- No operation of the log writes another address or list of known hosts. -/
def CalmLog (url hosts : Str → Prop) (log : List Tx) : Prop :=
  ∀ t ∈ log, t.kind = .setk → (t.key = keyURL → url t.value) ∧ (t.key = keyKnownHosts → hosts t.value)

/-- Credentials as a session has them, in a file without users or with them. -/
structure SomeCreds (c : Creds) : Prop where
  key : c.key.length = 80
  salt : c.salt.length = 32
  master : c.master = [] ∨ (c.master.length = 80 ∧ c.ivm.length = 40)

/-- The salts and keys that are drawn at random have the right sizes. -/
structure DrawsOk (v : Env) : Prop where
  draw : DrawOk v.d
  salts : ∀ i, (v.ds i).salt.length = 32

/-- The file `f` with users is the store `s`, saved with the credentials `c`. -/
structure SavedShared (P : Prims) (C : Codec) (c : Creds) (f : Str) (s : DB) : Prop where
  creds : MultiCreds c
  good : Good s
  users : WfUsers P s
  idle : s.txPoint = 0
  faithful : Faithful C s
  saved : ∃ ord ord' iv, (∀ m, (ord m).Perm m) ∧ (∀ m, (ord' m).Perm m) ∧
    saveBlob P C ord ord' iv { creds := c, store := s } = .ok (some f)

/-- `enters` are the names and passphrases that open the file `f`. The session's own do, or every one that is typed does or is refused;
another name than that of the session is asked for only if it has none. -/
def Answered (P : Prims) (c : Creds) (f : Str) (typed : Input) (enters : Str → Str → Prop) : Prop :=
  enters c.user c.pass ∨ ∀ user pass, user = c.user ∨ (c.user = [] ∧ some user ∈ typed) → pass = c.pass ∨ some pass ∈ typed →
    enters user pass ∨ decrypt P user pass (orNil c.key) c.salt f = .err .wrongPassphrase ∨
      (user = [] ∧ decrypt P user pass (orNil c.key) c.salt f = .err .needUser)

/-- `f` is a file that bpass wrote, without users or with them, and it opens with what the session knows or what is typed. -/
def CanOpen (P : Prims) (C : Codec) (c : Creds) (f : Str) (typed : Input) (log : List Tx) : Prop :=
  (∃ c', SingleCreds c' ∧ SavedAs P C c' f log ∧
    Answered P c f typed fun _ pass => Crypt.Spec.Credentials P pass (orNil c.key) c.salt c'.salt c'.key) ∨
  ∃ c' s, SavedShared P C c' f s ∧ s.log = log ∧
    Answered P c f typed fun user pass => ∃ salt key, Account P s c'.master user salt key ∧
      Crypt.Spec.Credentials P pass (orNil c.key) c.salt salt key

/-- The remotes that `sync nm` asks. -/
def Chosen (w : World) (v : SyncEnv) (nm : Str) (s : DB) (uuid : Str) : Prop :=
  (nm = [] → uuid ∈ collectSyncs w v.ord s) ∧ (nm ≠ [] → Blob.Spec.Named s uuid nm)

/-- What every chosen remote gives is no file at all or a file of that kind with a log that is not empty. -/
structure CalmSync (P : Prims) (C : Codec) (w : World) (v : SyncEnv) (nm : Str) (u : Session) (inp : Input)
    (url hosts : Str → Prop) : Prop where
  gentle : Gentle w url hosts
  listens : Listens w
  creds : SomeCreds u.creds
  calm : CalmLog url hosts u.store.log
  iv : v.iv.length = 40
  ord : ∀ m, (v.ord m).Perm m
  ord' : ∀ m, (v.ord' m).Perm m
  held : ∀ uuid i f h rest, i <:+ inp → Chosen w v nm u.store.updateSnapshot.1 uuid →
    pullBlob w uuid ((u.store.updateSnapshot.1.snapshot.get? uuid).getD []) i = (some (.bytes f, h), rest) →
    ∃ log, CanOpen P C u.creds f inp log ∧ log ≠ [] ∧ CalmLog url hosts log

/-! ## The network -/

/-- An address that can be asked: it parses, and if it is one for ssh there is a path in it. -/
def GoodUrl (raw : Str) : Prop := ∃ u, Url.parse raw = some u ∧ (u.scheme = syncSCP → u.path ≠ [])

/-- Every line of the list of known hosts is empty or has the four fields. -/
def GoodHosts (known : Str) : Prop := ∀ line ∈ split newline known, line = [] ∨ 4 ≤ (split space line).length

/-- The servers do not announce a file of negative length, and their numerical address has no newline in it. -/
def Polite (o : Outside) : Prop :=
  ∀ a s, o.net a = some s → newline ∉ s.addr ∧ ∀ cmd inp, Scp.readFile (s.run cmd inp).out ≠ .panic

end Verif.App.Spec
