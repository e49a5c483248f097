import Verif.App.Sync
import Verif.App.SessionSpec
/-!
# What the properties of `sync` talk about
-/
namespace Verif.App.Spec
open Verif Verif.Txlogs Verif.Blob Verif.Crypt Verif.App

/-- the entry as `sync` sees it: from the snapshot after the update it starts with -/
def syncEntry (u : Session) (uuid : Str) : Entry := (u.store.updateSnapshot.1.snapshot.get? uuid).getD []

/-- The remote exists but could not be read. -/
def CanFail (w : World) (uuid : Str) (e : Entry) : Prop := ∃ inp h inp', pullBlob w uuid e inp = (some (.failed, h), inp')

/-- There is no file at the remote. -/
def Absent (w : World) (uuid : Str) (e : Entry) : Prop := ∃ inp h inp', pullBlob w uuid e inp = (some (.notFound, h), inp')

/-- These bytes were read from the remote. -/
def Reads (w : World) (uuid : Str) (e : Entry) (ct : Str) : Prop :=
  ∃ inp h inp', pullBlob w uuid e inp = (some (.bytes ct, h), inp')

/-- The bytes can be decrypted, with some user name and passphrase, to a text that parses as a log. -/
def Understood (P : Prims) (C : Codec) (c : Creds) (ct : Str) : Prop :=
  ∃ user pass v p pt log, decrypt P user pass (orNil c.key) c.salt ct = .ok (v, p, pt) ∧ pt ≠ [] ∧ C.loadLog pt = .ok log

/-- Nothing happened to the session but a refreshed snapshot, and nothing was sent. -/
def Untouched (u : Session) (r : Synced) : Prop :=
  r.session.creds = u.creds ∧ r.session.store.log = u.store.log ∧ r.session.store.txPoint = u.store.txPoint ∧
    r.session.readOnly = u.readOnly ∧ r.session.startTx = u.startTx ∧ r.pushed = []

/-- what sending `ct` to the remote with entry `e` comes to: the scheme decides who is asked -/
def Delivered (w : World) (uuid : Str) (e : Entry) (ct : Str) (ok : Bool) : Prop :=
  (w.scheme (val e keyURL) = some syncSCP → ∃ i i' h, w.sshPush uuid e ct i = (some (ok, h), i')) ∧
  (w.scheme (val e keyURL) = some syncFile → ok = w.writeFile uuid e ct) ∧ w.scheme (val e keyURL) ≠ none

end Verif.App.Spec
