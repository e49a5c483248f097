import Verif.App.OnceProps

/-!
# C120, while sending

A server may be asked about only while sending: its key was not on record when the file was sealed. If the answer is yes and the
file arrives, the line is on record in the entry after the sync, and neither fetching nor sending asks again. (If it does not
arrive the line is dropped, C120_push.)
-/

namespace Verif.App

open Verif Verif.Txlogs Verif.Blob Verif.Crypt Verif.App.Spec

theorem pushAll_kept (w : World) (s : DB) (ct uuid : Str) : ∀ (ts : List Str) (m : Results) (inp : Input), uuid ∉ ts →
    (pushAll w s ct ts m inp).2.2.1.get? uuid = m.get? uuid
  | [], m, inp, _ => rfl
  | t :: ts, m, inp, h => by
    simp only [pushAll]
    split
    · rfl
    · rename_i ok x i _
      have := pushAll_kept w s ct uuid ts (if x = [] then m else m.set t x) i (fun k => h (by simp [k]))
      simp only
      rw [this]
      split
      · rfl
      · exact GoMap.get?_set_ne m (fun e => h (by simp [e])) x

/-- the line accepted while sending to a remote is handed on -/
theorem pushAll_host (w : World) (s : DB) (ct uuid : Str) (post : List Str) (hpost : uuid ∉ post) : ∀ (pre : List Str) (m : Results)
    (inp : Input), (pushAll w s ct (pre ++ uuid :: post) m inp).2.1 = false →
    ∃ ok h i, pushBlob w uuid ((s.snapshot.get? uuid).getD []) ct (pushAll w s ct pre m inp).2.2.2 = (some (ok, h), i) ∧
      (h ≠ [] → (pushAll w s ct (pre ++ uuid :: post) m inp).2.2.1.get? uuid = some h)
  | [], m, inp, hc => by
    simp only [List.nil_append, pushAll] at hc ⊢
    rcases hb : pushBlob w uuid ((s.snapshot.get? uuid).getD []) ct inp with ⟨_ | ⟨ok, h⟩, i⟩
    · rw [hb] at hc; cases hc
    · refine ⟨ok, h, i, rfl, fun hne => ?_⟩
      simp only
      rw [pushAll_kept w s ct uuid post _ i hpost, if_neg hne]
      exact GoMap.get?_set_self m uuid h
  | t :: pre, m, inp, hc => by
    simp only [List.cons_append, pushAll] at hc ⊢
    rcases hb : pushBlob w t ((s.snapshot.get? t).getD []) ct inp with ⟨_ | ⟨ok, h⟩, i⟩
    · rw [hb] at hc; cases hc
    · rw [hb] at hc
      exact pushAll_host w s ct uuid post hpost pre _ i hc

/-- A line accepted while sending is on record afterwards, and the server is not asked about again. `s1` is the store when the file
is sealed, `ct` the file; other remotes may come before and after. -/
theorem C120_sent_partial (P : Prims) (C : Codec) (o : Outside) (v : SyncEnv) (hosts : Results) (pre post : List Str) (uuid ct : Str)
    (u : Session) (inp : Input) (s1 s2 : DB) (c : SshConfig) (s : Server) (e' : Entry) (hord : ∀ r, (v.ordH r).Perm r)
    (hf : Fresh u.store) (hn : GoMap.NodupKeys hosts) (hpost : uuid ∉ post)
    (h1 : saveHosts v.now u.store (v.ordH hosts) = (s1, none))
    (h2 : sealFile P C v.ord v.ord' v.iv u.creds s1 = (s2, .ok ct))
    (hsc : (netWorld o).scheme (val ((s1.snapshot.get? uuid).getD []) keyURL) = some syncSCP)
    (hc : sshConfig o.parseKey ((s1.snapshot.get? uuid).getD []) = .ok c) (hnet : o.net c.address = some s)
    (hp : Plain (hostKey c.address s))
    (hyes : (sshPush o ((s1.snapshot.get? uuid).getD []) ct (pushAll (netWorld o) s1 ct pre [] inp).2.2.2).host ≠ [])
    (hok : (pushBack P C (netWorld o) v true hosts (pre ++ uuid :: post) u inp).result = .ok ())
    (he' : (pushBack P C (netWorld o) v true hosts (pre ++ uuid :: post) u inp).session.store.snapshot.get? uuid = some e') :
    OnRecord o.sha (val e' keyKnownHosts) c.address s ∧
      (sshConfig o.parseKey e' = .ok c → ∀ ct inp',
        (sshPull o e' inp').rest = inp' ∧ (sshPull o e' inp').host = [] ∧
        (sshPush o e' ct inp').rest = inp' ∧ (sshPush o e' ct inp').host = []) := by
  suffices H : OnRecord o.sha (val e' keyKnownHosts) c.address s from
    ⟨H, fun hc' ct inp' => ssh_quiet hc' hnet H ct inp'⟩
  obtain ⟨hf1, -⟩ := saveHosts_entry hf (perm_keys (hord _) hn) h1
  have hup : s1.updateSnapshot = (s1, none) := by
    rcases updateSnapshot_spec hf1.coh with ⟨snap, -, h2⟩ | ⟨e, n, snap, h2, -⟩
    · have h3 := update_fresh hf1
      rw [h2] at h3
      rw [h2, ← h3]
    · rw [hf1.meaning] at h2; cases h2
  have hst := sealFile_store P C v.ord v.ord' v.iv u.creds hup
  rw [h2] at hst
  simp only at hst
  subst hst
  unfold pushBack at hok he'
  rw [h1] at hok he'
  simp only [Bool.true_eq_false, if_false] at hok he'
  rw [h2] at hok he'
  simp only at hok he'
  have hnd := pushAll_nodup (netWorld o) s2 ct (pre ++ uuid :: post) [] inp GoMap.nodupKeys_nil
  have hh := pushAll_host (netWorld o) s2 ct uuid post hpost pre [] inp
  split at hok
  · cases hok
  · rename_i done more i h3
    rw [h3] at he' hnd hh
    simp only at he' hnd hh
    obtain ⟨ok, h, j, k1, k2⟩ := hh trivial
    have hhost : (sshPush o ((s2.snapshot.get? uuid).getD []) ct (pushAll (netWorld o) s2 ct pre [] inp).2.2.2).host = h := by
      unfold pushBlob at k1
      rw [hsc] at k1
      simp only [if_true, netWorld, Prod.mk.injEq] at k1
      obtain ⟨k1, -⟩ := k1
      cases hx : (sshPush o ((s2.snapshot.get? uuid).getD []) ct (pushAll (netWorld o) s2 ct pre [] inp).2.2.2).out with
      | none => simp only [netWorld] at hx; rw [hx] at k1; cases k1
      | some b =>
        simp only [netWorld] at hx
        rw [hx] at k1
        simp only [Option.map_some, Option.some.injEq, Prod.mk.injEq] at k1
        exact k1.2
    have hne : h ≠ [] := hhost ▸ hyes
    obtain ⟨c1, sv, a1, a2, a3, a4⟩ := C91_remember o _ ct _ h hne (.inr hhost)
    rw [hc] at a1; cases a1
    rw [hnet] at a2; cases a2
    split at hok
    · cases hok
    · rename_i s3 h4
      rw [h4] at he'
      simp only at he'
      obtain ⟨-, hent'⟩ := saveHosts_entry hf1 (perm_keys (hord _) hnd) h4
      obtain ⟨e1, b1, b2, -⟩ := hent' _ _ he'
      have hg : GoMap.get? (v.ordH more) uuid = some h := by
        rw [← GoMap.mem_iff_get? (m := v.ordH more) (perm_keys (hord _) hnd), (hord more).mem_iff, GoMap.mem_iff_get? hnd]
        exact k2 hne
      rw [b2]
      unfold addedTo
      rw [hg, a4]
      have := a3.1
      rw [show s2.snapshot.get? uuid = some e1 from b1] at this
      exact onRecord_new hp this

/-- The same of a whole sync whose merge goes through: `s0` is the merged store. -/
theorem C120_sync_sent_partial (P : Prims) (C : Codec) (o : Outside) (v : SyncEnv) (u : Session) (syncs pre post : List Str)
    (uuid ct : Str) (inp i1 i2 : Input) (l : List (Str × Fate × Str)) (m : Merged) (s0 s1 s2 : DB) (c : SshConfig) (s : Server)
    (e' : Entry) (hord : ∀ r, (v.ordH r).Perm r)
    (hpull : pullAll P C (netWorld o) u syncs inp = (some l, i1))
    (hmerge : mergeBlobs v.ord u.creds u.store.log (remotes l) i1 = (.ok m, i2))
    (hu : ({ u.store.resetSnapshot with log := m.log } : DB).updateSnapshot = (s0, none))
    (ht : targets l = pre ++ uuid :: post) (hpost : uuid ∉ post)
    (h1 : saveHosts v.now s0 (v.ordH (newHosts l [])) = (s1, none))
    (h2 : sealFile P C v.ord v.ord' v.iv m.creds s1 = (s2, .ok ct))
    (hsc : (netWorld o).scheme (val ((s1.snapshot.get? uuid).getD []) keyURL) = some syncSCP)
    (hc : sshConfig o.parseKey ((s1.snapshot.get? uuid).getD []) = .ok c) (hnet : o.net c.address = some s)
    (hp : Plain (hostKey c.address s))
    (hyes : (sshPush o ((s1.snapshot.get? uuid).getD []) ct (pushAll (netWorld o) s1 ct pre [] i2).2.2.2).host ≠ [])
    (hok : (syncWith P C (netWorld o) v true u syncs inp).result = .ok ())
    (he' : (syncWith P C (netWorld o) v true u syncs inp).session.store.snapshot.get? uuid = some e') :
    OnRecord o.sha (val e' keyKnownHosts) c.address s ∧
      (sshConfig o.parseKey e' = .ok c → ∀ ct inp',
        (sshPull o e' inp').rest = inp' ∧ (sshPull o e' inp').host = [] ∧
        (sshPush o e' ct inp').rest = inp' ∧ (sshPush o e' ct inp').host = []) := by
  have hok0 : Ok ({ u.store.resetSnapshot with log := m.log } : DB) :=
    ⟨⟨Nat.zero_le _, rfl⟩, GoMap.nodupKeys_nil, inner_nil⟩
  obtain ⟨hf, -⟩ := fresh_done hok0 hu
  unfold syncWith at hok he'
  rw [hpull] at hok he'
  simp only at hok he'
  rw [hmerge] at hok he'
  simp only at hok he'
  rw [hu] at hok he'
  simp only at hok he'
  rw [ht] at hok he'
  exact C120_sent_partial P C o v (newHosts l []) pre post uuid ct _ i2 s1 s2 c s e' hord hf
    (newHosts_nodup l [] GoMap.nodupKeys_nil) hpost h1 h2 hsc hc hnet hp hyes hok he'

namespace SentDemo
open NetDemo (server out)
open OnceDemo (u v yes none')
open Verif.Crypt.Spec (toy)

set_option maxRecDepth 1000000

def o : Outside := out [1] none'

/-- the file that is sent -/
def ct : Str :=
  match sealFile toy OnceDemo.C v.ord v.ord' v.iv u.creds u.store with
  | (_, .ok f) => f
  | _ => []

def done : Synced := pushBack toy OnceDemo.C (netWorld o) v true [] [[97]] u [yes]
def entry : Entry := (done.session.store.snapshot.get? [97]).getD []

/-- the server is asked about while sending only -/
example : OnRecord id (val entry keyKnownHosts) (b! "h:22") (server [1] none') := by
  have hf : Fresh u.store := (fresh_done (s := { log := OnceDemo.logL }) ⟨⟨Nat.zero_le _, rfl⟩, GoMap.nodupKeys_nil, inner_nil⟩ (s' := u.store)
      (Prod.ext rfl (by decide +kernel))).1
  refine (C120_sent_partial toy OnceDemo.C o v [] [] [] [97] ct u [yes] u.store u.store NetDemo.conf (server [1] none') entry
    (fun _ => .refl _) hf GoMap.nodupKeys_nil (by decide) (by decide +kernel) (by decide +kernel) (by decide +kernel) ?_ rfl
    (by unfold Plain; decide) (by decide +kernel) (by decide +kernel) (by decide +kernel)).1
  exact C90_scp_partial _ _ (b! "me") (b! "h") (b! "22") (b! "/pw") (some (b! "q")) (by decide +kernel) (by decide) NetDemo.host_ok (by decide)
      (by decide) (by decide) (.inl (by decide +kernel))

/-- a remote that is a file, and that says that it has become a server -/
def logF : List Tx :=
  [⟨1, .add, [97], [], []⟩, ⟨2, .setk, [97], keyName, b! "sync/a"⟩, ⟨3, .setk, [97], keySync, b! "true"⟩, ⟨4, .setk, [97], keyURL, b! "file:///x"⟩]
def logS : List Tx := logF ++ [⟨9, .setk, [97], keyURL, b! "scp://me:q@h:22/pw"⟩]
def CF : Codec where
  marshal _ := [1]
  load _ := .ok (some { log := logS })
  loadLog _ := .ok logS
def uF : Session := { u with store := ({ log := logF } : DB).updateSnapshot.1 }
def fileS : Str :=
  match saveBlob toy CF id id SyncDemo.iv { u with store := { log := logS } } with
  | .ok (some f) => f
  | _ => []
def oF : Outside := { out [1] none' with read := fun _ => .bytes fileS }

def pl : Option (List (Str × Fate × Str)) × Input := pullAll toy CF (netWorld oF) uF [[97]] [yes]
def mg : Res SyncErr Merged × Input := mergeBlobs v.ord uF.creds uF.store.log (remotes (pl.1.getD [])) pl.2
def mm : Merged := match mg.1 with | .ok m => m | _ => { creds := u.creds, log := [] }
def st0 : DB := ({ uF.store.resetSnapshot with log := mm.log } : DB).updateSnapshot.1
def st1 : DB := (saveHosts v.now st0 (v.ordH (newHosts (pl.1.getD []) []))).1
def sl := sealFile toy CF v.ord v.ord' v.iv mm.creds st1
def ctS : Str := match sl.2 with | .ok f => f | _ => []
def doneS : Synced := syncWith toy CF (netWorld oF) v true uF [[97]] [yes]
def entryS : Entry := (doneS.session.store.snapshot.get? [97]).getD []

/-- nothing is asked while fetching, and the server is asked about while sending -/
example : pl.2 = [yes] ∧ doneS.rest = [] ∧ doneS.pushed = [([97], true)] := by decide +kernel

theorem some_getD {α : Type} {x : Option α} (d : α) (h : x.isSome = true) : x = some (x.getD d) := by
  cases x with
  | none => cases h
  | some a => rfl

example : OnRecord id (val entryS keyKnownHosts) (b! "h:22") (server [1] none') := by
  refine (C120_sync_sent_partial toy CF oF v uF [[97]] [] [] [97] ctS [yes] pl.2 mg.2 (pl.1.getD []) mm st0 st1 sl.1 NetDemo.conf
    (server [1] none') entryS (fun _ => .refl _) (Prod.ext (some_getD [] (by decide +kernel)) rfl) (Prod.ext ?_ rfl)
    (Prod.ext rfl (by decide +kernel)) (by decide +kernel) (by decide) (Prod.ext rfl (by decide +kernel)) (Prod.ext rfl ?_)
    (by decide +kernel) ?_ rfl (by unfold Plain; decide) (by decide +kernel) (by decide +kernel) (by decide +kernel)).1
  · have h : (match mg.1 with | .ok _ => true | _ => false) = true := by decide +kernel
    show mg.1 = .ok mm
    unfold mm
    cases hm : mg.1 with
    | ok m => rfl
    | err e => rw [hm] at h; cases h
    | panic => rw [hm] at h; cases h
  · have h : (match sl.2 with | .ok _ => true | _ => false) = true := by decide +kernel
    show sl.2 = .ok ctS
    unfold ctS
    cases hm : sl.2 with
    | ok m => rfl
    | err e => rw [hm] at h; cases h
    | panic => rw [hm] at h; cases h
  · have hk : val ((st1.snapshot.get? [97]).getD []) keyPriv = [] := by decide +kernel
    have h := C90_scp_partial oF.parseKey ((st1.snapshot.get? [97]).getD []) (b! "me") (b! "h") (b! "22") (b! "/pw") (some (b! "q"))
      (by decide +kernel) (by decide) NetDemo.host_ok (by decide) (by decide) (by decide) (.inl hk)
    rw [hk] at h
    exact h

end SentDemo

end Verif.App
