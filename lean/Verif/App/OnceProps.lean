import Verif.App.OnceLemmas
import Verif.App.SyncDemo
/-!
# C120: a server that was accepted is not asked about again
-/
set_option linter.unusedSimpArgs false
namespace Verif.App
open Verif Verif.Txlogs Verif.Blob Verif.Crypt Verif.App.Spec
open Verif.Crypt.Spec (toy toy_lawful)

/-- C120 (partial): if a new server was accepted while its copy was fetched, and the merge went through and brought no other key for its
address, then after the sync the key is on record in the sync entry; neither fetching nor sending asks about the server again. -/
theorem C120_partial (P : Prims) (C : Codec) (o : Outside) (v : SyncEnv) (push : Bool) (u : Session) (syncs : List Str)
    (inp i1 i2 : Input) (l : List (Str × Fate × Str)) (m : Merged) (uuid h : Str) (f : Fate) (c : SshConfig) (s : Server) (e' : Entry)
    (hord : ∀ r, (v.ordH r).Perm r) (hs : syncs.Nodup)
    (hpull : pullAll P C (netWorld o) u syncs inp = (some l, i1)) (hin : (uuid, f, h) ∈ l) (hne : h ≠ [])
    (hmerge : mergeBlobs v.ord u.creds u.store.log (remotes l) i1 = (.ok m, i2))
    (hc : sshConfig o.parseKey ((u.store.snapshot.get? uuid).getD []) = .ok c) (hnet : o.net c.address = some s)
    (hp : Plain (hostKey c.address s))
    (hm : ∀ st, Txlogs.Spec.meaning Txlogs.Spec.empty m.log = some st → ∀ em, st uuid = some em →
      Unknown ((em keyKnownHosts).getD []) c.address ∨ OnRecord o.sha ((em keyKnownHosts).getD []) c.address s)
    (hok : (syncWith P C (netWorld o) v push u syncs inp).result = .ok ())
    (he' : (syncWith P C (netWorld o) v push u syncs inp).session.store.snapshot.get? uuid = some e') :
    OnRecord o.sha (val e' keyKnownHosts) c.address s ∧
      (sshConfig o.parseKey e' = .ok c → ∀ ct inp',
        (sshPull o e' inp').rest = inp' ∧ (sshPull o e' inp').host = [] ∧
        (sshPush o e' ct inp').rest = inp' ∧ (sshPush o e' ct inp').host = []) := by
  suffices H : OnRecord o.sha (val e' keyKnownHosts) c.address s from
    ⟨H, fun hc' ct inp' => ssh_quiet hc' hnet H ct inp'⟩
  obtain ⟨hl1, hl2⟩ := pullAll_spec P C (netWorld o) u syncs inp i1 l hpull
  have hl : (l.map Prod.fst).Nodup := hl1 ▸ hs
  obtain ⟨j, j', hone⟩ := hl2 _ hin
  obtain ⟨c1, s1, a1, a2, -, a4⟩ := C91_remember o _ [] j h hne (.inl (pullOne_host hone hne))
  rw [hc] at a1; cases a1
  rw [hnet] at a2; cases a2
  have hh := (C29_hosts l hl uuid h).2 ⟨hne, f, hin⟩
  unfold syncWith at hok he'
  rw [hpull] at hok he'
  simp only at hok he'
  rw [hmerge] at hok he'
  simp only at hok he'
  have hok0 : Ok ({ u.store.resetSnapshot with log := m.log } : DB) :=
    ⟨⟨Nat.zero_le _, rfl⟩, GoMap.nodupKeys_nil, inner_nil⟩
  split at hok
  · cases hok
  · rename_i s1 hu
    rw [hu] at he'
    simp only at he'
    obtain ⟨hf, hlog⟩ := fresh_done hok0 hu
    obtain ⟨e, more, b1, b2, -⟩ := pushBack_entry hord hf (newHosts_nodup l [] GoMap.nodupKeys_nil) hok he'
    have hmean := hf.meaning
    rw [hlog] at hmean
    have hv : Txlogs.Spec.view s1.snapshot uuid = some (fun k => e.get? k) := by
      simp only [Txlogs.Spec.view]
      rw [show GoMap.get? s1.snapshot uuid = some e from b1]; rfl
    have h1 : OnRecord o.sha (addedTo (newHosts l []) uuid (val e keyKnownHosts)) c.address s := by
      unfold addedTo
      rw [hh, a4]
      simp only
      rcases hm _ hmean _ hv with hx | hx
      · exact onRecord_new hp hx
      · exact onRecord_append _ hx
    rw [b2]
    unfold addedTo at h1 ⊢
    cases GoMap.get? more uuid with
    | none => exact h1
    | some x => exact onRecord_append x h1

/-- If the merge is given up, nothing is remembered: the session is as it was, although `sync` reports no error, and whoever says yes next
time is asked the same question and told to remember the same line. -/
theorem C120_aborted (P : Prims) (C : Codec) (o : Outside) (v : SyncEnv) (push : Bool) (u : Session) (syncs : List Str)
    (inp i1 i2 : Input) (l : List (Str × Fate × Str)) (err : SyncErr) (uuid h : Str) (f : Fate)
    (hpull : pullAll P C (netWorld o) u syncs inp = (some l, i1)) (hin : (uuid, f, h) ∈ l) (hne : h ≠ [])
    (hmerge : mergeBlobs v.ord u.creds u.store.log (remotes l) i1 = (.err err, i2)) :
    (syncWith P C (netWorld o) v push u syncs inp).result = .ok () ∧
    (syncWith P C (netWorld o) v push u syncs inp).session = u ∧
    ∀ rest, (sshPull o ((u.store.snapshot.get? uuid).getD []) (some (b! "y") :: rest)).host = h ∧
      (sshPull o ((u.store.snapshot.get? uuid).getD []) (some (b! "y") :: rest)).rest = rest := by
  obtain ⟨-, hl2⟩ := pullAll_spec P C (netWorld o) u syncs inp i1 l hpull
  obtain ⟨j, j', hone⟩ := hl2 _ hin
  have hhost := pullOne_host hone hne
  have key := C91_remember o _ [] j h hne (.inl hhost)
  generalize (u.store.snapshot.get? uuid).getD [] = e at hhost key ⊢
  obtain ⟨c, s, a1, a2, ⟨a3, -⟩, a4⟩ := key
  refine ⟨?_, ?_, ?_⟩
  · unfold syncWith; rw [hpull]; simp only; rw [hmerge]
  · unfold syncWith; rw [hpull]; simp only; rw [hmerge]
  · intro rest
    have hty : ¬ (s.keyType ≠ b! "ssh-ed25519" ∧ s.keyType ≠ b! "ssh-rsa") := by
      intro ht
      have : (sshPull o e j).host = [] := by
        unfold sshPull
        rw [a1]
        simp only
        have hd : (dial o c (val e keyKnownHosts) j) = { out := .failed, rest := j } := by
          unfold dial; rw [a2]; simp only; rw [if_pos ht]
        rw [hd]
      exact hne (hhost ▸ this)
    have hcb : callback o.sha (val e keyKnownHosts) (hostKey c.address s) (some (b! "y") :: rest) =
        (.ok (some (hostLine o.sha (hostKey c.address s))), rest) := by
      unfold callback
      rw [checkKnown_none o.sha (hostKey c.address s) _ a3]
      simp [prompt]
    have hd : (dial o c (val e keyKnownHosts) (some (b! "y") :: rest)).host = h ∧
        (dial o c (val e keyKnownHosts) (some (b! "y") :: rest)).rest = rest := by
      unfold dial
      rw [a2]
      simp only
      rw [if_neg hty, hcb]
      exact ⟨a4.symm, rfl⟩
    unfold sshPull
    rw [a1]
    simp only
    constructor
    · split <;> exact hd.1
    · split <;> exact hd.2

/-- A server accepted while sending is forgotten if the sending fails. -/
theorem C120_push (o : Outside) (e : Entry) (ct : Str) (inp : Input) (h : (sshPush o e ct inp).out ≠ some true) :
    (sshPush o e ct inp).host = [] := by
  unfold sshPush at h ⊢
  split
  · rfl
  · rfl
  · rename_i c hc
    rw [hc] at h
    simp only at h ⊢
    split
    · rfl
    · rfl
    · rename_i s hs
      rw [hs] at h
      simp only at h ⊢
      split
      · rename_i hd; rw [hd] at h; exact absurd rfl h
      · rfl

namespace OnceDemo
open NetDemo (server out)
open SyncDemo (iv)

/-- a remote, and an entry that was deleted here -/
def log0 : List Tx :=
  [⟨1, .add, [97], [], []⟩, ⟨2, .setk, [97], keyName, b! "sync/a"⟩, ⟨3, .setk, [97], keySync, b! "true"⟩,
   ⟨4, .setk, [97], keyURL, b! "scp://me:q@h:22/pw"⟩, ⟨5, .add, [1], [], []⟩]
def logL : List Tx := log0 ++ [⟨6, .del, [1], [], []⟩]
/-- there, it was changed after that -/
def logR : List Tx := log0 ++ [⟨7, .setk, [1], keyName, b! "bank"⟩]
/-- the same server in two entries -/
def log2 : List Tx :=
  [⟨1, .add, [97], [], []⟩, ⟨2, .setk, [97], keyName, b! "sync/a"⟩, ⟨3, .setk, [97], keySync, b! "true"⟩,
   ⟨4, .setk, [97], keyURL, b! "scp://me:q@h:22/pw"⟩,
   ⟨5, .add, [98], [], []⟩, ⟨6, .setk, [98], keyName, b! "sync/b"⟩, ⟨7, .setk, [98], keySync, b! "true"⟩,
   ⟨8, .setk, [98], keyURL, b! "scp://me:q@h:22/wp"⟩]

def C : Codec where
  marshal s := if s.log = logR then [2] else [1]
  load t := .ok (some { log := if t = [2] then logR else logL })
  loadLog t := .ok (if t = [2] then logR else logL)

def u : Session :=
  { creds := { pass := [1], key := List.replicate 80 1, salt := List.replicate 32 1 }, store := ({ log := logL } : DB).updateSnapshot.1 }
def u2 : Session := { u with store := ({ log := log2 } : DB).updateSnapshot.1 }

def fileR : Str :=
  match saveBlob toy C id id iv { u with store := { log := logR } } with
  | .ok (some f) => f
  | _ => []

def none' : Str → Option Str := fun _ => none
def some' : Str → Option Str := fun p => if p = b! "pw" then some fileR else none
def v : SyncEnv := { iv := iv, now := fun i => 10 + i, now' := fun i => 20 + i }
def yes : Option Str := some (b! "y")

/-- the entry after a sync with an empty server -/
def after : Synced := syncWith toy C (netWorld (out [1] none')) v true u [[97]] [yes]
def entry : Entry := (after.session.store.snapshot.get? [97]).getD []

set_option maxRecDepth 1000000

example : val entry keyKnownHosts = b! "h:22 10.0.0.1:22 ssh-rsa 01" ∧ after.pushed = [([97], true)] ∧ after.rest = [] := by decide +kernel

def pulled : List (Str × Fate × Str) := [([97], .absent, b! "h:22 10.0.0.1:22 ssh-rsa 01")]

/-- C120_partial applied -/
example : OnRecord id (val entry keyKnownHosts) (b! "h:22") (server [1] none') := by
  refine (C120_partial toy C (out [1] none') v true u [[97]] [yes] [] [] pulled { creds := u.creds, log := logL } [97]
    (b! "h:22 10.0.0.1:22 ssh-rsa 01") .absent NetDemo.conf (server [1] none') entry (fun _ => .refl _) (by decide)
    (by decide +kernel) (by simp [pulled]) (by decide) rfl ?_ rfl (by unfold Plain; decide) ?_ (by decide +kernel) (by decide +kernel)).1
  · exact C90_scp_partial _ _ (b! "me") (b! "h") (b! "22") (b! "/pw") (some (b! "q")) (by decide +kernel) (by decide) NetDemo.host_ok (by decide)
      (by decide) (by decide) (.inl (by decide +kernel))
  · intro st hst em hem
    left
    have hf : Fresh u.store := (fresh_done (s := { log := logL }) ⟨⟨Nat.zero_le _, rfl⟩, GoMap.nodupKeys_nil, inner_nil⟩ (s' := u.store)
      (Prod.ext rfl (by decide +kernel))).1
    have hm := hf.meaning
    rw [show u.store.log = logL from by decide +kernel] at hm
    rw [hm] at hst
    cases hst
    simp only [Txlogs.Spec.view] at hem
    cases hg : u.store.snapshot.get? [97] with
    | none => rw [hg] at hem; cases hem
    | some x =>
      rw [hg] at hem
      cases hem
      have hx : (u.store.snapshot.get? [97]).map (fun e => e.get? keyKnownHosts) = some none := by decide +kernel
      rw [hg] at hx
      simp only [Option.map_some, Option.some.injEq] at hx
      show Unknown ((x.get? keyKnownHosts).getD []) _
      rw [hx]
      unfold Unknown; decide

/-- the next sync asks nothing -/
example : (syncWith toy C (netWorld (out [1] none')) v true after.session [[97]] [yes]).rest = [yes] := by decide +kernel

/-- C120 is false if the merge is given up: yes is said twice to the same server with the same key. -/
theorem C120_false : ¬ ∀ (P : Prims) (C : Codec) (o : Outside) (v : SyncEnv) (u : Session) (syncs : List Str) (inp : Input),
    Crypt.Spec.Lawful P → (syncWith P C (netWorld o) v true u syncs (yes :: inp)).result = .ok () →
    (syncWith P C (netWorld o) v true u syncs (yes :: inp)).rest ≠ yes :: inp →
    (syncWith P C (netWorld o) v true (syncWith P C (netWorld o) v true u syncs (yes :: inp)).session syncs [yes]).rest = [yes] := by
  intro h
  have := h toy C (out [1] some') v u [[97]] [] toy_lawful (by decide +kernel) (by decide +kernel)
  revert this
  decide +kernel

/-- C120_aborted applied -/
example : (syncWith toy C (netWorld (out [1] some')) v true u [[97]] [yes]).session = u := by
  have hp : ((pullAll toy C (netWorld (out [1] some')) u [[97]] [yes]).1.getD []).map (fun x => (x.1, x.2.2)) =
      [([97], b! "h:22 10.0.0.1:22 ssh-rsa 01")] := by decide +kernel
  have hs : (pullAll toy C (netWorld (out [1] some')) u [[97]] [yes]).1.isSome := by decide +kernel
  have hm : (match (mergeBlobs v.ord u.creds u.store.log
      (remotes ((pullAll toy C (netWorld (out [1] some')) u [[97]] [yes]).1.getD []))
      (pullAll toy C (netWorld (out [1] some')) u [[97]] [yes]).2).1 with | .err _ => true | _ => false) = true := by decide +kernel
  cases h1 : pullAll toy C (netWorld (out [1] some')) u [[97]] [yes] with
  | mk a i1 =>
    rw [h1] at hp hs hm
    cases a with
    | none => cases hs
    | some l =>
      simp only [Option.getD_some] at hp hm
      cases h2 : mergeBlobs v.ord u.creds u.store.log (remotes l) i1 with
      | mk r i2 =>
        rw [h2] at hm
        cases r with
        | panic => cases hm
        | ok _ => cases hm
        | err e =>
          match l, hp with
          | [(a, f, x)], hp =>
            simp only [List.map_cons, List.map_nil, List.cons.injEq, Prod.mk.injEq, and_true] at hp
            obtain ⟨rfl, rfl⟩ := hp
            exact (C120_aborted toy C _ v true u [[97]] [yes] i1 i2 _ e [97] (b! "h:22 10.0.0.1:22 ssh-rsa 01") f h1 (List.mem_singleton.2 rfl)
              (by decide) h2).2.1

/-- C120 is false for a server that is used by two entries: it is asked about for each of them. -/
theorem C120_each_false : ¬ ∀ (P : Prims) (C : Codec) (o : Outside) (v : SyncEnv) (u : Session) (a b : Str) (rest : Input) (c c' : SshConfig),
    Crypt.Spec.Lawful P → sshConfig o.parseKey ((u.store.snapshot.get? a).getD []) = .ok c →
    sshConfig o.parseKey ((u.store.snapshot.get? b).getD []) = .ok c' → c.address = c'.address →
    (syncWith P C (netWorld o) v true u [a, b] (yes :: yes :: rest)).result = .ok () →
    (syncWith P C (netWorld o) v true u [a, b] (yes :: yes :: rest)).rest ≠ rest := by
  intro h
  refine h toy C (out [1] none') v u2 [97] [98] [] NetDemo.conf { NetDemo.conf with path := b! "wp" } toy_lawful ?_ ?_ rfl (by decide +kernel)
    (by decide +kernel)
  · exact C90_scp_partial _ _ (b! "me") (b! "h") (b! "22") (b! "/pw") (some (b! "q")) (by decide +kernel) (by decide) NetDemo.host_ok (by decide)
      (by decide) (by decide) (.inl (by decide +kernel))
  · exact C90_scp_partial _ _ (b! "me") (b! "h") (b! "22") (b! "/wp") (some (b! "q")) (by decide +kernel) (by decide) NetDemo.host_ok (by decide)
      (by decide) (by decide) (.inl (by decide +kernel))

/-- C120 is false while sending: yes was said, the server refused the file, and the line is lost. -/
theorem C120_push_false : ¬ ∀ (o : Outside) (e : Entry) (ct : Str) (inp : Input),
    (sshPush o e ct (yes :: inp)).rest = inp → (sshPush o e ct (yes :: inp)).host ≠ [] := by
  intro h
  exact h { out [1] none' with net := fun _ => some { server [1] none' with run := fun _ _ => ⟨false, [], [], false, true⟩ } } NetDemo.fresh
    (b! "ct") [] (by decide +kernel) (by decide +kernel)
example := C120_push { out [1] none' with net := fun _ => some { server [1] none' with run := fun _ _ => ⟨false, [], [], false, true⟩ } } NetDemo.fresh
    (b! "ct") [] (by decide +kernel)

end OnceDemo

end Verif.App
