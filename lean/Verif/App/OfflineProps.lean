import Verif.App.StaleProps
import Verif.App.SharedProps
import Verif.App.FileProps
import Verif.App.TightProps
import Verif.App.CompleteLemmas
import Verif.App.FleetLemmas
/-!
# C125: remotes that cannot be reached
-/
set_option linter.unusedSimpArgs false
namespace Verif.App
open Verif Verif.Txlogs Verif.Blob Verif.Crypt Verif.App.Spec
open Verif.Crypt.Spec (toy toy_lawful)
open Verif.Txlogs.Spec (Replays)
open Demo (perm_id perm_id')

/-- No remote can be read, and no server gets as far as showing a key that is accepted. -/
structure Spec.Offline (w : World) : Prop where
  ssh : ∀ uuid e inp, ∃ inp', w.sshPull uuid e inp = (some (.failed, []), inp')
  file : ∀ uuid e, w.readFile uuid e = .failed

/-- The file of the session can be written with these random bytes and map orders, whatever is cached. -/
def Spec.Sealable (P : Prims) (C : Codec) (v : SyncEnv) (u : Session) : Prop :=
  ∀ s, Ok s → s.log = u.store.log → s.txPoint = u.store.txPoint → ∃ f, (sealFile P C v.ord v.ord' v.iv u.creds s).2 = .ok f

theorem pullOne_offline {P : Prims} {C : Codec} {w : World} (hw : Offline w) {u : Session} {uuid : Str}
    (hs : w.scheme (val ((u.store.snapshot.get? uuid).getD []) keyURL) = some syncSCP ∨
      w.scheme (val ((u.store.snapshot.get? uuid).getD []) keyURL) = some syncFile) (inp : Input) :
    ∃ inp', pullOne P C w u uuid inp = (some (.skip, []), inp') := by
  rcases hs with hs | hs
  · obtain ⟨inp', h⟩ := hw.ssh uuid ((u.store.snapshot.get? uuid).getD []) inp
    refine ⟨inp', ?_⟩
    simp only [pullOne, pullBlob, hs, if_true, h]
  · refine ⟨inp, ?_⟩
    have : syncFile ≠ syncSCP := by decide
    simp only [pullOne, pullBlob, hs, this, if_false, if_true, hw.file]

theorem pullAll_offline {P : Prims} {C : Codec} {w : World} (hw : Offline w) {u : Session} : ∀ (syncs : List Str) (inp : Input),
    (∀ uuid ∈ syncs, w.scheme (val ((u.store.snapshot.get? uuid).getD []) keyURL) = some syncSCP ∨
      w.scheme (val ((u.store.snapshot.get? uuid).getD []) keyURL) = some syncFile) →
    ∃ l inp', pullAll P C w u syncs inp = (some l, inp') ∧ remotes l = [] ∧ newHosts l [] = [] ∧ targets l = [] := by
  intro syncs
  induction syncs with
  | nil => intro inp _; exact ⟨[], inp, rfl, rfl, rfl, rfl⟩
  | cons uuid syncs ih =>
    intro inp h
    obtain ⟨i1, h1⟩ := pullOne_offline (P := P) (C := C) hw (h uuid (by simp)) inp
    obtain ⟨l, i2, h2, h3, h4, h5⟩ := ih i1 (fun x hx => h x (by simp [hx]))
    refine ⟨(uuid, .skip, []) :: l, i2, ?_, h3, ?_, h5⟩
    · simp only [pullAll, h1, h2]
    · simp only [newHosts, if_true]; exact h4

theorem collect_scheme {w : World} {ord : Order} (hord : ∀ m, (ord m).Perm m) {s : DB} (hn : s.snapshot.NodupKeys) :
    ∀ uuid ∈ collectSyncs w ord s, w.scheme (val ((s.snapshot.get? uuid).getD []) keyURL) = some syncSCP ∨
      w.scheme (val ((s.snapshot.get? uuid).getD []) keyURL) = some syncFile := by
  intro uuid h
  unfold collectSyncs at h
  obtain ⟨p, hp, rfl⟩ := List.mem_map.1 h
  obtain ⟨h1, h2⟩ := List.mem_filter.1 hp
  have h3 : (p.1, p.2) ∈ s.snapshot := (hord _).mem_iff.1 h1
  rw [GoMap.get?_of_mem hn h3]
  simp only [isSync, Bool.and_eq_true, Bool.or_eq_true, decide_eq_true_eq] at h2
  exact h2.2

theorem ok_cleared {s : DB} : Ok s.resetSnapshot :=
  ⟨⟨Nat.zero_le _, rfl⟩, GoMap.nodupKeys_nil, inner_nil⟩

/-- If no remote can be read, sync ends well, sends nothing, asks about no key, and leaves credentials and history as they were. -/
theorem C125_sync (P : Prims) (C : Codec) (w : World) (v : SyncEnv) (push : Bool) (u : Session) (inp : Input) (hw : Offline w)
    (hord : ∀ m, (v.ord m).Perm m) (hordH : ∀ m, (v.ordH m).Perm m) (hok : Ok u.store) (hr : Replays u.store.log)
    (hseal : Sealable P C v u) :
    ∃ s, (sync P C w v [] push u inp).session = { u with store := s } ∧ (sync P C w v [] push u inp).result = .ok () ∧
      (sync P C w v [] push u inp).pushed = [] ∧ Ok s ∧ s.log = u.store.log ∧ s.txPoint = u.store.txPoint := by
  have h1 := sound_update hok hr
  have hlog := updateSnapshot_log u.store
  have htx := updateSnapshot_txPoint u.store
  have hok1 := ok_update hok
  generalize hs1 : u.store.updateSnapshot.1 = s1 at h1 hlog htx hok1
  obtain ⟨l, i1, p1, p2, p3, p4⟩ := pullAll_offline (P := P) (C := C) hw (u := { u with store := s1 }) (collectSyncs w v.ord s1) inp
    (collect_scheme hord hok1.nodup)
  have hre : Ok s1.resetSnapshot := ok_cleared
  have h2 := sound_update hre (show Replays s1.resetSnapshot.log by show Replays s1.log; rw [hlog]; exact hr)
  have hlog2 : s1.resetSnapshot.updateSnapshot.1.log = u.store.log := (updateSnapshot_log _).trans hlog
  have htx2 : s1.resetSnapshot.updateSnapshot.1.txPoint = u.store.txPoint := (updateSnapshot_txPoint _).trans htx
  have hok2 := ok_update hre
  have hid := Tab.twice (s := s1.resetSnapshot) (by rw [h2])
  generalize s1.resetSnapshot.updateSnapshot.1 = s2 at h2 hlog2 htx2 hok2 hid
  have hnil : v.ordH [] = [] := (hordH []).eq_nil
  have hsv : ∀ now, saveHosts now s2 (v.ordH []) = (s2, none) := by
    intro now; rw [hnil]; exact hid
  obtain ⟨f, hf⟩ := hseal s2 hok2 hlog2 htx2
  have hst := sealFile_store P C v.ord v.ord' v.iv u.creds hid
  have hsf : sealFile P C v.ord v.ord' v.iv u.creds s2 = (s2, .ok f) := Prod.ext hst hf
  have hsync : ∃ inp' sent, sync P C w v [] push u inp =
      { session := { u with store := s2 }, result := .ok (), sent := sent, pushed := [], rest := inp' } := by
    unfold sync
    rw [h1]
    simp only [ne_eq, not_true_eq_false, if_false]
    unfold syncWith
    rw [p1]
    simp only [p2, p3, p4, mergeBlobs, mergeRemotes]
    have he : ({ s1.resetSnapshot with log := s1.log } : DB).updateSnapshot = (s2, none) := h2
    rw [he]
    simp only [pushBack, hsv]
    cases push with
    | false => exact ⟨_, _, rfl⟩
    | true =>
      simp only [Bool.true_eq_false, if_false, hsf, pushAll, hsv]
      exact ⟨_, _, rfl⟩
  obtain ⟨inp', sent, hsync⟩ := hsync
  rw [hsync]
  exact ⟨s2, rfl, rfl, rfl, hok2, hlog2, htx2⟩

/-- A merge that does not succeed (a remote file without common history is declined, a question is answered with the end of input)
ends the synchronisation well: nothing is sent and nothing in the session changes. -/
theorem C125_unmerged (P : Prims) (C : Codec) (w : World) (v : SyncEnv) (push : Bool) (u : Session) (inp : Input)
    (l : List (Str × Fate × Str)) (i1 i2 : Input) (e : SyncErr) (h0 : u.store.updateSnapshot.2 = none)
    (h1 : pullAll P C w { u with store := u.store.updateSnapshot.1 } (collectSyncs w v.ord u.store.updateSnapshot.1) inp = (some l, i1))
    (h2 : mergeBlobs v.ord u.creds u.store.updateSnapshot.1.log (remotes l) i1 = (.err e, i2)) :
    sync P C w v [] push u inp =
      { session := { u with store := u.store.updateSnapshot.1 }, result := .ok (), sent := [], pushed := [], rest := i2 } := by
  have hp := Tab.pair h0
  generalize u.store.updateSnapshot.1 = s at *
  unfold sync
  rw [hp]
  simp only [ne_eq, not_true_eq_false, if_false]
  unfold syncWith
  rw [h1]
  simp only [h2]

theorem autoSync_offline {P : Prims} {C : Codec} {v : Env} (auto : Bool) {r : Repl} (hw : Offline v.w)
    (hord : ∀ m, (v.v.ord m).Perm m) (hordH : ∀ m, (v.v.ordH m).Perm m) (hok : Ok r.u.store) (hr : Replays r.u.store.log)
    (hseal : Sealable P C v.v r.u) :
    ∃ s, autoSync P C v auto r = ({ r with u := { r.u with store := s } }, .ok ()) ∧ Ok s ∧ s.log = r.u.store.log ∧
      s.txPoint = r.u.store.txPoint := by
  unfold autoSync
  split
  · obtain ⟨s, h1, h2, h3, h4⟩ := C125_sync P C v.w v.v true r.u v.d.inp hw hord hordH hok hr hseal
    refine ⟨s, ?_, h4⟩
    simp only [h1, h2, h3, if_true]
  · exact ⟨r.u.store, rfl, hok, rfl, rfl⟩

theorem sealable_single {P : Prims} (hP : Crypt.Spec.Lawful P) (C : Codec) {v : SyncEnv} (hiv : v.iv.length = 40) {u : Session}
    (hc : SingleCreds u.creds) (htx : u.store.txPoint = 0) : Sealable P C v u := by
  intro s _ _ h0
  have hv : ({ keys := [u.creds.key], salts := [u.creds.salt] } : Params).validate = true := by
    have h1 : keySize = 80 := by decide
    simp [Params.validate, hc.key, hc.salt, h1, saltSize]
  obtain ⟨ct, ls, -, -, he, -⟩ := encrypt_single P hP { keys := [u.creds.key], salts := [u.creds.salt] } v.iv (C.marshal s) u.creds.key
    u.creds.salt hv rfl rfl rfl hc.key hiv
  have hs : s.save = .ok s := by simp [DB.save, h0, htx]
  simp only [sealFile, hs, makeParams, hc.master, if_true, he]
  exact ⟨_, rfl⟩

theorem sealable_multi {P : Prims} (hP : Crypt.Spec.Lawful P) (C : Codec) {v : SyncEnv} (hord : ∀ m, (v.ord m).Perm m)
    (hord' : ∀ m, (v.ord' m).Perm m) {u : Session} (hm : MultiSession P u) (hw : WellFormed u.store) : Sealable P C v u := by
  intro s hok hlog h0
  have hg : WellFormed s := wf_log hw hok hlog
  have hu : SameUsers u.store s := sameUsers_log hw.good hlog
  obtain ⟨p, n, hmk, hwf, -, hivm, hmas, -⟩ := makeParams_multi P hP hord hord' hg.good hm.creds (hu.wf hm.users)
  obtain ⟨ct, ls, -, -, he, -⟩ := encrypt_multi P hP p n hwf v.iv (C.marshal s) _ _ hivm hmas
  have hs : s.save = .ok s := by simp [DB.save, h0, hm.idle]
  simp only [sealFile, hs, hmk, he]
  exact ⟨_, rfl⟩

theorem wf_replays {s : DB} (h : WellFormed s) : Replays s.log := by
  obtain ⟨st, h1, -⟩ := h.good.named
  unfold Replays
  rw [h1]
  rfl

/-- What a synchronisation meets when no remote can be reached. -/
structure Spec.OfflineEnv (v : Env) : Prop where
  world : Offline v.w
  ord : ∀ m, (v.v.ord m).Perm m
  ord' : ∀ m, (v.v.ord' m).Perm m
  ordH : ∀ m, (v.v.ordH m).Perm m
  iv : v.v.iv.length = 40

theorem session_eq {P : Prims} {C : Codec} {auto : Bool} {v v' : Env} {iv : Str} {turns : List Turn} {u : Session} {r0 r1 r2 : Repl}
    {x : Res AppErr (Option Str)} (h0 : autoSync P C v auto { u := u } = (r0, .ok ())) (h1 : runRepl P C turns r0 = (r1, .ok ()))
    (h2 : autoSync P C v' (auto && decide (r1.u.startTx ≠ r1.u.store.log.length)) r1 = (r2, .ok ()))
    (h3 : saveBlob P C v'.ord v'.ord' iv r2.u = x) : session P C auto v v' iv turns u = (r2, x) := by
  simp only [session, h0, h1, h2, h3]

/-- A run with a single-user file and no remote that can be reached: it begins with what the file holds, and if the prompt is left
the file is written, nothing having been sent, and opens with the password given last to exactly what the prompt left. -/
theorem C125_single_partial (P : Prims) (hP : Crypt.Spec.Lawful P) (auto : Bool) (v v' : Env) (iv pass : Str) (u : Session)
    (hv : OfflineEnv v) (hv' : OfflineEnv v') (hiv : iv.length = 40) (ho : OwnSession P u pass) (h0 : u.store.txPoint = 0)
    (hw : WellFormed u.store) (hc : CleanLog u.store) :
    let r0 := (autoSync P Json.Spec.codec v auto { u := u }).1
    r0.u.store.log = u.store.log ∧ r0.u.creds = u.creds ∧ r0.pushed = [] ∧
    ∀ (turns : List Turn) (r1 : Repl), Along P Json.Spec.codec OwnTurn turns r0 → runRepl P Json.Spec.codec turns r0 = (r1, .ok ()) →
      Counted r1.u.store →
      ∃ r f s' c, session P Json.Spec.codec auto v v' iv turns u = (r, .ok (some f)) ∧ r.pushed = r1.pushed ∧
        s'.log = r1.u.store.log ∧
        openFile P Json.Spec.codec none f [some (lastPass P Json.Spec.codec turns r0 pass)] =
          (.ok { creds := c, store := s', readOnly := false, startTx := r1.u.store.log.length }, []) := by
  obtain ⟨s0, h1, h2, h3, h4⟩ := autoSync_offline (P := P) (C := Json.Spec.codec) auto (r := { u := u }) hv.world hv.ord hv.ordH
    hw.good.ok (wf_replays hw) (sealable_single hP _ hv.iv ho.creds h0)
  rw [h1]
  refine ⟨h3, rfl, rfl, ?_⟩
  intro turns r1 hl hrun hn
  have hw0 : WellFormed s0 := wf_log hw h2 h3
  have ho0 : OwnSession P { u with store := s0 } pass := ⟨ho.writable, ho.user, ho.creds, ho.pass_ne, ho.key, ho.typed⟩
  have ht0 : s0.txPoint = 0 := h4.trans h0
  have hc0 : CleanLog s0 := fun t ht => hc t (h3 ▸ ht)
  have hl' := along_mono (fun _ _ _ h => h.turn) turns _ hl
  have o1 := own_session hP turns { u := { u with store := s0 } } pass ho0 hl
  have w1 := C67_session_partial P _ turns { u := { u with store := s0 } } ht0 hw0
    (along_mono (fun _ _ _ h => h.legal) turns _ hl') (by rw [hrun]; simp)
  have c1 := C77_session_partial P _ turns { u := { u with store := s0 } } ht0 hw0 hc0 hl' (by rw [hrun]; simp)
  rw [hrun] at o1 w1 c1
  obtain ⟨s1, g1, g2, g3, g4⟩ := autoSync_offline (P := P) (C := Json.Spec.codec)
    (auto && decide (r1.u.startTx ≠ r1.u.store.log.length)) (r := r1) hv'.world hv'.ord hv'.ordH
    w1.1.good.ok (wf_replays w1.1) (sealable_single hP _ hv'.iv o1.creds w1.2)
  have w2 : WellFormed s1 := wf_log w1.1 g2 g3
  obtain ⟨f, s', k1, k2, k3⟩ := C51_save_open_single P hP Json.Spec.codec v'.ord v'.ord' iv hiv { r1.u with store := s1 } o1.writable
    (g4.trans w1.2) (C77_saved _ w2 (fun t ht => c1 t (g3 ▸ ht)) (by unfold Counted; rw [g3]; exact hn)) o1.creds _ o1.pass_ne o1.key
  rw [show ({ r1.u with store := s1 } : Session).store.log = r1.u.store.log from g3] at k3
  refine ⟨{ r1 with u := { r1.u with store := s1 } }, f, s', _, ?_, rfl, k2.log.trans g3, k3⟩
  exact session_eq h1 hrun g1 k1

/-- The same for a file with users: everybody who can open the session's file can open what is written. -/
theorem C125_multi_partial (P : Prims) (hP : Crypt.Spec.Lawful P) (auto : Bool) (v v' : Env) (iv : Str) (u : Session) (t : Passwords)
    (hv : OfflineEnv v) (hv' : OfflineEnv v') (hord : ∀ m, (v'.ord m).Perm m) (hord' : ∀ m, (v'.ord' m).Perm m)
    (hm : MultiSession P u) (ht : Holders P u t) (hw : WellFormed u.store) (hc : CleanLog u.store) :
    let r0 := (autoSync P Json.Spec.codec v auto { u := u }).1
    r0.u.store.log = u.store.log ∧ r0.u.creds = u.creds ∧ r0.pushed = [] ∧
    ∀ (turns : List Turn) (r1 : Repl), Along P Json.Spec.codec (SharedTurn P) turns r0 →
      runRepl P Json.Spec.codec turns r0 = (r1, .ok ()) → Counted r1.u.store →
      ∃ r f s', session P Json.Spec.codec auto v v' iv turns u = (r, .ok (some f)) ∧ r.pushed = r1.pushed ∧
        s'.log = r1.u.store.log ∧
        ∀ user pass, lastTable P Json.Spec.codec turns r0 t user = some pass →
          ∃ u', openFile P Json.Spec.codec none f [some user, some pass] = (.ok u', []) ∧ u'.store = s' ∧ u'.creds.user = user := by
  obtain ⟨s0, h1, h2, h3, h4⟩ := autoSync_offline (P := P) (C := Json.Spec.codec) auto (r := { u := u }) hv.world hv.ord hv.ordH
    hw.good.ok (wf_replays hw) (sealable_multi hP _ hv.ord hv.ord' hm hw)
  rw [h1]
  refine ⟨h3, rfl, rfl, ?_⟩
  intro turns r1 hl hrun hn
  have hw0 : WellFormed s0 := wf_log hw h2 h3
  have hu0 : SameUsers u.store s0 := sameUsers_log hw.good h3
  have hm0 : MultiSession P { u with store := s0 } := by
    refine ⟨hm.writable, hw0.good, h4.trans hm.idle, hm.creds, hu0.wf hm.users, fun w x hx => hm.uuids w x (hu0.symm.isUser hx), ?_⟩
    obtain ⟨w, hx⟩ := hm.me
    exact ⟨w, hu0.isUser hx⟩
  have ht0 : Holders P { u with store := s0 } t := by
    intro a p hap
    obtain ⟨salt, k1, k2⟩ := ht a p hap
    exact ⟨salt, k1, hu0.account k2⟩
  have hc0 : CleanLog s0 := fun t ht => hc t (h3 ▸ ht)
  obtain ⟨m1, t1⟩ := shared_session hP turns { u := { u with store := s0 } } r1 t ⟨hm0, ht0⟩ hw0 hl hrun
  have hl' := along_mono (fun _ _ _ h => h.turn) turns _ hl
  have w1 := C67_session_partial P _ turns { u := { u with store := s0 } } hm0.idle hw0
    (along_mono (fun _ _ _ h => h.legal) turns _ hl') (by rw [hrun]; simp)
  have c1 := C77_session_partial P _ turns { u := { u with store := s0 } } hm0.idle hw0 hc0 hl' (by rw [hrun]; simp)
  rw [hrun] at w1 c1
  obtain ⟨s1, g1, g2, g3, g4⟩ := autoSync_offline (P := P) (C := Json.Spec.codec)
    (auto && decide (r1.u.startTx ≠ r1.u.store.log.length)) (r := r1) hv'.world hv'.ord hv'.ordH
    w1.1.good.ok (wf_replays w1.1) (sealable_multi hP _ hv'.ord hv'.ord' m1 w1.1)
  have w2 : WellFormed s1 := wf_log w1.1 g2 g3
  have hu1 : SameUsers r1.u.store s1 := sameUsers_log w1.1.good g3
  obtain ⟨f, s', k1, k2, k3⟩ := C51_save_open_multi P hP Json.Spec.codec v'.ord hord v'.ord' hord' iv { r1.u with store := s1 }
    m1.writable (g4.trans w1.2) w2.good (C77_saved _ w2 (fun t ht => c1 t (g3 ▸ ht)) (by unfold Counted; rw [g3]; exact hn))
    m1.creds (hu1.wf m1.users)
  refine ⟨{ r1 with u := { r1.u with store := s1 } }, f, s', ?_, rfl, k2.log.trans g3, ?_⟩
  · exact session_eq h1 hrun g1 k1
  · intro user pass hup
    obtain ⟨salt, k4, k5⟩ := t1 user pass hup
    exact ⟨_, k3 user pass salt ⟨k4, hu1.account k5⟩, rfl, rfl⟩

/-! ## What a synchronisation that fails costs -/

namespace OfflineDemo
open SyncDemo (entryOps)

/-- a sync entry and an entry "x" -/
def mine : List Tx := entryOps 1 97 ++ [⟨5, .add, [98], [], []⟩, ⟨6, .setk, [98], keyName, [120]⟩]
/-- another machine has deleted the sync entry -/
def theirs : List Tx := mine ++ [⟨7, .del, [97], [], []⟩]
/-- a file that was never a copy of this one -/
def other : List Tx := entryOps 3 99

def C : Codec where
  marshal s := if s.log = mine then [1] else if s.log = theirs then [2] else if s.log = other then [3] else [4]
  load t := .ok (some { log := if t = [1] then mine else if t = [2] then theirs else other })
  loadLog t := .ok (if t = [1] then mine else if t = [2] then theirs else other)

def iv : Str := List.replicate 40 4

def fileOf (log : List Tx) : Str :=
  match saveBlob toy C id id iv { creds := { key := toy.kdf [1] (List.replicate 32 1), salt := List.replicate 32 1 }, store := { log := log } } with
  | .ok (some f) => f
  | _ => []

/-- no remote can be reached -/
def wOff : World where
  scheme _ := some syncSCP
  sshPull _ _ inp := (some (.failed, []), inp)
  readFile _ _ := .failed
  sshPush _ _ _ inp := (none, inp)
  writeFile _ _ _ := true

/-- the server answers, with a key that is accepted -/
def wOn (log : List Tx) (host : Str) : World := { wOff with sshPull := fun _ _ inp => (some (.bytes (fileOf log), host), inp) }

def vOff : Env := { w := wOff, v := { iv := iv } }
def vOn (log : List Tx) (host : Str) (inp : Input) : Env := { w := wOn log host, v := { iv := iv }, d := { inp := inp } }

theorem off : OfflineEnv vOff where
  world := ⟨fun _ _ inp => ⟨inp, rfl⟩, fun _ _ => rfl⟩
  ord := fun _ => List.Perm.refl _
  ord' := fun _ => List.Perm.refl _
  ordH := fun _ => List.Perm.refl _
  iv := by decide

def turns : List Turn := [(some (b! "set x note hi"), { d := { now := fun i => 20 + i } })]

def u : Session :=
  { creds := { pass := [1], key := toy.kdf [1] (List.replicate 32 1), salt := List.replicate 32 1 }, store := { log := mine } }

theorem u_ok : Ok u.store := ⟨⟨Nat.zero_le _, rfl⟩, GoMap.nodupKeys_nil, inner_nil⟩

theorem pulls : pullAll toy C (wOn other []) { u with store := u.store.updateSnapshot.1 } [[97]] [some (b! "n")] =
    (some [([97], .merge { name := b! "sync/a", creds := u.creds, log := other }, [])], [some (b! "n")]) := by decide +kernel

end OfflineDemo

/-- As stated the claim is false. A field is set at the prompt, while at the start no server could be reached. At the end the server
answers, its key is accepted, and the file there shows that another machine has deleted the sync entry; the line of the new key
cannot be added to an entry that is gone, the synchronisation fails, and `main` ends without writing the file: what was typed is
lost. With `--no-sync`, and without a reachable server, the same run writes it. -/
theorem C125_false : ∃ (P : Prims) (C : Codec) (iv f f' : Str) (v v' : Env) (turns : List Turn) (inp : Input) (e : AppErr),
    Crypt.Spec.Lawful P ∧ OfflineEnv v ∧ f' ≠ f ∧
    main P C none [] iv v v' (.prompt true turns) inp (some f) = ([some f], .err e) ∧
    ((main P C none [] iv v v' (.prompt false turns) inp (some f)).1.getLast? = some (some f') ∧
      (main P C none [] iv v v' (.prompt false turns) inp (some f)).2 = .ok ()) ∧
    (main P C none [] iv v v (.prompt true turns) inp (some f)).1.getLast? = some (some f') ∧
      (main P C none [] iv v v (.prompt true turns) inp (some f)).2 = .ok () :=
  ⟨toy, OfflineDemo.C, OfflineDemo.iv, OfflineDemo.fileOf OfflineDemo.mine, OfflineDemo.fileOf [],
    OfflineDemo.vOff, OfflineDemo.vOn OfflineDemo.theirs (b! "key") [], OfflineDemo.turns, [some [1]], .tx (.notInSnapshot [97]),
    toy_lawful, OfflineDemo.off, by decide +kernel, Prod.ext (by decide +kernel) (by decide +kernel),
    ⟨by decide +kernel, by decide +kernel⟩, by decide +kernel, by decide +kernel⟩

/-- not vacuous: nothing was pulled -/
example : ∃ s, (sync toy OfflineDemo.C OfflineDemo.wOff { iv := OfflineDemo.iv } [] true OfflineDemo.u []).session =
    { OfflineDemo.u with store := s } ∧ s.log = OfflineDemo.mine ∧ OfflineDemo.mine ≠ [] := by
  obtain ⟨s, h1, -, -, -, h2, -⟩ := C125_sync toy OfflineDemo.C OfflineDemo.wOff { iv := OfflineDemo.iv } true OfflineDemo.u []
    OfflineDemo.off.world (fun _ => List.Perm.refl _) (fun _ => List.Perm.refl _) OfflineDemo.u_ok (by unfold Replays; decide +kernel)
    (sealable_single toy_lawful _ (by decide) ⟨rfl, by decide +kernel, by decide⟩ rfl)
  exact ⟨s, h1, h2, by decide⟩

/-- not vacuous: a remote without common history is declined -/
example : (sync toy OfflineDemo.C (OfflineDemo.wOn OfflineDemo.other []) { iv := OfflineDemo.iv } [] true OfflineDemo.u
      [some (b! "n")]).session.store.log = OfflineDemo.mine ∧
    (sync toy OfflineDemo.C (OfflineDemo.wOn OfflineDemo.other []) { iv := OfflineDemo.iv } [] true OfflineDemo.u
      [some (b! "n")]).rest = [] := by
  obtain ⟨l, i1, e, i2, h1, h2⟩ : ∃ l i1 e i2, pullAll toy OfflineDemo.C (OfflineDemo.wOn OfflineDemo.other [])
      { OfflineDemo.u with store := OfflineDemo.u.store.updateSnapshot.1 } [[97]] [some (b! "n")] = (some l, i1) ∧
      mergeBlobs id OfflineDemo.u.creds OfflineDemo.mine (remotes l) i1 = (.err e, i2) ∧ i2 = [] :=
    ⟨_, _, .totalFork, _, OfflineDemo.pulls, by decide +kernel, rfl⟩
  have h3 : collectSyncs (OfflineDemo.wOn OfflineDemo.other []) id OfflineDemo.u.store.updateSnapshot.1 = [[97]] := by decide +kernel
  rw [C125_unmerged toy OfflineDemo.C (OfflineDemo.wOn OfflineDemo.other []) { iv := OfflineDemo.iv } true OfflineDemo.u
    [some (b! "n")] l i1 i2 e (by decide +kernel) (by rw [h3]; exact h1) (by rw [updateSnapshot_log]; exact h2.1)]
  exact ⟨updateSnapshot_log _, h2.2⟩

/-- not vacuous: an entry is added to a new file, no server being reachable -/
example : ∃ r f s' c, session toy Json.Spec.codec true OfflineDemo.vOff OfflineDemo.vOff (List.replicate 40 4)
      [(some (b! "add x"), Demo.vN)] Demo.uN = (r, .ok (some f)) ∧ s'.log ≠ [] ∧
    openFile toy Json.Spec.codec none f [some (b! "A")] = (.ok { creds := c, store := s', startTx := s'.log.length }, []) := by
  have hr0 : (autoSync toy Json.Spec.codec OfflineDemo.vOff true { u := Demo.uN }).1 = { u := Demo.uN } := by decide +kernel
  obtain ⟨-, -, -, h⟩ := C125_single_partial toy toy_lawful true OfflineDemo.vOff OfflineDemo.vOff (List.replicate 40 4) (b! "A")
    Demo.uN OfflineDemo.off OfflineDemo.off (by decide)
    ⟨rfl, rfl, ⟨rfl, by decide +kernel, by decide⟩, by decide, rfl, .inr rfl⟩ rfl wf_new_file (fun _ ht => by cases ht)
  rw [hr0] at h
  obtain ⟨r, f, s', c, h1, -, h2, h3⟩ := h [(some (b! "add x"), Demo.vN)] Demo.rN ⟨Demo.addN, trivial⟩
    (Prod.ext rfl (by decide +kernel)) (by unfold Counted; decide +kernel)
  have hp : lastPass toy Json.Spec.codec [(some (b! "add x"), Demo.vN)] { u := Demo.uN } (b! "A") = b! "A" := by decide +kernel
  rw [hp, ← h2] at h3
  exact ⟨r, f, s', c, h1, by rw [h2]; decide +kernel, h3⟩

/-- not vacuous: the first user was just added, and the prompt is left, no server being reachable -/
example : ∃ r f s' u', session toy Json.Spec.codec true OfflineDemo.vOff OfflineDemo.vOff (List.replicate 40 4) [] Demo.u1 =
      (r, .ok (some f)) ∧ s'.log = Demo.u1.store.log ∧ Demo.u1.startTx ≠ Demo.u1.store.log.length ∧
    openFile toy Json.Spec.codec none f [some [97], some [1]] = (.ok u', []) ∧ u'.store = s' := by
  obtain ⟨h0, -, -, h⟩ := C125_multi_partial toy toy_lawful true OfflineDemo.vOff OfflineDemo.vOff (List.replicate 40 4) Demo.u1 Demo.t1
    OfflineDemo.off OfflineDemo.off perm_id perm_id' Demo.u1_multi.1 Demo.u1_multi.2.2 Demo.u1_wf Demo.u1_clean
  obtain ⟨r, f, s', h1, -, h2, h3⟩ := h [] _ trivial rfl (by unfold Counted; rw [h0]; decide +kernel)
  obtain ⟨u', k1, k2, -⟩ := h3 [97] [1] (by decide)
  exact ⟨r, f, s', u', h1, h2.trans h0, by decide +kernel, k1, k2⟩

end Verif.App
