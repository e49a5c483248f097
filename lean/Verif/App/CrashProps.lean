import Verif.App.CrashNetLemmas
import Verif.App.CrashKeyLemmas
import Verif.App.HistoryProps
import Verif.App.NetProps
import Verif.App.AccessProps
import Verif.App.FleetDemo
import Verif.App.OwnSyncProps
/-!
# C97: `sync` does not crash

as long as every remote that is asked holds nothing or a file that bpass wrote and the session can open, or asks how to open, the servers
announce no negative lengths, and addresses and lists of known hosts are such as bpass makes them. Without any of these it does crash.
-/
namespace Verif.App
open Verif Verif.Txlogs Verif.Blob Verif.Crypt Verif.App.Spec

/-- `sync` does not crash, whatever is typed at its questions. Missing for the full property: the
remotes of the `_false` theorems below. -/
theorem C97_partial (P : Prims) (hP : Crypt.Spec.Lawful P) (C : Codec) (w : World) (url hosts : Str → Prop) (v : SyncEnv) (nm : Str)
    (push : Bool) (u : Session) (inp : Input) (h : Sound u.store) (hs : SyncOk P C w v nm u inp) (hc : CalmSync P C w v nm u inp url hosts) :
    (sync P C w v nm push u inp).result ≠ .panic :=
  (sync_calm hP h.wf.good h.own hs hc).1

/-- Over the network: good addresses and lists of known hosts are enough if the servers are polite. -/
theorem C97_net (o : Outside) (h : Polite o) : Gentle (netWorld o) GoodUrl GoodHosts ∧ Listens (netWorld o) :=
  ⟨net_gentle h, netWorld_listens o⟩

/-- A server with scp is, whatever files it has. -/
theorem C97_scp (files : Str → Option Str) (writable : Bool) (cmd inp : Str) :
    Scp.readFile (scpServer files writable cmd inp).out ≠ .panic := scpServer_calm files writable cmd inp

/-! ## Sessions -/

/-- A line of a session that avoids the known ways to crash, `sync` included. -/
def CalmTurn (P : Prims) (C : Codec) (v : Env) (line : Str) (r : Repl) : Prop :=
  (HistoryTurn v line r ∧ CarefulTurn v line r) ∨
    ∃ args url hosts, parseLine line = some (b! "sync", args) ∧ SyncOk P C v.w v.v (args.head?.getD []) r.u v.d.inp ∧
      NamesApartAll P C v.w v.v (args.head?.getD []) r.u v.d.inp ∧ CalmSync P C v.w v.v (args.head?.getD []) r.u v.d.inp url hosts

theorem CalmTurn.whole {P : Prims} {C : Codec} {v : Env} {line : Str} {r : Repl} (h : CalmTurn P C v line r) : WholeTurn P C v line r := by
  rcases h with ⟨h, -⟩ | ⟨args, url, hosts, a, b, c, -⟩
  · exact .inl h
  · exact .inr ⟨args, a, b, c⟩

theorem C97_line_partial (P : Prims) (hP : Crypt.Spec.Lawful P) (C : Codec) (v : Env) (line : Str) (r : Repl) (h : Sound r.u.store)
    (hl : CalmTurn P C v line r) : (runLine P C v line r).2 ≠ .panic := by
  rcases hl with ⟨hl, hc⟩ | ⟨args, url, hosts, hp, hs, hn, hc⟩
  · exact C66_line_partial P hP C v line r h.tx h.wf hl.legal hc
  · have hrun : runLine P C v line r = if r.u.readOnly then (r, .ok false) else execWrite P C v (b! "sync") args r := by
      unfold runLine
      rw [hp]
      rfl
    rw [hrun]
    by_cases hro : r.u.readOnly
    · rw [if_pos hro]; simp
    · rw [if_neg hro]
      have hx : execWrite P C v (b! "sync") args r =
          let x := sync P C v.w v.v (args.head?.getD []) true r.u v.d.inp
          let r := if x.pushed = [] then r else { r with pushed := r.pushed ++ [(x.sent, x.pushed)] }
          back r (x.session, x.result) := by
        unfold execWrite
        simp (decide := true) only [if_false, if_true]
      rw [hx]
      simp only
      have := C97_partial P hP C v.w url hosts v.v _ true r.u v.d.inp h hs hc
      cases hres : (sync P C v.w v.v (args.head?.getD []) true r.u v.d.inp).result with
      | panic => exact absurd hres this
      | err e => simp [back]
      | ok x => simp [back]

/-- Any number of such lines does not crash. -/
theorem C97_session_partial (P : Prims) (hP : Crypt.Spec.Lawful P) (C : Codec) (turns : List Turn) (r : Repl) (h : Sound r.u.store)
    (hl : Along P C (CalmTurn P C) turns r) : (runRepl P C turns r).2 ≠ .panic := by
  induction turns generalizing r with
  | nil => simp [runRepl]
  | cons t rest ih =>
    obtain ⟨o, v⟩ := t
    cases o with
    | none => unfold runRepl; split <;> simp
    | some line =>
      obtain ⟨hl1, hl2⟩ := hl
      have hp := C97_line_partial P hP C v line r h hl1
      have key := C87_line_partial P C v line r (h := h) (hl := hl1.whole)
      unfold runRepl
      cases hx : runLine P C v line r with
      | mk r' o =>
        rw [hx] at hp key hl2
        cases o with
        | panic => exact absurd rfl hp
        | err e => simp
        | ok b =>
          cases b with
          | true => simp
          | false => exact ih r' (key false rfl) hl2

/-- An automatic `sync` meets nothing that crashes it. -/
def AutoCalm (P : Prims) (C : Codec) (v : Env) (u : Session) : Prop :=
  AutoOk P C v u ∧ ∃ url hosts, CalmSync P C v.w v.v [] u v.d.inp url hosts

theorem autoSync_calm {P : Prims} (hP : Crypt.Spec.Lawful P) {C : Codec} {v : Env} {auto : Bool} {r : Repl} (h : Sound r.u.store)
    (ha : auto = true → AutoCalm P C v r.u) : (autoSync P C v auto r).2 ≠ .panic := by
  unfold autoSync
  by_cases hc : r.u.readOnly = false ∧ auto = true
  · rw [if_pos hc]
    obtain ⟨⟨hs, -⟩, url, hosts, hcs⟩ := ha hc.2
    exact C97_partial P hP C v.w url hosts v.v [] true r.u v.d.inp h hs hcs
  · rw [if_neg hc]
    simp

/-- A line of a session whose random values have the right sizes; `sync` draws only an iv. -/
def DrawnTurn (P : Prims) (C : Codec) (v : Env) (line : Str) (r : Repl) : Prop :=
  CalmTurn P C v line r ∧ ((∀ args, parseLine line ≠ some (b! "sync", args)) → DrawsOk v)

theorem line_creds {P : Prims} (hP : Crypt.Spec.Lawful P) {C : Codec} {v : Env} {line : Str} {r : Repl} (h : Sound r.u.store)
    (hl : DrawnTurn P C v line r) (hc : SomeCreds r.u.creds) : SomeCreds (runLine P C v line r).1.u.creds := by
  obtain ⟨hl, hd⟩ := hl
  rcases hl with ⟨hl, -⟩ | ⟨args, url, hosts, hp, hs, hn, hcs⟩
  · exact line_sizes hP (hd hl.legal.noSync) hl.legal.noSync hc
  · have hrun : runLine P C v line r = if r.u.readOnly then (r, .ok false) else execWrite P C v (b! "sync") args r := by
      unfold runLine
      rw [hp]
      rfl
    rw [hrun]
    split
    · exact hc
    · have hx : (execWrite P C v (b! "sync") args r).1.u = (sync P C v.w v.v (args.head?.getD []) true r.u v.d.inp).session := by
        unfold execWrite
        simp (decide := true) only [if_false, if_true]
        rw [back_u]
      rw [hx]
      exact (sync_calm hP h.wf.good h.own hs hcs).2

theorem session_creds {P : Prims} (hP : Crypt.Spec.Lawful P) {C : Codec} (turns : List Turn) (r : Repl) (h : Sound r.u.store)
    (hl : Along P C (DrawnTurn P C) turns r) (hc : SomeCreds r.u.creds) : SomeCreds (runRepl P C turns r).1.u.creds := by
  induction turns generalizing r with
  | nil => exact hc
  | cons t rest ih =>
    obtain ⟨o, v⟩ := t
    cases o with
    | none => exact hc
    | some line =>
      obtain ⟨hl1, hl2⟩ := hl
      have hk := line_creds hP h hl1 hc
      have key := C87_line_partial P C v line r (h := h) (hl := hl1.1.whole)
      unfold runRepl
      cases hx : runLine P C v line r with
      | mk r' o =>
        rw [hx] at hk key hl2
        cases o with
        | panic => exact hk
        | err e => exact hk
        | ok b =>
          cases b with
          | true => exact hk
          | false => exact ih r' (key false rfl) hl2 hk

theorem autoSync_creds {P : Prims} (hP : Crypt.Spec.Lawful P) {C : Codec} {v : Env} {auto : Bool} {r : Repl} (h : Sound r.u.store)
    (ha : auto = true → AutoCalm P C v r.u) (hc : SomeCreds r.u.creds) : SomeCreds (autoSync P C v auto r).1.u.creds := by
  unfold autoSync
  by_cases hk : r.u.readOnly = false ∧ auto = true
  · rw [if_pos hk]
    obtain ⟨⟨hs, -⟩, url, hosts, hcs⟩ := ha hk.2
    exact (sync_calm hP h.wf.good h.own hs hcs).2
  · rw [if_neg hk]
    exact hc

/-- The whole program does not crash either: not in the automatic `sync`s, not in the session and not when the file is written. -/
theorem C97_program_partial (P : Prims) (hP : Crypt.Spec.Lawful P) (C : Codec) (auto : Bool) (v v' : Env) (iv : Str) (turns : List Turn)
    (u : Session) (h : Sound u.store) (hc : SomeCreds u.creds) (h1 : auto = true → AutoCalm P C v u)
    (h2 : Along P C (DrawnTurn P C) turns (autoSync P C v auto { u := u }).1)
    (h3 : auto = true → AutoCalm P C v' (runRepl P C turns (autoSync P C v auto { u := u }).1).1.u)
    (hiv : iv.length = 40) (ho : ∀ m, (v'.ord m).Perm m) (ho' : ∀ m, (v'.ord' m).Perm m) :
    (session P C auto v v' iv turns u).2 ≠ .panic := by
  have a0 := autoSync_calm (C := C) (v := v) hP (auto := auto) (r := { u := u }) h h1
  have a := sound_autoSync (P := P) (C := C) (v := v) (auto := auto) (r := { u := u }) h (fun hh => (h1 hh).1)
  have k := autoSync_creds (C := C) (v := v) hP (auto := auto) (r := { u := u }) h h1 hc
  unfold session
  cases hx : autoSync P C v auto { u := u } with
  | mk r1 o1 =>
    rw [hx] at a a0 k h2 h3
    cases o1 with
    | panic => exact absurd rfl a0
    | err e => simp
    | ok x =>
      have a := a rfl
      simp only at h2 h3 ⊢
      have h2' := along_mono (fun _ _ _ h => h.1) _ _ h2
      have b0 := C97_session_partial P hP C turns r1 a h2'
      have b := C87_session_partial P C turns r1 a (along_mono (fun _ _ _ h => h.whole) _ _ h2')
      have k := session_creds hP turns r1 a h2 k
      cases hy : runRepl P C turns r1 with
      | mk r2 o2 =>
        rw [hy] at b b0 h3 k
        cases o2 with
        | panic => exact absurd rfl b0
        | err e => simp
        | ok x =>
          have b := b rfl
          simp only at h3 ⊢
          have h3' : (auto && decide (r2.u.startTx ≠ r2.u.store.log.length)) = true → AutoCalm P C v' r2.u :=
            fun h => h3 (by simp only [Bool.and_eq_true] at h; exact h.1)
          have c0 := autoSync_calm (C := C) (v := v') hP (auto := auto && r2.u.startTx ≠ r2.u.store.log.length) (r := r2) b h3'
          have k := autoSync_creds (C := C) (v := v') hP (auto := auto && r2.u.startTx ≠ r2.u.store.log.length) (r := r2) b h3' k
          cases hz : autoSync P C v' (auto && r2.u.startTx ≠ r2.u.store.log.length) r2 with
          | mk r3 o3 =>
            rw [hz] at c0 k
            cases o3 with
            | panic => exact absurd rfl c0
            | err e => simp
            | ok x =>
              simp only
              have c := sound_autoSync (P := P) (C := C) (v := v') (auto := auto && r2.u.startTx ≠ r2.u.store.log.length) (r := r2) b
                (fun h => (h3' h).1)
              rw [hz] at c
              have := sealFile_calm hP C (s := r3.u.store) k hiv ho ho' (c rfl).wf.good
              unfold saveBlob
              repeat' split
              all_goals first
                | simp; done
                | (rename_i hp; rw [hp] at this; exact absurd rfl this)

/-! ## What crashes it -/

theorem sync_crash {P : Prims} {C : Codec} {w : World} {v : SyncEnv} {push : Bool} {u : Session} {inp inp' : Input} {s : DB} {x : Str}
    {rest : List Str} (hu : u.store.updateSnapshot = (s, none)) (hx : collectSyncs w v.ord s = x :: rest)
    (hp : pullOne P C w { u with store := s } x inp = (none, inp')) : (sync P C w v [] push u inp).result = .panic := by
  simp only [sync, hu, ne_eq, not_true, if_false, hx, syncWith, pullAll, hp]

/-- A file that is cut off within its first 48 bytes, as an interrupted transfer leaves it, crashes `sync` on every machine that uses
that remote, with every passphrase. -/
theorem C97_cut_false (P : Prims) (C : Codec) (w : World) (v : SyncEnv) (push : Bool) (u : Session) (inp inp' : Input) (s : DB)
    (x : Str) (rest : List Str) (t h : Str) (n : Nat) (hn : n < 48) (hu : u.store.updateSnapshot = (s, none))
    (hx : collectSyncs w v.ord s = x :: rest)
    (hp : pullBlob w x ((s.snapshot.get? x).getD []) inp = (some (.bytes ((magic 0 ++ t).take n), h), inp')) :
    (sync P C w v [] push u inp).result = .panic := by
  have hd : ∀ user pass, decrypt P user pass (orNil u.creds.key) u.creds.salt ((magic 0 ++ t).take n) = .panic := by
    intro user pass
    have hl : ((magic 0 ++ t).take n).length < 48 := by rw [List.length_take]; omega
    generalize hf : (magic 0 ++ t).take n = f at hl
    unfold decrypt
    by_cases h16 : f.length < magicLen
    · rw [if_pos h16]
    · have h16' : 16 ≤ f.length := by simpa [magicLen] using h16
      have hm : (magic 0).length = 16 := by decide
      have hn16 : 16 ≤ n := by rw [← hf, List.length_take] at h16'; omega
      have hf' : f = magic 0 ++ t.take (n - 16) := by
        rw [← hf, List.take_append, hm, List.take_of_length_le (by omega)]
      rw [if_neg h16]
      obtain ⟨m, d1, -, -, d4⟩ := decrypt_header P user pass (orNil u.creds.key) u.creds.salt 0 (t.take (n - 16))
      have h16t : (magic 0).take 16 = magic 0 := List.take_of_length_le (by omega)
      have hm0 : m = 0 := Decidable.byContradiction fun hc => absurd rfl (d1.1 hc)
      rw [h16t, ← hf'] at d4
      have hs : decryptSingle P pass (orNil u.creds.key) u.creds.salt f = .panic := by
        unfold decryptSingle
        rw [if_pos (by simpa [magicLen, saltSize] using hl)]
      simp only [hm0, ne_eq, not_true, false_and, if_false, if_true, hs] at d4
      unfold decrypt at d4
      rw [if_neg h16] at d4
      exact d4
  refine sync_crash (inp' := inp') hu hx ?_
  have hdb : ∀ i, decryptBlob P u.creds ((magic 0 ++ t).take n) u.creds.user u.creds.pass i = (.panic, i) := by
    intro i
    cases i with
    | nil => simp only [decryptBlob, tryDecrypt, hd]
    | cons a i => cases a <;> simp only [decryptBlob, tryDecrypt, hd]
  simp only [pullOne, hp, hdb]

/-- Whenever talking to the first remote crashes, `sync` does. -/
theorem C97_first (P : Prims) (C : Codec) (w : World) (v : SyncEnv) (push : Bool) (u : Session) (inp inp' : Input) (s : DB)
    (x : Str) (rest : List Str) (hu : u.store.updateSnapshot = (s, none)) (hx : collectSyncs w v.ord s = x :: rest)
    (hp : pullBlob w x ((s.snapshot.get? x).getD []) inp = (none, inp')) : (sync P C w v [] push u inp).result = .panic :=
  sync_crash (inp' := inp') hu hx (by simp only [pullOne, hp])

namespace CrashDemo
open NetDemo (server out files)
open Verif.Crypt.Spec (toy toy_lawful)

/-- a file with one sync entry -/
def log (url known : Str) : List Tx :=
  [⟨1, .add, [97], [], []⟩, ⟨2, .setk, [97], keyName, b! "s"⟩, ⟨3, .setk, [97], keySync, b! "true"⟩, ⟨4, .setk, [97], keyURL, url⟩,
   ⟨5, .setk, [97], keyKnownHosts, known⟩]
def file (url known : Str) (c : Creds) : Session := { creds := c, store := { log := log url known } }

/-- a server that announces a file of length -1 -/
def rude : Server := { server [1] files with run := fun _ _ => { out := b! "C0644 -1 x\n" } }
def rudeOut : Outside := { out [1] files with net := fun _ => some rude }

theorem upd (url known : Str) : ∃ s, ({ log := log url known } : DB).updateSnapshot = (s, none) ∧ s.snapshot =
    [([97], [(keyName, b! "s"), (keySync, b! "true"), (keyURL, url), (keyKnownHosts, known)])] := ⟨_, rfl, rfl⟩

theorem collect {w : World} {v : SyncEnv} (hord : ∀ m, (v.ord m).Perm m) {url known : Str} {s : DB} (hu : url ≠ [])
    (hw : w.scheme url = some syncSCP) (hs : s.snapshot =
      [([97], [(keyName, b! "s"), (keySync, b! "true"), (keyURL, url), (keyKnownHosts, known)])]) : collectSyncs w v.ord s = [[97]] := by
  have h1 : v.ord s.snapshot = [([97], [(keyName, b! "s"), (keySync, b! "true"), (keyURL, url), (keyKnownHosts, known)])] := by
    rw [hs]; exact List.perm_singleton.1 (hord _)
  have v1 : val [(keyName, b! "s"), (keySync, b! "true"), (keyURL, url), (keyKnownHosts, known)] keySync = b! "true" := rfl
  have v2 : val [(keyName, b! "s"), (keySync, b! "true"), (keyURL, url), (keyKnownHosts, known)] keyName = b! "s" := rfl
  have v3 : val [(keyName, b! "s"), (keySync, b! "true"), (keyURL, url), (keyKnownHosts, known)] keyURL = url := rfl
  have h2 : isSync w [(keyName, b! "s"), (keySync, b! "true"), (keyURL, url), (keyKnownHosts, known)] = true := by
    unfold isSync
    rw [v1, v2, v3, hw]
    simp (decide := true) [hu]
  simp [collectSyncs, h1, h2]

/-- An address without a path passes the check that `set` makes, and then every `sync` crashes. -/
theorem C97_path_false (P : Prims) (C : Codec) (o : Outside) (v : SyncEnv) (hord : ∀ m, (v.ord m).Perm m) (push : Bool) (c : Creds)
    (known : Str) (inp : Input) : urlOk (b! "scp://me@h") = true ∧
      (sync P C (netWorld o) v [] push (file (b! "scp://me@h") known c) inp).result = .panic := by
  obtain ⟨s, h1, h2⟩ := upd (b! "scp://me@h") known
  refine ⟨by decide +kernel, ?_⟩
  have hp : Url.parse (b! "scp://me@h") = some { scheme := syncSCP, user := some (b! "me", none), host := b! "h" } := by decide +kernel
  refine C97_first P C _ v push _ inp inp s [97] [] h1 (collect hord (by decide) ?_ h2) ?_
  · simp only [netWorld, hp, Option.map_some]
  · have e : (s.snapshot.get? [97]).getD [] = [(keyName, b! "s"), (keySync, b! "true"), (keyURL, b! "scp://me@h"), (keyKnownHosts, known)] := by
      rw [h2]; rfl
    have v3 : val [(keyName, b! "s"), (keySync, b! "true"), (keyURL, b! "scp://me@h"), (keyKnownHosts, known)] keyURL = b! "scp://me@h" := rfl
    simp only [e, pullBlob, netWorld, v3, hp, Option.map_some, if_true, sshPull, sshConfig, Option.map_none]

/-- A server that announces a file of negative length crashes every `sync`; so does a line with fewer than four fields in the list of
known hosts, which nothing checks. -/
theorem C97_server_false (P : Prims) (C : Codec) (v : SyncEnv) (hord : ∀ m, (v.ord m).Perm m) (push : Bool) (c : Creds) (inp : Input) :
    (sync P C (netWorld rudeOut) v [] push
      (file (b! "scp://me:q@h:22/pw") (hostLine id (hostKey (b! "h:22") rude)) c) inp).result = .panic ∧
    (sync P C (netWorld (out [1] files)) v [] push (file (b! "scp://me:q@h:22/pw") (b! "h:22") c) inp).result = .panic := by
  have hp : Url.parse (b! "scp://me:q@h:22/pw") =
    some { scheme := syncSCP, user := some (b! "me", some (b! "q")), host := b! "h:22", path := b! "/pw" } := by decide +kernel
  have key : ∀ (o : Outside) (known : Str), (sshPull o [(keyName, b! "s"), (keySync, b! "true"),
      (keyURL, b! "scp://me:q@h:22/pw"), (keyKnownHosts, known)] inp).out = none →
      (sync P C (netWorld o) v [] push (file (b! "scp://me:q@h:22/pw") known c) inp).result = .panic := by
    intro o known hi
    obtain ⟨s, h1, h2⟩ := upd (b! "scp://me:q@h:22/pw") known
    refine C97_first P C _ v push _ inp (sshPull o [(keyName, b! "s"), (keySync, b! "true"), (keyURL, b! "scp://me:q@h:22/pw"),
      (keyKnownHosts, known)] inp).rest s [97] [] h1 (collect hord (by decide) ?_ h2) ?_
    · simp only [netWorld, hp, Option.map_some]
    · have e : (s.snapshot.get? [97]).getD [] = [(keyName, b! "s"), (keySync, b! "true"), (keyURL, b! "scp://me:q@h:22/pw"),
          (keyKnownHosts, known)] := by rw [h2]; rfl
      have v3 : val [(keyName, b! "s"), (keySync, b! "true"), (keyURL, b! "scp://me:q@h:22/pw"), (keyKnownHosts, known)] keyURL =
        b! "scp://me:q@h:22/pw" := rfl
      simp only [e, pullBlob, netWorld, v3, hp, Option.map_some, if_true, hi, Option.map_none]
  constructor
  · refine key _ _ ?_
    have h1 : sshConfig rudeOut.parseKey [(keyName, b! "s"), (keySync, b! "true"), (keyURL, b! "scp://me:q@h:22/pw"),
      (keyKnownHosts, hostLine id (hostKey (b! "h:22") rude))] = .ok NetDemo.conf := by decide +kernel
    have h2 : checkKnown rudeOut.sha (hostKey NetDemo.conf.address rude) (split newline (hostLine id (hostKey (b! "h:22") rude))) = .ok true := by
      decide +kernel
    have h3 : rudeOut.net NetDemo.conf.address = some rude := rfl
    have h4 : ¬ (rude.keyType ≠ b! "ssh-ed25519" ∧ rude.keyType ≠ b! "ssh-rsa") := by decide
    have h5 : val [(keyName, b! "s"), (keySync, b! "true"), (keyURL, b! "scp://me:q@h:22/pw"),
      (keyKnownHosts, hostLine id (hostKey (b! "h:22") rude))] keyKnownHosts = hostLine id (hostKey (b! "h:22") rude) := rfl
    have h6 : rude.login NetDemo.conf.user NetDemo.conf.auth = true := rfl
    have h7 : received (rude.run (recvCmd NetDemo.conf.path) [0, 0, 0]) = none := by decide +kernel
    simp only [sshPull, h1, dial, h3, h4, if_false, callback, h5, h2, h6, if_true, h7]
  · refine key _ _ ?_
    have h1 : sshConfig (out [1] files).parseKey [(keyName, b! "s"), (keySync, b! "true"), (keyURL, b! "scp://me:q@h:22/pw"),
      (keyKnownHosts, b! "h:22")] = .ok NetDemo.conf := by decide +kernel
    have h2 : checkKnown (out [1] files).sha (hostKey NetDemo.conf.address (server [1] files)) (split newline (b! "h:22")) = .panic := by
      decide +kernel
    have h3 : (out [1] files).net NetDemo.conf.address = some (server [1] files) := rfl
    have h4 : ¬ ((server [1] files).keyType ≠ b! "ssh-ed25519" ∧ (server [1] files).keyType ≠ b! "ssh-rsa") := by decide
    have h5 : val [(keyName, b! "s"), (keySync, b! "true"), (keyURL, b! "scp://me:q@h:22/pw"),
      (keyKnownHosts, b! "h:22")] keyKnownHosts = b! "h:22" := rfl
    simp only [sshPull, h1, dial, h3, h4, if_false, callback, h5, h2]

/-- a codec that knows the empty log and another one -/
def CE : Codec where
  marshal s := if s.log = [] then [1] else [2]
  load t := if t = [1] then .ok (some DB.new) else .ok (some { log := HistoryDemo.logL })
  loadLog t := if t = [1] then .ok [] else .ok HistoryDemo.logL

/-- a new file, with nothing in it -/
def newFile : Str :=
  match saveBlob toy CE id id SyncDemo.iv { creds := SyncDemo.u.creds, store := DB.new } with
  | .ok (some f) => f
  | _ => []

/-- a session in a file with another passphrase -/
def uE : Session :=
  { creds := { pass := [3], key := List.replicate 80 3, salt := List.replicate 32 2 }, store := { log := HistoryDemo.logL } }
def wE : World := { SyncDemo.w with readFile := fun _ _ => .bytes newFile }

/-- A remote that holds a new file, with nothing in it, under another passphrase crashes `sync` once that is typed. -/
theorem C97_empty_false : ∃ (P : Prims) (C : Codec) (w : World) (v : SyncEnv) (u : Session) (c : Creds) (f pass : Str), Crypt.Spec.Lawful P ∧
    Sound u.store ∧ SingleCreds u.creds ∧ v.iv.length = 40 ∧ (∀ m, (v.ord m).Perm m) ∧
    (∀ uuid e inp, pullBlob w uuid e inp = (some (.bytes f, []), inp)) ∧
    SingleCreds c ∧ c.key = P.kdf pass c.salt ∧ SavedAs P C c f [] ∧
    (sync P C w v [] true u [some pass]).result = .panic := by
  refine ⟨toy, CE, wE, HistoryDemo.v, uE, SyncDemo.u.creds, newFile, [1], toy_lawful, HistoryDemo.sound, ⟨rfl, by decide, by decide⟩, by decide,
    Demo.perm_id, ?_, ⟨rfl, by decide, by decide⟩, by decide, ⟨id, id, SyncDemo.iv, DB.new, by decide, rfl, rfl, ⟨by decide, ⟨DB.new, rfl, ?_⟩, rfl⟩,
    by decide +kernel⟩, by decide +kernel⟩
  · intro uuid e inp
    simp (decide := true) only [pullBlob, wE, SyncDemo.w, if_true, if_false]
  · exact ⟨rfl, rfl, rfl, GoMap.nodupKeys_nil, inner_nil, rfl⟩

/-! ## The hypotheses can be met -/

open HistoryDemo (D w v u logR sound syncOk_shop apart_shop own ok_log)

/-- every address and list of known hosts is fine when all remotes are files -/
theorem gentle : Gentle w (fun _ => True) (fun _ => True) := by
  refine ⟨trivial, trivial, fun uuid e inp _ _ => ⟨.bytes (SyncDemo.fileOf SyncDemo.logB), [], inp, ?_, fun h => absurd rfl h⟩,
    fun uuid e ct inp _ _ => ⟨true, [], inp, ?_, fun h => absurd rfl h⟩⟩
  · simp (decide := true) only [pullBlob, w, SyncDemo.w, if_true, if_false]
  · simp (decide := true) only [pushBlob, w, SyncDemo.w, if_true, if_false]

theorem listens : Listens w := by
  intro uuid e inp x rest h
  cases h
  exact List.suffix_refl _

theorem faithful : Faithful (D (b! "shop")) { log := logR (b! "shop") } :=
  ⟨by simp [D], ⟨_, rfl, rfl, rfl, rfl, GoMap.nodupKeys_nil, inner_nil, rfl⟩, rfl⟩

theorem canOpen (typed : Input) : CanOpen toy (D (b! "shop")) u.creds (SyncDemo.fileOf SyncDemo.logB) typed (logR (b! "shop")) := by
  refine .inl ⟨u.creds, ⟨rfl, by decide, by decide⟩, ⟨id, id, SyncDemo.iv, { log := logR (b! "shop") }, by decide, rfl, rfl, faithful, by decide +kernel⟩,
    .inl (.inr ⟨by decide +kernel, rfl⟩)⟩

theorem calm : CalmSync toy (D (b! "shop")) w v [] u [] (fun _ => True) (fun _ => True) := by
  refine ⟨gentle, listens, ⟨by decide, by decide, .inl rfl⟩, fun t _ _ => ⟨fun _ => trivial, fun _ => trivial⟩, by decide, Demo.perm_id, Demo.perm_id', ?_⟩
  intro uuid inp f h rest _ _ hp
  have : pullBlob w uuid ((u.store.updateSnapshot.1.snapshot.get? uuid).getD []) inp = (some (.bytes (SyncDemo.fileOf SyncDemo.logB), []), inp) := by
    simp (decide := true) only [pullBlob, w, SyncDemo.w, if_true, if_false]
  rw [this] at hp
  simp only [Prod.mk.injEq, Option.some.injEq, Pulled.bytes.injEq] at hp
  rw [← hp.1.1]
  exact ⟨_, canOpen _, by simp [logR], fun t _ _ => ⟨fun _ => trivial, fun _ => trivial⟩⟩

-- C97: `sync` from a file, and it did merge something
example : (sync toy (D (b! "shop")) w v [] true u []).result ≠ .panic ∧
    (sync toy (D (b! "shop")) w v [] true u []).session.store.log ≠ u.store.log :=
  ⟨C97_partial toy toy_lawful _ w _ _ v [] true u [] sound syncOk_shop calm, by decide +kernel⟩

-- as a line of a session, and as the automatic `sync` of a program
example : (runRepl toy (D (b! "shop")) [(some (b! "sync"), { w := w, v := v })] { u := u }).2 ≠ .panic :=
  C97_session_partial toy toy_lawful _ _ _ sound ⟨.inr ⟨[], _, _, by decide +kernel, syncOk_shop, apart_shop, calm⟩, trivial⟩
example : AutoCalm toy (D (b! "shop")) { w := w, v := v } u := ⟨⟨syncOk_shop, apart_shop⟩, _, _, calm⟩
example : (session toy (D (b! "shop")) false {} {} SyncDemo.iv [(some (b! "sync"), { w := w, v := v })] u).2 ≠ .panic :=
  C97_program_partial toy toy_lawful _ false {} {} _ _ _ sound ⟨by decide, by decide, .inl rfl⟩ (fun h => by cases h)
    ⟨⟨.inr ⟨[], _, _, by decide +kernel, syncOk_shop, apart_shop, calm⟩, fun h => absurd (by decide +kernel) (h [])⟩, trivial⟩
    (fun h => by cases h) (by decide) Demo.perm_id Demo.perm_id'

-- the server of C91 is polite, and an entry as `addsync` makes it is good
example : Polite (out [1] files) := by
  intro a s h
  simp only [out] at h
  split at h
  · cases h
    exact ⟨by decide, C97_scp files true⟩
  · cases h
example : GoodUrl (b! "scp://me:q@h:22/pw") :=
  ⟨{ scheme := syncSCP, user := some (b! "me", some (b! "q")), host := b! "h:22", path := b! "/pw" }, by decide +kernel, by decide⟩
example : GoodHosts (hostLine id (hostKey (b! "h:22") (server [1] files))) := by unfold GoodHosts; decide +kernel

-- a file that a transfer left empty
example : (sync toy (D (b! "shop")) { w with readFile := fun _ _ => .bytes [] } v [] true u []).result = .panic :=
  C97_cut_false toy _ _ _ true u [] [] _ [97] [] [] [] 0 (by decide) rfl (by decide +kernel) (by decide +kernel)

end CrashDemo

end Verif.App
