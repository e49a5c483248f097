import Verif.App.AfterLemmas
import Verif.App.FileProps
import Verif.App.OwnSyncDemo
/-!
# What a run leaves at the remotes: C118, C119
-/
namespace Verif.App
open Verif Verif.Txlogs Verif.Blob Verif.Crypt Spec
open Verif.Txlogs.Spec (GoodHistory)

/-! ## C118 -/

/-- Nobody else changed the file since: a `sync` that succeeds sends the file to every remote that is behind, or that has none. -/
theorem C118_sync_partial (P : Prims) (C : Codec) (w : World) (v : SyncEnv) (hord : ∀ m, (v.ord m).Perm m) (u : Session) (s : DB)
    (inp : Input) (uuid : Str) (ho : OwnHistory u.store.log) (hs : Settled u.creds u.store.log) (hold : OnlyOld P C w u)
    (hu : u.store.updateSnapshot = (s, none)) (hx : uuid ∈ collectSyncs w v.ord s) (hne : uuid ≠ []) (hb : Behind P C w u s uuid)
    (hok : (sync P C w v [] true u inp).result = .ok ()) :
    uuid ∈ (sync P C w v [] true u inp).pushed.map Prod.fst ∧
    ∃ s1 : DB, u.store.log <+: s1.log ∧
      saveBlob P C v.ord v.ord' v.iv { creds := u.creds, store := s1 } = .ok (some (sync P C w v [] true u inp).sent) := by
  rcases hb with hb | ⟨ct, ver, p, pt, old, h1, h2, h3, h4, h5⟩
  · have hlog := updateSnapshot_log u.store
    rw [hu] at hlog
    simp only at hlog
    have hsync : sync P C w v [] true u inp = syncWith P C w v true { u with store := s } (collectSyncs w v.ord s) inp := by
      simp only [sync, hu, ne_eq, not_true, if_false]
    rw [hsync] at hok ⊢
    cases hp : pullAll P C w { u with store := s } (collectSyncs w v.ord s) inp with
    | mk o i1 =>
      cases o with
      | none =>
        unfold syncWith at hok
        rw [hp] at hok
        cases hok
      | some l =>
        obtain ⟨hmap, hone⟩ := pullAll_spec P C w _ _ _ _ _ hp
        have hrem := old_remotes (u := u) hold (by rw [hu]; exact hp)
        have hm := C117_merge v.ord hord u.creds u.store.log ho hs _ hrem i1
        rw [← hlog] at hm
        obtain ⟨h1, h2, s1, h3, -, -, h4⟩ := C27_sent_partial P C w v { u with store := s } _ inp i1 i1 l _ hp hm hok
        refine ⟨?_, s1, by rw [← hlog]; exact h3, h4⟩
        rw [← hmap] at hx
        obtain ⟨⟨x, f, h⟩, hmem, rfl⟩ := List.mem_map.1 hx
        refine h2 x f h hmem ?_ hne
        rintro rfl
        obtain ⟨i, i', hi⟩ := hone _ hmem
        obtain ⟨hh, i2, hpull⟩ := hb i
        simp only at hpull
        unfold pullOne at hi
        simp only [hpull] at hi
        cases hi
  · exact C117_repaired_partial P C w v hord u s inp uuid ct pt ver p old ho hs hold hu hx hne h1 h2 h3 h4 h5 hok

/-- A run that ends well and recorded something sends, at its end, the file with everything that was recorded to every remote that
is behind, provided nobody else changed the file since. -/
theorem C118_partial (P : Prims) (C : Codec) (v v' : Env) (iv : Str) (turns : List Turn) (u : Session) (r1 r : Repl) (f : Option Str)
    (hord : ∀ m, (v'.v.ord m).Perm m) (hro : u.readOnly = false) (hl : LeftPrompt P C v turns u r1)
    (hw : r1.u.startTx ≠ r1.u.store.log.length) (s : DB) (uuid : Str) (ho : OwnHistory r1.u.store.log)
    (hs : Settled r1.u.creds r1.u.store.log) (hold : OnlyOld P C v'.w r1.u) (hu : r1.u.store.updateSnapshot = (s, none))
    (hx : uuid ∈ collectSyncs v'.w v'.v.ord s) (hne : uuid ≠ []) (hb : Behind P C v'.w r1.u s uuid)
    (h : session P C true v v' iv turns u = (r, .ok f)) :
    ∃ sent ts, (sent, ts) ∈ r.pushed ∧ uuid ∈ ts.map Prod.fst ∧
      (∃ s1 : DB, r1.u.store.log <+: s1.log ∧
        saveBlob P C v'.v.ord v'.v.ord' v'.v.iv { creds := r1.u.creds, store := s1 } = .ok (some sent)) ∧
      r.u.creds = r1.u.creds ∧ r1.u.store.log <+: r.u.store.log ∧ saveBlob P C v'.ord v'.ord' iv r.u = .ok f := by
  obtain ⟨r0, h0, h1⟩ := hl
  have hro1 : r1.u.readOnly = false := by
    have a := autoSync_ro P C v true { u := u }
    have b := runRepl_ro P C turns r0
    rw [h0] at a
    rw [h1] at b
    exact b.trans (a.trans hro)
  have key := (C74_autosync P C true v v' iv turns u r0 r1 h0 h1).2 rfl hro1 hw
  rw [h] at key
  obtain ⟨k1, k2⟩ := key
  by_cases hok : (sync P C v'.w v'.v [] true r1.u v'.d.inp).result = .ok ()
  · obtain ⟨g1, g2, g3⟩ := k1 hok
    obtain ⟨q1, q2⟩ := C118_sync_partial P C v'.w v'.v hord r1.u s v'.d.inp uuid ho hs hold hu hx hne hb hok
    obtain ⟨c1, c2, -⟩ := C117_partial P C v'.w v'.v hord [] true r1.u v'.d.inp ho hs hold
    simp only at g1 g2
    rw [g1]
    refine ⟨_, _, g3 ?_, q1, q2, c1, c2, g2.symm⟩
    intro he
    rw [he] at q1
    cases q1
  · exact absurd rfl (k2 hok f)

/-- The same when other machines changed the file too: what is sent has every operation that was recorded here, if the histories
could be merged. -/
theorem C118_merged_partial (P : Prims) (C : Codec) (v v' : Env) (iv : Str) (turns : List Turn) (u : Session) (r1 r : Repl)
    (f : Option Str) (hro : u.readOnly = false) (hl : LeftPrompt P C v turns u r1) (hw : r1.u.startTx ≠ r1.u.store.log.length)
    (s : DB) (hu : r1.u.store.updateSnapshot = (s, none)) (l : List (Str × Fate × Str)) (i1 i2 : Input) (m : Merged)
    (hp : pullAll P C v'.w { r1.u with store := s } (collectSyncs v'.w v'.v.ord s) v'.d.inp = (some l, i1))
    (hm : mergeBlobs v'.v.ord r1.u.creds s.log (remotes l) i1 = (.ok m, i2))
    (hf : OneFile s.log ((remotes l).map Remote.log)) (ht : Told s.log ((remotes l).map Remote.log))
    (uuid h : Str) (fate : Fate) (hx : (uuid, fate, h) ∈ l) (hfate : fate ≠ .skip) (hne : uuid ≠ [])
    (hr : session P C true v v' iv turns u = (r, .ok f)) :
    ∃ sent ts, (sent, ts) ∈ r.pushed ∧ uuid ∈ ts.map Prod.fst ∧
      ∃ s1 : DB, (∀ t ∈ r1.u.store.log, t ∈ s1.log) ∧ (∀ rem ∈ remotes l, ∀ t ∈ rem.log, t ∈ s1.log) ∧
        saveBlob P C v'.v.ord v'.v.ord' v'.v.iv { creds := m.creds, store := s1 } = .ok (some sent) := by
  obtain ⟨r0, h0, h1⟩ := hl
  have hro1 : r1.u.readOnly = false := by
    have a := autoSync_ro P C v true { u := u }
    have b := runRepl_ro P C turns r0
    rw [h0] at a
    rw [h1] at b
    exact b.trans (a.trans hro)
  have hlog := updateSnapshot_log r1.u.store
  rw [hu] at hlog
  simp only at hlog
  have hsync : ∀ inp, sync P C v'.w v'.v [] true r1.u inp =
      syncWith P C v'.w v'.v true { r1.u with store := s } (collectSyncs v'.w v'.v.ord s) inp := by
    intro inp
    simp only [sync, hu, ne_eq, not_true, if_false]
  have key := (C74_autosync P C true v v' iv turns u r0 r1 h0 h1).2 rfl hro1 hw
  rw [hr] at key
  obtain ⟨k1, k2⟩ := key
  by_cases hok : (sync P C v'.w v'.v [] true r1.u v'.d.inp).result = .ok ()
  · obtain ⟨-, -, g3⟩ := k1 hok
    rw [hsync] at hok g3
    obtain ⟨-, b2, s1, b3, -, -, b4⟩ := C27_sent_partial P C v'.w v'.v { r1.u with store := s } _ _ i1 i2 l m hp hm hok
    have hb := b2 uuid fate h hx hfate hne
    obtain ⟨-, hall⟩ := C80_blobs_partial v'.v.ord r1.u.creds s.log (remotes l) i1 i2 m hf ht hm
    refine ⟨_, _, g3 ?_, hb, s1, fun t h => b3.subset ((hall t).2 (.inl (hlog ▸ h))),
      fun rem hr t h => b3.subset ((hall t).2 (.inr ⟨rem, hr, h⟩)), b4⟩
    intro he
    rw [he] at hb
    cases hb
  · exact absurd rfl (k2 hok f)

/-- If nothing was recorded since the file was opened, nothing is sent at the end, even if the password was changed. -/
theorem C118_unrecorded (P : Prims) (C : Codec) (v v' : Env) (iv : Str) (turns : List Turn) (u : Session) (r1 r : Repl)
    (f : Option Str) (hl : LeftPrompt P C v turns u r1) (hw : r1.u.startTx = r1.u.store.log.length)
    (h : session P C true v v' iv turns u = (r, .ok f)) : r.pushed = r1.pushed := by
  obtain ⟨r0, h0, h1⟩ := hl
  have := (C74_autosync P C true v v' iv turns u r0 r1 h0 h1).1 (.inr (.inr hw))
  rw [h] at this
  simp only [Prod.mk.injEq] at this
  rw [this.1]

/-! ## C119 -/

/-- A prompt that was not left in order to save leaves the file as it was. -/
theorem C119_file (P : Prims) (C : Codec) (history : Option Int) (salt iv : Str) (v v' : Env) (auto : Bool) (turns : List Turn)
    (inp inp' : Input) (old : Disk) (u : Session) (r0 r1 : Repl) (o : Res AppErr Unit)
    (hu : load P C history salt old inp = (.ok u, inp')) (h0 : autoSync P C v auto { u := u } = (r0, .ok ()))
    (h1 : runRepl P C turns r0 = (r1, o)) (ho : o ≠ .ok ()) :
    main P C history salt iv v v' (.prompt auto turns) inp old = ([old], o) := by
  unfold main
  simp only [hu, work, h0, h1]
  cases o with
  | ok a => exact absurd rfl ho
  | err e => rfl
  | panic => rfl

/-- And nothing was sent since the start, unless a line was `sync`. -/
theorem C119_partial (P : Prims) (C : Codec) (v v' : Env) (iv : Str) (auto : Bool) (turns : List Turn) (u : Session) (r0 r1 : Repl)
    (o : Res AppErr Unit) (h0 : autoSync P C v auto { u := u } = (r0, .ok ())) (h1 : runRepl P C turns r0 = (r1, o)) (ho : o ≠ .ok ())
    (hn : ∀ t ∈ turns, NoSync t) :
    (session P C auto v v' iv turns u).1.pushed = r0.pushed ∧ ∀ f, (session P C auto v v' iv turns u).2 ≠ .ok f := by
  have hp := runRepl_pushed (P := P) (C := C) (r := r0) hn
  rw [h1] at hp
  unfold session
  simp only [h0, h1]
  cases o with
  | ok a => exact absurd rfl ho
  | err e => exact ⟨hp, fun f h => by cases h⟩
  | panic => exact ⟨hp, fun f h => by cases h⟩

namespace AfterDemo
open SyncDemo (u w v iv logA fileOf)
open Verif.Crypt.Spec (toy toy_lawful)
open HistoryDemo (own ownB)

/-- both remotes hold the file as it was opened -/
def wA : World := { w with readFile := fun _ _ => .bytes (fileOf logA) }
def u0 : Session := { u with startTx := 8 }
/-- what `set sync/b note x` records -/
def logN : List Tx := logA ++ [⟨21, .setk, [98], keyUpdated, b! "20"⟩, ⟨22, .setk, [98], b! "note", b! "x"⟩]
def C : Codec where
  marshal s := if s.log = logA then [1] else [2]
  load t := if t = [1] then .ok (some { log := logA }) else .ok (some { log := logN })
  loadLog t := if t = [1] then .ok logA else .ok logN
def env : Env := { w := wA, v := v, d := { now := fun i => 20 + i } }
def setLine : Turn := (some (b! "set sync/b note x"), env)
def r1 : Repl := (runRepl toy C [setLine] { u := { u0 with store := u0.store.updateSnapshot.1 } }).1

theorem starts : autoSync toy C env true { u := u0 } = ({ u := { u0 with store := u0.store.updateSnapshot.1 } }, .ok ()) := by
  decide +kernel
theorem left : LeftPrompt toy C env [setLine] u0 r1 := ⟨_, starts, by decide +kernel⟩
theorem r1_log : r1.u.store.log = logN := by decide +kernel
theorem r1_creds : r1.u.creds = u.creds := by decide +kernel

theorem settled : Settled r1.u.creds r1.u.store.log := by
  rw [r1_log, r1_creds]
  have h : users id { log := logN } = ((users id { log := logN }).1, .ok []) := by decide +kernel
  have := users_hasUsers (fun m => .refl _) h
  exact ⟨⟨fun h => absurd rfl h, fun h => absurd rfl (this.2 h)⟩, fun h => absurd rfl h⟩

theorem onlyOld : OnlyOld toy C wA r1.u := by
  intro uuid ct _ user pass ver p pt log _ _ hl
  rw [r1_log]
  change (if pt = [1] then _ else _) = _ at hl
  split at hl
  · cases hl; exact ⟨by decide, _, rfl⟩
  · cases hl; exact ⟨by decide, [], by simp⟩

theorem behind (s : DB) (x : Str) : Behind toy C wA r1.u s x := by
  obtain ⟨p, hp⟩ := SyncDemo.reads
  refine .inr ⟨fileOf logA, 1, p, [1], logA, fun i => ⟨[], i, rfl⟩, ?_, by decide, rfl, ?_⟩
  · rw [r1_creds]; exact hp
  · rw [r1_log]; decide

def s : DB := r1.u.store.updateSnapshot.1
def ended : Repl × Res AppErr (Option Str) := session toy C true env env iv [setLine] u0
theorem ended_eq : session toy C true env env iv [setLine] u0 = ended := by rw [ended]

attribute [irreducible] ended
theorem pair_eq {α β : Type} {x : α × β} {b : β} (h : x.2 = b) : x = (x.1, b) := by rw [← h]

/-- the file of a successful run -/
def written : Res AppErr (Option Str) → Str
  | .ok (some f) => f
  | _ => []
theorem ended_ok : ended.2 = .ok (some (written ended.2)) := by decide +kernel

-- C118: the run sends the file with the note to both remotes
example : ∃ sent ts, (sent, ts) ∈ ended.1.pushed ∧ [97] ∈ ts.map Prod.fst := by
  obtain ⟨sent, ts, h1, h2, -⟩ := C118_partial toy C env env iv [setLine] u0 r1 ended.1 (some (written ended.2)) (fun m => .refl _) rfl
    left (by decide +kernel) s [97] (by rw [r1_log]; exact own (by decide +kernel)) settled onlyOld
    (by decide +kernel) (by decide +kernel) (by decide) (behind _ _) (ended_eq.trans (pair_eq ended_ok))
  exact ⟨sent, ts, h1, h2⟩
set_option maxRecDepth 100000 in
example : ended.1.pushed = [(written (saveBlob toy C id id iv { u with store := { log := logN } }), [([97], true), ([98], true)])] := by
  decide +kernel

-- C118 with a remote that another machine wrote to, the other remote is empty: what is sent has both notes
def noteA : Tx := ⟨15, .setk, [97], b! "note", b! "y"⟩
def C2 : Codec := { C with loadLog := fun t => if t = [1] then .ok logA else .ok (logA ++ [noteA]) }
def wB : World :=
  { w with
    readFile := fun x _ => if x = [97] then .notFound
      else .bytes (written (saveBlob toy C2 id id iv { u with store := { log := logA ++ [noteA] } })) }
def env2 : Env := { env with w := wB }
def remB : Remote := { name := b! "sync/b", creds := u.creds, log := logA ++ [noteA] }
def pulled : List (Str × Fate × Str) := [([97], .absent, []), ([98], .merge remB, [])]
def merged : List Tx := logA ++ [noteA] ++ logN.drop 8
def ended2 : Repl × Res AppErr (Option Str) := session toy C2 true env env2 iv [setLine] u0
theorem ended2_eq : session toy C2 true env env2 iv [setLine] u0 = ended2 := by rw [ended2]
theorem pulled_eq : pullAll toy C2 wB { r1.u with store := s } (collectSyncs wB id s) [] = (some pulled, []) := by decide +kernel
theorem merged_eq : mergeBlobs id r1.u.creds s.log [remB] [] = (.ok ⟨r1.u.creds, merged⟩, []) := by decide +kernel
theorem s_log : s.log = logN := by decide +kernel

open KeepDemo (good) in
theorem oneFile : OneFile s.log [logA ++ [noteA]] := by
  rw [s_log]
  have hB : GoodHistory (logA ++ [noteA]) := good (by decide +kernel) (by decide +kernel) (by decide +kernel) (by decide +kernel)
  refine ⟨good (by decide +kernel) (by decide +kernel) (by decide +kernel) (by decide +kernel), ?_, ?_⟩
  · intro r hr
    rw [List.mem_singleton] at hr
    subst hr
    exact ⟨hB, by decide +kernel, by decide +kernel⟩
  · intro r hr r' hr'
    rw [List.mem_singleton] at hr hr'
    subst hr hr'
    exact ⟨by decide +kernel, by decide +kernel⟩

theorem told : Told s.log [logA ++ [noteA]] := by
  rw [s_log]
  intro pre r post c h hc hu hs
  have hpre : pre = [] := by
    cases pre with
    | nil => rfl
    | cons a pre => cases pre <;> simp at h
  subst hpre
  simp only [List.nil_append, List.cons.injEq] at h
  obtain ⟨rfl, -⟩ := h
  exfalso
  obtain ⟨-, -, h3⟩ := hs
  have h4 : (logA ++ [noteA]).getLast?.map Tx.time = some 15 := by decide +kernel
  have hn : ∀ t ∈ logN, t.time ≠ 15 := by decide +kernel
  rw [h4] at h3
  cases hl : c.getLast? with
  | none => rw [hl] at h3; cases h3
  | some t =>
    rw [hl] at h3
    exact hn t (by simpa using (hu t).1 (List.mem_of_getLast? hl)) (by simpa using h3)

example : ∃ sent ts, (sent, ts) ∈ ended2.1.pushed ∧ [97] ∈ ts.map Prod.fst := by
  have e : ended2.2 = .ok (some (written ended2.2)) := by decide +kernel
  have l : LeftPrompt toy C2 env [setLine] u0 r1 := ⟨{ u := { u0 with store := u0.store.updateSnapshot.1 } }, by decide +kernel, by decide +kernel⟩
  obtain ⟨sent, ts, h1, h2, -⟩ := C118_merged_partial toy C2 env env2 iv [setLine] u0 r1 ended2.1 (some (written ended2.2)) rfl l
    (by decide +kernel) s (by decide +kernel) pulled [] [] ⟨r1.u.creds, merged⟩ pulled_eq merged_eq oneFile told [97] [] .absent
    (by decide) (by decide) (by decide) (ended2_eq.trans (pair_eq e))
  exact ⟨sent, ts, h1, h2⟩
example : ended2.1.u.store.log = merged := by decide +kernel

/-- False for a changed password: the run ends well, the file here is the one for the new password, nothing is sent, and at the remotes
stays the file for the old one. -/
theorem C118_password_false :
    let x := session toy C true env env iv
      [(some (b! "passwd"), { env with d := { salt := List.replicate 32 2, inp := [some (b! "m"), some [7], some [7]] } })] u0
    x.2 = .ok (some (written x.2)) ∧ x.1.u.creds.pass = [7] ∧ x.1.u.creds.key = toy.kdf [7] (List.replicate 32 2) ∧ u0.creds.pass ≠ [7] ∧
      x.1.pushed = [] ∧ collectSyncs wA id x.1.u.store.updateSnapshot.1 = [[97], [98]] := by
  decide +kernel

/-- an entry `x` -/
def logX : List Tx := logA ++ [⟨9, .add, [99], [], []⟩, ⟨10, .setk, [99], keyName, b! "x"⟩]
def C3 : Codec where
  marshal s := if s.log = logX then [1] else [2]
  load t := if t = [1] then .ok (some { log := logX }) else .ok (some { log := logX ++ [⟨30, .setk, [99], b! "note", b! "y"⟩] })
  loadLog t := if t = [1] then .ok logX else .ok (logX ++ [⟨30, .setk, [99], b! "note", b! "y"⟩])
def uX : Session := { u with store := { log := logX }, startTx := 10 }
def envX (log : List Tx) : Env :=
  { env with
    w := { w with readFile := fun _ _ => .bytes (written (saveBlob toy C3 id id iv { u with store := { log := log } })) }
    d := { env.d with inp := [some (b! "x")] } }

/-- False if an entry was deleted here and changed elsewhere meanwhile: the histories cannot be merged (C22), the run ends well all the
same, and nothing is sent. -/
theorem C118_silent_false :
    let x := session toy C3 true (envX logX) (envX (logX ++ [⟨30, .setk, [99], b! "note", b! "y"⟩])) iv
      [(some (b! "rm x"), envX logX)] uX
    x.2 = .ok (some (written x.2)) ∧ x.1.u.store.log = logX ++ [⟨20, .del, [99], [], []⟩] ∧ x.1.pushed = [] := by
  decide +kernel

/-- False if a remote cannot be written: the run ends well. -/
theorem C118_failed_false :
    let x := session toy C true env { env with w := { wA with writeFile := fun _ _ _ => false } } iv [setLine] u0
    x.2 = .ok (some (written x.2)) ∧ x.1.u.store.log = logN ∧ x.1.pushed.map Prod.snd = [[([97], false), ([98], false)]] := by
  decide +kernel

/-! ## C119 -/

/-- Ctrl-C at the prompt -/
def ctrlC : Turn := (none, { env with ctrlC := true })

-- without `sync` nothing was sent
example : (session toy C true env env iv [setLine, ctrlC] u0).1.pushed = [] :=
  (C119_partial toy C env env iv true [setLine, ctrlC] u0 _ r1 (.err .aborted) starts (by decide +kernel)
    (by simp) (by
      intro t ht
      rcases List.mem_cons.1 ht with rfl | ht
      · intro args h
        have hp : parseLine (b! "set sync/b note x") = some (b! "set", [b! "sync/b", b! "note", b! "x"]) := by decide +kernel
        rw [hp] at h
        cases h
      · rcases List.mem_cons.1 ht with rfl | ht
        · trivial
        · cases ht)).1

/-- False after `sync`: the program is left without saving, but what was done is at the remotes, and comes back to the unchanged file
when the program is started again. -/
theorem C119_false :
    let x := session toy C true env env iv [setLine, (some (b! "sync"), env), ctrlC] u0
    let sent := (x.1.pushed.head?.map Prod.fst).getD []
    let back := session toy C true { env with w := { w with readFile := fun _ _ => .bytes sent } }
      { env with w := { w with readFile := fun _ _ => .bytes sent } } iv [] u0
    x.2 = .err .aborted ∧ x.1.pushed.map Prod.snd = [[([97], true), ([98], true)]] ∧
      u0.store.log = logA ∧ back.1.u.store.log = logN ∧ back.2 = .ok (some (written back.2)) := by
  decide +kernel

-- the file itself is left as it was
theorem opened : load toy C none [] (some (fileOf logA)) [some [1]] = (.ok u0, []) := by decide +kernel
example : main toy C none [] iv env env (.prompt true [setLine, ctrlC]) [some [1]] (some (fileOf logA)) =
    ([some (fileOf logA)], .err .aborted) :=
  C119_file toy C none [] iv env env true [setLine, ctrlC] [some [1]] [] (some (fileOf logA)) u0 _ r1 (.err .aborted) opened starts
    (by decide +kernel) (by simp)

end AfterDemo

end Verif.App
