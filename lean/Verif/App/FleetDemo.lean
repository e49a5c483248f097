import Verif.App.FleetProps
/-!
# C89: the hypotheses can be met, and what is false

The primitives are `Crypt.Spec.toy`.
-/
set_option linter.unusedSimpArgs false
namespace Verif.App
open Verif Verif.Txlogs Verif.Blob Verif.Crypt Verif.App.Spec
open Verif.Crypt.Spec (toy toy_lawful)
open Verif.Txlogs.Spec (TouchedAfterDelete)

namespace FleetDemo
open Verif.App.SyncDemo (entryOps iv)
open HistoryDemo (own ownB ok_log)
open Demo (perm_id perm_id' fresh_concrete named_concrete parse_ne)

/-- the file everybody starts with: a sync entry and an entry "bank" -/
def base : List Tx :=
  [⟨1, .add, [97], [], []⟩, ⟨2, .setk, [97], keyName, b! "s"⟩, ⟨3, .setk, [97], keySync, b! "true"⟩,
   ⟨4, .setk, [97], keyURL, b! "scp://me:q@h:22/pw"⟩, ⟨5, .setk, [97], keyKnownHosts, b! "h:22 10.0.0.1:22 ssh-rsa 01"⟩,
   ⟨6, .add, [1], [], []⟩, ⟨7, .setk, [1], keyName, b! "bank"⟩]
/-- on machine 0: `set bank note x` -/
def opsN : List Tx := [⟨101, .setk, [1], keyUpdated, b! "100"⟩, ⟨102, .setk, [1], b! "note", b! "x"⟩]
/-- on machine 1: `set bank user y` -/
def opsU : List Tx := [⟨201, .setk, [1], keyUpdated, b! "200"⟩, ⟨202, .setk, [1], keyUser, b! "y"⟩]
/-- on machine 0: `rm bank` -/
def opsD : List Tx := [⟨100, .del, [1], [], []⟩]

/-- on machine 2: `set bank email z` -/
def opsE : List Tx := [⟨151, .setk, [1], keyUpdated, b! "150"⟩, ⟨152, .setk, [1], b! "email", b! "z"⟩]

def upd (l : List Tx) : DB := ({ log := l } : DB).updateSnapshot.1

/-- the logs that get written to the share -/
def logs : List (List Tx) := [base, base ++ opsN, base ++ opsN ++ opsU, base ++ opsU, base ++ opsD, base ++ opsE ++ opsU,
  base ++ opsN ++ opsE ++ opsU]

/-- a codec that knows these -/
def C : Codec where
  marshal s := [(logs.idxOf s.log).toUInt8]
  load t := .ok (some (upd (logs.getD (t.headD 0).toNat [])))
  loadLog t := .ok (logs.getD (t.headD 0).toNat [])

def start : Session := { SyncDemo.u with store := upd base }
def on (l : List Tx) : Session := { start with store := upd l }

def file (l : List Tx) : Str :=
  match saveBlob toy C id id iv (on l) with
  | .ok (some f) => f
  | _ => []

def v : SyncEnv := { iv := iv }

def vt (t : Int) (inp : Input) : Env :=
  { d := { now := fun i => t + i
           uuid := [8]
           inp := inp }
    ds := fun k => { now := fun i => t + 1000 + 10 * (k : Int) + i } }

def turnsN : List Turn := [(some (b! "set bank note x"), vt 100 [])]
def turnsU : List Turn := [(some (b! "set bank user y"), vt 200 [])]
def turnsD : List Turn := [(some (b! "rm bank"), vt 100 [some (b! "bank")])]

def after (turns : List Turn) : Session := (runRepl toy C turns { u := start }).1.u

/-- machines 0 and 1 have something, the others what they started with -/
def st (a b : Session) (f : Str) : Fleet where
  machine j := if j = 0 then a else if j = 1 then b else start
  share := f

theorem st_log (a b : Session) (f : Str) (j : Nat) :
    (st a b f).log j = a.store.log ∨ (st a b f).log j = b.store.log ∨ (st a b f).log j = base := by
  unfold Fleet.log st
  simp only
  split
  · exact .inl rfl
  · split
    · exact .inr (.inl rfl)
    · exact .inr (.inr (updateSnapshot_log _))

theorem st_share (a b : Session) (f : Str) : (st a b f).share = f := rfl
theorem st_log0 (a b : Session) (f : Str) : (st a b f).log 0 = a.store.log := rfl
theorem st_log1 (a b : Session) (f : Str) : (st a b f).log 1 = b.store.log := rfl

instance (t x : Tx) : Decidable (Foreign t x) :=
  decidable_of_iff (t.time ≠ x.time ∧ ¬ (t.kind = .add ∧ x.kind = .add ∧ t.uuid = x.uuid) ∧
    ((t.kind = .setk ∧ x.kind = .setk ∧ t.key = keyName ∧ x.key = keyName ∧ t.value = x.value) → t.uuid = x.uuid))
    ⟨fun ⟨a, b, c⟩ => ⟨a, b, fun h1 h2 h3 h4 h5 => c ⟨h1, h2, h3, h4, h5⟩⟩,
      fun ⟨a, b, c⟩ => ⟨a, b, fun ⟨h1, h2, h3, h4, h5⟩ => c h1 h2 h3 h4 h5⟩⟩

theorem upd_log (l : List Tx) : (upd l).log = l := updateSnapshot_log _

theorem sound_on {l : List Tx} (h : ownB l = true) (hn : NamesApart l) : Sound (upd l) := by
  have ho : OwnHistory (upd l).log := by rw [upd_log]; exact own h
  exact ⟨(own_wf (s := upd l) (ok_update (ok_log l)) ho).2.2 (by rw [upd_log]; exact hn), ho, updateSnapshot_txPoint _⟩

theorem sound_base : Sound (upd base) := sound_on (by decide +kernel) (by decide +kernel)

theorem idx : ∀ l ∈ logs, logs.getD (logs.idxOf l).toUInt8.toNat [] = l := by decide +kernel

theorem faithful {l : List Tx} (h : l ∈ logs) : Faithful C (upd l) := by
  have hok := ok_update (ok_log l)
  have h1 : logs.getD (((C.marshal (upd l)).headD 0).toNat) [] = l := by
    simp only [C, upd_log, List.headD_cons]
    exact idx l h
  refine ⟨by simp [C], ⟨upd l, ?_, rfl, rfl, updateSnapshot_txPoint _, hok.nodup, hok.inner, rfl⟩, ?_⟩
  · show Res.ok (some (upd (logs.getD (((C.marshal (upd l)).headD 0).toNat) []))) = _
    rw [h1]
  · show Res.ok (logs.getD (((C.marshal (upd l)).headD 0).toNat) []) = _
    rw [h1, upd_log]

theorem single : SingleCreds start.creds := ⟨rfl, by decide, by decide⟩

def F0 : Fleet := st start start (file base)

theorem F0_machine (i : Nat) : F0.machine i = start := by
  simp only [F0, st]; split <;> (try rfl); split <;> rfl

theorem copies : Copies toy C start.creds F0 base := by
  refine ⟨single, fun i => by rw [F0_machine], fun i => by rw [F0_machine]; exact sound_base,
    fun i => by unfold Fleet.log; rw [F0_machine]; exact upd_log _, by decide, by decide +kernel,
    id, id, iv, upd base, by decide, updateSnapshot_txPoint _, upd_log _, faithful (by simp [logs]), by decide +kernel⟩

/-! ## work -/

theorem turn {t : Int} {inp : Input} {line cmd : Str} {args : List Str} (hl : line.all (· < 0x80) = true)
    (hp : parseLine line = some (cmd, args)) (hc : cmd ≠ b! "sync") (ht : 50 ≤ t) :
    HistoryTurn (vt t inp) line { u := start } := by
  have hearly : ∀ x ∈ (upd base).log, x.time < 50 := by rw [upd_log]; decide +kernel
  refine ⟨⟨valid_ascii _ hl, ⟨perm_id, perm_id', (by decide : ([8] : Str) ≠ []), fresh_concrete sound_base.wf.good (v := [8]) (by decide +kernel)⟩,
    parse_ne hp hc⟩, ⟨fun i j h => ?_, fun x hx => ?_, fun k i j h => ?_, fun x hx => ?_, fun k => ?_⟩, ?_⟩
  · simp only [vt]; omega
  · have := hearly x hx; simp only [vt]; omega
  · simp only [vt]; omega
  · have := hearly x hx; simp only [vt]; omega
  · simp only [vt]; omega
  · show ∀ x ∈ (upd base).log, x.uuid ≠ ([8] : Str)
    rw [upd_log]
    decide +kernel

theorem work {a b : Session} {f : Str} {i : Nat} {turns : List Turn} (hm : (st a b f).machine i = start)
    (hl : Along toy C HistoryTurn turns { u := start })
    (h1 : (runRepl toy C turns { u := start }).2 = .ok ()) (h2 : (after turns).creds = start.creds)
    (h3 : NamesApart (after turns).store.log)
    (h4 : ∀ t ∈ (after turns).store.log, t ∈ base ∨
      ∀ x ∈ a.store.log ++ b.store.log ++ base, Foreign t x) : WorkOk toy C (st a b f) i turns := by
  refine ⟨by rw [hm]; exact hl, by rw [hm]; exact h1, by rw [hm]; exact h2, by rw [hm]; exact h3, ?_⟩
  rw [hm]
  intro t ht
  have hb : (st a b f).log i = base := by unfold Fleet.log; rw [hm]; exact upd_log _
  rw [hb]
  refine (h4 t ht).imp id fun h j x hx => h x ?_
  simp only [List.mem_append]
  rcases st_log a b f j with k | k | k <;> rw [k] at hx
  · exact .inl (.inl hx)
  · exact .inl (.inr hx)
  · exact .inr hx

theorem step_work0 (b : Session) (f : Str) (turns : List Turn) :
    (st start b f).step toy C (.work 0 turns) = st (after turns) b f := by
  simp only [Fleet.step, Fleet.set, st, after, Fleet.mk.injEq, and_true]
  funext j
  by_cases h : j = 0 <;> simp [h]

theorem step_work1 (a : Session) (f : Str) (turns : List Turn) :
    (st a start f).step toy C (.work 1 turns) = st a (after turns) f := by
  simp only [Fleet.step, Fleet.set, st, after, Fleet.mk.injEq, and_true]
  funext j
  by_cases h : j = 1 <;> simp [h]

/-! ## sync -/

/-- a machine with `u` and a share with `f` become one with the log `l` and a share with `f'` -/
structure Gives (u : Session) (f : Str) (l : List Tx) (f' : Str) : Prop where
  syncs : collectSyncs (shareWorld f) v.ord u.store.updateSnapshot.1 = [[97]]
  session : (sync toy C (shareWorld f) v [] true u []).session = on l
  share : (if (sync toy C (shareWorld f) v [] true u []).pushed = [] then f else (sync toy C (shareWorld f) v [] true u []).sent) = f'

theorem env {F : Fleet} {i : Nat} {u : Session} {l : List Tx} {f' : Str} (hm : F.machine i = u) (h : Gives u F.share l f')
    (hl : l ∈ logs) : ShareEnv toy C F i v [] :=
  ⟨by decide, perm_id', ⟨[97], by decide, by rw [hm]; exact h.syncs⟩, by rw [hm, h.session]; exact faithful hl⟩

theorem env0 {a b : Session} {f f' : Str} {l : List Tx} (h : Gives a f l f') (hl : l ∈ logs) : ShareEnv toy C (st a b f) 0 v [] :=
  env (F := st a b f) (i := 0) rfl h hl
theorem env1 {a b : Session} {f f' : Str} {l : List Tx} (h : Gives b f l f') (hl : l ∈ logs) : ShareEnv toy C (st a b f) 1 v [] :=
  env (F := st a b f) (i := 1) rfl h hl

theorem step_sync0 {a b : Session} {f f' : Str} {l : List Tx} (h : Gives a f l f') :
    (st a b f).step toy C (.sync 0 v []) = st (on l) b f' := by
  have e : (st a b f).step toy C (.sync 0 v []) =
      { machine := fun j => if j = 0 then (sync toy C (shareWorld f) v [] true a []).session else (st a b f).machine j
        share := if (sync toy C (shareWorld f) v [] true a []).pushed = [] then f
          else (sync toy C (shareWorld f) v [] true a []).sent } := rfl
  rw [e, h.session, h.share]
  simp only [st, Fleet.mk.injEq, and_true]
  funext j
  by_cases k : j = 0 <;> simp [k]

theorem step_sync1 {a b : Session} {f f' : Str} {l : List Tx} (h : Gives b f l f') :
    (st a b f).step toy C (.sync 1 v []) = st a (on l) f' := by
  have e : (st a b f).step toy C (.sync 1 v []) =
      { machine := fun j => if j = 1 then (sync toy C (shareWorld f) v [] true b []).session else (st a b f).machine j
        share := if (sync toy C (shareWorld f) v [] true b []).pushed = [] then f
          else (sync toy C (shareWorld f) v [] true b []).sent } := rfl
  rw [e, h.session, h.share]
  simp only [st, Fleet.mk.injEq, and_true]
  funext j
  by_cases k : j = 1 <;> simp [k]

theorem gives1 : Gives (after turnsN) (file base) (base ++ opsN) (file (base ++ opsN)) :=
  ⟨by decide +kernel, by decide +kernel, by decide +kernel⟩
theorem gives2 : Gives (after turnsU) (file (base ++ opsN)) (base ++ opsN ++ opsU) (file (base ++ opsN ++ opsU)) :=
  ⟨by decide +kernel, by decide +kernel, by decide +kernel⟩
theorem gives3 : Gives (on (base ++ opsN)) (file (base ++ opsN ++ opsU)) (base ++ opsN ++ opsU) (file (base ++ opsN ++ opsU)) :=
  ⟨by decide +kernel, by decide +kernel, by decide +kernel⟩
theorem gives4 : Gives (on (base ++ opsN ++ opsU)) (file (base ++ opsN ++ opsU)) (base ++ opsN ++ opsU) (file (base ++ opsN ++ opsU)) :=
  ⟨by decide +kernel, by decide +kernel, by decide +kernel⟩
theorem gives5 : Gives (after turnsD) (file base) (base ++ opsD) (file (base ++ opsD)) :=
  ⟨by decide +kernel, by decide +kernel, by decide +kernel⟩

theorem saved (l : List Tx) (h : l ∈ logs) (hs : saveBlob toy C id id iv (on l) = .ok (some (file l))) :
    readShare toy C start.creds (file l) = some l :=
  saved_reads toy_lawful single ⟨id, id, iv, upd l, by decide, updateSnapshot_txPoint _, upd_log _, faithful h, hs⟩

/-- nothing is deleted -/
theorem quiet {a b : Session} {f : Str} {i : Nat} {l : List Tx} (hs : readShare toy C start.creds f = some l)
    (hc : ((st a b f).machine i).creds = start.creds) (h : ∀ t ∈ (st a b f).log i ++ l, t.kind ≠ .del) :
    ¬ ∃ d x, Spec.Conflict toy C (st a b f) i d x := by
  rintro ⟨d, x, R, h1, h2⟩
  have hs' : readShare toy C start.creds (st a b f).share = some l := hs
  rw [hc, hs'] at h1
  cases h1
  obtain ⟨a, -, b, -⟩ := h2
  exact h d (List.mem_append.2 a) b

def es : List Event := [.work 0 turnsN, .work 1 turnsU]
def s1 : List Event := [.sync 0 v [], .sync 1 v []]
def s2 : List Event := [.sync 0 v [], .sync 1 v []]

theorem legalN : Along toy C HistoryTurn turnsN { u := start } :=
  ⟨turn (cmd := b! "set") (args := [b! "bank", b! "note", b! "x"]) (by decide) (by decide +kernel) (by decide) (by decide), trivial⟩
theorem legalU : Along toy C HistoryTurn turnsU { u := start } :=
  ⟨turn (cmd := b! "set") (args := [b! "bank", b! "user", b! "y"]) (by decide) (by decide +kernel) (by decide) (by decide), trivial⟩
theorem legalD : Along toy C HistoryTurn turnsD { u := start } :=
  ⟨turn (cmd := b! "rm") (args := [b! "bank"]) (by decide) (by decide +kernel) (by decide) (by decide), trivial⟩

theorem runOk : RunOk toy C true (es ++ s1 ++ s2) F0 := by
  have e1 := step_work0 start (file base) turnsN
  have e2 := step_work1 (after turnsN) (file base) turnsU
  have e3 := step_sync0 (b := after turnsU) gives1
  have e4 := step_sync1 (a := on (base ++ opsN)) gives2
  have e5 := step_sync0 (b := on (base ++ opsN ++ opsU)) gives3
  simp only [es, s1, s2, List.cons_append, List.nil_append, RunOk, F0, e1, e2, e3, e4, e5, EventOk, and_true]
  refine ⟨work rfl legalN (by decide +kernel) (by decide +kernel) (by decide +kernel) (by decide +kernel),
    work rfl legalU (by decide +kernel) (by decide +kernel) (by decide +kernel) (by decide +kernel),
    ⟨env0 gives1 (by simp [logs]), fun _ => quiet (saved base (by simp [logs]) (by decide +kernel)) (by decide +kernel) (by decide +kernel)⟩,
    ⟨env1 gives2 (by simp [logs]), fun _ => quiet (saved (base ++ opsN) (by simp [logs]) (by decide +kernel)) (by decide +kernel) (by decide +kernel)⟩,
    ⟨env0 gives3 (by simp [logs]), fun _ => quiet (saved (base ++ opsN ++ opsU) (by simp [logs]) (by decide +kernel)) (by decide +kernel) (by decide +kernel)⟩,
    ⟨env1 gives4 (by simp [logs]), fun _ => quiet (saved (base ++ opsN ++ opsU) (by simp [logs]) (by decide +kernel)) (by decide +kernel) (by decide +kernel)⟩⟩

-- C89: both machines end up with both changes
example : Copies toy C start.creds F0 base ∧ RunOk toy C true (es ++ s1 ++ s2) F0 ∧ OnlySyncs s1 ∧ OnlySyncs s2 ∧
    (∀ i ∈ syncers s2, i ∈ syncers s1) ∧ ∀ i ∈ syncers s2, (F0.run toy C (es ++ s1 ++ s2)).log i = base ++ opsN ++ opsU := by
  refine ⟨copies, runOk, by simp [OnlySyncs, s1], by simp [OnlySyncs, s2], by simp [s1, s2], ?_⟩
  have e1 := step_work0 start (file base) turnsN
  have e2 := step_work1 (after turnsN) (file base) turnsU
  have e3 := step_sync0 (b := after turnsU) gives1
  have e4 := step_sync1 (a := on (base ++ opsN)) gives2
  have e5 := step_sync0 (b := on (base ++ opsN ++ opsU)) gives3
  have e6 := step_sync1 (a := on (base ++ opsN ++ opsU)) gives4
  simp only [es, s1, s2, List.cons_append, List.nil_append, Fleet.run, F0, e1, e2, e3, e4, e5, e6]
  intro i hi
  simp only [syncers, List.mem_cons, List.not_mem_nil, or_false] at hi
  rcases hi with rfl | rfl <;> exact upd_log _

/-- the entry is deleted on machine 0, which syncs, and changed on machine 1 -/
def esD : List Event := [.work 0 turnsD, .work 1 turnsU, .sync 0 v []]

theorem runD : F0.run toy C esD = st (on (base ++ opsD)) (after turnsU) (file (base ++ opsD)) := by
  have e1 := step_work0 start (file base) turnsD
  have e2 := step_work1 (after turnsD) (file base) turnsU
  have e3 := step_sync0 (b := after turnsU) gives5
  simp only [esD, Fleet.run, F0, e1, e2, e3]

theorem runOkD : RunOk toy C false esD F0 := by
  have e1 := step_work0 start (file base) turnsD
  have e2 := step_work1 (after turnsD) (file base) turnsU
  simp only [esD, RunOk, F0, e1, e2, EventOk, and_true]
  exact ⟨work rfl legalD (by decide +kernel) (by decide +kernel) (by decide +kernel) (by decide +kernel),
    work rfl legalU (by decide +kernel) (by decide +kernel) (by decide +kernel) (by decide +kernel),
    env0 gives5 (by simp [logs]), fun k => by cases k⟩

def del : Tx := ⟨100, .del, [1], [], []⟩
def user : Tx := ⟨202, .setk, [1], keyUser, b! "y"⟩

theorem savedD : readShare toy C start.creds (file (base ++ opsD)) = some (base ++ opsD) :=
  saved _ (by simp [logs]) (by decide +kernel)

theorem logU : (after turnsU).store.log = base ++ opsU := by decide +kernel

theorem conflictD : Spec.Conflict toy C (F0.run toy C esD) 1 del user := by
  rw [runD]
  have hc : ((st (on (base ++ opsD)) (after turnsU) (file (base ++ opsD))).machine 1).creds = start.creds :=
    (by decide +kernel : (after turnsU).creds = start.creds)
  have hl : (st (on (base ++ opsD)) (after turnsU) (file (base ++ opsD))).log 1 = base ++ opsU := logU
  refine ⟨base ++ opsD, by rw [hc, st_share]; exact savedD, ?_⟩
  rw [hl]
  unfold TouchedAfterDelete
  decide +kernel

end FleetDemo

/-- Machines that sync need not agree ever again: an entry is deleted on one machine and later changed on another that does not
know of it yet. No number of syncs or answers to their questions, and nothing else done on any machine, will bring the change to the
first machine or the deletion to the second. -/
theorem C89_false : ∃ (P : Prims) (C : Codec) (c : Creds) (F : Fleet) (base : List Tx) (es : List Event),
    Crypt.Spec.Lawful P ∧ Copies P C c F base ∧ RunOk P C false es F ∧
    ∃ d x, d.kind = .del ∧ x.kind = .setk ∧ d.uuid = x.uuid ∧ ∀ es', RunOk P C false (es ++ es') F →
      (x ∈ (F.run P C (es ++ es')).log 1 ∧ x ∉ (F.run P C (es ++ es')).log 0) ∧
      (d ∈ (F.run P C (es ++ es')).log 0 ∧ d ∉ (F.run P C (es ++ es')).log 1) := by
  refine ⟨toy, FleetDemo.C, FleetDemo.start.creds, FleetDemo.F0, FleetDemo.base, FleetDemo.esD, toy_lawful, FleetDemo.copies,
    FleetDemo.runOkD, FleetDemo.del, FleetDemo.user, rfl, rfl, rfl, fun es' hr => ?_⟩
  obtain ⟨-, -, R1, R2, h1, h2, h3, h4⟩ := C89_stuck toy toy_lawful FleetDemo.C _ _ _ _ es' FleetDemo.copies hr 1 _ _ FleetDemo.conflictD
  have hg := (C89_intact_partial toy toy_lawful FleetDemo.C _ _ _ FleetDemo.esD es' FleetDemo.copies hr).1 0
  simp only [FleetDemo.runD] at h1 h3 h4 hg
  rw [FleetDemo.st_share, FleetDemo.savedD] at h1
  cases h1
  rw [FleetDemo.st_log1, FleetDemo.logU] at h3 h4
  rw [FleetDemo.st_log0] at hg
  have l0 : (FleetDemo.on (FleetDemo.base ++ FleetDemo.opsD)).store.log = FleetDemo.base ++ FleetDemo.opsD := FleetDemo.upd_log _
  rw [l0] at hg
  obtain ⟨a1, -, a3⟩ := h3 FleetDemo.user (by decide +kernel) (by decide +kernel)
  obtain ⟨-, b2⟩ := h4 FleetDemo.del (by decide +kernel) (by decide +kernel)
  exact ⟨⟨a1, a3 0 (by decide)⟩, hg.2.2 _ (by decide +kernel), b2⟩

-- and machine 1 may sync after that
example : RunOk toy FleetDemo.C false (FleetDemo.esD ++ [.sync 1 FleetDemo.v []]) FleetDemo.F0 := by
  have hg : FleetDemo.Gives (FleetDemo.after FleetDemo.turnsU) (FleetDemo.file (FleetDemo.base ++ FleetDemo.opsD))
      (FleetDemo.base ++ FleetDemo.opsU) (FleetDemo.file (FleetDemo.base ++ FleetDemo.opsD)) :=
    ⟨by decide +kernel, by decide +kernel, by decide +kernel⟩
  have h := FleetDemo.runOkD
  have e := FleetDemo.runD
  simp only [FleetDemo.esD, RunOk, Fleet.run, List.cons_append, List.nil_append, and_true] at h e ⊢
  refine ⟨h.1, h.2.1, h.2.2, ?_⟩
  rw [e]
  exact ⟨FleetDemo.env1 hg (by simp [FleetDemo.logs]), fun k => by cases k⟩

end Verif.App
