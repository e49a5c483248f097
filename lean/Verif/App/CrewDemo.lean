import Verif.App.CrewProps
import Verif.App.FleetDemo
import Verif.App.LockoutDemo
/-!
# C89 for files with users: the hypotheses can be met

The primitives are `Crypt.Spec.toy`.
-/
set_option linter.unusedSimpArgs false
namespace Verif.App
open Verif Verif.Txlogs Verif.Blob Verif.Crypt Verif.App.Spec
open Verif.Crypt.Spec (toy toy_lawful)
open Verif.Txlogs.Spec (TouchedAfterDelete)

namespace CrewDemo
open Verif.App.SyncDemo (iv)
open HistoryDemo (own ownB ok_log)
open Demo (perm_id perm_id' fresh_concrete named_concrete parse_ne)
open LockDemo (master wrap ring ringB isUser_concrete)
open FleetDemo (opsN opsU opsD upd upd_log sound_on v vt turnsN turnsU turnsD)

/-- the password `p` of the user with the entry `x` -/
def rec (x : UInt8) (p : Str) (n : UInt8) (t0 t1 t2 : Int) : Rec :=
  { uuid := [x], pass := p, salt := List.replicate 32 n, iv := List.replicate 40 n
    mkey := wrap p (List.replicate 40 n), t0 := t0, t1 := t1, t2 := t2 }

def rsA : Rec := rec 9 [1] 1 12 13 14
def rsB : Rec := rec 10 [2] 2 22 23 24
def rs : List Rec := [rsA, rsB]

/-- the file everybody starts with: a sync entry, an entry "bank", and the users "a" and "b" -/
def base : List Tx :=
  FleetDemo.base ++ [⟨10, .add, [9], [], []⟩, ⟨11, .setk, [9], keyName, userPrefix ++ [97]⟩] ++ rsA.ops ++
    [⟨20, .add, [10], [], []⟩, ⟨21, .setk, [10], keyName, userPrefix ++ [98]⟩] ++ rsB.ops

def logs : List (List Tx) := [base, base ++ opsN, base ++ opsN ++ opsU, base ++ opsU, base ++ opsD]

/-- a codec that knows these -/
def C : Codec where
  marshal s := [(logs.idxOf s.log).toUInt8]
  load t := .ok (some (upd (logs.getD (t.headD 0).toNat [])))
  loadLog t := .ok (logs.getD (t.headD 0).toNat [])

def credsA : Creds :=
  { user := [97], pass := [1], key := toy.kdf [1] [], salt := List.replicate 32 1, master := master, ivm := List.replicate 40 3 }
def credsB : Creds :=
  { user := [98], pass := [2], key := toy.kdf [2] [], salt := List.replicate 32 2, master := master, ivm := List.replicate 40 4 }

def onA (l : List Tx) : Session := { creds := credsA, store := upd l }
def onB (l : List Tx) : Session := { creds := credsB, store := upd l }

def file (u : Session) : Str :=
  match saveBlob toy C id id iv u with
  | .ok (some f) => f
  | _ => []

def afterA (turns : List Turn) : Session := (runRepl toy C turns { u := onA base }).1.u
def afterB (turns : List Turn) : Session := (runRepl toy C turns { u := onB base }).1.u

/-- machine 0 is of "a" and machine 1 of "b", the others have what "a" started with -/
def st (a b : Session) (f : Str) : Fleet where
  machine j := if j = 0 then a else if j = 1 then b else onA base
  share := f

theorem st_log (a b : Session) (f : Str) (j : Nat) :
    (st a b f).log j = a.store.log ∨ (st a b f).log j = b.store.log ∨ (st a b f).log j = base := by
  unfold Fleet.log st
  simp only
  split
  · exact .inl rfl
  · split
    · exact .inr (.inl rfl)
    · exact .inr (.inr (updateSnapshot_log _))

theorem st_share (a b : Session) (f : Str) : (st a b f).share = f := rfl
theorem st_log0 (a b : Session) (f : Str) : (st a b f).log 0 = a.store.log := rfl
theorem st_log1 (a b : Session) (f : Str) : (st a b f).log 1 = b.store.log := rfl

theorem sound_base : Sound (upd base) := sound_on (by decide +kernel) (by decide +kernel)

theorem idx : ∀ l ∈ logs, logs.getD (logs.idxOf l).toUInt8.toNat [] = l := by decide +kernel

theorem faithful {l : List Tx} (h : l ∈ logs) : Faithful C (upd l) := by
  have hok := ok_update (ok_log l)
  have h1 : logs.getD (((C.marshal (upd l)).headD 0).toNat) [] = l := by
    simp only [C, upd_log, List.headD_cons]
    exact idx l h
  refine ⟨by simp [C], ⟨upd l, ?_, rfl, rfl, updateSnapshot_txPoint _, hok.nodup, hok.inner, rfl⟩, ?_⟩
  · show Res.ok (some (upd (logs.getD (((C.marshal (upd l)).headD 0).toNat) []))) = _
    rw [h1]
  · show Res.ok (logs.getD (((C.marshal (upd l)).headD 0).toNat) []) = _
    rw [h1, upd_log]

/-! ## the accounts -/

theorem ring_base : Keyring toy master base rs := ring (by decide +kernel)

theorem two {us : List Str} (hnd : us.Nodup) (h : ∀ x ∈ us, x = [9] ∨ x = [10]) : us.length ≤ 9999 := by
  match us, hnd, h with
  | [], _, _ => simp
  | [_], _, _ => simp
  | [_, _], _, _ => simp
  | a :: b :: c :: us, hnd, h =>
    exfalso
    simp only [List.nodup_cons, List.mem_cons, not_or] at hnd
    obtain ⟨⟨n1, n2, -⟩, ⟨n3, -⟩, -⟩ := hnd
    rcases h a (by simp) with rfl | rfl <;> rcases h b (by simp) with rfl | rfl <;> rcases h c (by simp) with rfl | rfl <;> simp_all

theorem users_base : ∀ t ∈ base, t.kind = .setk → t.key = keyName → hasPrefix t.value userPrefix = true →
    (t.uuid = [9] ∧ t.value = userPrefix ++ [97]) ∨ (t.uuid = [10] ∧ t.value = userPrefix ++ [98]) := by decide +kernel

theorem roomy : Roomy toy base := by
  refine ⟨fun us hnd hus => two hnd fun x hx => ?_, ?_⟩
  · obtain ⟨t, ht, a, b, c, d⟩ := hus x hx
    rw [← b]
    exact (users_base t ht a c d).imp (·.1) (·.1)
  · intro t ht t' ht' n n' a a' b b' c c' hs
    have key : ∀ t ∈ base, ∀ n, t.kind = .setk → t.key = keyName → t.value = userPrefix ++ n → n = [97] ∨ n = [98] := by
      intro t ht n a b c
      rcases users_base t ht a b (by rw [c]; exact user_prefix _) with k | k
      · exact .inl (List.append_cancel_left (c.symm.trans k.2))
      · exact .inr (List.append_cancel_left (c.symm.trans k.2))
    rcases key t ht n a b c with rfl | rfl <;> rcases key t' ht' n' a' b' c' with rfl | rfl
    · rfl
    · exact absurd hs (by decide +kernel)
    · exact absurd hs (by decide +kernel)
    · rfl

theorem user_a : IsUser { log := base } [9] [97] :=
  isUser_concrete (by decide +kernel) _ _ ⟨[(keyName, userPrefix ++ [97]), (keySalt, hexEncode (List.replicate 32 1)),
    (keyIV, hexEncode (List.replicate 40 1)), (keyMKey, hexEncode (wrap [1] (List.replicate 40 1)))], by decide +kernel, by decide +kernel⟩

theorem user_b : IsUser { log := base } [10] [98] :=
  isUser_concrete (by decide +kernel) _ _ ⟨[(keyName, userPrefix ++ [98]), (keySalt, hexEncode (List.replicate 32 2)),
    (keyIV, hexEncode (List.replicate 40 2)), (keyMKey, hexEncode (wrap [2] (List.replicate 40 2)))], by decide +kernel, by decide +kernel⟩

theorem newest {r : Rec} (h : r ∈ rs) : Newest rs r := by
  refine ⟨h, fun r' h' hu => .inl ?_⟩
  simp only [rs, List.mem_cons, List.not_mem_nil, or_false] at h h'
  rcases h with rfl | rfl <;> rcases h' with rfl | rfl
  · rfl
  · exact absurd hu (by decide)
  · exact absurd hu (by decide)
  · rfl

theorem credsOf_A : CredsOf toy master base rs credsA :=
  ⟨⟨by decide, by decide, by decide⟩, rfl, rsA, newest (by simp [rs]), user_a, rfl, rfl, rfl⟩
theorem credsOf_B : CredsOf toy master base rs credsB :=
  ⟨⟨by decide, by decide, by decide⟩, rfl, rsB, newest (by simp [rs]), user_b, rfl, rfl, rfl⟩

def F0 : Fleet := st (onA base) (onB base) (file (onA base))

theorem F0_machine (i : Nat) : F0.machine i = onA base ∨ F0.machine i = onB base := by
  simp only [F0, st]
  split
  · exact .inl rfl
  · split
    · exact .inr rfl
    · exact .inl rfl

theorem savedA {l : List Tx} (h : l ∈ logs) (ho : ownB l = true) (hn : NamesApart l)
    (hs : saveBlob toy C id id iv (onA l) = .ok (some (file (onA l)))) : SavedWith toy C master (file (onA l)) l :=
  ⟨id, id, iv, credsA, upd l, perm_id, perm_id', credsOf_A.creds, rfl, sound_on ho hn, upd_log _, faithful h, hs⟩

theorem savedB {l : List Tx} (h : l ∈ logs) (ho : ownB l = true) (hn : NamesApart l)
    (hs : saveBlob toy C id id iv (onB l) = .ok (some (file (onB l)))) : SavedWith toy C master (file (onB l)) l :=
  ⟨id, id, iv, credsB, upd l, perm_id, perm_id', credsOf_B.creds, rfl, sound_on ho hn, upd_log _, faithful h, hs⟩

theorem saved_base : SavedWith toy C master (file (onA base)) base :=
  savedA (by simp [logs]) (by decide +kernel) (by decide +kernel) (by decide +kernel)

theorem F0_share : F0.share = file (onA base) := by unfold F0; exact st_share _ _ _

theorem copies : CrewCopies toy C master rs F0 base := by
  refine ⟨ring_base, roomy, fun i => ?_, fun i => ?_, fun i => ?_, by decide +kernel, by rw [F0_share]; exact saved_base⟩
  · rcases F0_machine i with h | h <;> rw [h]
    · exact credsOf_A
    · exact credsOf_B
  · rcases F0_machine i with h | h <;> rw [h] <;> exact sound_base
  · unfold Fleet.log
    rcases F0_machine i with h | h <;> rw [h] <;> exact upd_log _

/-! ## work -/

theorem turn {t : Int} {inp : Input} {line cmd : Str} {args : List Str} {c : Creds} (hl : line.all (· < 0x80) = true)
    (hp : parseLine line = some (cmd, args)) (hc : cmd ≠ b! "sync") (ht : 50 ≤ t) :
    HistoryTurn (vt t inp) line { u := { creds := c, store := upd base } } := by
  have hearly : ∀ x ∈ (upd base).log, x.time < 50 := by rw [upd_log]; decide +kernel
  refine ⟨⟨valid_ascii _ hl, ⟨perm_id, perm_id', (by decide : ([8] : Str) ≠ []), fresh_concrete sound_base.wf.good (v := [8]) (by decide +kernel)⟩,
    parse_ne hp hc⟩, ⟨fun i j h => ?_, fun x hx => ?_, fun k i j h => ?_, fun x hx => ?_, fun k => ?_⟩, ?_⟩
  · simp only [vt]; omega
  · have := hearly x hx; simp only [vt]; omega
  · simp only [vt]; omega
  · have := hearly x hx; simp only [vt]; omega
  · simp only [vt]; omega
  · show ∀ x ∈ (upd base).log, x.uuid ≠ ([8] : Str)
    rw [upd_log]
    decide +kernel

theorem work {a b : Session} {f : Str} {i : Nat} {turns : List Turn} {u : Session} (hu : u.store = upd base) (hm : (st a b f).machine i = u)
    (hl : Along toy C HistoryTurn turns { u := u })
    (h1 : (runRepl toy C turns { u := u }).2 = .ok ()) (h2 : (runRepl toy C turns { u := u }).1.u.creds = u.creds)
    (h3 : NamesApart (runRepl toy C turns { u := u }).1.u.store.log)
    (h4 : ∀ t ∈ (runRepl toy C turns { u := u }).1.u.store.log, t ∈ base ∨
      ∀ x ∈ a.store.log ++ b.store.log ++ base, Foreign t x) : WorkOk toy C (st a b f) i turns := by
  refine ⟨by rw [hm]; exact hl, by rw [hm]; exact h1, by rw [hm]; exact h2, by rw [hm]; exact h3, ?_⟩
  rw [hm]
  intro t ht
  have hb : (st a b f).log i = base := by unfold Fleet.log; rw [hm, hu]; exact upd_log _
  rw [hb]
  refine (h4 t ht).imp id fun h j x hx => h x ?_
  simp only [List.mem_append]
  rcases st_log a b f j with k | k | k <;> rw [k] at hx
  · exact .inl (.inl hx)
  · exact .inl (.inr hx)
  · exact .inr hx

theorem step_work0 (b : Session) (f : Str) (turns : List Turn) :
    (st (onA base) b f).step toy C (.work 0 turns) = st (afterA turns) b f := by
  simp only [Fleet.step, Fleet.set, st, afterA, Fleet.mk.injEq, and_true]
  funext j
  by_cases h : j = 0 <;> simp [h]

theorem step_work1 (a : Session) (f : Str) (turns : List Turn) :
    (st a (onB base) f).step toy C (.work 1 turns) = st a (afterB turns) f := by
  simp only [Fleet.step, Fleet.set, st, afterB, Fleet.mk.injEq, and_true]
  funext j
  by_cases h : j = 1 <;> simp [h]

/-! ## sync -/

/-- a machine with `u` and a share with `f` become one with `u'` and a share with `f'` -/
structure Gives (u : Session) (f : Str) (u' : Session) (f' : Str) : Prop where
  syncs : collectSyncs (shareWorld f) v.ord u.store.updateSnapshot.1 = [[97]]
  session : (sync toy C (shareWorld f) v [] true u []).session = u'
  share : (if (sync toy C (shareWorld f) v [] true u []).pushed = [] then f else (sync toy C (shareWorld f) v [] true u []).sent) = f'

theorem env {F : Fleet} {i : Nat} {u u' : Session} {l : List Tx} {f' : Str} (hm : F.machine i = u) (h : Gives u F.share u' f')
    (hu : u'.store = upd l) (hl : l ∈ logs) : ShareEnv toy C F i v [] :=
  ⟨by decide, perm_id', ⟨[97], by decide, by rw [hm]; exact h.syncs⟩, by rw [hm, h.session, hu]; exact faithful hl⟩

theorem env0 {a b a' : Session} {f f' : Str} {l : List Tx} (h : Gives a f a' f') (hu : a'.store = upd l) (hl : l ∈ logs) :
    ShareEnv toy C (st a b f) 0 v [] := env (F := st a b f) (i := 0) rfl h hu hl
theorem env1 {a b b' : Session} {f f' : Str} {l : List Tx} (h : Gives b f b' f') (hu : b'.store = upd l) (hl : l ∈ logs) :
    ShareEnv toy C (st a b f) 1 v [] := env (F := st a b f) (i := 1) rfl h hu hl

theorem step_sync0 {a b a' : Session} {f f' : Str} (h : Gives a f a' f') : (st a b f).step toy C (.sync 0 v []) = st a' b f' := by
  have e : (st a b f).step toy C (.sync 0 v []) =
      { machine := fun j => if j = 0 then (sync toy C (shareWorld f) v [] true a []).session else (st a b f).machine j
        share := if (sync toy C (shareWorld f) v [] true a []).pushed = [] then f
          else (sync toy C (shareWorld f) v [] true a []).sent } := rfl
  rw [e, h.session, h.share]
  simp only [st, Fleet.mk.injEq, and_true]
  funext j
  by_cases k : j = 0 <;> simp [k]

theorem step_sync1 {a b b' : Session} {f f' : Str} (h : Gives b f b' f') : (st a b f).step toy C (.sync 1 v []) = st a b' f' := by
  have e : (st a b f).step toy C (.sync 1 v []) =
      { machine := fun j => if j = 1 then (sync toy C (shareWorld f) v [] true b []).session else (st a b f).machine j
        share := if (sync toy C (shareWorld f) v [] true b []).pushed = [] then f
          else (sync toy C (shareWorld f) v [] true b []).sent } := rfl
  rw [e, h.session, h.share]
  simp only [st, Fleet.mk.injEq, and_true]
  funext j
  by_cases k : j = 1 <;> simp [k]

theorem gives1 : Gives (afterA turnsN) (file (onA base)) (onA (base ++ opsN)) (file (onA (base ++ opsN))) :=
  ⟨by decide +kernel, by decide +kernel, by decide +kernel⟩
theorem gives2 : Gives (afterB turnsU) (file (onA (base ++ opsN))) (onB (base ++ opsN ++ opsU)) (file (onB (base ++ opsN ++ opsU))) :=
  ⟨by decide +kernel, by decide +kernel, by decide +kernel⟩
theorem gives3 : Gives (onA (base ++ opsN)) (file (onB (base ++ opsN ++ opsU))) (onA (base ++ opsN ++ opsU))
    (file (onA (base ++ opsN ++ opsU))) :=
  ⟨by decide +kernel, by decide +kernel, by decide +kernel⟩
theorem gives4 : Gives (onB (base ++ opsN ++ opsU)) (file (onA (base ++ opsN ++ opsU))) (onB (base ++ opsN ++ opsU))
    (file (onA (base ++ opsN ++ opsU))) :=
  ⟨by decide +kernel, by decide +kernel, by decide +kernel⟩
theorem gives5 : Gives (afterA turnsD) (file (onA base)) (onA (base ++ opsD)) (file (onA (base ++ opsD))) :=
  ⟨by decide +kernel, by decide +kernel, by decide +kernel⟩

/-- nothing is deleted -/
theorem quiet {a b : Session} {f : Str} {i : Nat} {l : List Tx} (hs : readShare toy C ((st a b f).machine i).creds f = some l)
    (h : ∀ t ∈ (st a b f).log i ++ l, t.kind ≠ .del) : ¬ ∃ d x, Spec.Conflict toy C (st a b f) i d x := by
  rintro ⟨d, x, R, h1, h2⟩
  rw [st_share, hs] at h1
  cases h1
  obtain ⟨a, -, b, -⟩ := h2
  exact h d (List.mem_append.2 a) b

def es : List Event := [.work 0 turnsN, .work 1 turnsU]
def s1 : List Event := [.sync 0 v [], .sync 1 v []]
def s2 : List Event := [.sync 0 v [], .sync 1 v []]

theorem legalN : Along toy C HistoryTurn turnsN { u := onA base } :=
  ⟨turn (cmd := b! "set") (args := [b! "bank", b! "note", b! "x"]) (by decide) (by decide +kernel) (by decide) (by decide), trivial⟩
theorem legalU : Along toy C HistoryTurn turnsU { u := onB base } :=
  ⟨turn (cmd := b! "set") (args := [b! "bank", b! "user", b! "y"]) (by decide) (by decide +kernel) (by decide) (by decide), trivial⟩
theorem legalD : Along toy C HistoryTurn turnsD { u := onA base } :=
  ⟨turn (cmd := b! "rm") (args := [b! "bank"]) (by decide) (by decide +kernel) (by decide) (by decide), trivial⟩

theorem runOk : RunOk toy C true (es ++ s1 ++ s2) F0 := by
  have e1 := step_work0 (onB base) (file (onA base)) turnsN
  have e2 := step_work1 (afterA turnsN) (file (onA base)) turnsU
  have e3 := step_sync0 (b := afterB turnsU) gives1
  have e4 := step_sync1 (a := onA (base ++ opsN)) gives2
  have e5 := step_sync0 (b := onB (base ++ opsN ++ opsU)) gives3
  simp only [es, s1, s2, List.cons_append, List.nil_append, RunOk, F0, e1, e2, e3, e4, e5, EventOk, and_true]
  refine ⟨work rfl rfl legalN (by decide +kernel) (by decide +kernel) (by decide +kernel) (by decide +kernel),
    work rfl rfl legalU (by decide +kernel) (by decide +kernel) (by decide +kernel) (by decide +kernel),
    ⟨env0 gives1 rfl (by simp [logs]), fun _ => quiet (l := base) (by decide +kernel) (by decide +kernel)⟩,
    ⟨env1 gives2 rfl (by simp [logs]), fun _ => quiet (l := base ++ opsN) (by decide +kernel) (by decide +kernel)⟩,
    ⟨env0 gives3 rfl (by simp [logs]), fun _ => quiet (l := base ++ opsN ++ opsU) (by decide +kernel) (by decide +kernel)⟩,
    ⟨env1 gives4 rfl (by simp [logs]), fun _ => quiet (l := base ++ opsN ++ opsU) (by decide +kernel) (by decide +kernel)⟩⟩

/-- an operation on the entry "bank" -/
theorem leaves {t : Tx} (hu : t.uuid = [1]) (hk : t.key ∉ recordKeys) (hn : t.key ≠ keyName) : LeavesAccounts base t := by
  refine ⟨fun _ => hk, fun _ h => absurd h hn, fun h => ?_⟩
  obtain ⟨x, hx, a, b, c, d⟩ := h
  rw [hu] at b
  rcases users_base x hx a c d with k | k <;> exact absurd (b.symm.trans k.1) (by decide)

theorem crew_work {a b : Session} {f : Str} {i : Nat} {turns : List Turn} {u : Session} (hu : u.store = upd base)
    (hm : (st a b f).machine i = u)
    (h : ∀ t ∈ (runRepl toy C turns { u := u }).1.u.store.log, t ∈ base ∨ t.uuid = [1] ∧ t.key ∉ recordKeys ∧ t.key ≠ keyName) :
    CrewEventOk toy C base (st a b f) (.work i turns) := by
  intro t ht
  rw [hm] at ht
  have hb : (st a b f).log i = base := by unfold Fleet.log; rw [hm, hu]; exact upd_log _
  rw [hb]
  exact (h t ht).imp id fun ⟨a, b, c⟩ => leaves a b c

theorem crew_env (F : Fleet) (i : Nat) : CrewEventOk toy C base F (.sync i v []) := ⟨perm_id, perm_id'⟩

theorem crewOk : CrewRunOk toy C base (es ++ s1 ++ s2) F0 := by
  have e1 := step_work0 (onB base) (file (onA base)) turnsN
  simp only [es, s1, s2, List.cons_append, List.nil_append, CrewRunOk, F0, e1]
  exact ⟨crew_work rfl rfl (by decide +kernel), crew_work rfl rfl (by decide +kernel), crew_env _ _, crew_env _ _, crew_env _ _,
    crew_env _ _, trivial⟩

-- C89: both users end up with both changes
example : CrewCopies toy C master rs F0 base ∧ RunOk toy C true (es ++ s1 ++ s2) F0 ∧ CrewRunOk toy C base (es ++ s1 ++ s2) F0 ∧
    OnlySyncs s1 ∧ OnlySyncs s2 ∧ (∀ i ∈ syncers s2, i ∈ syncers s1) ∧ (F0.machine 0).creds ≠ (F0.machine 1).creds ∧
    ∀ i ∈ syncers s2, (F0.run toy C (es ++ s1 ++ s2)).log i = base ++ opsN ++ opsU := by
  refine ⟨copies, runOk, crewOk, by simp [OnlySyncs, s1], by simp [OnlySyncs, s2], by simp [s1, s2], by decide, ?_⟩
  have e1 := step_work0 (onB base) (file (onA base)) turnsN
  have e2 := step_work1 (afterA turnsN) (file (onA base)) turnsU
  have e3 := step_sync0 (b := afterB turnsU) gives1
  have e4 := step_sync1 (a := onA (base ++ opsN)) gives2
  have e5 := step_sync0 (b := onB (base ++ opsN ++ opsU)) gives3
  have e6 := step_sync1 (a := onA (base ++ opsN ++ opsU)) gives4
  simp only [es, s1, s2, List.cons_append, List.nil_append, Fleet.run, F0, e1, e2, e3, e4, e5, e6]
  intro i hi
  simp only [syncers, List.mem_cons, List.not_mem_nil, or_false] at hi
  rcases hi with rfl | rfl <;> exact upd_log _

/-- "a" deletes the entry and syncs, "b" changes it -/
def esD : List Event := [.work 0 turnsD, .work 1 turnsU, .sync 0 v []]

theorem runD : F0.run toy C esD = st (onA (base ++ opsD)) (afterB turnsU) (file (onA (base ++ opsD))) := by
  have e1 := step_work0 (onB base) (file (onA base)) turnsD
  have e2 := step_work1 (afterA turnsD) (file (onA base)) turnsU
  have e3 := step_sync0 (b := afterB turnsU) gives5
  simp only [esD, Fleet.run, F0, e1, e2, e3]

theorem runOkD : RunOk toy C false esD F0 := by
  have e1 := step_work0 (onB base) (file (onA base)) turnsD
  have e2 := step_work1 (afterA turnsD) (file (onA base)) turnsU
  simp only [esD, RunOk, F0, e1, e2, EventOk, and_true]
  exact ⟨work rfl rfl legalD (by decide +kernel) (by decide +kernel) (by decide +kernel) (by decide +kernel),
    work rfl rfl legalU (by decide +kernel) (by decide +kernel) (by decide +kernel) (by decide +kernel),
    env0 gives5 rfl (by simp [logs]), fun k => by cases k⟩

theorem crewOkD : CrewRunOk toy C base esD F0 := by
  have e1 := step_work0 (onB base) (file (onA base)) turnsD
  simp only [esD, CrewRunOk, F0, e1]
  exact ⟨crew_work rfl rfl (by decide +kernel), crew_work rfl rfl (by decide +kernel), crew_env _ _, trivial⟩

theorem conflictD : Spec.Conflict toy C (F0.run toy C esD) 1 FleetDemo.del FleetDemo.user := by
  rw [runD]
  have hl : (st (onA (base ++ opsD)) (afterB turnsU) (file (onA (base ++ opsD)))).log 1 = base ++ opsU :=
    (by decide +kernel : (afterB turnsU).store.log = base ++ opsU)
  refine ⟨base ++ opsD, by decide +kernel, ?_⟩
  rw [hl]
  unfold TouchedAfterDelete
  decide +kernel

-- C89: the hypotheses of `C89_users_intact_partial` and `C89_users_stuck`
example : CrewCopies toy C master rs F0 base ∧ RunOk toy C false (esD ++ []) F0 ∧ CrewRunOk toy C base (esD ++ []) F0 ∧
    Spec.Conflict toy C (F0.run toy C esD) 1 FleetDemo.del FleetDemo.user :=
  ⟨copies, by rw [List.append_nil]; exact runOkD, by rw [List.append_nil]; exact crewOkD, conflictD⟩

end CrewDemo
end Verif.App
