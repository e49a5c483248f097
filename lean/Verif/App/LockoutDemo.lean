import Verif.App.LockoutProps
import Verif.App.SyncDemo
/-!
# C88: the hypotheses can be met, and what is false

The primitives are `Crypt.Spec.toy`.
-/
set_option linter.unusedSimpArgs false
namespace Verif.App
open Verif Verif.Txlogs Verif.Blob Verif.Crypt Verif.App.Spec
open Verif.Crypt.Spec (toy toy_lawful)
open Verif.Txlogs.Spec (SameIds)

namespace LockDemo
open Verif.App.SyncDemo (entryOps iv)
open HistoryDemo (own ownB ok_log)
open Demo (perm_id perm_id' fresh_concrete named_concrete parse_ne)

def master : Str := List.replicate 80 5

def wrap (p i : Str) : Str :=
  match encryptMasterKey toy 1 (toy.kdf p []) master i with
  | .ok x => x.1
  | _ => []

/-- the password `p` is set at the times `t0`, `t1`, `t2` -/
def rec (p : Str) (n : UInt8) (t0 t1 t2 : Int) : Rec :=
  { uuid := [9], pass := p, salt := List.replicate 32 n, iv := List.replicate 40 n
    mkey := wrap p (List.replicate 40 n), t0 := t0, t1 := t1, t2 := t2 }

/-- a file with a sync entry and the user "a" -/
def base : List Tx :=
  entryOps 1 97 ++ [⟨5, .add, [9], [], []⟩, ⟨7, .setk, [9], keyName, userPrefix ++ [97]⟩] ++ (rec [1] 1 8 9 10).ops

/-- here a note was written -/
def here : List Tx := base ++ [⟨15, .setk, [97], b! "note", [1]⟩]
/-- there the password was changed to `[2]` -/
def there : List Tx := base ++ (rec [2] 2 20 21 22).ops

def session (p : Str) (n : UInt8) (log : List Tx) : Session :=
  { creds := { user := [97], pass := p, key := toy.kdf p [], salt := List.replicate 32 n, master := master
               ivm := List.replicate 40 3 }
    store := { log := log } }

def D : Codec where
  marshal _ := [2]
  load _ := .ok (some { log := there })
  loadLog _ := .ok there

def remoteFile : Str :=
  match saveBlob toy D id id iv (session [2] 2 there) with
  | .ok (some f) => f
  | _ => []

def u : Session := session [1] 1 here
def w : World := { SyncDemo.w with readFile := fun _ _ => .bytes remoteFile }
def v : SyncEnv :=
  { now := fun i => 100 + i
    now' := fun i => 200 + i
    iv := iv }

instance (P : Prims) (M : Str) (r : Rec) : Decidable (Unlocks P M r) :=
  decidable_of_iff (r.pass ≠ [] ∧ r.salt.length = 32 ∧ r.iv.length = 40 ∧ r.mkey.length = 80 ∧
    encryptMasterKey P 1 (P.kdf r.pass r.salt) M r.iv = .ok (r.mkey, r.iv) ∧ r.t0 < r.t1 ∧ r.t1 < r.t2)
    ⟨fun ⟨a, b, c, d, e, f, g⟩ => ⟨a, b, c, d, e, f, g⟩, fun ⟨a, b, c, d, e, f, g⟩ => ⟨a, b, c, d, e, f, g⟩⟩

deriving instance DecidableEq for Rec

/-- a check of `Keyring` -/
def ringB (P : Prims) (M : Str) (l : List Tx) (rs : List Rec) : Bool :=
  decide (∀ r ∈ rs, Unlocks P M r) && decide (∀ r ∈ rs, ∀ t ∈ r.ops, t ∈ l) &&
  decide (∀ t ∈ l, t.kind = .setk ∨ t.kind = .delk → t.key ∈ recordKeys → ∃ r ∈ rs, t ∈ r.ops) &&
  decide (∀ r ∈ rs, ∀ r' ∈ rs, r.uuid = r'.uuid → r = r' ∨ r.t2 < r'.t0 ∨ r'.t2 < r.t0) &&
  decide (∀ t ∈ l, t.kind = .setk → t.key = keyName → hasPrefix t.value userPrefix = true → ∃ r ∈ rs, r.uuid = t.uuid) &&
  decide (∀ t ∈ l, t.kind = .setk → t.key = keyName → t.value ≠ userPrefix)

theorem ring {P : Prims} {M : Str} {l : List Tx} {rs : List Rec} (h : ringB P M l rs = true) : Keyring P M l rs := by
  simp only [ringB, Bool.and_eq_true, decide_eq_true_eq] at h
  obtain ⟨⟨⟨⟨⟨h1, h2⟩, h3⟩, h4⟩, h5⟩, h6⟩ := h
  exact ⟨h1, h2, h3, h4, fun uuid ⟨t, ht, a, b, c, d⟩ => b ▸ h5 t ht a c d, h6⟩

def rs0 : List Rec := [rec [1] 1 8 9 10]
def rs1 : List Rec := [rec [1] 1 8 9 10, rec [2] 2 20 21 22]

theorem keyed : Keyed toy u rs0 := by
  have ho : OwnHistory u.store.log := own (by decide +kernel)
  exact ⟨⟨(own_wf (ok_log _) ho).2.2 (by decide +kernel), ho, rfl⟩, ⟨by decide, by decide, by decide⟩, ring (by decide +kernel)⟩

theorem selected {syncs : List Str} (h : Selected w v u [] syncs) : syncs = [[97]] := by
  rw [h.1 rfl]
  decide +kernel

def remote : Remote :=
  { name := b! "sync/a", creds := (session [2] 2 there).creds, log := there }

theorem pulled : pullAll toy D w { u with store := u.store.updateSnapshot.1 } [[97]] [some [2]] =
    (some [([97], .merge remote, [])], []) := by
  decide +kernel

theorem early : ∀ t ∈ here, t.time < 22 := by decide +kernel

theorem told : Told here [there] := by
  intro pre r post c h hc hu hs
  have hpre : pre = [] := by
    cases pre with
    | nil => rfl
    | cons a pre => cases pre <;> simp at h
  subst hpre
  simp only [List.nil_append, List.cons.injEq] at h
  obtain ⟨rfl, -⟩ := h
  exfalso
  obtain ⟨-, -, h3⟩ := hs
  cases hl : c.getLast? with
  | none => rw [hl] at h3; cases h3
  | some t =>
    have ht := early t (by simpa using (hu t).1 (List.mem_of_getLast? hl))
    rw [hl] at h3
    have h4 : there.getLast?.map Tx.time = some 22 := rfl
    rw [h4] at h3
    simp only [Option.map_some, Option.some.injEq] at h3
    omega

theorem same_pulled {syncs : List Str} {l : List (Str × Fate × Str)} {rest : Input} (hsel : Selected w v u [] syncs)
    (h : pullAll toy D w { u with store := u.store.updateSnapshot.1 } syncs [some [2]] = (some l, rest)) :
    l = [([97], .merge remote, [])] := by
  rw [selected hsel, pulled] at h
  exact (Option.some.inj (Prod.mk.inj h).1).symm

theorem there_own : OwnHistory there := own (by decide +kernel)

theorem family : (SameIds here there ∧ ∀ x ∈ here, ∀ y ∈ there, x.kind = .add → y.kind = .add → x.uuid = y.uuid → x = y) ∧
    (SameIds there there ∧ ∀ x ∈ there, ∀ y ∈ there, x.kind = .add → y.kind = .add → x.uuid = y.uuid → x = y) := by
  decide +kernel

theorem syncOk : SyncOk toy D w v [] u [some [2]] := by
  refine ⟨perm_id', fun i j h => ?_, fun i j h => ?_, by decide, by decide +kernel, fun syncs l rest hsel h => ?_⟩
  · simp only [v]; omega
  · simp only [v]; omega
  · rw [same_pulled hsel h]
    have hone : ∀ q ∈ remotes [([97], .merge remote, [])], q.log = there := by
      intro q hq
      rw [List.mem_singleton.1 (show q ∈ [_] from hq)]
      rfl
    refine ⟨fun q hq => by rw [hone q hq]; exact there_own, ⟨keyed.sound.own.good, ?_, ?_⟩, told, ?_, ?_⟩
    · intro r hr
      rw [List.mem_singleton.1 (show r ∈ [there] from hr)]
      exact ⟨there_own.good, ⟨family.1.1, family.1.2⟩⟩
    · intro r hr r' hr'
      rw [List.mem_singleton.1 (show r ∈ [there] from hr), List.mem_singleton.1 (show r' ∈ [there] from hr')]
      exact ⟨family.2.1, family.2.2⟩
    · intro q hq t ht
      rw [hone q hq] at ht
      have : ∀ t ∈ there, t.time < v.now 0 := by decide +kernel
      exact this t ht
    · intro i hi
      have : ([([97], .merge remote, [])] : List (Str × Fate × Str)).length = 1 := rfl
      simp only [v]
      omega

theorem apart : NamesApartAll toy D w v [] u [some [2]] := by
  intro syncs l rest hsel h
  rw [same_pulled hsel h]
  decide +kernel

theorem shared : SharedSync toy D w v [] u [some [2]] rs0 := by
  intro syncs l rest hsel h
  rw [same_pulled hsel h]
  have hone : ∀ q ∈ remotes [([97], .merge remote, [])], q = remote :=
    fun q hq => List.mem_singleton.1 (show q ∈ [_] from hq)
  refine ⟨fun _ => rs1, keyed.ring, ?_, ?_, ?_⟩
  · intro q hq
    rw [hone q hq]
    exact ⟨rfl, ⟨by decide, by decide, by decide⟩, ring (by decide +kernel)⟩
  · intro q hq; unfold Apart; decide +kernel
  · intro q hq q' hq'; unfold Apart; decide +kernel

theorem isUser_concrete {l : List Tx} (ho : ownB l = true) (x n : Str)
    (h : ∃ en, ({ log := l } : DB).updateSnapshot.1.snapshot.get? x = some en ∧ name en = some (userPrefix ++ n)) :
    IsUser { log := l } x n :=
  (named_concrete (own_wf (ok_log l) (own ho)).1 x _).2 h

theorem user_a : IsUser u.store [9] [97] :=
  isUser_concrete (by decide +kernel) _ _ ⟨[(keyName, userPrefix ++ [97]), (keySalt, hexEncode (List.replicate 32 1)),
    (keyIV, hexEncode (List.replicate 40 1)), (keyMKey, hexEncode (wrap [1] (List.replicate 40 1)))], by decide +kernel, by decide +kernel⟩

end LockDemo
open LockDemo

/-- not vacuous: the password was changed on the other machine; after `sync` the user opens the file with the new one -/
example : Keyed toy u rs0 ∧ SyncOk toy D w v [] u [some [2]] ∧ NamesApartAll toy D w v [] u [some [2]] ∧
    SharedSync toy D w v [] u [some [2]] rs0 ∧ (sync toy D w v [] true u [some [2]]).result = .ok () ∧
    (sync toy D w v [] true u [some [2]]).session.store.log ≠ u.store.log ∧ IsUser u.store [9] [97] :=
  ⟨keyed, syncOk, apart, shared, by decide +kernel, by decide +kernel, user_a⟩

/-- not vacuous: such a file can be saved -/
example : Keyed toy u rs0 ∧ u.readOnly = false ∧ Faithful (Demo.codec { log := here }) u.store ∧ Roomy toy u.store.log ∧
    ∃ uuid user, IsUser u.store uuid user := by
  refine ⟨keyed, rfl, ⟨by decide, ⟨_, rfl, ⟨rfl, rfl, rfl, GoMap.nodupKeys_nil, inner_nil, rfl⟩⟩, rfl⟩, ⟨?_, ?_⟩, _, _, user_a⟩
  · intro us hnd hus
    have hall : ∀ x ∈ us, x = [9] := by
      intro x hx
      obtain ⟨t, ht, a, b, c, d⟩ := hus x hx
      have : ∀ t ∈ here, t.kind = .setk → t.key = keyName → hasPrefix t.value userPrefix = true → t.uuid = [9] := by decide +kernel
      rw [← b]
      exact this t ht a c d
    cases us with
    | nil => simp
    | cons a us =>
      cases us with
      | nil => simp
      | cons b us =>
        rw [hall a (by simp), hall b (by simp)] at hnd
        simp at hnd
  · intro t ht t' ht' n n' a a' b b' c c' _
    have : ∀ t ∈ here, t.kind = .setk → t.key = keyName → hasPrefix t.value userPrefix = true → t.value = userPrefix ++ [97] := by
      decide +kernel
    have h1 := this t ht a b (by rw [c]; exact user_prefix _)
    have h2 := this t' ht' a' b' (by rw [c']; exact user_prefix _)
    rw [c] at h1
    rw [c'] at h2
    rw [List.append_cancel_left h1, List.append_cancel_left h2]

namespace LockDemo

/-- two passwords set for "a" at the same time, on two machines -/
def mixA : List Tx := base ++ (rec [3] 3 20 21 30).ops
def mixB : List Tx := base ++ (rec [4] 4 22 23 24).ops
def rsA : List Rec := [rec [1] 1 8 9 10, rec [3] 3 20 21 30]
def rsB : List Rec := [rec [1] 1 8 9 10, rec [4] 4 22 23 24]

def mixed : List Tx :=
  match mergeLogs mixA mixB [] with
  | (.ok l, _) => l
  | _ => []

def mixedFile : Str :=
  match saveBlob toy D id id SyncDemo.iv (session [3] 3 mixed) with
  | .ok (some f) => f
  | _ => []

def err? : Res CErr (Int × Params × Str) → Option CErr
  | .err e => some e
  | _ => none

theorem err_some {r : Res CErr (Int × Params × Str)} {e : CErr} (h : err? r = some e) : r = .err e := by
  cases r with
  | ok x => cases h
  | err e' => cases h; rfl
  | panic => cases h

end LockDemo

/-- C88 is false when the same user gets new passwords on two machines at overlapping times: the parts of the two records are
mixed by the merge, and the file opens with none of the passwords that were ever set. -/
theorem C88_overlap_false : ∃ (master : Str) (A B l : List Tx) (rsA rsB : List Rec) (u : Session) (f : Str),
    Keyring toy master A rsA ∧ Keyring toy master B rsB ∧ OwnHistory A ∧ OwnHistory B ∧
    mergeLogs A B [] = (.ok l, []) ∧ u.store.log = l ∧ u.creds.master = master ∧ MultiCreds u.creds ∧
    saveBlob toy D id id SyncDemo.iv u = .ok (some f) ∧
    ∀ r ∈ rsA ++ rsB, decrypt toy [97] r.pass none [] f = .err .wrongPassphrase := by
  refine ⟨master, mixA, mixB, mixed, rsA, rsB, LockDemo.session [3] 3 mixed, mixedFile, ring (by decide +kernel), ring (by decide +kernel),
    HistoryDemo.own (by decide +kernel), HistoryDemo.own (by decide +kernel), by decide +kernel, rfl, rfl,
    ⟨by decide, by decide, by decide⟩, by decide +kernel, ?_⟩
  intro r hr
  apply err_some
  revert r
  decide +kernel

namespace LockDemo

/-- a file without users, opened with the password `[1]` -/
def single : Session :=
  { creds := { pass := [1], key := toy.kdf [1] [], salt := List.replicate 32 1 }, store := { log := SyncDemo.entryOps 1 97 } }

/-- the user "a" is added on two machines; each draws a master key -/
def drawA : Draw :=
  { now := fun i => 10 + i
    uuid := [9]
    salt := List.replicate 32 2
    iv := List.replicate 40 1
    master := List.replicate 80 5
    ivm := List.replicate 40 3 }
def drawB : Draw :=
  { now := fun i => 30 + i
    uuid := [8]
    salt := List.replicate 32 2
    iv := List.replicate 40 2
    master := List.replicate 80 6
    ivm := List.replicate 40 3 }
def userA : Session := (adduser toy id drawA single [97]).1
def userB : Session := (adduser toy id drawB single [97]).1

def fileOf (u : Session) : Str :=
  match saveBlob toy D id id SyncDemo.iv u with
  | .ok (some f) => f
  | _ => []

def DB' : Codec := { D with loadLog := fun _ => .ok userB.store.log }
def wB : World := { SyncDemo.w with readFile := fun _ _ => .bytes (fileOf userB) }

theorem single_own : OwnHistory single.store.log := HistoryDemo.own (by decide +kernel)

theorem single_ok : SingleSession toy single [1] ∧ Sound single.store :=
  ⟨⟨rfl, (own_wf (HistoryDemo.ok_log _) single_own).1, rfl, ⟨rfl, by decide, by decide⟩, by decide, rfl⟩,
    ⟨(own_wf (HistoryDemo.ok_log _) single_own).2.2 (by decide +kernel), single_own, rfl⟩⟩

def both : Session := (sync toy DB' wB LockDemo.v [] true userA []).session
def bothFile : Str :=
  match saveBlob toy D id List.reverse SyncDemo.iv both with
  | .ok (some f) => f
  | _ => []

def drawP : Draw :=
  { salt := List.replicate 32 2
    inp := [some (b! "m"), some [2], some [2]] }
def changed : Session := (passwd toy id drawP single []).1
def DS : Codec := { D with loadLog := fun _ => .ok single.store.log }
def wS : World := { SyncDemo.w with readFile := fun _ _ => .bytes (fileOf single) }

end LockDemo

/-- C88 is false when a file without users gets its first user on two machines: each has its own master key, after `sync` both
entries are in the file, and for some order in which the users are written the file does not open although it would have on both
machines before. -/
theorem C88_masters_false : ∃ (u ua ub : Session) (da db : Draw) (C : Codec) (w : World) (v : SyncEnv) (fb f : Str)
    (ord' : Results → Results),
    SingleSession toy u [1] ∧ Sound u.store ∧ DrawOk da ∧ DrawOk db ∧
    adduser toy id da u [97] = (ua, .ok ()) ∧ adduser toy id db u [97] = (ub, .ok ()) ∧
    saveBlob toy C id id SyncDemo.iv ub = .ok (some fb) ∧ (∀ uuid e, w.readFile uuid e = .bytes fb) ∧
    (∃ x, decrypt toy [97] [1] none [] fb = .ok x) ∧
    (sync toy C w v [] true ua []).result = .ok () ∧ (∀ m, (ord' m).Perm m) ∧
    saveBlob toy C id ord' SyncDemo.iv (sync toy C w v [] true ua []).session = .ok (some f) ∧
    decrypt toy [97] [1] none [] f = .err .wrongPassphrase := by
  refine ⟨single, userA, userB, drawA, drawB, DB', wB, LockDemo.v, fileOf userB, bothFile, List.reverse, ?_, ?_,
    ⟨by decide, by decide, by decide, by decide⟩, ⟨by decide, by decide, by decide, by decide⟩, by decide +kernel, by decide +kernel,
    by decide +kernel, fun _ _ => rfl, ?_, by decide +kernel, fun m => List.reverse_perm m, by decide +kernel, ?_⟩
  · exact single_ok.1
  · exact single_ok.2
  · obtain ⟨p, hp⟩ := SyncDemo.text_some (r := decrypt toy [97] [1] none [] (fileOf userB)) (v := 1) (pt := [2]) (by decide +kernel)
    exact ⟨_, hp⟩
  · exact err_some (by decide +kernel)

/-- C88 is false for files without users when the password is all that changed: `sync` takes the remote for up to date and leaves
it encrypted under the old password. -/
theorem C88_passwd_false : ∃ (u u' : Session) (d : Draw) (C : Codec) (w : World) (v : SyncEnv) (f : Str),
    SingleSession toy u [1] ∧ Sound u.store ∧ passwd toy id d u [] = (u', .ok ()) ∧ u'.creds.pass = [2] ∧
    saveBlob toy C id id SyncDemo.iv u = .ok (some f) ∧ (∀ uuid e, w.readFile uuid e = .bytes f) ∧
    (sync toy C w v [] true u' [some [1]]).result = .ok () ∧ (sync toy C w v [] true u' [some [1]]).pushed = [] ∧
    (∃ x, decrypt toy [] [1] none [] f = .ok x) ∧ decrypt toy [] [2] none [] f = .err .wrongPassphrase := by
  refine ⟨single, changed, drawP, DS, wS, LockDemo.v, fileOf single, ?_, ?_, by decide +kernel, by decide +kernel, by decide +kernel,
    fun _ _ => rfl, by decide +kernel, by decide +kernel, ?_, err_some (by decide +kernel)⟩
  · exact single_ok.1
  · exact single_ok.2
  · obtain ⟨p, hp⟩ := SyncDemo.text_some (r := decrypt toy [] [1] none [] (fileOf single)) (v := 1) (pt := [2]) (by decide +kernel)
    exact ⟨_, hp⟩

namespace LockDemo

/-- what `passwd` and `adduser a` meet -/
def env : Env :=
  { d := { now := fun i => 100 + i
           uuid := [8]
           salt := List.replicate 32 2
           iv := List.replicate 40 2
           master := List.replicate 80 5
           ivm := List.replicate 40 3
           inp := [some (b! "m"), some [2], some [2]] }
    ds := fun k => { now := fun i => 300 + 10 * (k : Int) + i } }

theorem env_draw : DrawOk env.d := ⟨by decide, by decide, by decide, by decide⟩

theorem turn {x : Session} {line : Str} {c : Str × List Str} (hs : Sound x.store) (hv : ValidUtf8 line) (hp : parseLine line = some c)
    (hc : c.1 ≠ b! "sync") (h8 : ∀ t ∈ x.store.log, t.uuid ≠ [8]) (hlate : ∀ t ∈ x.store.log, t.time < 100)
    (hf : x.store.updateSnapshot.1.snapshot.get? [8] = none) : HistoryTurn env line { u := x } := by
  refine ⟨⟨hv, ⟨Demo.perm_id, Demo.perm_id', (by decide : ([8] : Str) ≠ []), Demo.fresh_concrete hs.wf.good (v := [8]) hf⟩,
    Demo.parse_ne hp hc⟩, ⟨fun i j h => ?_, fun t ht => ?_, fun k i j h => ?_, fun t ht => ?_, fun k => ?_⟩, ?_⟩
  · simp only [env]; omega
  · exact hlate t ht
  · simp only [env]; omega
  · have := hlate t ht; simp only [env]; omega
  · simp only [env]; omega
  · exact h8

theorem turn_passwd : KeyTurn env (b! "passwd") { u := u } := by
  have hp : parseLine (b! "passwd") = some (b! "passwd", []) := by decide +kernel
  refine ⟨turn keyed.sound (valid_ascii _ (by decide)) hp (by decide) (by decide +kernel) (by decide +kernel) (by decide +kernel),
    env_draw, fun cmd args h => ?_⟩
  rw [hp] at h
  cases h
  exact ⟨fun h => absurd h (by decide), fun h => absurd h (by decide), fun h => absurd h (by decide), by decide,
    fun h => absurd h (by decide), fun h => absurd h (by decide)⟩

theorem turn_first : HistoryTurn env (b! "adduser a") { u := single } :=
  turn single_ok.2 (valid_ascii _ (by decide)) (c := (b! "adduser", [[97]])) (by decide +kernel) (by decide) (by decide +kernel)
    (by decide +kernel) (by decide +kernel)

end LockDemo

/-- not vacuous: `passwd` sets a record -/
example : KeyTurn env (b! "passwd") { u := u } ∧ (runLine toy D env (b! "passwd") { u := u }).2 = .ok false ∧
    (runLine toy D env (b! "passwd") { u := u }).1.u.store.log = u.store.log ++
      (LockDemo.rec [2] 2 100 101 102).ops :=
  ⟨turn_passwd, by decide +kernel, by decide +kernel⟩

example : Along toy D (KeyWholeTurn toy D) [(some (b! "passwd"), env)] { u := u } ∧
    (runRepl toy D [(some (b! "passwd"), env)] { u := u }).2 = .ok () :=
  ⟨⟨.inl turn_passwd, trivial⟩, by decide +kernel⟩

/-- not vacuous: the first user is added -/
example : SingleSession toy single [1] ∧ Sound single.store ∧
    (∀ t ∈ single.store.log, t.kind = .setk ∨ t.kind = .delk → t.key ∉ recordKeys) ∧
    (∀ t ∈ single.store.log, t.kind = .setk → t.key = keyName → hasPrefix t.value userPrefix = false) ∧
    HistoryTurn env (b! "adduser a") { u := single } ∧ (runLine toy D env (b! "adduser a") { u := single }).2 = .ok false :=
  ⟨single_ok.1, single_ok.2, by decide +kernel, by decide +kernel, turn_first, by decide +kernel⟩

end Verif.App
