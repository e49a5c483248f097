import Verif.App.Complete
import Verif.App.ShowProps
/-!
# Lemmas for the properties of the completion: a snapshot brought up to date changes nothing
-/
namespace Verif.App
open Verif Verif.Txlogs Verif.Blob Verif.Crypt Verif.App.Spec

namespace Tab

/-- the snapshot brought up to date -/
def tab (u : Session) : Session := { u with store := u.store.updateSnapshot.1 }

theorem loop_version : ∀ (l : List Tx) (v : Nat) (snap : Snapshot), (DB.updateLoop l v snap).2.2 = none →
    (DB.updateLoop l v snap).1 = v + l.length := by
  intro l
  induction l with
  | nil => intro v snap _; rfl
  | cons t l ih =>
    intro v snap h
    unfold DB.updateLoop at h ⊢
    split at h <;> rename_i heq
    · cases h
    · rw [ih _ _ h, List.length_cons]
      omega

theorem current {s : DB} (h : s.updateSnapshot.2 = none) : s.updateSnapshot.1.log.length ≤ s.updateSnapshot.1.version := by
  unfold DB.updateSnapshot at h ⊢
  split
  · assumption
  · rename_i hlt
    rw [if_neg hlt] at h
    have := loop_version _ _ _ h
    simp only [this, List.length_drop]
    omega

theorem twice {s : DB} (h : s.updateSnapshot.2 = none) : s.updateSnapshot.1.updateSnapshot = (s.updateSnapshot.1, none) := by
  have hc := current h
  generalize s.updateSnapshot.1 = x at hc
  unfold DB.updateSnapshot
  rw [if_pos hc]

theorem pair {s : DB} (h : s.updateSnapshot.2 = none) : s.updateSnapshot = (s.updateSnapshot.1, none) := Prod.ext rfl h

theorem with_tab {α : Type} {s : DB} (h : s.updateSnapshot.2 = none) (k : DB → Out α) :
    withSnapshot s.updateSnapshot.1 k = withSnapshot s k := by
  have h2 := twice h
  have h1 := pair h
  generalize s.updateSnapshot.1 = x at h1 h2
  unfold withSnapshot
  rw [h1, h2]

theorem begin_tab (s : DB) : s.updateSnapshot.1.begin = s.begin.updateSnapshot.1 ∧ s.begin.updateSnapshot.2 = s.updateSnapshot.2 := by
  unfold DB.updateSnapshot DB.begin
  dsimp only
  split <;> exact ⟨rfl, rfl⟩

/-- the same outcome, and the same session once the snapshot is up to date -/
def Up {α : Type} (x y : Session × α) : Prop := x.2 = y.2 ∧ tab x.1 = tab y.1

theorem up_of_eq {α : Type} {x y : Session × α} (h : x = y) : Up x y := by rw [h]; exact ⟨rfl, rfl⟩

theorem up_tab {α : Type} {u : Session} (h : u.store.updateSnapshot.2 = none) (o : α) : Up (tab u, o) (u, o) := by
  refine ⟨rfl, ?_⟩
  show { u with store := u.store.updateSnapshot.1.updateSnapshot.1 } = { u with store := u.store.updateSnapshot.1 }
  rw [twice h]

variable {u : Session} (h : u.store.updateSnapshot.2 = none)
include h

theorem up_none : (tab u).store.updateSnapshot.2 = none := by
  show u.store.updateSnapshot.1.updateSnapshot.2 = none
  rw [twice h]

theorem findOne_tab (lower : Nat → Nat) (ord : Order) (ord' : Results → Results) (q : Str) :
    findOne lower ord ord' (tab u).store q = findOne lower ord ord' u.store q := by
  unfold findOne search tab
  rw [with_tab h]

theorem find_tab (q : Str) : find (tab u).store q = find u.store q := by
  unfold find tab; rw [with_tab h]

theorem findByName_tab (ord : Order) (q : Str) : findByName ord (tab u).store q = findByName ord u.store q := by
  unfold findByName tab; rw [with_tab h]

theorem users_tab (ord : Order) : users ord (tab u).store = users ord u.store := by
  unfold users tab; rw [with_tab h]

theorem new_tab (ord : Order) (now : Nat → Int) (uuid nm : Str) : new ord now uuid (tab u).store nm = new ord now uuid u.store nm := by
  unfold new tab; rw [with_tab h]

omit h in
theorem lift_tab {α : Type} (x : Out α) : lift (tab u) x = lift u x := by
  obtain ⟨s, o⟩ := x
  cases o <;> rfl

theorem one_tab {α : Type} (v : Env) (q : Str) (d : α) (k : Session → Str → Session × Res AppErr α) :
    one v (tab u) q d k = one v u q d k := by
  unfold one
  rw [findOne_tab h, lift_tab]

theorem oneEntry_tab {α : Type} (v : Env) (q : Str) (d : α) (k : Session → Str → Entry → Session × Res AppErr α) :
    oneEntry v (tab u) q d k = oneEntry v u q d k := one_tab h ..

theorem list_tab (v : Env) (q : Str) : list v (tab u) q = list v u q := by
  unfold list search
  rw [lift_tab]
  unfold tab
  rw [with_tab h]

theorem listByLabels_tab (v : Env) (l : List Str) : listByLabels v (tab u) l = listByLabels v u l := by
  unfold listByLabels searchLabels
  rw [lift_tab]
  unfold tab
  rw [with_tab h]

theorem openurl_tab (v : Env) (q : Str) : openurl v (tab u) q = openurl v u q := by
  unfold openurl
  rw [findOne_tab h, lift_tab]

theorem renameCmd_tab (v : Env) (a b : Str) : renameCmd v (tab u) a b = renameCmd v u a b := by
  unfold renameCmd
  rw [findByName_tab h, lift_tab]

theorem deleteEntry_tab (ord : Order) (now : Int) (inp : Input) (nm : Str) :
    deleteEntry ord now inp (tab u) nm = deleteEntry ord now inp u nm := by
  unfold deleteEntry
  rw [findByName_tab h]
  rfl

theorem storeUser_tab (P : Prims) (ord : Order) (d : Draw) (user key salt : Str) :
    storeUser P ord d (tab u) user key salt = storeUser P ord d u user key salt := by
  unfold storeUser mustFindUser findUser
  rw [findByName_tab h]
  rfl

theorem adduser_tab (P : Prims) (ord : Order) (d : Draw) (user : Str) : adduser P ord d (tab u) user = adduser P ord d u user := by
  unfold adduser newUser
  rw [new_tab h]
  rfl

theorem passwd_tab (P : Prims) (ord : Order) (d : Draw) (user : Str) : Up (passwd P ord d (tab u) user) (passwd P ord d u user) := by
  unfold passwd
  cases getPassword d.ent d.inp with
  | panic => exact up_tab h _
  | err e => exact up_tab h _
  | ok pass =>
    dsimp only
    split
    · exact up_tab h _
    · cases deriveKey P 1 pass d.salt with
      | panic => exact up_tab h _
      | err e => exact up_tab h _
      | ok ks =>
        obtain ⟨key, salt⟩ := ks
        dsimp only
        have hc : (tab u).creds = u.creds := rfl
        rw [hc]
        by_cases hu : u.creds.user = [] ∨ u.creds.user = user
        · simp only [if_pos hu]
          split
          · exact up_tab (u := { u with creds := { u.creds with pass := pass, key := key, salt := salt } }) h _
          · exact up_of_eq (storeUser_tab (u := { u with creds := { u.creds with pass := pass, key := key, salt := salt } }) h ..)
        · simp only [if_neg hu, hc]
          split
          · exact up_tab h _
          · exact up_of_eq (storeUser_tab h ..)

theorem rekey_tab (P : Prims) (ord : Order) (d : Draw) (user : Str) : Up (rekey P ord d (tab u) user) (rekey P ord d u user) := by
  unfold rekey
  have hc : (tab u).creds = u.creds := rfl
  simp only [hc]
  generalize (if user = [] then (Res.ok u.creds.pass : Res Unit Str) else getPassword d.ent d.inp) = p
  cases p with
  | panic => exact up_tab h _
  | err e => exact up_tab h _
  | ok pass =>
    dsimp only
    split
    · exact up_tab h _
    · cases deriveKey P 1 pass d.salt with
      | panic => exact up_tab h _
      | err e => exact up_tab h _
      | ok ks =>
        obtain ⟨key, salt⟩ := ks
        dsimp only
        by_cases hu : user = []
        · simp only [if_pos hu]
          split
          · exact up_tab (u := { u with creds := { u.creds with pass := pass, key := key, salt := salt } }) h _
          · exact up_of_eq (storeUser_tab (u := { u with creds := { u.creds with pass := pass, key := key, salt := salt } }) h ..)
        · simp only [if_neg hu, hc]
          split
          · exact up_tab h _
          · exact up_of_eq (storeUser_tab h ..)

theorem rekeyAll_tab (P : Prims) (ord : Order) (ord' : Results → Results) (d : Draw) (ds : Nat → Draw) :
    Up (rekeyAll P ord ord' d ds (tab u)) (rekeyAll P ord ord' d ds u) := by
  unfold rekeyAll
  have hc : (tab u).creds = u.creds := rfl
  simp only [hc]
  split
  · exact up_tab h _
  · split
    · exact up_tab h _
    · exact up_tab h _
    · rw [users_tab h]
      exact up_of_eq rfl

omit h in
theorem begin_session : ({ tab u with store := (tab u).store.begin } : Session) = tab { u with store := u.store.begin } := by
  unfold tab
  simp only [(begin_tab u.store).1]

theorem addNew_tab (v : Env) (nm : Str) : addNew v (tab u) nm = addNew v u nm := by
  unfold addNew doCmd
  rw [begin_session]
  have hb : ({ u with store := u.store.begin } : Session).store.updateSnapshot.2 = none := (begin_tab u.store).2.trans h
  simp only [new_tab hb]
  rfl

theorem newSync_tab (ord : Order) (now : Nat → Int) (uuid : Str) (fuel : Nat) (kind : Str) :
    newSync ord now uuid (fuel + 1) (tab u).store kind = newSync ord now uuid (fuel + 1) u.store kind := by
  unfold newSync newSyncLoop
  rw [new_tab h]

theorem addSync_tab (v : Env) (kind : Str) : Up (addSync v (tab u) kind) (addSync v u kind) := by
  unfold addSync
  split
  · exact up_tab h _
  · unfold doCmd
    rw [begin_session]
    have hb : ({ u with store := u.store.begin } : Session).store.updateSnapshot.2 = none := (begin_tab u.store).2.trans h
    have hl : (tab { u with store := u.store.begin }).store.log.length = u.store.begin.log.length := by
      show u.store.begin.updateSnapshot.1.log.length = _
      rw [updateSnapshot_log]
    simp only [hl]
    rw [newSync_tab hb]
    simp only [lift_tab]
    cases newSync v.ord v.d.now v.d.uuid (u.store.begin.log.length + 1) u.store.begin kind with
    | none => exact up_tab hb _
    | some r => exact ⟨rfl, rfl⟩

theorem sync_tab (P : Prims) (C : Codec) (w : World) (v : SyncEnv) (nm : Str) (push : Bool) (inp : Input) :
    sync P C w v nm push (tab u) inp = sync P C w v nm push u inp := by
  have h1 := pair h
  have h2 : (tab u).store.updateSnapshot = (u.store.updateSnapshot.1, none) := twice h
  unfold sync
  rw [h2, h1]
  rfl

omit h

/-- the same for the program at the prompt -/
def tabR (r : Repl) : Repl := { r with u := tab r.u }

def UpR {α : Type} (x y : Repl × α) : Prop := x.2 = y.2 ∧ tabR x.1 = tabR y.1

theorem upR_tab {α : Type} {r : Repl} (h : r.u.store.updateSnapshot.2 = none) (o : α) : UpR (tabR r, o) (r, o) := by
  refine ⟨rfl, ?_⟩
  show { r with u := tab (tab r.u) } = { r with u := tab r.u }
  rw [(up_tab h ()).2]

theorem back_up {r : Repl} {x y : Session × Res AppErr Unit} (h : Up x y) : UpR (back (tabR r) x) (back r y) := by
  obtain ⟨a, o⟩ := x
  obtain ⟨b, p⟩ := y
  obtain ⟨rfl, h2⟩ := h
  change tab a = tab b at h2
  cases o <;> exact ⟨rfl, by simp only [back, tabR, h2]⟩

theorem back__up {α : Type} {r : Repl} {x y : Session × Res AppErr α} (h : Up x y) : UpR (back_ (tabR r) x) (back_ r y) := by
  obtain ⟨a, o⟩ := x
  obtain ⟨b, p⟩ := y
  obtain ⟨rfl, h2⟩ := h
  change tab a = tab b at h2
  cases o <;> exact ⟨rfl, by simp only [back_, tabR, h2]⟩

theorem backOut_up {r : Repl} {x y : Session × Res AppErr (Option Str)} (h : Up x y) : UpR (backOut (tabR r) x) (backOut r y) := by
  obtain ⟨a, o⟩ := x
  obtain ⟨b, p⟩ := y
  obtain ⟨rfl, h2⟩ := h
  change tab a = tab b at h2
  match o with
  | .ok (some x) => exact ⟨rfl, by simp only [backOut, tabR, h2]⟩
  | .ok none => exact ⟨rfl, by simp only [backOut, tabR, h2]⟩
  | .err e => exact ⟨rfl, by simp only [backOut, tabR, h2]⟩
  | .panic => exact ⟨rfl, by simp only [backOut, tabR, h2]⟩

theorem cd_up {r : Repl} (h : r.u.store.updateSnapshot.2 = none) (v : Env) (args : List Str) : UpR (cd v (tabR r) args) (cd v r args) := by
  match args with
  | [] => exact upR_tab (r := { r with ctx := [] }) h _
  | [q] =>
    have he : entryName v (tabR r).u q = entryName v r.u q := oneEntry_tab h ..
    simp only [cd, he]
    obtain ⟨u, o⟩ := entryName v r.u q
    match o with
    | .ok (some x) => exact ⟨rfl, rfl⟩
    | .ok none => exact ⟨rfl, rfl⟩
    | .err e => exact ⟨rfl, rfl⟩
    | .panic => exact ⟨rfl, rfl⟩
  | _ :: _ :: _ => exact upR_tab h _

theorem ite_up {α : Type} {c : Prop} [Decidable c] {a b a' b' : Repl × α} (h1 : UpR a b) (h2 : UpR a' b') :
    UpR (if c then a else a') (if c then b else b') := by
  split <;> assumption

theorem show_up {r : Repl} (h : r.u.store.updateSnapshot.2 = none) (v : Env) (x : Option Str × List Str) :
    UpR (match x.1 with
      | none => (tabR r, .ok false)
      | some q => back_ (tabR r) (showCmd v (tabR r).u q ((x.2.head?.bind atoi).getD 0)))
      (match x.1 with
      | none => (r, .ok false)
      | some q => back_ r (showCmd v r.u q ((x.2.head?.bind atoi).getD 0))) := by
  obtain ⟨q, rest⟩ := x
  cases q
  · exact upR_tab h _
  · exact back__up (up_of_eq (oneEntry_tab h ..))

theorem get_up {r : Repl} (h : r.u.store.updateSnapshot.2 = none) (v : Env) (args : List Str) :
    UpR (match queryArgs r.ctx args with
      | none => (tabR r, .ok false)
      | some (q, k, rest) =>
        if rest ≠ [] ∧ (rest.head?.bind atoi).isNone then (tabR r, .ok false)
        else backOut (tabR r) (getCmd v (tabR r).u q k))
      (match queryArgs r.ctx args with
      | none => (r, .ok false)
      | some (q, k, rest) =>
        if rest ≠ [] ∧ (rest.head?.bind atoi).isNone then (r, .ok false)
        else backOut r (getCmd v r.u q k)) := by
  match queryArgs r.ctx args with
  | none => exact upR_tab h _
  | some (q, k, rest) => exact ite_up (upR_tab h _) (backOut_up (up_of_eq (oneEntry_tab h ..)))

theorem read_up {r : Repl} (h : r.u.store.updateSnapshot.2 = none) (v : Env) (cmd : Str) (args : List Str) :
    UpR (execRead v cmd args (tabR r)) (execRead v cmd args r) := by
  refine ite_up (back__up (up_of_eq (list_tab h ..))) ?_
  refine ite_up (cd_up h _ _) ?_
  refine ite_up (get_up h v args) ?_
  refine ite_up ?_ ?_
  · rw [show (tabR r).ctx = r.ctx from rfl]
    rcases queryArg r.ctx args with _ | q
    · exact upR_tab h _
    · exact backOut_up (up_of_eq (oneEntry_tab h ..))
  refine ite_up ?_ ?_
  · rw [show (tabR r).ctx = r.ctx from rfl]
    rcases queryArg r.ctx args with _ | q
    · exact upR_tab h _
    · exact back__up (up_of_eq (openurl_tab h ..))
  refine ite_up (ite_up (upR_tab h _) (back__up (up_of_eq (listByLabels_tab h ..)))) ?_
  refine ite_up (show_up h v (if r.ctx = [] then (args.head?, args.drop 1) else (some r.ctx, args))) ?_
  refine ite_up ?_ ?_
  · rw [show (tabR r).ctx = r.ctx from rfl]
    rcases queryArg r.ctx args with _ | q
    · exact upR_tab h _
    · exact back__up (up_of_eq (oneEntry_tab h ..))
  exact ite_up (upR_tab h _) (upR_tab h _)

theorem rm_up {r : Repl} (h : r.u.store.updateSnapshot.2 = none) (v : Env) (nm : Str) :
    UpR (match back (tabR r) (deleteEntry v.ord (v.d.now 0) v.d.inp (tabR r).u nm) with
      | (r, .ok b) => (if r.ctx = nm then { r with ctx := [] } else r, .ok b)
      | x => x)
      (match back r (deleteEntry v.ord (v.d.now 0) v.d.inp r.u nm) with
      | (r, .ok b) => (if r.ctx = nm then { r with ctx := [] } else r, .ok b)
      | x => x) := by
  rw [show deleteEntry v.ord (v.d.now 0) v.d.inp (tabR r).u nm = _ from deleteEntry_tab h ..]
  obtain ⟨u, o⟩ := deleteEntry v.ord (v.d.now 0) v.d.inp r.u nm
  cases o <;> exact ⟨rfl, rfl⟩

theorem inter_up {v : Env} {x y : Session × Res AppErr Unit} (h : Up x y) :
    Up ((fun x => (x.1, interruptible v x.2)) x) ((fun x => (x.1, interruptible v x.2)) y) := ⟨by simp only [h.1], h.2⟩

theorem sync_up {r : Repl} (h : r.u.store.updateSnapshot.2 = none) (P : Prims) (C : Codec) (v : Env) (nm : Str) :
    UpR (let x := sync P C v.w v.v nm true (tabR r).u v.d.inp
      let r := if x.pushed = [] then tabR r else { tabR r with pushed := (tabR r).pushed ++ [(x.sent, x.pushed)] }
      back r (x.session, x.result))
      (let x := sync P C v.w v.v nm true r.u v.d.inp
      let r := if x.pushed = [] then r else { r with pushed := r.pushed ++ [(x.sent, x.pushed)] }
      back r (x.session, x.result)) := by
  rw [show sync P C v.w v.v nm true (tabR r).u v.d.inp = _ from sync_tab h ..]
  dsimp only
  split
  · exact back_up ⟨rfl, rfl⟩
  · exact back_up (r := { r with pushed := _ }) ⟨rfl, rfl⟩

theorem args_up {α : Type} {args : List Str} {a b : Repl × α} {f g : Str → List Str → Repl × α} (h1 : UpR a b)
    (h2 : ∀ x l, UpR (f x l) (g x l)) :
    UpR (match args with | [] => a | x :: l => f x l) (match args with | [] => b | x :: l => g x l) := by
  cases args
  · exact h1
  · exact h2 ..

theorem mv_up {r : Repl} (h : r.u.store.updateSnapshot.2 = none) (v : Env) (args : List Str) :
    UpR (match args with
      | src :: dst :: _ => back (tabR r) (renameCmd v (tabR r).u src dst)
      | _ => (tabR r, .ok false))
      (match args with
      | src :: dst :: _ => back r (renameCmd v r.u src dst)
      | _ => (r, .ok false)) := by
  match args with
  | [] => exact upR_tab h _
  | [_] => exact upR_tab h _
  | _ :: _ :: _ => exact back_up (up_of_eq (renameCmd_tab h ..))

theorem login_up {r : Repl} (h : r.u.store.updateSnapshot.2 = none) (v : Env) (q : Str) :
    UpR (match q with
      | [] => (tabR r, .ok false)
      | q => back_ (tabR r) (login v (tabR r).u q))
      (match q with
      | [] => (r, .ok false)
      | q => back_ r (login v r.u q)) := by
  cases q
  · exact upR_tab h _
  · exact back__up (up_of_eq (one_tab h ..))

theorem write_up {r : Repl} (h : r.u.store.updateSnapshot.2 = none) (P : Prims) (C : Codec) (v : Env) (cmd : Str) (args : List Str) :
    UpR (execWrite P C v cmd args (tabR r)) (execWrite P C v cmd args r) := by
  refine ite_up (back_up (passwd_tab h ..)) ?_
  refine ite_up (args_up (upR_tab h _) fun _ _ => back_up (up_of_eq (adduser_tab h ..))) ?_
  refine ite_up (back_up (rekey_tab h ..)) ?_
  refine ite_up (back__up (rekeyAll_tab h ..)) ?_
  refine ite_up (args_up (upR_tab h _) fun _ _ => back_up (inter_up (up_of_eq (addNew_tab h ..)))) ?_
  refine ite_up (mv_up h v args) ?_
  refine ite_up (args_up (upR_tab h _) fun _ _ => rm_up h ..) ?_
  refine ite_up ?_ ?_
  · rw [show (tabR r).ctx = r.ctx from rfl]
    rcases queryArgs r.ctx args with _ | ⟨q, k, l⟩
    · exact upR_tab h _
    · exact back_up (up_of_eq (oneEntry_tab h ..))
  refine ite_up (login_up h v (match args with | q :: _ => q | [] => r.ctx)) ?_
  refine ite_up ?_ ?_
  · rw [show (tabR r).ctx = r.ctx from rfl]
    rcases setArgs r.ctx args with _ | ⟨q, k, l⟩
    · exact upR_tab h _
    · exact back_up (up_of_eq (one_tab h ..))
  refine ite_up ?_ ?_
  · rw [show (tabR r).ctx = r.ctx from rfl]
    rcases queryArgs r.ctx args with _ | ⟨q, k, l⟩
    · exact upR_tab h _
    · exact back_up (up_of_eq (one_tab h ..))
  refine ite_up ?_ ?_
  · rw [show (tabR r).ctx = r.ctx from rfl]
    rcases queryArg r.ctx args with _ | q
    · exact upR_tab h _
    · exact back_up (up_of_eq (oneEntry_tab h ..))
  refine ite_up ?_ ?_
  · rw [show (tabR r).ctx = r.ctx from rfl]
    rcases queryArgs r.ctx args with _ | ⟨q, k, l⟩
    · exact upR_tab h _
    · exact back_up (up_of_eq (oneEntry_tab h ..))
  refine ite_up (sync_up h P C v _) ?_
  exact ite_up (args_up (upR_tab h _) fun _ _ => back_up (inter_up (addSync_tab h ..))) (upR_tab h _)

theorem line_up {r : Repl} (h : r.u.store.updateSnapshot.2 = none) (P : Prims) (C : Codec) (v : Env) (line : Str) :
    UpR (runLine P C v line (tabR r)) (runLine P C v line r) := by
  unfold runLine
  split
  · exact upR_tab h _
  · split
    · exact upR_tab h _
    · exact read_up h ..
    · exact ite_up (c := r.u.readOnly = true) (upR_tab h _) (write_up h ..)

end Tab
end Verif.App
