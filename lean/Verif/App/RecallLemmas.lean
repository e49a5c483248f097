import Verif.App.RecallSpec
import Verif.App.MetaLemmas
import Verif.App.OwnSyncLemmas
/-! # Lemmas for C114: a session stays as writable as it was -/
set_option linter.unusedSimpArgs false
namespace Verif.App
open Verif Verif.Txlogs Verif.Blob Verif.Crypt Verif.App.Spec

theorem storeUser_ro (P : Prims) (ord : Order) (d : Draw) (u : Session) (user key salt : Str) :
    (storeUser P ord d u user key salt).1.readOnly = u.readOnly := by
  unfold storeUser
  repeat' (first | rfl | split)

theorem passwd_ro (P : Prims) (ord : Order) (d : Draw) (u : Session) (user : Str) :
    (passwd P ord d u user).1.readOnly = u.readOnly := by
  unfold passwd
  split
  · rfl
  · rfl
  split
  · rfl
  split
  · rfl
  · rfl
  dsimp only
  rename_i key salt _
  have h : ∀ w : Session, w.readOnly = u.readOnly →
      (if w.creds.master = [] then (w, Res.ok ()) else storeUser P ord d w w.creds.user key salt).1.readOnly = u.readOnly := by
    intro w hw
    split
    · exact hw
    · exact (storeUser_ro ..).trans hw
  exact h _ (by split <;> rfl)

theorem finishUser_ro (P : Prims) (d : Draw) (u : Session) (uuid key salt : Str) :
    (finishUser P d u uuid key salt).1.readOnly = u.readOnly := by
  unfold finishUser
  repeat' (first | rfl | split)

theorem adduser_ro (P : Prims) (ord : Order) (d : Draw) (u : Session) (user : Str) :
    (adduser P ord d u user).1.readOnly = u.readOnly := by
  unfold adduser
  split
  · rfl
  · rfl
  · rfl
  dsimp only
  split
  · exact finishUser_ro ..
  split
  · rfl
  · rfl
  split
  · rfl
  · rfl
  exact finishUser_ro ..

theorem rekey_ro (P : Prims) (ord : Order) (d : Draw) (u : Session) (user : Str) :
    (rekey P ord d u user).1.readOnly = u.readOnly := by
  unfold rekey
  dsimp only
  generalize (if user = [] then Res.ok u.creds.pass else getPassword d.ent d.inp) = q
  split
  · rfl
  · rfl
  split
  · rfl
  split
  · rfl
  · rfl
  rename_i key salt _
  have h : ∀ w : Session, w.readOnly = u.readOnly →
      (if w.creds.master = [] then (w, Res.ok ()) else storeUser P ord d w (if user = [] then w.creds.user else user) key salt).1.readOnly =
        u.readOnly := by
    intro w hw
    split
    · exact hw
    · exact (storeUser_ro ..).trans hw
  exact h _ (by split <;> rfl)

theorem rekeyLoop_ro (P : Prims) (us : List (Str × Str)) (ds : Nat → Draw) (u : Session) (out : List (Str × Str)) :
    (rekeyLoop P us ds u out).1.readOnly = u.readOnly := by
  induction us generalizing ds u out with
  | nil => rfl
  | cons x us ih =>
    obtain ⟨uuid, nm⟩ := x
    rw [rekeyLoop]
    dsimp only
    split
    · rfl
    · rfl
    split
    · rfl
    · rfl
    split
    · split <;> rfl
    · split <;> rfl
    · rw [ih]
      dsimp only
      split <;> rfl

theorem rekeyAll_ro (P : Prims) (ord : Order) (ord' : Results → Results) (d : Draw) (ds : Nat → Draw) (u : Session) :
    (rekeyAll P ord ord' d ds u).1.readOnly = u.readOnly := by
  unfold rekeyAll
  split
  · rfl
  split
  · rfl
  · rfl
  split
  · rfl
  · rfl
  rename_i s us _
  have h := rekeyLoop_ro P (ord' us) ds { u with store := s } []
  split
  · rename_i hx
    rw [hx] at h
    exact h
  · exact h

theorem deleteEntry_ro (ord : Order) (now : Int) (inp : Input) (u : Session) (nm : Str) :
    (deleteEntry ord now inp u nm).1.readOnly = u.readOnly := by
  unfold deleteEntry
  split
  · rfl
  · rfl
  · rfl
  dsimp only
  repeat' (first | rfl | split)

theorem syncWith_ro (P : Prims) (C : Codec) (w : World) (v : SyncEnv) (push : Bool) (u : Session) (syncs : List Str) (inp : Input) :
    (syncWith P C w v push u syncs inp).session.readOnly = u.readOnly := by
  unfold syncWith
  split
  · rfl
  split
  · rfl
  · rfl
  split
  · rfl
  · exact pushBack_readOnly ..

theorem sync_ro (P : Prims) (C : Codec) (w : World) (v : SyncEnv) (nm : Str) (push : Bool) (u : Session) (inp : Input) :
    (sync P C w v nm push u inp).session.readOnly = u.readOnly := by
  unfold sync
  split
  · rfl
  split
  · split
    · rfl
    · rfl
    · rfl
    split
    · rfl
    · exact syncWith_ro ..
  · exact syncWith_ro ..

theorem back_ro (r : Repl) (x : Session × Res AppErr Unit) (h : x.1.readOnly = r.u.readOnly) : (back r x).1.u.readOnly = r.u.readOnly := by
  obtain ⟨u, o⟩ := x
  cases o <;> exact h

theorem execWrite_ro (P : Prims) (C : Codec) (v : Env) (cmd : Str) (args : List Str) (r : Repl) :
    (execWrite P C v cmd args r).1.u.readOnly = r.u.readOnly := by
  by_cases h1 : cmd = b! "passwd"
  · subst h1
    exact back_ro r _ (passwd_ro ..)
  by_cases h2 : cmd = b! "adduser"
  · subst h2
    cases args with
    | nil => rfl
    | cons a l => exact back_ro r _ (adduser_ro P v.ord v.d r.u a)
  by_cases h3 : cmd = b! "rekey"
  · subst h3
    exact back_ro r _ (rekey_ro ..)
  by_cases h4 : cmd = b! "rekeyall"
  · subst h4
    have : (execWrite P C v (b! "rekeyall") args r).1.u = (rekeyAll P v.ord v.ord' v.d v.ds r.u).1 := congrArg Repl.u (back__u r _)
    rw [this]
    exact rekeyAll_ro ..
  by_cases h5 : cmd = b! "sync"
  · subst h5
    let x := sync P C v.w v.v (args.head?.getD []) true r.u v.d.inp
    have hx : x.session.readOnly = r.u.readOnly := sync_ro ..
    have e : execWrite P C v (b! "sync") args r =
        back (if x.pushed = [] then r else { r with pushed := r.pushed ++ [(x.sent, x.pushed)] }) (x.session, x.result) := rfl
    rw [e]
    split
    · exact back_ro r _ hx
    · exact back_ro { r with pushed := r.pushed ++ [(x.sent, x.pushed)] } _ hx
  by_cases h6 : cmd = b! "rm"
  · subst h6
    cases args with
    | nil => rfl
    | cons a l =>
      have h := back_ro r _ (deleteEntry_ro v.ord (v.d.now 0) v.d.inp r.u a)
      have e : execWrite P C v (b! "rm") (a :: l) r = (match back r (deleteEntry v.ord (v.d.now 0) v.d.inp r.u a) with
        | (r, .ok b) => (if r.ctx = a then { r with ctx := [] } else r, .ok b)
        | x => x) := rfl
      rw [e]
      split
      · rename_i hx
        rw [hx] at h
        dsimp only at h ⊢
        split <;> exact h
      · exact h
  · exact (meta_write cmd args h1 h2 h3 h4 h5 (fun h => absurd h h6)).readOnly

theorem execRead_ro (v : Env) (cmd : Str) (args : List Str) (r : Repl) : (execRead v cmd args r).1.u.readOnly = r.u.readOnly :=
  (execRead_same v cmd args r).1.readOnly

theorem exec_ro (P : Prims) (C : Codec) (v : Env) (cmd : Str) (args : List Str) (ro : Bool) (r : Repl) :
    (if ro then execRead v cmd args r else execWrite P C v cmd args r).1.u.readOnly = r.u.readOnly := by
  cases ro
  · exact execWrite_ro P C v cmd args r
  · exact execRead_ro v cmd args r

/-! ## Only `exit` ends a session -/

theorem ite_ne {α : Type} {c : Prop} [Decidable c] {a b : Repl × α} {x : α} (h1 : a.2 ≠ x) (h2 : ¬ c → b.2 ≠ x) :
    (if c then a else b).2 ≠ x := by
  split
  · exact h1
  · exact h2 ‹_›

theorem back_ne (r : Repl) (x : Session × Res AppErr Unit) : (back r x).2 ≠ .ok true := by
  obtain ⟨u, o⟩ := x
  cases o <;> simp [back]

theorem back__ne {α : Type} (r : Repl) (x : Session × Res AppErr α) : (back_ r x).2 ≠ .ok true := by
  obtain ⟨u, o⟩ := x
  cases o <;> simp [back_]

theorem backOut_ne (r : Repl) (x : Session × Res AppErr (Option Str)) : (backOut r x).2 ≠ .ok true := by
  obtain ⟨u, o⟩ := x
  cases o with
  | ok o => cases o <;> simp [backOut]
  | err e => simp [backOut]
  | panic => simp [backOut]

theorem ok_ne (r : Repl) : (r, (Res.ok false : Res AppErr Bool)).2 ≠ .ok true := by simp

theorem cd_ne (v : Env) (r : Repl) (args : List Str) : (cd v r args).2 ≠ .ok true := by
  match args with
  | [] => simp [cd]
  | [q] =>
    rw [cd]
    split <;> simp
  | _ :: _ :: _ => simp [cd]

theorem show_ne (v : Env) (r : Repl) (x : Option Str × List Str) :
    (match x.1 with
      | none => (r, (.ok false : Res AppErr Bool))
      | some q => back_ r (showCmd v r.u q ((x.2.head?.bind atoi).getD 0))).2 ≠ .ok true := by
  obtain ⟨q, rest⟩ := x
  cases q
  · exact ok_ne r
  · exact back__ne _ _

theorem execRead_ne (v : Env) (cmd : Str) (args : List Str) (r : Repl) (h : cmd ≠ b! "exit") : (execRead v cmd args r).2 ≠ .ok true := by
  refine ite_ne (back__ne _ _) fun _ => ?_
  refine ite_ne (cd_ne _ _ _) fun _ => ?_
  refine ite_ne ?_ fun _ => ?_
  · rcases queryArgs r.ctx args with _ | ⟨q, k, rest⟩
    · exact ok_ne r
    · exact ite_ne (ok_ne r) fun _ => backOut_ne _ _
  refine ite_ne ?_ fun _ => ?_
  · rcases queryArg r.ctx args with _ | q
    · exact ok_ne r
    · exact backOut_ne _ _
  refine ite_ne ?_ fun _ => ?_
  · rcases queryArg r.ctx args with _ | q
    · exact ok_ne r
    · exact back__ne _ _
  refine ite_ne (ite_ne (ok_ne r) fun _ => back__ne _ _) fun _ => ?_
  refine ite_ne (show_ne v r _) fun _ => ?_
  refine ite_ne ?_ fun _ => ?_
  · rcases queryArg r.ctx args with _ | q
    · exact ok_ne r
    · exact back__ne _ _
  rw [if_neg h]
  exact ok_ne r

theorem execWrite_ne (P : Prims) (C : Codec) (v : Env) (cmd : Str) (args : List Str) (r : Repl) :
    (execWrite P C v cmd args r).2 ≠ .ok true := by
  refine ite_ne (back_ne _ _) fun _ => ?_
  refine ite_ne ?_ fun _ => ?_
  · cases args
    · exact ok_ne r
    · exact back_ne _ _
  refine ite_ne (back_ne _ _) fun _ => ?_
  refine ite_ne (back__ne _ _) fun _ => ?_
  refine ite_ne ?_ fun _ => ?_
  · cases args
    · exact ok_ne r
    · exact back_ne _ _
  refine ite_ne ?_ fun _ => ?_
  · match args with
    | [] => exact ok_ne r
    | [_] => exact ok_ne r
    | _ :: _ :: _ => exact back_ne _ _
  refine ite_ne ?_ fun _ => ?_
  · cases args with
    | nil => exact ok_ne r
    | cons nm l =>
      have h := back_ne r (deleteEntry v.ord (v.d.now 0) v.d.inp r.u nm)
      dsimp only
      split
      · rename_i hx
        rw [hx] at h
        exact h
      · exact h
  refine ite_ne ?_ fun _ => ?_
  · rcases queryArgs r.ctx args with _ | ⟨q, k, rest⟩
    · exact ok_ne r
    · exact back_ne _ _
  refine ite_ne ?_ fun _ => ?_
  · split
    · exact ok_ne r
    · exact back__ne _ _
  refine ite_ne ?_ fun _ => ?_
  · rcases setArgs r.ctx args with _ | ⟨q, k, x⟩
    · exact ok_ne r
    · exact back_ne _ _
  refine ite_ne ?_ fun _ => ?_
  · rcases queryArgs r.ctx args with _ | ⟨q, k, rest⟩
    · exact ok_ne r
    · exact back_ne _ _
  refine ite_ne ?_ fun _ => ?_
  · rcases queryArg r.ctx args with _ | q
    · exact ok_ne r
    · exact back_ne _ _
  refine ite_ne ?_ fun _ => ?_
  · rcases queryArgs r.ctx args with _ | ⟨q, k, rest⟩
    · exact ok_ne r
    · exact back_ne _ _
  refine ite_ne (back_ne _ _) fun _ => ?_
  refine ite_ne ?_ fun _ => ?_
  · cases args
    · exact ok_ne r
    · exact back_ne _ _
  · exact ok_ne r

theorem exec_ne (P : Prims) (C : Codec) (v : Env) (cmd : Str) (args : List Str) (ro : Bool) (r : Repl) (h : cmd ≠ b! "exit") :
    (if ro then execRead v cmd args r else execWrite P C v cmd args r).2 ≠ .ok true := by
  cases ro
  · exact execWrite_ne P C v cmd args r
  · exact execRead_ne v cmd args r h

theorem exec_exit (P : Prims) (C : Codec) (v : Env) (args : List Str) (r : Repl) : execRead v (b! "exit") args r = (r, .ok true) := rfl

end Verif.App
