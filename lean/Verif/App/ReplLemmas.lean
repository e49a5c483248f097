import Verif.App.Repl
import Verif.App.SyncProps
/-!
# Lemmas about the commands that only read
-/
set_option linter.unusedSimpArgs false
namespace Verif.App
open Verif Verif.Txlogs Verif.Blob Verif.Crypt

/-- nothing that is saved differs -/
structure Same (u u' : Session) : Prop where
  log : u'.store.log = u.store.log
  txPoint : u'.store.txPoint = u.store.txPoint
  creds : u'.creds = u.creds
  readOnly : u'.readOnly = u.readOnly
  startTx : u'.startTx = u.startTx

theorem Same.refl (u : Session) : Same u u := ⟨rfl, rfl, rfl, rfl, rfl⟩
theorem Same.trans {a b c : Session} (h : Same a b) (h' : Same b c) : Same a c :=
  ⟨h'.log.trans h.log, h'.txPoint.trans h.txPoint, h'.creds.trans h.creds, h'.readOnly.trans h.readOnly,
    h'.startTx.trans h.startTx⟩

/-- a store with the same history -/
def SameStore (s s' : DB) : Prop := s'.log = s.log ∧ s'.txPoint = s.txPoint

theorem sameStore_withSnapshot {α : Type} {s : DB} (k : DB → Out α) (hk : ∀ s', (k s').1 = s') :
    SameStore s (withSnapshot s k).1 := by
  unfold withSnapshot
  have h1 := updateSnapshot_log s
  have h2 := updateSnapshot_txPoint s
  cases h : s.updateSnapshot with
  | mk s' e =>
    rw [h] at h1 h2
    cases e with
    | some e => exact ⟨h1, h2⟩
    | none => simp only [hk]; exact ⟨h1, h2⟩

theorem sameStore_search (lower : Nat → Nat) (ord : Order) (s : DB) (q : Str) : SameStore s (search lower ord s q).1 := by
  unfold search
  apply sameStore_withSnapshot
  intro s'
  dsimp only
  repeat' split
  all_goals rfl

theorem sameStore_searchLabels (ord : Order) (s : DB) (ls : List Str) : SameStore s (searchLabels ord s ls).1 := by
  unfold searchLabels
  apply sameStore_withSnapshot
  intro s'
  dsimp only
  repeat' split
  all_goals rfl

theorem sameStore_find (s : DB) (uuid : Str) : SameStore s (find s uuid).1 := by
  unfold find
  apply sameStore_withSnapshot
  intro s'
  rfl

theorem sameStore_mustFind (s : DB) (uuid : Str) : SameStore s (mustFind s uuid).1 := by
  have h := sameStore_find s uuid
  unfold mustFind
  split <;> rename_i h' <;> rw [h'] at h <;> exact h

theorem sameStore_findOne (lower : Nat → Nat) (ord : Order) (ord' : Results → Results) (s : DB) (q : Str) :
    SameStore s (findOne lower ord ord' s q).1 := by
  have h := sameStore_search lower ord s q
  unfold findOne
  split <;> rename_i h' <;> rw [h'] at h
  · exact h
  · exact h
  · split <;> exact h

theorem same_lift {α : Type} (u : Session) (o : Out α) (h : SameStore u.store o.1) : Same u (lift u o).1 := by
  obtain ⟨s, r⟩ := o
  cases r <;> exact ⟨h.1, h.2, rfl, rfl, rfl⟩

theorem same_one {α : Type} (v : Env) (u : Session) (q : Str) (d : α) (k : Session → Str → Session × Res AppErr α)
    (hk : ∀ u uuid, Same u (k u uuid).1) : Same u (one v u q d k).1 := by
  have h := same_lift u _ (sameStore_findOne v.lower v.ord v.ord' u.store q)
  unfold one
  split <;> rename_i h' <;> rw [h'] at h
  · split
    · exact h
    · exact h.trans (hk _ _)
  · exact h
  · exact h

theorem same_oneEntry {α : Type} (v : Env) (u : Session) (q : Str) (d : α)
    (k : Session → Str → Entry → Session × Res AppErr α) (hk : ∀ u uuid e, Same u (k u uuid e).1) :
    Same u (oneEntry v u q d k).1 := by
  unfold oneEntry
  apply same_one
  intro u uuid
  have h := same_lift u _ (sameStore_mustFind u.store uuid)
  split <;> rename_i h' <;> rw [h'] at h
  · exact h.trans (hk _ _ _)
  · exact h
  · exact h

theorem same_getCmd (v : Env) (u : Session) (q k : Str) : Same u (getCmd v u q k).1 := by
  unfold getCmd
  apply same_oneEntry
  intro u uuid e
  repeat' split
  all_goals exact Same.refl u

theorem same_entryName (v : Env) (u : Session) (q : Str) : Same u (entryName v u q).1 := by
  unfold entryName
  apply same_oneEntry
  intro u uuid e
  split <;> exact Same.refl u

theorem same_showCmd (v : Env) (u : Session) (q : Str) (i : Int) : Same u (showCmd v u q i).1 := by
  unfold showCmd
  apply same_oneEntry
  intro u uuid e
  dsimp only
  repeat' split
  all_goals exact Same.refl u

theorem same_openurl (v : Env) (u : Session) (q : Str) : Same u (openurl v u q).1 := by
  have h : Same u (oneEntry v u q none (openLink v)).1 := by
    apply same_oneEntry
    intro u uuid e
    unfold openLink
    repeat' split
    all_goals exact Same.refl u
  rcases openurl_cases v u q with ⟨u', e, h', h2⟩ | h2
  · rw [h'] at h; rw [h2]; exact h
  · rw [h2]; exact h

theorem same_dump (v : Env) (u : Session) (q : Str) : Same u (dump v u q).1 := by
  unfold dump
  exact same_oneEntry v u q none _ (fun u _ _ => Same.refl u)

theorem same_login (v : Env) (u : Session) (q : Str) : Same u (login v u q).1 := by
  unfold login
  apply same_one
  intro u uuid
  have h := same_lift u _ (sameStore_find u.store uuid)
  split <;> rename_i h' <;> rw [h'] at h
  · exact h
  · exact h
  · repeat' split
    all_goals exact h

theorem back__u {α : Type} (r : Repl) (x : Session × Res AppErr α) :
    (back_ r x).1 = { r with u := x.1 } := by
  obtain ⟨u, o⟩ := x; cases o <;> rfl

theorem backOut_u (r : Repl) (x : Session × Res AppErr (Option Str)) :
    (backOut r x).1.u = x.1 ∧ (backOut r x).1.pushed = r.pushed ∧ (backOut r x).1.ctx = r.ctx := by
  obtain ⟨u, o⟩ := x
  rcases o with (_ | _) | _ | _ <;> exact ⟨rfl, rfl, rfl⟩

/-- a read-only command changes nothing that is saved, and sends nothing -/
theorem execRead_same (v : Env) (cmd : Str) (args : List Str) (r : Repl) :
    Same r.u (execRead v cmd args r).1.u ∧ (execRead v cmd args r).1.pushed = r.pushed := by
  have hr : Same r.u r.u ∧ r.pushed = r.pushed := ⟨Same.refl _, rfl⟩
  have hget : ∀ q k, Same r.u (backOut r (getCmd v r.u q k)).1.u ∧ (backOut r (getCmd v r.u q k)).1.pushed = r.pushed := by
    intro q k
    obtain ⟨h1, h2, -⟩ := backOut_u r (getCmd v r.u q k)
    rw [h1]; exact ⟨same_getCmd v r.u q k, h2⟩
  unfold execRead
  split
  · rw [back__u]; exact ⟨same_lift _ _ (sameStore_search _ _ _ _), rfl⟩
  split
  · unfold cd
    split
    · exact hr
    · have h := same_entryName v r.u
      rename_i q
      have h := h q
      split <;> rename_i h' <;> rw [h'] at h <;> exact ⟨h, rfl⟩
    · exact hr
  split
  · split
    · exact hr
    · split
      · exact hr
      · exact hget _ _
  split
  · split
    · exact hr
    · exact hget _ _
  split
  · split
    · exact hr
    · rw [back__u]; exact ⟨same_openurl v r.u _, rfl⟩
  split
  · split
    · exact hr
    · rw [back__u]; exact ⟨same_lift _ _ (sameStore_searchLabels _ _ _), rfl⟩
  split
  · dsimp only
    split
    · exact hr
    · rw [back__u]; exact ⟨same_showCmd v r.u _ _, rfl⟩
  split
  · split
    · exact hr
    · rw [back__u]; exact ⟨same_dump v r.u _, rfl⟩
  split
  · exact hr
  · exact hr

theorem runLine_readOnly (P : Prims) (C : Codec) (v : Env) (line : Str) (r : Repl) (h : r.u.readOnly = true) :
    Same r.u (runLine P C v line r).1.u ∧ (runLine P C v line r).1.pushed = r.pushed := by
  have hr : Same r.u r.u ∧ r.pushed = r.pushed := ⟨Same.refl _, rfl⟩
  unfold runLine
  split
  · exact hr
  · split
    · exact hr
    · exact execRead_same v _ _ r
    · rw [if_pos h]; exact hr

theorem runRepl_readOnly (P : Prims) (C : Codec) (turns : List Turn) (r : Repl) (h : r.u.readOnly = true) :
    Same r.u (runRepl P C turns r).1.u ∧ (runRepl P C turns r).1.pushed = r.pushed := by
  induction turns generalizing r with
  | nil => exact ⟨Same.refl _, rfl⟩
  | cons t rest ih =>
    obtain ⟨line, v⟩ := t
    cases line with
    | none => exact ⟨Same.refl _, rfl⟩
    | some line =>
      unfold runRepl
      have h1 := runLine_readOnly P C v line r h
      split <;> rename_i h' <;> rw [h'] at h1
      · have h2 := ih _ (h1.1.readOnly.trans h)
        exact ⟨h1.1.trans h2.1, h2.2.trans h1.2⟩
      · exact h1
      · exact h1
      · exact h1

end Verif.App
