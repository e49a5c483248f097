import Verif.App.ReplLemmas
import Verif.App.AccountsLemmas
/-!
# Only the account commands touch the credentials
-/
set_option linter.unusedSimpArgs false
namespace Verif.App
open Verif Verif.Txlogs Verif.Blob Verif.Crypt Verif.App.Spec

/-- The same session apart from the store. -/
structure Meta (u u' : Session) : Prop where
  creds : u'.creds = u.creds
  readOnly : u'.readOnly = u.readOnly
  startTx : u'.startTx = u.startTx

theorem Meta.refl (u : Session) : Meta u u := ⟨rfl, rfl, rfl⟩

theorem Meta.trans {u v w : Session} (a : Meta u v) (b : Meta v w) : Meta u w :=
  ⟨b.creds.trans a.creds, b.readOnly.trans a.readOnly, b.startTx.trans a.startTx⟩

theorem Meta.of_store (u : Session) (s : DB) : Meta u { u with store := s } := ⟨rfl, rfl, rfl⟩

theorem meta_lift {α : Type} (u : Session) (x : Out α) : Meta u (lift u x).1 := by
  obtain ⟨s, o⟩ := x
  cases o <;> exact Meta.of_store _ _

theorem meta_lift_ (u : Session) (x : Out Unit) : Meta u (lift_ u x).1 := by
  obtain ⟨s, o⟩ := x
  cases o <;> exact Meta.of_store _ _

theorem meta_doCmd (u : Session) (f : Session → Session × Res AppErr Unit) (hf : ∀ u, Meta u (f u).1) :
    Meta u (doCmd u f).1 := by
  unfold doCmd
  have h := (Meta.of_store u u.store.begin).trans (hf { u with store := u.store.begin })
  split
  · rename_i hx; rw [hx] at h; exact h
  · rename_i hx; rw [hx] at h
    split
    · exact h.trans (Meta.of_store _ _)
    · exact h
  · rename_i hx; rw [hx] at h
    split
    · exact h.trans (Meta.of_store _ _)
    · exact h

theorem meta_one {α : Type} (v : Env) (u : Session) (q : Str) (dflt : α) (k : Session → Str → Session × Res AppErr α)
    (hk : ∀ u w, Meta u (k u w).1) : Meta u (one v u q dflt k).1 := by
  unfold one
  have h := meta_lift u (findOne v.lower v.ord v.ord' u.store q)
  split
  · rename_i hx; rw [hx] at h
    split
    · exact h
    · exact h.trans (hk _ _)
  · rename_i hx; rw [hx] at h; exact h
  · rename_i hx; rw [hx] at h; exact h

theorem meta_oneEntry {α : Type} (v : Env) (u : Session) (q : Str) (dflt : α)
    (k : Session → Str → Entry → Session × Res AppErr α) (hk : ∀ u w e, Meta u (k u w e).1) :
    Meta u (oneEntry v u q dflt k).1 := by
  unfold oneEntry
  refine meta_one _ _ _ _ _ fun u w => ?_
  have h := meta_lift u (mustFind u.store w)
  split
  · rename_i hx; rw [hx] at h; exact h.trans (hk _ _ _)
  · rename_i hx; rw [hx] at h; exact h
  · rename_i hx; rw [hx] at h; exact h

theorem meta_scp (v : Env) (u : Session) (w : Str) : Meta u (addSCPEntry v u w).1 := by
  have hr := Meta.refl u
  unfold addSCPEntry
  repeat' split
  all_goals first | exact hr | exact Meta.of_store _ _

theorem meta_addSync (v : Env) (u : Session) (kind : Str) : Meta u (addSync v u kind).1 := by
  unfold addSync
  split
  · exact Meta.refl _
  refine meta_doCmd _ _ fun u => ?_
  split
  · exact Meta.refl _
  · rename_i r _
    have h := meta_lift u r
    split
    · rename_i hx; rw [hx] at h; exact h
    · rename_i hx; rw [hx] at h; exact h
    · rename_i u1 w hx; rw [hx] at h
      have key : ∀ x : Session × Res AppErr Str, Meta u x.1 → Meta u (match x with
          | (u, .panic) => ((u, .panic) : Session × Res AppErr Unit)
          | (u, .err e) => (u, .err e)
          | (u, .ok uri) =>
            let s := (u.store.setKey (v.d.now 10) w keySync (b! "true")).setKey (v.d.now 11) w keyURL uri
            match lift { u with store := s } (find s w) with
            | (u, .panic) => (u, .panic)
            | (u, .err e) => (u, .err e)
            | (u, .ok e) =>
              match e.bind name with
              | none => (u, .panic)
              | some _ => (u, .ok ())).1 := by
        intro x hx
        obtain ⟨u2, o⟩ := x
        cases o with
        | panic => exact hx
        | err e => exact hx
        | ok uri =>
          dsimp only at hx ⊢
          generalize (u2.store.setKey (v.d.now 10) w keySync (b! "true")).setKey (v.d.now 11) w keyURL uri = s2
          have h2 := (hx.trans (Meta.of_store u2 s2)).trans (meta_lift { u2 with store := s2 } (find s2 w))
          split
          · rename_i hy; rw [hy] at h2; exact h2
          · rename_i hy; rw [hy] at h2; exact h2
          · rename_i hy; rw [hy] at h2
            split <;> exact h2
      refine key _ ?_
      split
      · split
        · exact h
        · split <;> exact h
      · exact h.trans (meta_scp _ _ _)

theorem meta_addNew (v : Env) (u : Session) (nm : Str) : Meta u (addNew v u nm).1 := by
  unfold addNew
  refine meta_doCmd _ _ fun u => ?_
  repeat' split
  all_goals exact Meta.of_store _ _

theorem meta_renameCmd (v : Env) (u : Session) (src dst : Str) : Meta u (renameCmd v u src dst).1 := by
  unfold renameCmd
  have h := meta_lift u (findByName v.ord u.store src)
  split
  · rename_i hx; rw [hx] at h; exact h
  · rename_i hx; rw [hx] at h; exact h
  · rename_i hx; rw [hx] at h; exact h
  · rename_i hx; rw [hx] at h
    repeat' split
    all_goals first | exact h | exact h.trans (Meta.of_store _ _)

theorem meta_deleteKeyCmd (v : Env) (u : Session) (q k : Str) : Meta u (deleteKeyCmd v u q k).1 := by
  unfold deleteKeyCmd
  refine meta_oneEntry _ _ _ _ _ fun u w e => ?_
  split
  · exact meta_lift_ _ _
  · exact Meta.refl _

theorem meta_setCmd (v : Env) (u : Session) (q k x : Str) : Meta u (setCmd v u q k x).1 := by
  unfold setCmd
  refine meta_one _ _ _ _ _ fun u w => ?_
  repeat' split
  all_goals first | exact Meta.refl _ | exact meta_lift_ _ _

theorem meta_edit (v : Env) (u : Session) (q k : Str) : Meta u (edit v u q k).1 := by
  unfold edit
  refine meta_one _ _ _ _ _ fun u w => ?_
  have h := meta_lift u (mustFind u.store w)
  split
  · rename_i hx; rw [hx] at h; exact h
  · rename_i hx; rw [hx] at h; exact h
  · rename_i hx; rw [hx] at h
    repeat' split
    all_goals first | exact h | exact h.trans (meta_lift_ _ _)

theorem meta_addLabels (v : Env) (u : Session) (q : Str) : Meta u (addLabels v u q).1 := by
  unfold addLabels
  refine meta_oneEntry _ _ _ _ _ fun u w e => ?_
  split
  · exact Meta.refl _
  · exact Meta.refl _
  · rename_i ls _
    have h := meta_lift_ u (Blob.set v.d.now u.store w keyLabels (join comma ls))
    split
    · rename_i hx; rw [hx] at h; split <;> exact h
    · exact h

theorem meta_deleteLabel (v : Env) (u : Session) (q l : Str) : Meta u (deleteLabel v u q l).1 := by
  unfold deleteLabel
  refine meta_oneEntry _ _ _ _ _ fun u w e => ?_
  split
  · exact Meta.refl _
  · rename_i i _
    have h := meta_lift u (removeLabel v.d.now u.store w i)
    split
    · rename_i hx; rw [hx] at h; split <;> exact h
    · exact h

theorem meta_login (v : Env) (u : Session) (q : Str) : Meta u (login v u q).1 := by
  unfold login
  refine meta_one _ _ _ _ _ fun u w => ?_
  have h := meta_lift u (find u.store w)
  split
  · rename_i hx; rw [hx] at h; exact h
  · rename_i hx; rw [hx] at h; exact h
  · rename_i hx; rw [hx] at h
    repeat' split
    all_goals exact h

theorem meta_deleteEntry (ord : Order) (now : Int) (inp : Input) (u : Session) (nm : Str)
    (hs : splitUsername nm = [] ∨ splitUsername nm ≠ u.creds.user) : Meta u (deleteEntry ord now inp u nm).1 := by
  have hself : (decide (splitUsername nm ≠ [] ∧ splitUsername nm = u.creds.user)) = false := by
    rw [decide_eq_false_iff_not]
    rintro ⟨a, b⟩
    rcases hs with hs | hs
    · exact a hs
    · exact hs b
  unfold deleteEntry
  split
  · exact Meta.of_store _ _
  · exact Meta.of_store _ _
  · exact Meta.of_store _ _
  · dsimp only
    rw [hself]
    split
    · exact Meta.of_store _ _
    simp only [Bool.false_eq_true, if_false]
    split <;> exact Meta.of_store _ _

/-- A command other than `passwd`, `adduser`, `rekey`, `rekeyall`, `sync` and the deletion of the current user leaves the
credentials alone. -/
theorem meta_write {P : Prims} {C : Codec} {v : Env} {r : Repl} (cmd : Str) (args : List Str)
    (h1 : cmd ≠ b! "passwd") (h2 : cmd ≠ b! "adduser") (h3 : cmd ≠ b! "rekey") (h4 : cmd ≠ b! "rekeyall")
    (h5 : cmd ≠ b! "sync")
    (h6 : cmd = b! "rm" → ∀ nm l, args = nm :: l → splitUsername nm = [] ∨ splitUsername nm ≠ r.u.creds.user) :
    Meta r.u (execWrite P C v cmd args r).1.u := by
  have hr := Meta.refl r.u
  have ite : ∀ {c : Prop} [Decidable c] {a b : Repl × Res AppErr Bool}, (c → Meta r.u a.1.u) → (¬ c → Meta r.u b.1.u) →
      Meta r.u (if c then a else b).1.u := by
    intro c _ a b ha hb
    split
    · exact ha ‹_›
    · exact hb ‹_›
  have hb : ∀ x : Session × Res AppErr Unit, Meta r.u x.1 → Meta r.u (back r x).1.u := by
    intro x hx; obtain ⟨u, o⟩ := x; cases o <;> exact hx
  have hb_ : ∀ {α : Type} (x : Session × Res AppErr α), Meta r.u x.1 → Meta r.u (back_ r x).1.u := by
    intro α x hx; rw [back__u]; exact hx
  unfold execWrite
  refine ite (fun hc => absurd hc h1) (fun _ => ?_)
  refine ite (fun hc => absurd hc h2) (fun _ => ?_)
  refine ite (fun hc => absurd hc h3) (fun _ => ?_)
  refine ite (fun hc => absurd hc h4) (fun _ => ?_)
  refine ite (fun _ => ?_) (fun _ => ?_)
  · split
    · exact hr
    · exact hb _ (meta_addNew _ _ _)
  refine ite (fun _ => ?_) (fun _ => ?_)
  · split
    · exact hb _ (meta_renameCmd _ _ _ _)
    · exact hr
  refine ite (fun hc => ?_) (fun _ => ?_)
  · split
    · exact hr
    · rename_i nm l
      have h := hb _ (meta_deleteEntry v.ord (v.d.now 0) v.d.inp r.u nm (h6 hc _ _ rfl))
      split
      · rename_i hx; rw [hx] at h
        split <;> exact h
      · exact h
  refine ite (fun _ => ?_) (fun _ => ?_)
  · split
    · exact hr
    · exact hb _ (meta_deleteKeyCmd _ _ _ _)
  refine ite (fun _ => ?_) (fun _ => ?_)
  · split
    · exact hr
    · exact hb_ _ (meta_login _ _ _)
  refine ite (fun _ => ?_) (fun _ => ?_)
  · split
    · exact hr
    · exact hb _ (meta_setCmd _ _ _ _ _)
  refine ite (fun _ => ?_) (fun _ => ?_)
  · split
    · exact hr
    · exact hb _ (meta_edit _ _ _ _)
  refine ite (fun _ => ?_) (fun _ => ?_)
  · split
    · exact hr
    · exact hb _ (meta_addLabels _ _ _)
  refine ite (fun _ => ?_) (fun _ => ?_)
  · split
    · exact hr
    · exact hb _ (meta_deleteLabel _ _ _ _)
  refine ite (fun hc => absurd hc h5) (fun _ => ?_)
  refine ite (fun _ => ?_) (fun _ => ?_)
  · split
    · exact hr
    · exact hb _ (meta_addSync _ _ _)
  · exact hr

end Verif.App
