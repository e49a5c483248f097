import Verif.App.EffectLemmas
import Verif.App.SoundProps
/-!
# Properties of the effect of commands

C68 (`add` is all or nothing), C69 (commands act on one entry), C70 (`get` prints the current value), C71 (text of several
lines), C75 (cancelling a prompt), C76 (history only grows).
-/
set_option linter.unusedSimpArgs false
namespace Verif.App
open Verif Verif.Txlogs Verif.Blob Verif.Crypt Verif.App.Spec
open Verif.Crypt.Spec (toy toy_lawful)

/-! ## C76 -/

/-- A line other than `sync` only adds operations to the log. -/
theorem C76_line_partial (P : Prims) (C : Codec) (v : Env) (line : Str) (r : Repl) (h0 : r.u.store.txPoint = 0)
    (h : WellFormed r.u.store) (hl : LegalTurn v line r) (hn : (runLine P C v line r).2 ≠ .panic) :
    r.u.store.log <+: (runLine P C v line r).1.u.store.log ∧
    ∀ w n, (∀ cmd args, parseLine line = some (cmd, args) → ¬ Drops cmd args n) →
      Blob.Spec.Named r.u.store w n → Blob.Spec.Named (runLine P C v line r).1.u.store w n := by
  have := fineR_line (p := False) (L := fun n => ∃ cmd args, parseLine line = some (cmd, args) ∧ Drops cmd args n)
    (P := P) (C := C) h0 hl.env h line hl.utf8 hl.noSync (fun cmd args _ a b => ⟨cmd, args, a, b⟩) (fun k => k.elim)
  obtain ⟨-, g⟩ := this.2 hn
  exact ⟨g.log, fun w n hd => g.names w n (fun ⟨cmd, args, a, b⟩ => hd cmd args a b)⟩

/-- After any number of lines other than `sync`, the log the session began with is still the beginning of the log: no operation
is lost, changed or moved, so every old value of every entry remains in the history. -/
theorem C76_session_partial (P : Prims) (C : Codec) (turns : List Turn) (r : Repl) (h0 : r.u.store.txPoint = 0)
    (h : WellFormed r.u.store) (hl : Along P C LegalTurn turns r) (hn : (runRepl P C turns r).2 ≠ .panic) :
    r.u.store.log <+: (runRepl P C turns r).1.u.store.log := by
  induction turns generalizing r with
  | nil => exact List.prefix_refl _
  | cons t rest ih =>
    obtain ⟨o, v⟩ := t
    cases o with
    | none => exact List.prefix_refl _
    | some line =>
      obtain ⟨hl1, hl2⟩ := hl
      have key := C67_line_partial P C v line r h0 h hl1
      have key2 := C76_line_partial P C v line r h0 h hl1
      unfold runRepl at hn ⊢
      cases hx : runLine P C v line r with
      | mk r' o =>
        rw [hx] at hn key key2 hl2
        cases o with
        | panic => exact absurd rfl hn
        | err e => exact (key2 (by simp)).1
        | ok b =>
          obtain ⟨k1, k2⟩ := key (by simp)
          cases b with
          | true => exact (key2 (by simp)).1
          | false => exact (key2 (by simp)).1.trans (ih r' k2 k1 hl2 hn)

/-- An entry keeps its name through any session without `sync` in which no `rm` and no `mv` names it. -/
theorem C76_entries_partial (P : Prims) (C : Codec) (turns : List Turn) (r : Repl) (h0 : r.u.store.txPoint = 0)
    (h : WellFormed r.u.store) (w n : Str)
    (hl : Along P C (fun v line r => LegalTurn v line r ∧
      ∀ cmd args, parseLine line = some (cmd, args) → ¬ Drops cmd args n) turns r)
    (hn : (runRepl P C turns r).2 ≠ .panic) (hw : Blob.Spec.Named r.u.store w n) :
    Blob.Spec.Named (runRepl P C turns r).1.u.store w n := by
  induction turns generalizing r with
  | nil => exact hw
  | cons t rest ih =>
    obtain ⟨o, v⟩ := t
    cases o with
    | none => exact hw
    | some line =>
      obtain ⟨⟨hl1, hd⟩, hl2⟩ := hl
      have key := C67_line_partial P C v line r h0 h hl1
      have key2 := C76_line_partial P C v line r h0 h hl1
      unfold runRepl at hn ⊢
      cases hx : runLine P C v line r with
      | mk r' o =>
        rw [hx] at hn key key2 hl2
        cases o with
        | panic => exact absurd rfl hn
        | err e => exact (key2 (by simp)).2 w n hd hw
        | ok b =>
          obtain ⟨k1, k2⟩ := key (by simp)
          have hw' := (key2 (by simp)).2 w n hd hw
          cases b with
          | true => exact hw'
          | false => exact ih r' k2 k1 hl2 hn hw'

/-! ## C68 -/

/-- `add` that does not succeed, because a prompt was interrupted or for any other reason, changes nothing: not the file, not the
credentials. -/
theorem C68_undone (v : Env) (u : Session) (nm : Str) (h0 : u.store.txPoint = 0) (hv : EnvOk v u.store)
    (h : WellFormed u.store) (hn : ValidUtf8 nm) (e : AppErr) (hr : (addNew v u nm).2 = .err e) : Same u (addNew v u nm).1 :=
  (doCmd_spec (p := False) (L := fun _ => False) h0 h (body_add hv h nm hn (fun k => k.elim))).2.1 e hr

/-- `add` that succeeds finds the name taken and changes nothing, or adds one entry that holds exactly the name and what was typed
for user, email and password, and leaves every other entry as it was. -/
theorem C68_added (v : Env) (u : Session) (nm : Str) (h0 : u.store.txPoint = 0) (hv : EnvOk v u.store)
    (h : WellFormed u.store) (hn : ValidUtf8 nm) (hr : (addNew v u nm).2 = .ok ()) :
    ((∃ w, Blob.Spec.Named u.store w nm) ∧ Same u (addNew v u nm).1) ∨
    ((∀ w, ¬ Blob.Spec.Named u.store w nm) ∧ (addNew v u nm).1 = { u with store := (addNew v u nm).1.store } ∧
      (addNew v u nm).1.store.txPoint = 0 ∧
      ∃ email user pass rest e, v.d.inp = some email :: some user :: rest ∧ getPassword v.d.ent rest = .ok pass ∧
        Blob.Spec.Visible (addNew v u nm).1.store v.d.uuid e ∧
        e keyName = some nm ∧ e keyUser = typed user ∧ e keyEmail = typed email ∧ e keyPass = typed pass ∧
        (∀ k, k ∉ [keyName, keyUpdated, keyUser, keyEmail, keyPass] → e k = none) ∧
        ∀ w f, w ≠ v.d.uuid → (Blob.Spec.Visible (addNew v u nm).1.store w f ↔ Blob.Spec.Visible u.store w f)) := by
  obtain ⟨-, -, h3⟩ := doCmd_spec (p := False) (L := fun _ => False) h0 h (body_add hv h nm hn (fun k => k.elim))
  rw [addNew_eq] at hr ⊢
  obtain ⟨h4, h5⟩ := h3 hr
  rw [h5]
  rcases addBody_ok hv h nm hn h4 with ⟨a, b⟩ | ⟨a, email, user, pass, rest, b, c, d, e⟩
  · exact .inl ⟨a, b, h0.symm, rfl, rfl, rfl⟩
  · refine .inr ⟨a, rfl, rfl, email, user, pass, rest, _, b, c, d, ?_, ?_, ?_, ?_, ?_, e⟩
    · simp (decide := true) [Txlogs.Spec.upd]
    · simp (decide := true) [Txlogs.Spec.upd]
    · simp (decide := true) [Txlogs.Spec.upd]
    · simp (decide := true) [Txlogs.Spec.upd]
    · intro k hk
      simp only [List.mem_cons, not_or, List.not_mem_nil, not_false_eq_true, and_true] at hk
      obtain ⟨k1, k2, k3, k4, k5⟩ := hk
      simp [Txlogs.Spec.upd, k1, k2, k3, k4, k5]

/-- `addsync` that does not succeed changes nothing. -/
theorem C68_sync_undone (v : Env) (u : Session) (kind : Str) (h0 : u.store.txPoint = 0) (hv : EnvOk v u.store)
    (h : WellFormed u.store) (hk : ValidUtf8 kind) (e : AppErr) (hr : (addSync v u kind).2 = .err e) :
    Same u (addSync v u kind).1 := by
  rw [addSync_eq] at hr ⊢
  split at hr
  · cases hr
  · rename_i hc
    rw [if_neg hc]
    exact (doCmd_spec (p := False) (L := fun _ => False) h0 h (body_sync hv h kind hk (fun k => k.elim))).2.1 e hr

/-- At the prompt: `add` given up with the end of input (Ctrl-D) leaves the session as it was and the prompt goes on. -/
theorem C68_cancelled (P : Prims) (C : Codec) (v : Env) (r : Repl) (line nm : Str) (args : List Str)
    (h0 : r.u.store.txPoint = 0) (hv : EnvOk v r.u.store) (h : WellFormed r.u.store) (hro : r.u.readOnly = false)
    (hl : ValidUtf8 line) (hp : parseLine line = some (b! "add", nm :: args)) (hc : v.ctrlC = false)
    (ha : (addNew v r.u nm).2 = .err .aborted) :
    ∃ r', runLine P C v line r = (r', .ok false) ∧ Same r.u r'.u ∧ r'.ctx = r.ctx ∧ r'.pushed = r.pushed := by
  have hnm := parseLine_valid hl hp (by decide) nm (by simp)
  have hs := C68_undone v r.u nm h0 hv h hnm _ ha
  have hflag : readOnlyFlag (b! "add") = some false := by decide
  have hexec : execWrite P C v (b! "add") (nm :: args) r =
      back r ((fun x => (x.1, interruptible v x.2)) (addNew v r.u nm)) := rfl
  refine ⟨{ r with u := (addNew v r.u nm).1 }, ?_, hs, rfl, rfl⟩
  unfold runLine
  simp only [hp, hflag, hro, Bool.false_eq_true, if_false, hexec, ha, interruptible, hc, back]

/-! ## C69 -/

/-- A command that changes values changes at most the one entry its query selects; if none is selected nothing changes. -/
theorem C69_one_entry (v : Env) (u : Session) (q : Str) (e : Edit) (hv : EnvOk v u.store) (h : WellFormed u.store) :
    ∃ id, (findOne v.lower v.ord v.ord' u.store q).2 = .ok id ∧
      (id = [] → (e.run v u q).1.store.log = u.store.log ∧ (e.run v u q).2 = .ok ()) ∧
      (id ≠ [] → OnlyEntry id u.store (e.run v u q).1.store) := only_edit hv h q e

/-- a query that is the name of an entry selects it -/
theorem findOne_named {v : Env} {s : DB} (hv : EnvOk v s) (h : WellFormed s) {uuid q : Str} (hn : Blob.Spec.Named s uuid q) :
    (findOne v.lower v.ord v.ord' s q).2 = .ok uuid := by
  obtain ⟨id, h1, -⟩ := wf_findOne v.lower hv.ord hv.ord' h q
  have := (C39_selects v.lower v.ord hv.ord v.ord' hv.ord' h.good.ok q id h.uuids h1).2.2.1 ⟨uuid, hn⟩
  rw [h1, h.unique _ _ _ this hn]

theorem edit_named {v : Env} {u : Session} (hv : EnvOk v u.store) (h : WellFormed u.store) {uuid q : Str}
    (hn : Blob.Spec.Named u.store uuid q) (e : Edit) : OnlyEntry uuid u.store (e.run v u q).1.store := by
  obtain ⟨id, h1, -, h3⟩ := only_edit hv h q e
  rw [findOne_named hv h hn] at h1
  cases h1
  exact h3 (h.uuids _ _ hn)

/-- With a current entry, a line that changes values changes at most that entry. -/
theorem C69_current (P : Prims) (C : Codec) (v : Env) (r : Repl) (line cmd uuid : Str) (args : List Str)
    (hv : EnvOk v r.u.store) (h : WellFormed r.u.store) (hp : parseLine line = some (cmd, args)) (hc : cmd ∈ editCmds)
    (hctx : r.ctx ≠ []) (hn : Blob.Spec.Named r.u.store uuid r.ctx) :
    OnlyEntry uuid r.u.store (runLine P C v line r).1.u.store ∧ (runLine P C v line r).1.ctx = r.ctx := by
  have hflag : readOnlyFlag cmd = some false := by
    simp only [editCmds, List.mem_cons, List.not_mem_nil, or_false] at hc
    rcases hc with rfl | rfl | rfl | rfl | rfl <;> decide
  have hback : ∀ x : Session × Res AppErr Unit, OnlyEntry uuid r.u.store x.1.store →
      OnlyEntry uuid r.u.store (back r x).1.u.store ∧ (back r x).1.ctx = r.ctx := by
    rintro ⟨u, o⟩ hx
    cases o <;> exact ⟨hx, rfl⟩
  have hr : OnlyEntry uuid r.u.store r.u.store ∧ r.ctx = r.ctx := ⟨.refl _ _, rfl⟩
  unfold runLine
  simp only [hp, hflag]
  split
  · exact hr
  have hq : ∀ x, queryArgs r.ctx args = some x → x.1 = r.ctx := by
    intro x hx
    unfold queryArgs at hx
    rw [if_neg hctx] at hx
    split at hx
    · cases hx; rfl
    · cases hx
  have hq1 : queryArg r.ctx args = some r.ctx := by unfold queryArg; rw [if_neg hctx]
  simp only [editCmds, List.mem_cons, List.not_mem_nil, or_false] at hc
  rcases hc with rfl | rfl | rfl | rfl | rfl
  · have he : execWrite P C v (b! "set") args r = match setArgs r.ctx args with
        | none => (r, .ok false)
        | some (q, k, value) => back r (setCmd v r.u q k value) := rfl
    rw [he]
    split
    · exact hr
    · rename_i q k value hs
      have : q = r.ctx := by
        unfold setArgs at hs
        split at hs
        · cases hs
        · rename_i hqa
          split at hs
          · cases hs
          · cases hs
            exact hq _ hqa
      rw [this]
      exact hback _ (edit_named hv h hn (.set k value))
  · have he : execWrite P C v (b! "edit") args r = match queryArgs r.ctx args with
        | none => (r, .ok false)
        | some (q, k, _) => back r (edit v r.u q k) := rfl
    rw [he]
    split
    · exact hr
    · rename_i q k _ hs
      rw [show q = r.ctx from hq _ hs]
      exact hback _ (edit_named hv h hn (.edit k))
  · have he : execWrite P C v (b! "rmk") args r = match queryArgs r.ctx args with
        | none => (r, .ok false)
        | some (q, k, _) => back r (deleteKeyCmd v r.u q k) := rfl
    rw [he]
    split
    · exact hr
    · rename_i q k _ hs
      rw [show q = r.ctx from hq _ hs]
      exact hback _ (edit_named hv h hn (.rmk k))
  · have he : execWrite P C v (b! "label") args r = match queryArg r.ctx args with
        | none => (r, .ok false)
        | some q => back r (addLabels v r.u q) := rfl
    rw [he, hq1]
    exact hback _ (edit_named hv h hn .label)
  · have he : execWrite P C v (b! "rmlabel") args r = match queryArgs r.ctx args with
        | none => (r, .ok false)
        | some (q, l, _) => back r (deleteLabel v r.u q l) := rfl
    rw [he]
    split
    · exact hr
    · rename_i q k _ hs
      rw [show q = r.ctx from hq _ hs]
      exact hback _ (edit_named hv h hn (.rmlabel k))

theorem ctx_back (r : Repl) (x : Session × Res AppErr Unit) : (back r x).1.ctx = r.ctx := by
  obtain ⟨u, o⟩ := x; cases o <;> rfl
theorem ctx_back_ {α : Type} (r : Repl) (x : Session × Res AppErr α) : (back_ r x).1.ctx = r.ctx := by
  obtain ⟨u, o⟩ := x; cases o <;> rfl
theorem ctx_backOut (r : Repl) (x : Session × Res AppErr (Option Str)) : (backOut r x).1.ctx = r.ctx := by
  obtain ⟨u, o⟩ := x; rcases o with (_ | a) | e | _ <;> rfl

theorem ctx_ite {c : Prop} [Decidable c] {a b : Repl × Res AppErr Bool} {x : Str} (ha : c → a.1.ctx = x)
    (hb : ¬ c → b.1.ctx = x) : (if c then a else b).1.ctx = x := by
  by_cases h : c
  · rw [if_pos h]; exact ha h
  · rw [if_neg h]; exact hb h

theorem ctx_read (v : Env) (cmd : Str) (args : List Str) (r : Repl) (hc : cmd ≠ b! "cd") : (execRead v cmd args r).1.ctx = r.ctx := by
  unfold execRead
  iterate 9 (refine ctx_ite ?_ ?_; (intro h'); rotate_left; intro _)
  all_goals first
    | exact absurd h' hc
    | exact ctx_back_ _ _
    | (repeat' split) <;> first | rfl | exact ctx_back_ _ _ | exact ctx_backOut _ _

theorem ctx_write (P : Prims) (C : Codec) (v : Env) (cmd : Str) (args : List Str) (r : Repl) (hc : cmd ≠ b! "rm") :
    (execWrite P C v cmd args r).1.ctx = r.ctx := by
  unfold execWrite
  iterate 15 (refine ctx_ite ?_ ?_; (intro h'); rotate_left; intro _)
  all_goals first
    | exact absurd h' hc
    | exact ctx_back _ _
    | exact ctx_back_ _ _
    | rfl
    | (dsimp only; refine (ctx_back _ _).trans ?_; split <;> rfl)
    | (repeat' split) <;> first | rfl | exact ctx_back_ _ _ | exact ctx_back _ _

theorem entryName_named {v : Env} {u u' : Session} {q n : Str} (hv : EnvOk v u.store) (h : WellFormed u.store)
    (hr : entryName v u q = (u', .ok (some n))) : ∃ uuid, Blob.Spec.Named u'.store uuid n := by
  obtain ⟨id, h1, h2⟩ := wf_findOne v.lower hv.ord hv.ord' h q
  obtain ⟨-, hf, hg, hlog⟩ := good_withSnapshot h.good (fun s => ((s, .panic) : Out Str))
  have hw := wf_update h
  unfold entryName oneEntry one at hr
  rw [h1] at hr
  simp only [lift] at hr
  split at hr
  · simp at hr
  · rename_i hid
    obtain ⟨n', e, he, hn'⟩ := h2 hid
    obtain ⟨en, h3, rfl, -, -⟩ := mustFind_visible hw.good.ok id e ((visible_log hlog _ _).2 he)
    rw [h3, update_fresh hf] at hr
    simp only at hr
    split at hr
    · rename_i n'' hn''
      simp only [Prod.mk.injEq, Res.ok.injEq, Option.some.injEq] at hr
      obtain ⟨rfl, rfl⟩ := hr
      exact ⟨id, _, (visible_log hlog _ _).2 he, hn''⟩
    · simp at hr

/-- The current entry of the prompt is always an entry that exists, as long as no `mv` renames it. -/
theorem C69_stays_partial (P : Prims) (C : Codec) (v : Env) (line : Str) (r r' : Repl) (b : Bool)
    (h0 : r.u.store.txPoint = 0) (h : WellFormed r.u.store) (hl : LegalTurn v line r) (hk : KeepsCtx line r) (hc : CtxOk r)
    (hr : runLine P C v line r = (r', .ok b)) : CtxOk r' := by
  have hg := C76_line_partial P C v line r h0 h hl (by rw [hr]; simp)
  rw [hr] at hg
  have hstay : r'.ctx = r.ctx → (∀ cmd args, parseLine line = some (cmd, args) → ¬ Drops cmd args r.ctx) → CtxOk r' := by
    intro h1 h2
    rcases hc with hc | ⟨uuid, hc⟩
    · exact .inl (h1.trans hc)
    · exact .inr ⟨uuid, by rw [h1]; exact hg.2 uuid r.ctx h2 hc⟩
  have hrr : r' = r → CtxOk r' := fun h1 => h1 ▸ hc
  cases hp : parseLine line with
  | none =>
    unfold runLine at hr
    rw [hp] at hr
    simp only [Prod.mk.injEq] at hr
    exact hrr hr.1.symm
  | some x =>
    obtain ⟨cmd, args⟩ := x
    unfold runLine at hr
    rw [hp] at hr
    simp only at hr
    have hnd : cmd ≠ b! "mv" → cmd ≠ b! "rm" → ∀ cmd' args', parseLine line = some (cmd', args') → ¬ Drops cmd' args' r.ctx := by
      rintro h1 h2 cmd' args' hp' ⟨hd, -⟩
      rw [hp] at hp'
      cases hp'
      exact hd.elim h1 h2
    cases hflag : readOnlyFlag cmd with
    | none =>
      rw [hflag] at hr
      simp only [Prod.mk.injEq] at hr
      exact hrr hr.1.symm
    | some f =>
      rw [hflag] at hr
      cases f with
      | true =>
        simp only at hr
        have h1 : cmd ≠ b! "mv" := by rintro rfl; revert hflag; decide
        have h2 : cmd ≠ b! "rm" := by rintro rfl; revert hflag; decide
        by_cases hcd : cmd = b! "cd"
        · subst hcd
          have he : execRead v (b! "cd") args r = cd v r args := rfl
          rw [he] at hr
          unfold cd at hr
          split at hr
          · simp only [Prod.mk.injEq] at hr
            exact .inl (by rw [← hr.1])
          · split at hr
            · rename_i u' n hen
              simp only [Prod.mk.injEq] at hr
              obtain ⟨uuid, hn⟩ := entryName_named hl.env h hen
              exact .inr ⟨uuid, by rw [← hr.1]; exact hn⟩
            · simp only [Prod.mk.injEq] at hr
              exact hstay (by rw [← hr.1]) (hnd h1 h2)
            · cases hr
            · cases hr
          · simp only [Prod.mk.injEq] at hr
            exact hrr hr.1.symm
        · have := ctx_read v cmd args r hcd
          rw [hr] at this
          exact hstay this (hnd h1 h2)
      | false =>
        simp only at hr
        split at hr
        · simp only [Prod.mk.injEq] at hr
          exact hrr hr.1.symm
        by_cases hrm : cmd = b! "rm"
        · subst hrm
          have he : ∀ args, execWrite P C v (b! "rm") args r = match args with
            | [] => (r, .ok false)
            | nm :: _ =>
              match back r (deleteEntry v.ord (v.d.now 0) v.d.inp r.u nm) with
              | (r, .ok b) => (if r.ctx = nm then { r with ctx := [] } else r, .ok b)
              | x => x := fun _ => rfl
          rw [he] at hr
          split at hr
          · simp only [Prod.mk.injEq] at hr
            exact hrr hr.1.symm
          · rename_i nm rest
            have hb := ctx_back r (deleteEntry v.ord (v.d.now 0) v.d.inp r.u nm)
            split at hr
            · rename_i r1 b1 hx
              rw [hx] at hb
              simp only [Prod.mk.injEq] at hr
              obtain ⟨hr, -⟩ := hr
              split at hr
              · exact .inl (by rw [← hr])
              · rename_i hne
                simp only at hb
                refine hstay (by rw [← hr]; exact hb) ?_
                rintro cmd' args' hp' ⟨-, hd⟩
                rw [hp] at hp'
                cases hp'
                simp only [List.head?_cons, Option.some.injEq] at hd
                exact hne (hb.trans hd.symm)
            · rename_i hx
              rw [hr] at hx
              exact absurd rfl (hx _ _)
        · have hctx := ctx_write P C v cmd args r hrm
          rw [hr] at hctx
          by_cases hmv : cmd = b! "mv"
          · subst hmv
            match args, hp with
            | [], hp =>
              refine hstay hctx ?_
              rintro cmd' args' hp' ⟨-, hd⟩
              rw [hp] at hp'; cases hp'; simp at hd
            | [a], hp =>
              have he : execWrite P C v (b! "mv") [a] r = (r, .ok false) := rfl
              rw [he] at hr
              simp only [Prod.mk.injEq] at hr
              exact hrr hr.1.symm
            | a :: dst :: rest, hp =>
              refine hstay hctx ?_
              rintro cmd' args' hp' ⟨-, hd⟩
              rw [hp] at hp'; cases hp'
              simp only [List.head?_cons, Option.some.injEq] at hd
              exact hk dst rest (by rw [hp, hd])
          · exact hstay hctx (hnd hmv hrm)

/-- So at every point of a session without `sync` and without such an `mv` the current entry exists, and by `C69_current` the
commands act on it. -/
theorem C69_session_partial (P : Prims) (C : Codec) (turns : List Turn) (r r' : Repl) (h0 : r.u.store.txPoint = 0)
    (h : WellFormed r.u.store) (hl : Along P C (fun v line r => LegalTurn v line r ∧ KeepsCtx line r) turns r) (hc : CtxOk r)
    (hr : runRepl P C turns r = (r', .ok ())) : CtxOk r' := by
  induction turns generalizing r with
  | nil => cases hr; exact hc
  | cons t rest ih =>
    obtain ⟨o, v⟩ := t
    cases o with
    | none => simp only [runRepl, Prod.mk.injEq] at hr; exact hr.1 ▸ hc
    | some line =>
      obtain ⟨⟨hl1, hk⟩, hl2⟩ := hl
      unfold runRepl at hr
      cases hx : runLine P C v line r with
      | mk r1 o =>
        have key := C67_line_partial P C v line r h0 h hl1
        rw [hx] at hr key hl2
        cases o with
        | panic => cases hr
        | err e => cases hr
        | ok b =>
          obtain ⟨k1, k2⟩ := key (by simp)
          have k3 := C69_stays_partial P C v line r r1 b h0 h hl1 hk hc hx
          cases b with
          | true => cases hr; exact k3
          | false => exact ih r1 k2 k1 hl2 k3 hr

namespace Demo

/-- a file with the entries "bank" and "bank2" -/
def rB : Repl := { u := { store := sample [([1], b! "bank"), ([2], b! "bank2")] } }
def rB1 : Repl := (runLine toy SyncDemo.C vV (b! "cd bank") rB).1
def rB2 : Repl := (runLine toy SyncDemo.C vV (b! "mv bank old") rB1).1
def rB3 : Repl := (runLine toy SyncDemo.C vV (b! "set pass x") rB2).1

theorem rB_wf : WellFormed rB.u.store ∧
    ∀ w n, Blob.Spec.Named rB.u.store w n ↔ (w, n) ∈ [(([1] : Str), b! "bank"), ([2], b! "bank2")] :=
  wf_check (ok_opened _) _ (by decide +kernel) (by decide +kernel) (by decide) (by decide)

theorem legal_of {v : Env} {line : Str} {x : Str × List Str} {r : Repl} (hv : v.ord = id) (hv' : v.ord' = id) (hu : v.d.uuid ≠ [])
    (hg : Good r.u.store) (hf : r.u.store.updateSnapshot.1.snapshot.get? v.d.uuid = none)
    (hl : line.all (fun b => b.toNat < 0x80) = true) (hp : parseLine line = some x) (hx : x.1 ≠ b! "sync") :
    LegalTurn v line r :=
  ⟨valid_ascii _ hl, ⟨by rw [hv]; exact perm_id, by rw [hv']; exact perm_id', hu, fresh_concrete hg hf⟩, parse_ne hp hx⟩

theorem rB_legal : LegalTurn vV (b! "cd bank") rB :=
  legal_of (x := (b! "cd", [b! "bank"])) rfl rfl (by decide) rB_wf.1.good (by decide +kernel) (by decide) (by decide +kernel) (by decide)
theorem rB1_wf : WellFormed rB1.u.store ∧ rB1.u.store.txPoint = 0 :=
  C67_line_partial toy SyncDemo.C vV _ rB rfl rB_wf.1 rB_legal (by decide +kernel)
theorem rB1_legal : LegalTurn vV (b! "mv bank old") rB1 :=
  legal_of (x := (b! "mv", [b! "bank", b! "old"])) rfl rfl (by decide) rB1_wf.1.good (by decide +kernel) (by decide) (by decide +kernel)
    (by decide)
theorem rB2_wf : WellFormed rB2.u.store ∧ rB2.u.store.txPoint = 0 :=
  C67_line_partial toy SyncDemo.C vV _ rB1 rB1_wf.2 rB1_wf.1 rB1_legal (by decide +kernel)
theorem rB2_legal : LegalTurn vV (b! "set pass x") rB2 :=
  legal_of (x := (b! "set", [b! "pass", b! "x"])) rfl rfl (by decide) rB2_wf.1.good (by decide +kernel) (by decide) (by decide +kernel)
    (by decide)
theorem rB3_wf : WellFormed rB3.u.store ∧ rB3.u.store.txPoint = 0 :=
  C67_line_partial toy SyncDemo.C vV _ rB2 rB2_wf.2 rB2_wf.1 rB2_legal (by decide +kernel)

/-- a value by computation -/
theorem value_concrete {s : DB} (h : Good s) {w k x : Str}
    (hx : (s.updateSnapshot.1.snapshot.get? w).bind (fun e => e.get? k) = some x) :
    ∃ e, Blob.Spec.Visible s w e ∧ e k = some x := by
  obtain ⟨-, hf, -, hlog⟩ := good_withSnapshot h (fun s => ((s, .panic) : Out Str))
  cases hg : s.updateSnapshot.1.snapshot.get? w with
  | none => rw [hg] at hx; cases hx
  | some en => exact ⟨_, (visible_log hlog _ _).1 ((visible_fresh hf w _).2 ⟨en, hg, rfl⟩), by rw [hg] at hx; exact hx⟩

end Demo

/-- After `cd bank` and `mv bank old` the prompt still holds the name "bank", which no entry has any more. The next `set pass`
then looks for something like "bank" and changes the password of another entry. -/
theorem C69_false : ∃ (turns : List Turn) (r : Repl), WellFormed r.u.store ∧ CtxOk r ∧
    Along toy SyncDemo.C LegalTurn turns r ∧ turns.map Prod.fst = [some (b! "cd bank"), some (b! "mv bank old"),
      some (b! "set pass x")] ∧ (runRepl toy SyncDemo.C turns r).2 = .ok () ∧
    (∃ e, Blob.Spec.Visible r.u.store [2] e ∧ e keyName = some (b! "bank2")) ∧
    (∃ e, Blob.Spec.Visible (runRepl toy SyncDemo.C turns r).1.u.store [2] e ∧ e keyName = some (b! "bank2") ∧
      e keyPass = some (b! "x")) := by
  refine ⟨[(some (b! "cd bank"), Demo.vV), (some (b! "mv bank old"), Demo.vV), (some (b! "set pass x"), Demo.vV)], Demo.rB,
    Demo.rB_wf.1, .inl rfl, ⟨Demo.rB_legal, Demo.rB1_legal, Demo.rB2_legal, trivial⟩, rfl, by decide +kernel,
    Demo.value_concrete Demo.rB_wf.1.good (by decide +kernel), ?_⟩
  have h1 : runRepl toy SyncDemo.C [(some (b! "cd bank"), Demo.vV), (some (b! "mv bank old"), Demo.vV),
      (some (b! "set pass x"), Demo.vV)] Demo.rB = (Demo.rB3, .ok ()) := by
    have a : runLine toy SyncDemo.C Demo.vV (b! "cd bank") Demo.rB = (Demo.rB1, .ok false) :=
      Prod.ext rfl (by decide +kernel)
    have b : runLine toy SyncDemo.C Demo.vV (b! "mv bank old") Demo.rB1 = (Demo.rB2, .ok false) :=
      Prod.ext rfl (by decide +kernel)
    have c : runLine toy SyncDemo.C Demo.vV (b! "set pass x") Demo.rB2 = (Demo.rB3, .ok false) :=
      Prod.ext rfl (by decide +kernel)
    simp only [runRepl, a, b, c]
  rw [h1]
  obtain ⟨e, he, hn⟩ := Demo.value_concrete (w := [2]) (k := keyName) (x := b! "bank2") Demo.rB3_wf.1.good (by decide +kernel)
  obtain ⟨e', he', hp⟩ := Demo.value_concrete (w := [2]) (k := keyPass) (x := b! "x") Demo.rB3_wf.1.good (by decide +kernel)
  rw [visible_unique he' he] at hp
  exact ⟨e, he, hn, hp⟩

/-- Not vacuous: with "bank" as current entry, `set pass x` changes the entry "bank" only. -/
example : CtxOk Demo.rB1 ∧ Demo.rB1.ctx = b! "bank" ∧ b! "set" ∈ editCmds ∧ KeepsCtx (b! "set pass x") Demo.rB1 ∧
    ∃ e, Blob.Spec.Visible (runLine toy SyncDemo.C Demo.vV (b! "set pass x") Demo.rB1).1.u.store [1] e ∧ e keyPass = some (b! "x") := by
  have hp : parseLine (b! "set pass x") = some (b! "set", [b! "pass", b! "x"]) := by decide +kernel
  have hl : LegalTurn Demo.vV (b! "set pass x") Demo.rB1 :=
    Demo.legal_of (x := (b! "set", [b! "pass", b! "x"])) rfl rfl (by decide) Demo.rB1_wf.1.good (by decide +kernel) (by decide)
      hp (by decide)
  refine ⟨C69_stays_partial toy SyncDemo.C Demo.vV (b! "cd bank") Demo.rB Demo.rB1 false rfl Demo.rB_wf.1 Demo.rB_legal ?_ (.inl rfl)
    (Prod.ext rfl (by decide +kernel)), by decide +kernel, by decide, ?_, ?_⟩
  · intro dst rest h
    have : parseLine (b! "cd bank") = some (b! "cd", [b! "bank"]) := by decide +kernel
    rw [this] at h; cases h
  · intro dst rest h; rw [hp] at h; cases h
  · exact Demo.value_concrete (C67_line_partial toy SyncDemo.C Demo.vV _ Demo.rB1 Demo.rB1_wf.2 Demo.rB1_wf.1 hl
      (by decide +kernel)).1.good (by decide +kernel)

/-! ## C70 -/

/-- `get` of a key other than `totp` and `updated` gives exactly the value that key has in the entry selected, and nothing if the
entry does not have the key; the session is not changed. -/
theorem C70_get (v : Env) (u : Session) (q key uuid : Str) (e : Str → Option Str) (hv : EnvOk v u.store) (h : WellFormed u.store)
    (hp : Picks v u.store q uuid) (he : Blob.Spec.Visible u.store uuid e) (hk : key ≠ keyTwoFactor) (hk' : key ≠ keyUpdated) :
    (getCmd v u q key).2 = .ok (e key) ∧ Same u (getCmd v u q key).1 := by
  obtain ⟨hid, s', hf⟩ := hp
  obtain ⟨id, h1, -⟩ := wf_findOne v.lower hv.ord hv.ord' h q
  rw [h1] at hf
  obtain ⟨rfl, hf⟩ := Prod.mk.inj hf
  cases hf
  obtain ⟨-, hfr, hg, hlog⟩ := good_withSnapshot h.good (fun s => ((s, .panic) : Out Str))
  have hw := wf_update h
  have he' := (visible_log hlog _ _).2 he
  obtain ⟨en, h3, rfl, -, -⟩ := mustFind_visible hw.good.ok uuid e he'
  obtain ⟨n, hn⟩ := name_of_visible hw he'
  unfold getCmd oneEntry one
  rw [h1]
  simp only [lift, hid, if_false, h3, update_fresh hfr, hk, hk', hn, reduceCtorEq]
  have hs : Same u { u with store := u.store.updateSnapshot.1 } := ⟨hlog, upd_tx _, rfl, rfl, rfl⟩
  cases hx : en.get? key with
  | none => exact ⟨rfl, hs⟩
  | some x => exact ⟨rfl, hs⟩

theorem picks_named {v : Env} {s : DB} (hv : EnvOk v s) (h : WellFormed s) {uuid q : Str} (hn : Blob.Spec.Named s uuid q) :
    Picks v s q uuid :=
  ⟨h.uuids _ _ hn, (findOne v.lower v.ord v.ord' s q).1, Prod.ext rfl (findOne_named hv h hn)⟩

/-- The lines `get q k` and `cp q k`, or `get k` and `cp k` with a current entry, print the value of that key of the entry named
so. -/
theorem C70_line (P : Prims) (C : Codec) (v : Env) (r : Repl) (line cmd q k uuid : Str) (args : List Str)
    (e : Str → Option Str) (hv : EnvOk v r.u.store) (h : WellFormed r.u.store) (hp : parseLine line = some (cmd, args))
    (hc : cmd = b! "get" ∨ cmd = b! "cp") (hq : queryArgs r.ctx args = some (q, k, [])) (hn : Blob.Spec.Named r.u.store uuid q)
    (he : Blob.Spec.Visible r.u.store uuid e) (hk : k ≠ keyTwoFactor) (hk' : k ≠ keyUpdated) :
    ∃ r', runLine P C v line r = (r', .ok false) ∧ r'.out = r.out ++ (e k).toList ∧ Same r.u r'.u ∧ r'.ctx = r.ctx := by
  obtain ⟨h1, h2⟩ := C70_get v r.u q k uuid e hv h (picks_named hv h hn) he hk hk'
  have hexec : execRead v cmd args r = backOut r (getCmd v r.u q k) := by
    have : execRead v cmd args r = match queryArgs r.ctx args with
        | none => (r, .ok false)
        | some (q, k, rest) =>
          if rest ≠ [] ∧ (rest.head?.bind atoi).isNone then (r, .ok false)
          else backOut r (getCmd v r.u q k) := by rcases hc with rfl | rfl <;> rfl
    rw [this, hq]
    simp
  have hflag : readOnlyFlag cmd = some true := by rcases hc with rfl | rfl <;> decide
  unfold runLine
  simp only [hp, hflag, hexec]
  cases hx : getCmd v r.u q k with
  | mk u' o =>
    rw [hx] at h1 h2
    simp only at h1 h2
    subst h1
    cases hy : e k with
    | none => exact ⟨{ r with u := u' }, rfl, by simp, h2, rfl⟩
    | some x => exact ⟨{ r with u := u', out := r.out ++ [x] }, rfl, rfl, h2, rfl⟩

/-- The lines `user q`, `pass q` and `email q`, or those words alone with a current entry, print that value of the entry named
so. -/
theorem C70_word (P : Prims) (C : Codec) (v : Env) (r : Repl) (line cmd q uuid : Str) (args : List Str)
    (e : Str → Option Str) (hv : EnvOk v r.u.store) (h : WellFormed r.u.store) (hp : parseLine line = some (cmd, args))
    (hc : cmd = keyUser ∨ cmd = keyPass ∨ cmd = keyEmail) (hq : queryArg r.ctx args = some q)
    (hn : Blob.Spec.Named r.u.store uuid q) (he : Blob.Spec.Visible r.u.store uuid e) :
    ∃ r', runLine P C v line r = (r', .ok false) ∧ r'.out = r.out ++ (e cmd).toList ∧ Same r.u r'.u ∧ r'.ctx = r.ctx := by
  obtain ⟨h1, h2⟩ := C70_get v r.u q cmd uuid e hv h (picks_named hv h hn) he
    (by rcases hc with rfl | rfl | rfl <;> decide) (by rcases hc with rfl | rfl | rfl <;> decide)
  have hexec : execRead v cmd args r = backOut r (getCmd v r.u q cmd) := by
    have : execRead v cmd args r = match queryArg r.ctx args with
        | none => (r, .ok false)
        | some q => backOut r (getCmd v r.u q cmd) := by rcases hc with rfl | rfl | rfl <;> rfl
    rw [this, hq]
  have hflag : readOnlyFlag cmd = some true := by rcases hc with rfl | rfl | rfl <;> decide
  unfold runLine
  simp only [hp, hflag, hexec]
  cases hx : getCmd v r.u q cmd with
  | mk u' o =>
    rw [hx] at h1 h2
    simp only at h1 h2
    subst h1
    cases hy : e cmd with
    | none => exact ⟨{ r with u := u' }, rfl, by simp, h2, rfl⟩
    | some x => exact ⟨{ r with u := u', out := r.out ++ [x] }, rfl, rfl, h2, rfl⟩

/-- Not vacuous: `get bank name` in the file above. -/
example : parseLine (b! "get bank name") = some (b! "get", [b! "bank", b! "name"]) ∧
    queryArgs Demo.rB.ctx [b! "bank", b! "name"] = some (b! "bank", b! "name", []) ∧
    Blob.Spec.Named Demo.rB.u.store [1] (b! "bank") ∧
    (runLine toy SyncDemo.C Demo.vV (b! "get bank name") Demo.rB).1.out = [b! "bank"] :=
  ⟨by decide +kernel, by decide +kernel, (Demo.rB_wf.2 _ _).2 (by simp), by decide +kernel⟩

/-! ## C71 -/

theorem multiline_clean (ctrlC : Bool) (stop : Input) (rest : Input)
    (hs : (∃ b, stop = some (b! ".") :: b ∧ rest = b) ∨ (stop = some [] :: some [] :: rest) ∨
      (ctrlC = false ∧ stop = none :: rest) ∨ (ctrlC = false ∧ stop = [] ∧ rest = []))
    (ls acc : List Str) (blank : Bool) (hd : b! "." ∉ ls) (hb : ∀ a b, (if blank then [[]] else []) ++ ls ≠ a ++ [] :: [] :: b)
    (hl : ((if blank then [[]] else []) ++ ls).getLast? ≠ some []) :
    promptMultiline ctrlC (ls.map some ++ stop) acc blank = (some (join 10 (acc ++ (if blank then [[]] else []) ++ ls)), rest) := by
  induction ls generalizing acc blank with
  | nil =>
    cases blank with
    | true => simp at hl
    | false =>
      simp only [List.map_nil, List.nil_append, Bool.false_eq_true, if_false, List.append_nil]
      rcases hs with ⟨b, rfl, rfl⟩ | rfl | ⟨rfl, rfl⟩ | ⟨rfl, rfl, rfl⟩
      · simp [promptMultiline]
      · simp [promptMultiline]
      · simp [promptMultiline]
      · simp [promptMultiline]
  | cons l ls ih =>
    simp only [List.mem_cons, not_or] at hd
    simp only [List.map_cons, List.cons_append]
    unfold promptMultiline
    rw [if_neg (Ne.symm hd.1)]
    by_cases hle : l = []
    · subst hle
      cases blank with
      | true => exact absurd rfl (hb [] ls)
      | false =>
        rw [if_pos rfl]
        simp only [Bool.false_eq_true, if_false, List.nil_append, List.append_nil] at hb hl ⊢
        have := ih acc true hd.2 (by simpa using hb) (by simpa using hl)
        rw [this]
        simp
    · rw [if_neg hle]
      dsimp only
      have h1 : ∀ a b, ls ≠ a ++ [] :: [] :: b := by
        intro a b hh
        exact hb ((if blank then [[]] else []) ++ l :: a) b (by rw [hh]; simp)
      have h2 : ls.getLast? ≠ some [] := by
        intro hh
        apply hl
        cases ls with
        | nil => simp at hh
        | cons a as => rw [List.getLast?_append, List.getLast?_cons_cons, hh]; rfl
      rw [ih _ false hd.2 (by simpa using h1) (by simpa using h2)]
      cases blank <;> simp

/-- Text of any number of lines typed at the prompt for several lines is understood exactly as typed, lines joined by a newline, as
long as no line is a single dot, no two empty lines follow each other, and the last line is not empty. It ends with a dot, two
empty lines or the end of input. -/
theorem C71_verbatim (ls : List Str) (ctrlC : Bool) (stop rest : Input)
    (hs : (∃ b, stop = some (b! ".") :: b ∧ rest = b) ∨ (stop = some [] :: some [] :: rest) ∨
      (ctrlC = false ∧ stop = none :: rest) ∨ (ctrlC = false ∧ stop = [] ∧ rest = []))
    (hd : b! "." ∉ ls) (hb : ∀ a b, ls ≠ a ++ [] :: [] :: b) (hl : ls.getLast? ≠ some []) :
    promptMultiline ctrlC (ls.map some ++ stop) [] false = (some (join 10 ls), rest) := by
  have := multiline_clean ctrlC stop rest hs ls [] false hd (by simpa using hb) (by simpa using hl)
  simpa using this

/-- And it is what `set q k` stores, under exactly that key of exactly the entry selected, for every key that `Set` accepts except
`pass`, `totp` and `url`, which are asked for in other ways. -/
theorem C71_stored (v : Env) (u : Session) (q k uuid : Str) (e : Str → Option Str) (ls : List Str) (stop rest : Input)
    (hv : EnvOk v u.store) (h : WellFormed u.store) (hp : Picks v u.store q uuid) (he : Blob.Spec.Visible u.store uuid e)
    (hprot : ∀ p ∈ protectedKeys, equalFold k p = false) (hk1 : k ≠ keyPass) (hk2 : k ≠ keyURL)
    (hi : v.d.inp = ls.map some ++ stop)
    (hs : (∃ b, stop = some (b! ".") :: b ∧ rest = b) ∨ (stop = some [] :: some [] :: rest) ∨
      (v.ctrlC = false ∧ stop = none :: rest) ∨ (v.ctrlC = false ∧ stop = [] ∧ rest = []))
    (hd : b! "." ∉ ls) (hb : ∀ a b, ls ≠ a ++ [] :: [] :: b) (hl : ls.getLast? ≠ some []) :
    (setCmd v u q k []).2 = .ok () ∧
    Blob.Spec.Visible (setCmd v u q k []).1.store uuid
      (Txlogs.Spec.upd (Txlogs.Spec.upd e keyUpdated (some (fmtInt (v.d.now 0)))) k (some (join 10 ls))) ∧
    OnlyEntry uuid u.store (setCmd v u q k []).1.store := by
  have honly : OnlyEntry uuid u.store (setCmd v u q k []).1.store := by
    obtain ⟨id, h1, -, h3⟩ := only_edit hv h q (.set k [])
    obtain ⟨hid, s', hf⟩ := hp
    rw [hf] at h1
    cases h1
    exact h3 hid
  obtain ⟨hid, s', hf⟩ := hp
  have hlog := (sameStore_findOne v.lower v.ord v.ord' u.store q).1
  rw [hf] at hlog
  simp only at hlog
  have hany : protectedKeys.any (fun p => equalFold k p) = false := by
    rw [List.any_eq_false]; intro p hp; rw [hprot p hp]; decide
  have htot : k ≠ keyTwoFactor := by
    rintro rfl
    have := hprot keyTwoFactor (by decide)
    rw [equalFold_refl] at this; cases this
  have hset : Blob.set v.d.now s' uuid k (join 10 ls) =
      ((touchUpdated s' v.d.now uuid).setKey (v.d.now 2) uuid k (join 10 ls), .ok ()) := by simp [Blob.set, hany]
  have hrun : setCmd v u q k [] =
      ({ u with store := (touchUpdated s' v.d.now uuid).setKey (v.d.now 2) uuid k (join 10 ls) }, .ok ()) := by
    simp only [setCmd, one, hf, lift, hid, if_false, hk1, htot, hk2, if_true, hi, C71_verbatim ls v.ctrlC stop rest hs hd hb hl,
      hset, lift_]
  have heff := C32_set_effect v.d.now s' _ uuid k (join 10 ls) e ((visible_log hlog uuid e).2 he) hset
  rw [hrun] at honly ⊢
  exact ⟨rfl, heff.2.1, honly⟩

/-- Not vacuous: three lines with an empty one in between. -/
example : b! "." ∉ [b! "a", [], b! "c"] ∧ ([b! "a", [], b! "c"] : List Str).getLast? ≠ some [] ∧
    promptMultiline false [some (b! "a"), some [], some (b! "c"), some (b! ".")] [] false = (some (b! "a\n\nc"), []) :=
  ⟨by decide, by decide, by decide +kernel⟩

/-! ## C75 -/

/-- Giving up one command at one of its prompts can lose what other commands did before: after `add x`, Ctrl-C or Ctrl-D at the
password prompt of `passwd` ends the session with an error, and nothing is saved after an error. -/
theorem C75_false : ∃ (turns : List Turn) (r : Repl), WellFormed r.u.store ∧ r.u.store.txPoint = 0 ∧
    Along toy SyncDemo.C LegalTurn turns r ∧ turns.map Prod.fst = [some (b! "add x"), some (b! "passwd")] ∧
    (turns.map (fun t => t.2.ctrlC)) = [false, false] ∧
    (runRepl toy SyncDemo.C turns r).2 = .err .aborted ∧
    r.u.store.log.length < (runRepl toy SyncDemo.C turns r).1.u.store.log.length :=
  ⟨[(some (b! "add x"), Demo.vT), (some (b! "passwd"), Demo.vV)], Demo.rS, Demo.u1_wf, by decide +kernel,
    ⟨Demo.addX_legal, Demo.legal_of (x := (b! "passwd", [])) rfl rfl (by decide) Demo.rX_wf.1.good (by decide +kernel) (by decide)
      (by decide +kernel) (by decide), trivial⟩, rfl, by decide, by decide +kernel, by decide +kernel⟩

/-! ## Not vacuous: C68 and C76 -/

namespace Demo

/-- `add x` in the file of `u1`: it succeeds, and with fewer answers it fails -/
example : (addNew vT u1 (b! "x")).2 = .ok () ∧ (∀ w, ¬ Blob.Spec.Named u1.store w (b! "x")) ∧
    (addNew { vT with d := { vT.d with inp := [some []] } } u1 (b! "x")).2 = .err .aborted ∧
    (addSync { vT with d := { vT.d with inp := [] } } u1 (b! "file")).2 = .err .aborted := by
  refine ⟨by decide +kernel, ?_, by decide +kernel, by decide +kernel⟩
  intro w h
  obtain ⟨e, h1, h2⟩ := (named_concrete u1_multi.1.good _ _).1 h
  have := get_mem h1 h2
  have he : u1.store.updateSnapshot.1.snapshot.map (fun p => (p.1, name p.2)) = [([9], some (userPrefix ++ [97]))] := by
    decide +kernel
  rw [he] at this
  simp at this
  exact absurd this.2 (by decide)

/-- `add x` adds operations, and the entry of the user keeps its name through it. -/
example : Along toy SyncDemo.C (fun v line r => LegalTurn v line r ∧
      ∀ cmd args, parseLine line = some (cmd, args) → ¬ Drops cmd args (b! "user/a")) [(some (b! "add x"), vT)] rS ∧
    (runRepl toy SyncDemo.C [(some (b! "add x"), vT)] rS).2 = .ok () ∧
    rS.u.store.log.length < (runRepl toy SyncDemo.C [(some (b! "add x"), vT)] rS).1.u.store.log.length ∧
    Blob.Spec.Named rS.u.store [9] (b! "user/a") := by
  refine ⟨⟨⟨addX_legal, ?_⟩, trivial⟩, by decide +kernel, by decide +kernel, ?_⟩
  · intro cmd args h
    have : parseLine (b! "add x") = some (b! "add", [b! "x"]) := by decide +kernel
    rw [this] at h
    cases h
    rintro ⟨h | h, -⟩ <;> exact absurd h (by decide)
  · obtain ⟨e, h1, h2⟩ := value_concrete (s := u1.store) (w := [9]) (k := keyName) (x := b! "user/a") u1_multi.1.good
      (by decide +kernel)
    exact ⟨e, h1, h2⟩

end Demo

end Verif.App
