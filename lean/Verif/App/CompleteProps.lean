import Verif.App.CompleteLemmas
import Verif.App.WordProps
import Verif.App.PastDemo
/-!
# Property C112: TAB at the prompt
-/
namespace Verif.App
open Verif Verif.Txlogs Verif.Blob Verif.Crypt Verif.App.Spec
open Verif.Crypt.Spec (toy toy_lawful)

namespace Spec

/-- The program at the prompt, with its view of the file brought up to date. -/
def upToDate (r : Repl) : Repl := { r with u := { r.u with store := r.u.store.updateSnapshot.1 } }

end Spec

namespace Tab

theorem none_of_wf {s : DB} (h : WellFormed s) : s.updateSnapshot.2 = none := by
  have h1 := (good_withSnapshot h.good (fun s => ((s, .panic) : Out Str))).1
  unfold withSnapshot at h1
  split at h1
  · cases congrArg Prod.snd h1
  · rename_i h2
    rw [h2]

/-- what `complete` does -/
theorem complete_run (v : Env) (u : Session) (hv : EnvOk v u.store) (h : WellFormed u.store) :
    ∃ r, search v.lower v.ord u.store [] = (u.store.updateSnapshot.1, .ok r) ∧
      complete v u = (tab u, .ok (sortStr ((v.ord' r).map Prod.snd))) := by
  obtain ⟨r, hr, -⟩ := wf_search v.lower hv.ord h []
  refine ⟨r, hr, ?_⟩
  unfold complete
  rw [hr]
  rfl

theorem typed_up {P : Prims} {C : Codec} {v : Env} {r : Repl} (hv : EnvOk v r.u.store) (h : WellFormed r.u.store) (b : Bool)
    (line : Str) : UpR (runTyped P C v b line r) (runLine P C v line r) := by
  cases b with
  | false => exact ⟨rfl, rfl⟩
  | true =>
    obtain ⟨res, -, hc⟩ := complete_run v r.u hv h
    unfold runTyped
    rw [hc]
    exact line_up (none_of_wf h) P C v line

theorem tabR_log {r r' : Repl} (h : tabR r = tabR r') : r.u.store.log = r'.u.store.log := by
  have := congrArg (fun r => r.u.store.log) h
  simpa only [tabR, tab, updateSnapshot_log] using this

theorem tabR_tx {r r' : Repl} (h : tabR r = tabR r') : r.u.store.txPoint = r'.u.store.txPoint := by
  have := congrArg (fun r => r.u.store.txPoint) h
  simpa only [tabR, tab, upd_tx] using this

theorem legal_tab {v : Env} {line : Str} {r r' : Repl} (h : tabR r = tabR r') (hl : LegalTurn v line r) : LegalTurn v line r' := by
  refine ⟨hl.utf8, ⟨hl.env.ord, hl.env.ord', hl.env.uuid_ne, fun he => hl.env.fresh ?_⟩, hl.noSync⟩
  obtain ⟨e, he⟩ := he
  exact ⟨e, (visible_log (tabR_log h).symm _ _).1 he⟩

theorem wf_typed {P : Prims} {C : Codec} {v : Env} {r : Repl} {line : Str} (h : WellFormed r.u.store) (h0 : r.u.store.txPoint = 0)
    (hl : LegalTurn v line r) (b : Bool) (hn : (runTyped P C v b line r).2 ≠ .panic) :
    WellFormed (runTyped P C v b line r).1.u.store ∧ (runTyped P C v b line r).1.u.store.txPoint = 0 := by
  cases b with
  | false => exact C67_line_partial P C v line r h0 h hl hn
  | true =>
    obtain ⟨res, -, hc⟩ := complete_run v r.u hl.env h
    have he : runTyped P C v true line r = runLine P C v line (tabR r) := by
      unfold runTyped
      rw [hc]
      rfl
    rw [he] at hn ⊢
    refine C67_line_partial P C v line (tabR r) ((upd_tx _).trans h0) (wf_update h) (legal_tab ?_ hl) hn
    exact (upR_tab (none_of_wf h) ()).2.symm

theorem all_visible {s : DB} (hg : Good s) (p : (Str → Option Str) → Prop)
    (h : ∀ x ∈ s.updateSnapshot.1.snapshot, p fun k => x.2.get? k) {w : Str} {e : Str → Option Str} (he : Blob.Spec.Visible s w e) : p e := by
  obtain ⟨-, hf, -, hlog⟩ := good_withSnapshot hg (fun s => ((s, .panic) : Out Str))
  obtain ⟨en, h1, rfl⟩ := (visible_fresh hf w e).1 ((visible_log hlog _ _).2 he)
  exact h _ ((GoMap.mem_iff_get? hf.1.nodup).2 h1)

/-- two runs, of which the second has TABs -/
theorem tabs_up (P : Prims) (C : Codec) : ∀ (turns : List (Bool × Turn)) (r r' : Repl), tabR r = tabR r' → WellFormed r.u.store →
    WellFormed r'.u.store → r.u.store.txPoint = 0 → Along P C LegalTurn (turns.map Prod.snd) r →
    UpR (runTabs P C turns r') (runRepl P C (turns.map Prod.snd) r) := by
  intro turns
  induction turns with
  | nil => intro r r' hr _ _ _ _; exact ⟨rfl, hr.symm⟩
  | cons t rest ih =>
    intro r r' hr hw hw' h0 hl
    obtain ⟨b, o, v⟩ := t
    cases o with
    | none => exact ⟨rfl, hr.symm⟩
    | some line =>
      obtain ⟨h1, h2⟩ := hl
      have hl' := legal_tab hr h1
      have h0' : r'.u.store.txPoint = 0 := (tabR_tx hr).symm.trans h0
      have hu : UpR (runTyped P C v b line r') (runLine P C v line r) := by
        have a := typed_up (P := P) (C := C) hl'.env hw' b line
        have c := line_up (none_of_wf hw') P C v line
        have d := line_up (none_of_wf hw) P C v line
        rw [hr] at d
        exact ⟨a.1.trans (c.1.symm.trans d.1), a.2.trans (c.2.symm.trans d.2)⟩
      have w1 := C67_line_partial P C v line r h0 hw h1
      have w2 := wf_typed (P := P) (C := C) hw' h0' hl' b
      show UpR (runTabs P C ((b, some line, v) :: rest) r') (runRepl P C ((some line, v) :: rest.map Prod.snd) r)
      unfold runTabs runRepl
      generalize runTyped P C v b line r' = x at hu w2
      generalize runLine P C v line r = y at hu w1 h2
      obtain ⟨x, ox⟩ := x
      obtain ⟨y, oy⟩ := y
      obtain ⟨he, hu⟩ := hu
      change ox = oy at he
      subst he
      match ox with
      | .ok false => exact ih y x hu.symm (w1 (by simp)).1 (w2 (by simp)).1 (w1 (by simp)).2 h2
      | .ok true => exact ⟨rfl, hu⟩
      | .err e => exact ⟨rfl, hu⟩
      | .panic => exact ⟨rfl, hu⟩

end Tab

/-- TAB offers exactly the names of the entries, each once and in alphabetical order; it changes nothing in the file, and every
name offered, taken as it is, selects its entry. -/
theorem C112_offers (v : Env) (u : Session) (hv : EnvOk v u.store) (h : WellFormed u.store) :
    ∃ l, (complete v u).2 = .ok l ∧ Same u (complete v u).1 ∧ (∀ n, n ∈ l ↔ ∃ w, Blob.Spec.Named u.store w n) ∧ l.Nodup ∧
      l.Pairwise (fun a b => strLe a b = true) ∧ ∀ n ∈ l, ∃ w, Blob.Spec.Named u.store w n ∧ Picks v u.store n w := by
  obtain ⟨r, hr, hc⟩ := Tab.complete_run v u hv h
  have hm := (C33_search_exact v.lower v.ord hv.ord h.good.ok [] r hr).2
  have hL := lists_of hv.ord' (results_nodup (hr : withSnapshot _ _ = _)) h.unique _ hm
  have key : (∀ n, n ∈ sortStr ((v.ord' r).map Prod.snd) ↔ ∃ w, Blob.Spec.Named u.store w n) ∧
      (sortStr ((v.ord' r).map Prod.snd)).Nodup := by
    have hs : ∀ n, (∃ w, Blob.Spec.Named u.store w n ∧ Blob.Spec.Selects v.lower [] n) ↔ ∃ w, Blob.Spec.Named u.store w n :=
      fun n => ⟨fun ⟨w, a, _⟩ => ⟨w, a⟩, fun ⟨w, a⟩ => ⟨w, a, .inl rfl⟩⟩
    unfold lsLines at hL
    split at hL
    · rename_i he
      have hno : ∀ n, ¬ ∃ w, Blob.Spec.Named u.store w n := by
        intro n hn
        obtain ⟨w, hn⟩ := hn
        have := (hm w n).2 ⟨hn, .inl rfl⟩
        rw [he] at this
        cases this
      have hn : v.ord' r = [] := by rw [he]; exact List.Perm.eq_nil (hv.ord' [])
      rw [hn]
      exact ⟨fun n => ⟨fun hx => absurd hx (by simp [sortStr]), fun hx => absurd hx (hno n)⟩, List.nodup_nil⟩
    · rename_i hne
      rcases hL with ⟨hno, -⟩ | ⟨-, a, b, -⟩
      · exfalso
        obtain ⟨p, hp⟩ := List.exists_mem_of_ne_nil r hne
        exact hno p.2 ⟨p.1, (hm p.1 p.2).1 ((GoMap.mem_iff_get? (results_nodup (hr : withSnapshot _ _ = _))).1 hp)⟩
      · exact ⟨fun n => (a n).trans (hs n), b⟩
  refine ⟨_, by rw [hc], by rw [hc]; exact same_update u, key.1, key.2, sortStr_sorted _, fun n hn => ?_⟩
  obtain ⟨w, hw⟩ := (key.1 n).1 hn
  exact ⟨w, hw, picks_named hv h hw⟩

/-- A line typed with TAB pressed does what the line does without: the same outcome, and the same file, keys, current entry and
values printed and sent. This holds for every line, also `sync`. -/
theorem C112_line (P : Prims) (C : Codec) (v : Env) (b : Bool) (line : Str) (r : Repl) (hv : EnvOk v r.u.store)
    (h : WellFormed r.u.store) :
    (runTyped P C v b line r).2 = (runLine P C v line r).2 ∧
    upToDate (runTyped P C v b line r).1 = upToDate (runLine P C v line r).1 :=
  Tab.typed_up hv h b line

/-- The same for any number of lines, with TAB pressed at any of them. Partial: without `sync` among the lines, which may meet
anything. -/
theorem C112_session_partial (P : Prims) (C : Codec) (turns : List (Bool × Turn)) (r : Repl) (h0 : r.u.store.txPoint = 0)
    (h : WellFormed r.u.store) (hl : Along P C LegalTurn (turns.map Prod.snd) r) :
    (runTabs P C turns r).2 = (runRepl P C (turns.map Prod.snd) r).2 ∧
    upToDate (runTabs P C turns r).1 = upToDate (runRepl P C (turns.map Prod.snd) r).1 ∧
    (runTabs P C turns r).1.u.store.log = (runRepl P C (turns.map Prod.snd) r).1.u.store.log ∧
    (runTabs P C turns r).1.out = (runRepl P C (turns.map Prod.snd) r).1.out := by
  have hu := Tab.tabs_up P C turns r r rfl h h h0 hl
  exact ⟨hu.1, hu.2, Tab.tabR_log hu.2, congrArg (fun r => r.out) (show Tab.tabR _ = Tab.tabR _ from hu.2)⟩

/-- Every command offered exists, and so do the keys: `totp` is the one `get` makes a code of. -/
theorem C112_commands : (∀ c ∈ completed, readOnlyFlag c.1 ≠ none) ∧ keyTwoFactor ∈ completedKeys ∧ keyPass ∈ completedKeys ∧
    keyUser ∈ completedKeys ∧ keyEmail ∈ completedKeys ∧ keyNotes ∈ completedKeys := by
  refine ⟨?_, by decide, by decide, by decide, by decide, by decide⟩
  have : (completed.all fun c => (readOnlyFlag c.1).isSome) = true := by decide +kernel
  intro c hc hn
  have := List.all_eq_true.1 this c hc
  rw [hn] at this
  cases this

/-- False: not every command is offered. `login`, `dump`, `dumpall` and `rekeyall` are not. -/
theorem C112_commands_false : ¬ ∀ cmd, readOnlyFlag cmd ≠ none → cmd ∈ completed.map Prod.fst :=
  fun h => absurd (h (b! "login") (by decide)) (by decide)

/-- False: with a file opened as of an earlier time TAB may crash the program. -/
theorem C112_past_false : ¬ ∀ (P : Prims) (C : Codec) (t : Int) (f : Str) (inp rest rest' : Input) (u u' : Session) (v : Env),
    Crypt.Spec.Lawful P → openFile P C none f inp = (.ok u, rest) → Sound u.store → openFile P C (some t) f inp = (.ok u', rest') →
    (complete v u').2 ≠ .panic := by
  intro h
  exact h toy Json.Spec.codec 15 PastDemo.fC [some (b! "A")] [] [] PastDemo.uC PastDemo.uC' {} toy_lawful PastDemo.openC
    PastDemo.soundC PastDemo.openC' (by decide +kernel)

namespace CompleteDemo

/-- the entry "bank" is the current one -/
def r0 : Repl := { u := ShowDemo.u, ctx := b! "bank" }

def r1 : Repl := (runLine toy SyncDemo.C Demo.vV (b! "set barn email x") r0).1

theorem r1_wf : WellFormed r1.u.store :=
  (C67_line_partial toy SyncDemo.C Demo.vV _ r0 rfl ShowDemo.u_wf.1
    (Demo.legal_of (x := (b! "set", [b! "barn", b! "email", b! "x"])) rfl rfl (by decide) ShowDemo.u_wf.1.good (by decide +kernel)
      (by decide) (by decide +kernel) (by decide)) (by decide +kernel)).1

end CompleteDemo

/-- False: the name offered after `set` is not always the entry the command works on. With a current entry the command takes the
name for a key: the value goes to the current entry, under the name as its key. -/
theorem C112_current_false : ¬ ∀ (P : Prims) (C : Codec) (v : Env) (r : Repl) (n x : Str) (l : List Str), WellFormed r.u.store →
    EnvOk v r.u.store → r.u.readOnly = false → (complete v r.u).2 = .ok l → n ∈ l → Word n → Word x →
    ∃ w e, Blob.Spec.Visible (runLine P C v (join 32 [b! "set", n, keyEmail, x]) r).1.u.store w e ∧ e keyName = some n ∧
      e keyEmail = some x := by
  intro h
  obtain ⟨w, e, h1, h3, h4⟩ := h toy SyncDemo.C Demo.vV { u := ShowDemo.u, ctx := b! "bank" } (b! "barn") (b! "x")
    [b! "bank", b! "barn"] ShowDemo.u_wf.1 (ShowDemo.u_env _ rfl rfl rfl) rfl (by decide +kernel) (by decide) (by decide) (by decide)
  refine Tab.all_visible CompleteDemo.r1_wf.good (fun e => ¬ (e keyName = some (b! "barn") ∧ e keyEmail = some (b! "x"))) ?_ h1 ⟨h3, h4⟩
  decide +kernel

/-- What happens instead: the entry "bank" gets a key "barn" with the value "email x". -/
example : ∃ e, Blob.Spec.Visible CompleteDemo.r1.u.store [1] e ∧ e (b! "barn") = some (b! "email x") :=
  Demo.value_concrete CompleteDemo.r1_wf.good (by decide +kernel)

/-- Not vacuous: both entries are offered. -/
example : (complete Demo.vV ShowDemo.u).2 = .ok [b! "bank", b! "barn"] ∧
    ∀ n, n ∈ [b! "bank", b! "barn"] ↔ ∃ w, Blob.Spec.Named ShowDemo.u.store w n := by
  have he : (complete Demo.vV ShowDemo.u).2 = .ok [b! "bank", b! "barn"] := by decide +kernel
  obtain ⟨l, h1, -, h2, -⟩ := C112_offers Demo.vV ShowDemo.u (ShowDemo.u_env _ rfl rfl rfl) ShowDemo.u_wf.1
  rw [he] at h1
  cases h1
  exact ⟨he, h2⟩

/-- Not vacuous: a line typed with TAB. -/
example : (runTyped toy SyncDemo.C Demo.vV true (b! "set bank note hi") ShowDemo.r0).2 = .ok false :=
  (C112_line toy SyncDemo.C Demo.vV true _ ShowDemo.r0 ShowDemo.r0_legal.env ShowDemo.u_wf.1).1.trans (by decide +kernel)

/-- Not vacuous: the same in a session. What the program holds of the file in memory is not the same after `help`, but it is the same file. -/
example : (runTabs toy SyncDemo.C [(true, some (b! "set bank note hi"), Demo.vV)] ShowDemo.r0).1.u.store.log = ShowDemo.r1.u.store.log ∧
    (runTabs toy SyncDemo.C [(true, some (b! "help"), Demo.vV)] ShowDemo.r0).1 ≠
      (runRepl toy SyncDemo.C [(some (b! "help"), Demo.vV)] ShowDemo.r0).1 := by
  refine ⟨(C112_session_partial toy SyncDemo.C [(true, some (b! "set bank note hi"), Demo.vV)] ShowDemo.r0 rfl ShowDemo.u_wf.1
    ⟨ShowDemo.r0_legal, trivial⟩).2.2.1.trans (by decide +kernel), by decide +kernel⟩

end Verif.App
