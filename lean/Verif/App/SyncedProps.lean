import Verif.App.ClipProps
import Verif.App.ClipDemo
import Verif.App.CompleteProps
import Verif.App.DumpKeys
import Verif.App.OwnSyncDemo
/-!
# C104, C110 and C112 for sessions with `sync`
-/
set_option linter.unusedSimpArgs false
namespace Verif.App
open Verif Verif.Txlogs Verif.Blob Verif.Crypt Verif.App.Spec
open Verif.Crypt.Spec (toy toy_lawful)

/-- In a session with any number of `sync`s nothing gets into the clipboard that was not asked for. -/
theorem C104_synced_partial (P : Prims) (C : Codec) (date : Str → Str) (turns : List Turn) (r : Repl) (h : Sound r.u.store)
    (hl : Along P C (WholeTurn P C) turns r) :
    ∀ x ∈ replCopies P C date turns r, ∃ line v s cmd args, (some line, v) ∈ turns ∧ parseLine line = some (cmd, args) ∧ cmd ∈ copying ∧
      WellFormed s ∧ Copyable date v s x := by
  induction turns generalizing r with
  | nil => intro x hx; cases hx
  | cons t rest ih =>
    obtain ⟨o, v⟩ := t
    cases o with
    | none => intro x hx; cases hx
    | some line =>
      intro x hx
      obtain ⟨hl1, hl2⟩ := hl
      simp only [replCopies, List.mem_append] at hx
      rcases hx with hx | hx
      · obtain ⟨cmd, args, h1, h2, -⟩ := C104_only date v line r (List.ne_nil_of_mem hx)
        rcases hl1 with hl1 | ⟨args', hp, -⟩
        · exact ⟨line, v, r.u.store, cmd, args, List.mem_cons_self, h1, h2, h.wf, C104_what date v line r hl1.legal.env h.wf x hx⟩
        · rw [hp] at h1
          cases h1
          exact absurd h2 (by decide)
      · have hw := C87_line_partial P C v line r (h := h) (hl := hl1)
        cases hr : runLine P C v line r with
        | mk r' o =>
          rw [hr] at hx hl2 hw
          cases o with
          | err e => cases hx
          | panic => cases hx
          | ok b =>
            cases b with
            | true => cases hx
            | false =>
              obtain ⟨line', v', s, cmd, args, k, k'⟩ := ih r' (hw false rfl) hl2 x hx
              exact ⟨line', v', s, cmd, args, List.mem_cons_of_mem _ k, k'⟩

namespace Tab

theorem syncOk_tab {P : Prims} {C : Codec} {w : World} {v : SyncEnv} {nm : Str} {u u' : Session} {inp : Input} (h : tab u = tab u')
    (hs : SyncOk P C w v nm u inp) : SyncOk P C w v nm u' inp := by
  have hlog : u.store.log = u'.store.log := by
    have := congrArg (fun u => u.store.log) h
    simpa only [tab, updateSnapshot_log] using this
  have hst : u.store.updateSnapshot.1 = u'.store.updateSnapshot.1 := congrArg (fun u => u.store) h
  have h' : { u with store := u.store.updateSnapshot.1 } = { u' with store := u'.store.updateSnapshot.1 } := h
  refine ⟨hs.ordH, hs.tick, hs.tick', hs.begins, hlog ▸ hs.late, fun syncs l rest hsel hp => ?_⟩
  rw [← h'] at hp
  rw [← hlog]
  refine hs.pulled syncs l rest ?_ hp
  unfold Selected at hsel ⊢
  rw [hst]
  exact hsel

theorem apart_tab {P : Prims} {C : Codec} {w : World} {v : SyncEnv} {nm : Str} {u u' : Session} {inp : Input} (h : tab u = tab u')
    (hs : NamesApartAll P C w v nm u inp) : NamesApartAll P C w v nm u' inp := by
  have hlog : u.store.log = u'.store.log := by
    have := congrArg (fun u => u.store.log) h
    simpa only [tab, updateSnapshot_log] using this
  have hst : u.store.updateSnapshot.1 = u'.store.updateSnapshot.1 := congrArg (fun u => u.store) h
  have h' : { u with store := u.store.updateSnapshot.1 } = { u' with store := u'.store.updateSnapshot.1 } := h
  intro syncs l rest hsel hp
  rw [← h'] at hp
  rw [← hlog]
  refine hs syncs l rest ?_ hp
  unfold Selected at hsel ⊢
  rw [hst]
  exact hsel

theorem whole_tab {P : Prims} {C : Codec} {v : Env} {line : Str} {r r' : Repl} (h : tabR r = tabR r') (hl : WholeTurn P C v line r) :
    WholeTurn P C v line r' := by
  rcases hl with hl | ⟨args, hp, hs, hn⟩
  · have hlog := tabR_log h
    exact .inl ⟨legal_tab h hl.legal, ⟨hl.clock.tick, hlog ▸ hl.clock.late, hl.clock.ticks, hlog ▸ hl.clock.lates, hl.clock.rounds⟩,
      by have := hl.uuid; unfold NewUuid at this ⊢; rw [← hlog]; exact this⟩
  · have hu : tab r.u = tab r'.u := congrArg (fun r => r.u) h
    exact .inr ⟨args, hp, syncOk_tab hu hs, apart_tab hu hn⟩

theorem env_tab {v : Env} {r r' : Repl} (h : tabR r = tabR r') (hv : EnvOk v r.u.store) : EnvOk v r'.u.store := by
  refine ⟨hv.ord, hv.ord', hv.uuid_ne, fun he => hv.fresh ?_⟩
  obtain ⟨e, he⟩ := he
  exact ⟨e, (visible_log (tabR_log h).symm _ _).1 he⟩

theorem sound_tab {r : Repl} (h : Sound r.u.store) : Sound (tabR r).u.store :=
  ⟨wf_update h.wf, by show OwnHistory r.u.store.updateSnapshot.1.log; rw [updateSnapshot_log]; exact h.own, (upd_tx _).trans h.tx⟩

theorem sound_typed {P : Prims} {C : Codec} {v : Env} {r : Repl} {line : Str} (h : Sound r.u.store) (hv : EnvOk v r.u.store)
    (hl : WholeTurn P C v line r) (b c : Bool) (hn : (runTyped P C v b line r).2 = .ok c) :
    Sound (runTyped P C v b line r).1.u.store := by
  cases b with
  | false => exact C87_line_partial P C v line r c h hl hn
  | true =>
    obtain ⟨res, -, hc⟩ := complete_run v r.u hv h.wf
    have he : runTyped P C v true line r = runLine P C v line (tabR r) := by
      unfold runTyped
      rw [hc]
      rfl
    rw [he] at hn ⊢
    refine C87_line_partial P C v line (tabR r) c (sound_tab h) (whole_tab ?_ hl) hn
    exact (upR_tab (none_of_wf h.wf) ()).2.symm

theorem tabs_whole (P : Prims) (C : Codec) : ∀ (turns : List (Bool × Turn)) (r r' : Repl), tabR r = tabR r' → Sound r.u.store →
    Sound r'.u.store → Along P C (fun v line r => WholeTurn P C v line r ∧ EnvOk v r.u.store) (turns.map Prod.snd) r →
    UpR (runTabs P C turns r') (runRepl P C (turns.map Prod.snd) r) := by
  intro turns
  induction turns with
  | nil => intro r r' hr _ _ _; exact ⟨rfl, hr.symm⟩
  | cons t rest ih =>
    intro r r' hr hw hw' hl
    obtain ⟨b, o, v⟩ := t
    cases o with
    | none => exact ⟨rfl, hr.symm⟩
    | some line =>
      obtain ⟨⟨h1, hv⟩, h2⟩ := hl
      have hu : UpR (runTyped P C v b line r') (runLine P C v line r) := by
        have a := typed_up (P := P) (C := C) (env_tab hr hv) hw'.wf b line
        have c := line_up (none_of_wf hw'.wf) P C v line
        have d := line_up (none_of_wf hw.wf) P C v line
        rw [hr] at d
        exact ⟨a.1.trans (c.1.symm.trans d.1), a.2.trans (c.2.symm.trans d.2)⟩
      have w1 := C87_line_partial P C v line r (h := hw) (hl := h1)
      have w2 := fun c => sound_typed (P := P) (C := C) hw' (env_tab hr hv) (whole_tab hr h1) b c
      show UpR (runTabs P C ((b, some line, v) :: rest) r') (runRepl P C ((some line, v) :: rest.map Prod.snd) r)
      unfold runTabs runRepl
      generalize runTyped P C v b line r' = x at hu w2
      generalize runLine P C v line r = y at hu w1 h2
      obtain ⟨x, ox⟩ := x
      obtain ⟨y, oy⟩ := y
      obtain ⟨he, hu⟩ := hu
      change ox = oy at he
      subst he
      match ox with
      | .ok false => exact ih y x hu.symm (w1 false rfl) (w2 false rfl) h2
      | .ok true => exact ⟨rfl, hu⟩
      | .err e => exact ⟨rfl, hu⟩
      | .panic => exact ⟨rfl, hu⟩

end Tab

/-- Pressing TAB changes nothing in a session with any number of `sync`s either. -/
theorem C112_synced_partial (P : Prims) (C : Codec) (turns : List (Bool × Turn)) (r : Repl) (h : Sound r.u.store)
    (hl : Along P C (fun v line r => WholeTurn P C v line r ∧ EnvOk v r.u.store) (turns.map Prod.snd) r) :
    (runTabs P C turns r).2 = (runRepl P C (turns.map Prod.snd) r).2 ∧
    upToDate (runTabs P C turns r).1 = upToDate (runRepl P C (turns.map Prod.snd) r).1 ∧
    (runTabs P C turns r).1.u.store.log = (runRepl P C (turns.map Prod.snd) r).1.u.store.log ∧
    (runTabs P C turns r).1.out = (runRepl P C (turns.map Prod.snd) r).1.out := by
  have hu := Tab.tabs_whole P C turns r r rfl h h hl
  exact ⟨hu.1, hu.2, Tab.tabR_log hu.2, congrArg (fun r => r.out) (show Tab.tabR _ = Tab.tabR _ from hu.2)⟩

/-- what the line `sync` leaves -/
theorem sync_leaves {P : Prims} {C : Codec} {v : Env} {line : Str} {r : Repl} {args : List Str}
    (hp : parseLine line = some (b! "sync", args)) :
    (runLine P C v line r).1.u.store = r.u.store ∨
    (runLine P C v line r).1.u.store = (sync P C v.w v.v (args.head?.getD []) true r.u v.d.inp).session.store := by
  have hrun : runLine P C v line r = if r.u.readOnly then (r, .ok false) else execWrite P C v (b! "sync") args r := by
    unfold runLine
    rw [hp]
    rfl
  rw [hrun]
  by_cases hro : r.u.readOnly
  · rw [if_pos hro]; exact .inl rfl
  · rw [if_neg hro]
    right
    have hx : execWrite P C v (b! "sync") args r =
        let x := sync P C v.w v.v (args.head?.getD []) true r.u v.d.inp
        let r := if x.pushed = [] then r else { r with pushed := r.pushed ++ [(x.sent, x.pushed)] }
        back r (x.session, x.result) := by
      unfold execWrite
      simp (decide := true) only [if_false, if_true]
    rw [hx]
    simp only
    split <;> (cases (sync P C v.w v.v (args.head?.getD []) true r.u v.d.inp).result <;> rfl)

/-- No session with any number of `sync`s gives an entry a key with a blank, if none of the files that are pulled has one: `dump` tells
every entry. -/
theorem C110_synced_partial (P : Prims) (C : Codec) (turns : List Turn) (r : Repl) (h : Sound r.u.store)
    (hl : Along P C (fun v line r => WholeTurn P C v line r ∧ ∀ args, parseLine line = some (b! "sync", args) →
      ∀ syncs l rest, Selected v.w v.v r.u (args.head?.getD []) syncs →
      pullAll P C v.w { r.u with store := r.u.store.updateSnapshot.1 } syncs v.d.inp = (some l, rest) → ∀ q ∈ remotes l, Bare q.log) turns r)
    (hn : (runRepl P C turns r).2 ≠ .panic) (hw : Bare r.u.store.log) :
    Bare (runRepl P C turns r).1.u.store.log ∧
    ∀ w e, Blob.Spec.Visible (runRepl P C turns r).1.u.store w e → ∀ k, e k ≠ none → 32 ∉ k := by
  have key : Bare (runRepl P C turns r).1.u.store.log := by
    induction turns generalizing r with
    | nil => exact hw
    | cons t rest ih =>
      obtain ⟨o, v⟩ := t
      cases o with
      | none => exact hw
      | some line =>
        obtain ⟨⟨hl1, hl3⟩, hl2⟩ := hl
        have key := C87_line_partial P C v line r (h := h) (hl := hl1)
        have key2 : (runLine P C v line r).2 ≠ .panic → Bare (runLine P C v line r).1.u.store.log := by
          intro hnp
          rcases hl1 with hl1 | ⟨args, hp, -, -⟩
          · exact C110_line P C v line r h.tx h.wf hl1.legal hnp hw
          · rcases sync_leaves (P := P) (C := C) (v := v) (r := r) hp with hs | hs
            · rw [hs]; exact hw
            · rw [hs]
              exact C110_sync_partial P C v.w v.v _ true r.u v.d.inp hw (hl3 args hp)
        unfold runRepl at hn ⊢
        cases hx : runLine P C v line r with
        | mk r' o =>
          rw [hx] at hn key key2 hl2
          cases o with
          | panic => exact absurd rfl hn
          | err e => exact key2 (by simp)
          | ok b =>
            cases b with
            | true => exact key2 (by simp)
            | false => exact ih r' (key false rfl) hl2 hn (key2 (by simp))
  exact ⟨key, fun w e he => C110_bare key he⟩

namespace WholeDemo
open HistoryDemo (D u w v sound syncOk_shop apart_shop)
open Demo (perm_id perm_id' fresh_concrete named_concrete parse_ne)

/-- what the two lines meet -/
def vS : Env := { w := w, v := v, d := { uuid := [8] } }
def vC : Env :=
  { d := { now := fun i => 300 + i, uuid := [8] }
    ds := fun k => { now := fun i => 300 + 10 * (k : Int) + i } }

theorem sync_turn : WholeTurn toy (D (b! "shop")) vS (b! "sync") { u := u } :=
  .inr ⟨[], by decide +kernel, syncOk_shop, apart_shop⟩

def r1 : Repl := (runLine toy (D (b! "shop")) vS (b! "sync") { u := u }).1

theorem r1_eq : (runLine toy (D (b! "shop")) vS (b! "sync") { u := u }).1 = r1 := rfl
attribute [irreducible] r1

theorem r1_sound : Sound r1.u.store := by
  rw [← r1_eq]
  exact C87_line_partial toy (D (b! "shop")) vS (b! "sync") { u := u } false sound sync_turn (by decide +kernel)

theorem cp_turn : WholeTurn toy (D (b! "shop")) vC (b! "cp shop note") r1 := by
  refine .inl ⟨Demo.legal_of (x := (b! "cp", [b! "shop", b! "note"])) rfl rfl (by decide) r1_sound.wf.good (by decide +kernel)
      (by decide) (by decide +kernel) (by decide),
    ⟨fun i j h => ?_, by decide +kernel, fun k i j h => ?_, by decide +kernel, fun k => ?_⟩, by unfold NewUuid; decide +kernel⟩
  · simp only [vC]; omega
  · simp only [vC]; omega
  · simp only [vC]; omega

def turns : List Turn := [(some (b! "sync"), vS), (some (b! "cp shop note"), vC)]

theorem along {Q : Env → Str → Repl → Prop} (h1 : Q vS (b! "sync") { u := u }) (h2 : Q vC (b! "cp shop note") r1) :
    Along toy (D (b! "shop")) Q turns { u := u } := by
  refine ⟨h1, ?_, trivial⟩
  rw [r1_eq]
  exact h2

/-- a value that came with `sync` is copied when asked for -/
example : replCopies toy (D (b! "shop")) id turns { u := u } = [[1]] := by decide +kernel
example := C104_synced_partial toy (D (b! "shop")) id turns { u := u } sound (along sync_turn cp_turn) [1] (by decide +kernel)

theorem env_ok {v : Env} {s : DB} (h1 : v.ord = id) (h2 : v.ord' = id) (h3 : v.d.uuid = [8]) (hs : Sound s)
    (h : s.updateSnapshot.1.snapshot.get? [8] = none) : EnvOk v s :=
  ⟨by rw [h1]; exact perm_id, by rw [h2]; exact perm_id', by rw [h3]; decide, by rw [h3]; exact fresh_concrete hs.wf.good h⟩

/-- TAB pressed at both lines -/
example : (runTabs toy (D (b! "shop")) (turns.map fun t => (true, t)) { u := u }).1.u.store.log = r1.u.store.log :=
  (C112_synced_partial toy (D (b! "shop")) (turns.map fun t => (true, t)) { u := u } sound
    (along ⟨sync_turn, env_ok rfl rfl rfl sound (by decide +kernel)⟩ ⟨cp_turn, env_ok rfl rfl rfl r1_sound (by decide +kernel)⟩)).2.2.1.trans
    (by decide +kernel)

example : Bare (runRepl toy (D (b! "shop")) turns { u := u }).1.u.store.log := by
  have hp : parseLine (b! "sync") = some (b! "sync", []) := by decide +kernel
  have hp' : parseLine (b! "cp shop note") = some (b! "cp", [b! "shop", b! "note"]) := by decide +kernel
  refine (C110_synced_partial toy (D (b! "shop")) turns { u := u } sound (along ⟨sync_turn, ?_⟩ ⟨cp_turn, ?_⟩) (by decide +kernel)
    (by unfold Bare; decide +kernel)).1
  · intro args ha syncs l rest hsel h
    rw [hp] at ha
    cases ha
    have hg : pullAll toy (D (b! "shop")) w { u with store := u.store.updateSnapshot.1 } [[97]] [] = (some (HistoryDemo.got (b! "shop")), []) := by
      decide +kernel
    rw [HistoryDemo.selected hsel] at h
    have h' := hg.symm.trans h
    obtain ⟨rfl, -⟩ := Prod.mk.inj h' |>.imp Option.some.inj id
    unfold Bare
    decide +kernel
  · intro args ha
    rw [hp'] at ha
    exact absurd (congrArg Prod.fst (Option.some.inj ha)) (by decide : b! "cp" ≠ b! "sync")

end WholeDemo

end Verif.App
