import Verif.App.KeyYearsSpec
import Verif.App.LockoutProps
import Verif.App.YearsProps
/-!
# C88 over the whole life of a file
-/
set_option linter.unusedSimpArgs false
namespace Verif.App
open Verif Verif.Txlogs Verif.Blob Verif.Crypt Verif.App.Spec

theorem newest_unique {P : Prims} {M : Str} {l : List Tx} {rs : List Rec} (h : Keyring P M l rs) {x y : Rec} (hx : Newest rs x)
    (hy : Newest rs y) (hu : x.uuid = y.uuid) : x = y := by
  rcases hy.2 x hx.1 hu with h1 | h1
  · exact h1
  · rcases hx.2 y hy.1 hu.symm with h2 | h2
    · exact h2.symm
    · have a := h.unlocks x hx.1
      have b := h.unlocks y hy.1
      have := a.first; have := a.second; have := b.first; have := b.second
      omega

theorem keyed_autoSync {P : Prims} {C : Codec} {v : Env} {auto : Bool} {r : Repl} {rs : List Rec} (h : Keyed P r.u rs)
    (ha : auto = true → AutoOk P C v r.u ∧ SharedSync P C v.w v.v [] r.u v.d.inp rs) (hr : (autoSync P C v auto r).2 = .ok ()) :
    ∃ rs', Keyed P (autoSync P C v auto r).1.u rs' ∧ (∀ x ∈ rs, x ∈ rs') ∧
      ∀ x ∈ rs', x ∈ rs ∨ auto = true ∧ CameInSync P C v.w v.v [] r.u v.d.inp x := by
  unfold autoSync at hr ⊢
  by_cases hc : r.u.readOnly = false ∧ auto = true
  · rw [if_pos hc] at hr ⊢
    obtain ⟨⟨hs, hn⟩, hm⟩ := ha hc.2
    obtain ⟨-, k⟩ := C88_sync_partial P C v.w v.v [] true r.u v.d.inp rs h hs hn hm hr
    obtain ⟨rs', g1, g2, g3⟩ := keyed_came k
    exact ⟨rs', g1, g2, fun x hx => (g3 x hx).imp id (fun h => ⟨hc.2, h⟩)⟩
  · rw [if_neg hc]; exact ⟨rs, h, fun _ h => h, fun _ h => .inl h⟩

/-- A file that was written opens for every user with the password set last for them, and holds what it was written from. -/
theorem C88_saved_partial (P : Prims) (hP : Crypt.Spec.Lawful P) (ord : Order) (hord : ∀ m, (ord m).Perm m)
    (ord' : Results → Results) (hord' : ∀ m, (ord' m).Perm m) (iv f : Str) (u : Session) (rs : List Rec) (h : Keyed P u rs)
    (hc : ∀ t ∈ u.store.log, Json.Spec.CleanTx t) (hw : Writable P u.store)
    (hf : saveBlob P Json.Spec.codec ord ord' iv u = .ok (some f)) (uuid user : Str) (hu : IsUser u.store uuid user) :
    ∃ x u', Newest rs x ∧ x.uuid = uuid ∧ openFile P Json.Spec.codec none f [some user, some x.pass] = (.ok u', []) ∧
      Keyed P u' rs ∧ Spec.SameStore u'.store u.store ∧ (∀ t ∈ u'.store.log, Json.Spec.CleanTx t) ∧ u'.creds.user = user := by
  have hro : u.readOnly = false := by
    cases hro : u.readOnly with
    | false => rfl
    | true => unfold saveBlob at hf; simp [hro] at hf
  have hC : Faithful Json.Spec.codec u.store :=
    Json.C11_partial _ (clean_of_log h.sound.wf.good.ok (fun t ht => ⟨hc t ht, hw.times t ht⟩) hw.counted)
  obtain ⟨f', s', g1, g2, g3⟩ := C51_save_open_multi P hP Json.Spec.codec ord hord ord' hord' iv u hro h.sound.tx h.sound.wf.good hC h.creds
    (keyring_wf h.sound.wf h.sound.own.good h.ring hw.roomy hw.users)
  rw [g1] at hf
  cases hf
  obtain ⟨x, h1, h2, h3⟩ := C88_newest P u rs h uuid user hu
  exact ⟨x, _, h1, h2, g3 user x.pass x.salt h3,
    ⟨sound_sameStore h.sound g2, ⟨h.creds.master, h.creds.ivm, hP.kdf_length _ _⟩, by rw [g2.log]; exact h.ring⟩, g2,
    fun t ht => hc t (g2.log ▸ ht), rfl⟩

/-- One run, from a session in order: at the end the records are in order again; those from before are among them, and of the others
the password was given in the run, or the record came with a `sync`. -/
theorem C88_run_partial (P : Prims) (hP : Crypt.Spec.Lawful P) (auto : Bool) (v v' : Env) (iv : Str) (turns : List Turn) (u : Session)
    (rs : List Rec) (f : Str) (r : Repl) (h : Keyed P u rs) (hc : ∀ t ∈ u.store.log, Json.Spec.CleanTx t)
    (hrun : KeyRun P auto v v' iv turns u) (hr : session P Json.Spec.codec auto v v' iv turns u = (r, .ok (some f))) :
    (∃ rs', Keyed P r.u rs' ∧ (∀ x ∈ rs, x ∈ rs') ∧ ∀ x ∈ rs', x ∈ rs ∨ CameInRun P auto v v' turns u x) ∧
    (∀ t ∈ r.u.store.log, Json.Spec.CleanTx t) ∧ saveBlob P Json.Spec.codec v'.ord v'.ord' iv r.u = .ok (some f) := by
  have a1 := keyed_autoSync (P := P) (C := Json.Spec.codec) (v := v) (auto := auto) (r := { u := u }) h
    (fun hh => ⟨(hrun.start hh).ok, (hrun.start hh).shared rs h⟩)
  have a4 := text_autoSync (P := P) (v := v) (auto := auto) (r := { u := u }) h.sound hc
    (fun hh => ⟨(hrun.start hh).text, (hrun.start hh).choices⟩)
  have h2 := hrun.lines
  have h3 := hrun.stop
  unfold CameInRun
  unfold session at hr
  cases hx : autoSync P Json.Spec.codec v auto { u := u } with
  | mk r1 o1 =>
    rw [hx] at hr a1 a4 h2 h3
    cases o1 with
    | panic => cases hr
    | err e => cases hr
    | ok x =>
      simp only at h2 h3 hr a1 a4
      obtain ⟨rs1, k1, k2, k3⟩ := a1 trivial
      have b1 := C88_session_partial P hP Json.Spec.codec turns r1 rs1 k1 (along_mono (fun _ _ _ h => h.1) _ _ h2)
      have b4 := C77_whole_session_partial P turns r1 k1.sound a4 (along_mono (fun _ _ _ h => by
        refine ⟨?_, h.2⟩
        rcases h.1 with h | ⟨args, a, b, c, -⟩
        · exact .inl h.turn
        · exact .inr ⟨args, a, b, c⟩) _ _ h2)
      cases hy : runRepl P Json.Spec.codec turns r1 with
      | mk r2 o2 =>
        rw [hy] at hr b1 b4 h3
        cases o2 with
        | panic => cases hr
        | err e => cases hr
        | ok x =>
          simp only at hr b1 b4 h3 ⊢
          obtain ⟨⟨rs2, g1, g2, g3⟩, -⟩ := b1 trivial
          have b4 := b4 trivial
          have hauto : ∀ {c : Bool}, (auto && c) = true → auto = true := by
            intro c hh; simp only [Bool.and_eq_true] at hh; exact hh.1
          have c1 := keyed_autoSync (P := P) (C := Json.Spec.codec) (v := v')
            (auto := auto && r2.u.startTx ≠ r2.u.store.log.length) (r := r2) g1
            (fun hh => ⟨(h3 (hauto hh)).ok, (h3 (hauto hh)).shared rs2 g1⟩)
          have c4 := text_autoSync (P := P) (v := v') (auto := auto && r2.u.startTx ≠ r2.u.store.log.length) (r := r2) g1.sound b4
            (fun hh => ⟨(h3 (hauto hh)).text, (h3 (hauto hh)).choices⟩)
          cases hz : autoSync P Json.Spec.codec v' (auto && r2.u.startTx ≠ r2.u.store.log.length) r2 with
          | mk r3 o3 =>
            rw [hz] at hr c1 c4
            cases o3 with
            | panic => cases hr
            | err e => cases hr
            | ok x =>
              simp only [Prod.mk.injEq] at hr c1 c4
              obtain ⟨rfl, hr⟩ := hr
              obtain ⟨rs3, j1, j2, j3⟩ := c1 trivial
              refine ⟨⟨rs3, j1, fun x hx => j2 x (g2 x (k2 x hx)), fun x hx => ?_⟩, c4, hr⟩
              rcases j3 x hx with hx | ⟨e, hx⟩
              · rcases g3 x hx with hx | hx
                · exact (k3 x hx).imp id .inl
                · exact .inr (.inr (.inl hx))
              · exact .inr (.inr (.inr ⟨hauto e, hx⟩))

/-- Over the whole life of a file with users, `sync`s included: it opens for every user with the password that was set last for them,
wherever it was set, and holds what the last run left. -/
theorem C88_life_partial (P : Prims) (hP : Crypt.Spec.Lawful P) (f : Str) (rs : List Rec) (s : DB) (h : KeyYears P f rs s)
    (uuid user : Str) (hu : IsUser s uuid user) :
    ∃ x u, Newest rs x ∧ x.uuid = uuid ∧ openFile P Json.Spec.codec none f [some user, some x.pass] = (.ok u, []) ∧
      Keyed P u rs ∧ Spec.SameStore u.store s ∧ (∀ t ∈ u.store.log, Json.Spec.CleanTx t) ∧ u.creds.user = user := by
  induction h generalizing uuid user with
  | saved h1 h2 h3 h4 h5 h6 => exact C88_saved_partial P hP _ h1 _ h2 _ _ _ _ h3 h4 h5 h6 uuid user hu
  | next h1 h2 h3 h4 h5 hrun hr hk _ ih =>
    obtain ⟨x, u, k1, k2, k3, k4, k5, k6, -⟩ := ih _ _ h2
    have hx := newest_unique k4.ring k1 h3 (k2.trans h4.symm)
    subst hx
    rw [k3] at h5
    cases h5
    obtain ⟨-, c1, c2⟩ := C88_run_partial P hP _ _ _ _ _ _ _ _ _ k4 k6 hrun hr
    have hw := hrun.writable
    rw [hr] at hw
    exact C88_saved_partial P hP _ hrun.ord _ hrun.ord' _ _ _ _ hk c1 hw c2 uuid user hu

/-- And this goes on: whatever run comes next, there are records for the file it writes, those from before and new ones, whose passwords
were given in the run or which came with a `sync`. -/
theorem C88_next_partial (P : Prims) (hP : Crypt.Spec.Lawful P) (f : Str) (rs : List Rec) (s : DB) (h : KeyYears P f rs s)
    (uuid user : Str) (x : Rec) (hu : IsUser s uuid user) (hx : Newest rs x) (hxu : x.uuid = uuid) (auto : Bool) (v v' : Env) (iv : Str)
    (turns : List Turn) (u : Session) (r : Repl) (f' : Str)
    (ho : openFile P Json.Spec.codec none f [some user, some x.pass] = (.ok u, [])) (hrun : KeyRun P auto v v' iv turns u)
    (hr : session P Json.Spec.codec auto v v' iv turns u = (r, .ok (some f'))) :
    ∃ rs', KeyYears P f' rs' r.u.store ∧ (∀ y ∈ rs, y ∈ rs') ∧ ∀ y ∈ rs', y ∈ rs ∨ CameInRun P auto v v' turns u y := by
  obtain ⟨x', u', k1, k2, k3, k4, k5, k6, -⟩ := C88_life_partial P hP f rs s h uuid user hu
  have he := newest_unique k4.ring k1 hx (k2.trans hxu.symm)
  subst he
  have hu' : u' = u := by rw [k3] at ho; cases ho; rfl
  subst hu'
  obtain ⟨⟨rs', g1, g2, g3⟩, -, -⟩ := C88_run_partial P hP _ _ _ _ _ _ _ _ _ k4 k6 hrun hr
  exact ⟨rs', .next h hu hx hxu ho hrun hr g1 g2, g2, g3⟩

end Verif.App
