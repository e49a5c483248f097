import Verif.App.YearsSpec
import Verif.App.OwnSyncProps
import Verif.App.SyncTextProps
/-!
# C98 over the whole life of a file
-/
set_option linter.unusedSimpArgs false
namespace Verif.App
open Verif Verif.Txlogs Verif.Blob Verif.Crypt Verif.App.Spec

theorem text_autoSync {P : Prims} {v : Env} {auto : Bool} {r : Repl} (h : Sound r.u.store)
    (hc : ∀ t ∈ r.u.store.log, Json.Spec.CleanTx t) (ha : auto = true → TextWorld v.w ∧ SyncChoices (fun _ => True) v.v) :
    ∀ t ∈ (autoSync P Json.Spec.codec v auto r).1.u.store.log, Json.Spec.CleanTx t := by
  unfold autoSync
  by_cases hx : r.u.readOnly = false ∧ auto = true
  · rw [if_pos hx]
    obtain ⟨hw, hv⟩ := ha hx.2
    exact fun t ht => ((text_sync (P := P) (nm := []) (push := true) (inp := v.d.inp) (T := fun _ => True)
      (fun _ _ => trivial) hw hv ⟨h.wf.good.ok, fun t ht => ⟨hc t ht, trivial⟩⟩).ops t ht).1
  · rw [if_neg hx]; exact hc

theorem sound_sameStore {s s' : DB} (h : Sound s) (hs : Spec.SameStore s' s) : Sound s' :=
  ⟨wf_sameStore h.wf hs, hs.log ▸ h.own, hs.txPoint⟩

/-- One run: from a file in order whose texts are well-formed the program writes one again, and a passphrase that was given before
or during the run has the key that the file is written with; with every such passphrase the file opens and holds what the run left. -/
theorem C98_run_partial (P : Prims) (hP : Crypt.Spec.Lawful P) (auto : Bool) (v v' : Env) (iv : Str) (turns : List Turn) (u : Session)
    (pass f : Str) (r : Repl) (ho : OwnSession P u pass) (h : Sound u.store) (hc : ∀ t ∈ u.store.log, Json.Spec.CleanTx t)
    (hrun : Run P auto v v' iv turns u) (hr : session P Json.Spec.codec auto v v' iv turns u = (r, .ok (some f))) :
    (∃ q, Passed auto v v' turns pass q ∧ q ≠ [] ∧ r.u.creds.key = P.kdf q r.u.creds.salt) ∧
    ∀ q, q ≠ [] → r.u.creds.key = P.kdf q r.u.creds.salt → ∃ u', openFile P Json.Spec.codec none f [some q] = (.ok u', []) ∧
      OwnSession P u' q ∧ Spec.SameStore u'.store r.u.store ∧ Sound u'.store ∧ ∀ t ∈ u'.store.log, Json.Spec.CleanTx t := by
  have hs := C87_program_partial P Json.Spec.codec auto v v' iv turns u (some f) h (fun hh => (hrun.start hh).ok)
    (along_mono (fun _ _ _ h => h.1) _ _ hrun.lines) (fun hh => (hrun.stop hh).ok) (by rw [hr])
  obtain ⟨p1, a1, a2⟩ := own_autoSync hP (C := Json.Spec.codec) (v := v) (auto := auto) (r := { u := u }) ho
    (fun hh => ⟨(hrun.start hh).listens, (hrun.start hh).noUsers⟩)
  have a3 := sound_autoSync (P := P) (C := Json.Spec.codec) (v := v) (auto := auto) (r := { u := u }) h (fun hh => (hrun.start hh).ok)
  have a4 := text_autoSync (P := P) (v := v) (auto := auto) (r := { u := u }) h hc
    (fun hh => ⟨(hrun.start hh).text, (hrun.start hh).choices⟩)
  have h2 := hrun.lines
  have h3 := hrun.stop
  have ht := hrun.times
  have hn := hrun.counted
  rw [hr] at ht hn hs
  unfold session at hr
  cases hx : autoSync P Json.Spec.codec v auto { u := u } with
  | mk r1 o1 =>
    rw [hx] at hr a2 a3 a4 h2 h3
    cases o1 with
    | panic => cases hr
    | err e => cases hr
    | ok x =>
      simp only at h2 h3 hr a2 a3 a4
      have a3 := a3 trivial
      obtain ⟨p2, b1, b2⟩ := C98_session_partial P hP _ turns r1 p1 a2 (along_mono (fun _ _ _ h => h.2.1) _ _ h2)
      have b3 := C87_session_partial P Json.Spec.codec turns r1 a3 (along_mono (fun _ _ _ h => h.1) _ _ h2)
      have b4 := C77_whole_session_partial P turns r1 a3 a4 (along_mono (fun _ _ _ h => ⟨h.1, h.2.2⟩) _ _ h2)
      cases hy : runRepl P Json.Spec.codec turns r1 with
      | mk r2 o2 =>
        rw [hy] at hr b2 b3 b4 h3
        cases o2 with
        | panic => cases hr
        | err e => cases hr
        | ok x =>
          simp only at hr b2 b3 b4 h3
          have b3 := b3 trivial
          have b4 := b4 trivial
          obtain ⟨p3, c1, c2⟩ := own_autoSync hP (C := Json.Spec.codec) (v := v')
            (auto := auto && r2.u.startTx ≠ r2.u.store.log.length) (r := r2) b2
            (fun hh => by
              have hh : auto = true := by simp only [Bool.and_eq_true] at hh; exact hh.1
              exact ⟨(h3 hh).listens, (h3 hh).noUsers⟩)
          have c4 := text_autoSync (P := P) (v := v') (auto := auto && r2.u.startTx ≠ r2.u.store.log.length) (r := r2) b3 b4
            (fun hh => by
              have hh : auto = true := by simp only [Bool.and_eq_true] at hh; exact hh.1
              exact ⟨(h3 hh).text, (h3 hh).choices⟩)
          cases hz : autoSync P Json.Spec.codec v' (auto && r2.u.startTx ≠ r2.u.store.log.length) r2 with
          | mk r3 o3 =>
            rw [hz] at hr c2 c4
            cases o3 with
            | panic => cases hr
            | err e => cases hr
            | ok x =>
              simp only [Prod.mk.injEq] at hr c2 c4
              obtain ⟨rfl, hr⟩ := hr
              have hC : Faithful Json.Spec.codec r3.u.store :=
                Json.C11_partial _ (clean_of_log hs.wf.good.ok (fun t h => ⟨c4 t h, ht t h⟩) hn)
              refine ⟨⟨p3, ⟨p1, p2, a1, b1, c1.imp id (fun hh => ⟨by simpa using And.left (by simpa using hh.1), hh.2⟩)⟩, c2.pass_ne,
                c2.key⟩, fun q hq hk => ?_⟩
              obtain ⟨f', s', g1, g2, g3⟩ := C51_save_open_single P hP Json.Spec.codec v'.ord v'.ord' iv hrun.nonce r3.u c2.writable hs.tx hC
                c2.creds q hq hk
              rw [g1] at hr
              cases hr
              exact ⟨_, g3, ⟨rfl, rfl, ⟨rfl, c2.creds.key, c2.creds.salt⟩, hq, hk, .inl rfl⟩, g2, sound_sameStore hs g2,
                fun t h => c4 t (g2.log ▸ h)⟩

theorem own_start : OwnHistory (DB.new).log := C86_new

/-- Over the whole life of a file without users, `sync`s included: it opens with the passphrase, and holds what the last run left. -/
theorem C98_life_partial (P : Prims) (hP : Crypt.Spec.Lawful P) (f pass : Str) (s : DB) (h : Years P f pass s) :
    ∃ u, openFile P Json.Spec.codec none f [some pass] = (.ok u, []) ∧ OwnSession P u pass ∧ Spec.SameStore u.store s ∧
      Sound u.store ∧ ∀ t ∈ u.store.log, Json.Spec.CleanTx t := by
  induction h with
  | new hs hc hrun hr hp hq hk =>
    obtain ⟨h1, h2⟩ := own_new hP hs hc
    exact (C98_run_partial P hP _ _ _ _ _ _ _ _ _ h1 (by rw [h2]; exact ⟨wf_new_file, own_start, rfl⟩)
      (by rw [h2]; intro t ht; cases ht) hrun hr).2 _ hq hk
  | next _ ho hrun hr hp hq hk ih =>
    obtain ⟨u, k1, k2, k3, k4, k5⟩ := ih
    rw [k1] at ho
    cases ho
    exact (C98_run_partial P hP _ _ _ _ _ _ _ _ _ k2 k4 k5 hrun hr).2 _ hq hk

/-- And this goes on: whatever run comes next, the file it writes has a passphrase, one that was given before or during the run. -/
theorem C98_next_partial (P : Prims) (hP : Crypt.Spec.Lawful P) (f pass : Str) (s : DB) (h : Years P f pass s) (auto : Bool) (v v' : Env)
    (iv : Str) (turns : List Turn) (u : Session) (r : Repl) (f' : Str)
    (ho : openFile P Json.Spec.codec none f [some pass] = (.ok u, [])) (hrun : Run P auto v v' iv turns u)
    (hr : session P Json.Spec.codec auto v v' iv turns u = (r, .ok (some f'))) :
    ∃ q, Passed auto v v' turns pass q ∧ Years P f' q r.u.store := by
  obtain ⟨u', k1, k2, k3, k4, k5⟩ := C98_life_partial P hP f pass s h
  have hu : u' = u := by rw [k1] at ho; cases ho; rfl
  subst hu
  obtain ⟨⟨q, g1, g2, g3⟩, -⟩ := C98_run_partial P hP _ _ _ _ _ _ _ _ _ k2 k4 k5 hrun hr
  exact ⟨q, g1, .next h ho hrun hr g1 g2 g3⟩

end Verif.App
