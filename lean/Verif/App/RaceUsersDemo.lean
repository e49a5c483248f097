import Verif.App.RaceProps
import Verif.App.CrewDemo
/-!
# C107 for files with users: the hypotheses can be met
-/
set_option linter.unusedSimpArgs false
namespace Verif.App
open Verif Verif.Txlogs Verif.Blob Verif.Crypt Verif.App.Spec
open Verif.Crypt.Spec (toy toy_lawful)
open Verif.Txlogs.Spec (LooksSame)

namespace RaceUsersDemo
open LockDemo (master)
open FleetDemo (opsN opsU upd upd_log v turnsN turnsU)
open CrewDemo (base logs C onA onB file afterA afterB rs F0 copies legalN legalU work crew_work crew_env faithful st_log0 st_log1)

attribute [local irreducible] CrewDemo.file

def st (a b : Session) (f : Str) (p : List Str) : Race := ⟨CrewDemo.st a b f, p⟩

theorem work0 (b : Session) (f : Str) (p : List Str) (turns : List Turn) :
    (st (onA base) b f p).step toy C (.work 0 turns) = st (afterA turns) b f p := by
  simp only [Race.step, st, CrewDemo.step_work0]

theorem work1 (a : Session) (f : Str) (p : List Str) (turns : List Turn) :
    (st a (onB base) f p).step toy C (.work 1 turns) = st a (afterB turns) f p := by
  simp only [Race.step, st, CrewDemo.step_work1]

/-- a machine with `u` that reads `f` gets `u'`, and writes `file u'` or nothing -/
structure Comes (u : Session) (f : Str) (u' : Session) (pushes : Bool) : Prop where
  syncs : collectSyncs (shareWorld f) v.ord u.store.updateSnapshot.1 = [[97]]
  session : (sync toy C (shareWorld f) v [] true u []).session = u'
  pushed : decide ((sync toy C (shareWorld f) v [] true u []).pushed = []) = !pushes
  sent : pushes = true → (sync toy C (shareWorld f) v [] true u []).sent = file u'

theorem Comes.ok {X : Race} {i : Nat} {u u' : Session} {f : Str} {l : List Tx} {b : Bool} (h : Comes u f u' b)
    (hm : X.fleet.machine i = u) (hu : u'.store = upd l) (hl : l ∈ logs) (hf : f ∈ X.past) : RaceEventOk toy C X (.sync i f v []) :=
  ⟨hf, by decide, Demo.perm_id', ⟨[97], by decide, by show collectSyncs _ _ (X.fleet.machine i).store.updateSnapshot.1 = _; rw [hm]; exact h.syncs⟩,
    by show Faithful C (sync toy C (shareWorld f) v [] true (X.fleet.machine i) []).session.store
       rw [hm, h.session, hu]; exact faithful hl⟩

theorem sync0 {a b a' : Session} {f g : Str} {p : List Str} (h : Comes a g a' true) :
    (st a b f p).step toy C (.sync 0 g v []) = st a' b (file a') (file a' :: p) := by
  have e : (st a b f p).step toy C (.sync 0 g v []) =
      let x := sync toy C (shareWorld g) v [] true a []
      let share := if x.pushed = [] then f else x.sent
      ⟨{ (st a b f p).fleet.set 0 x.session with share := share }, share :: p⟩ := rfl
  have hp := h.pushed
  simp only [Bool.not_true, decide_eq_false_iff_not] at hp
  rw [e]
  simp only [h.session, h.sent rfl, if_neg hp, Fleet.set, st, CrewDemo.st, Race.mk.injEq, Fleet.mk.injEq, and_true]
  funext j
  by_cases k : j = 0 <;> simp [k]

theorem sync1 {a b b' : Session} {f g : Str} {p : List Str} (h : Comes b g b' true) :
    (st a b f p).step toy C (.sync 1 g v []) = st a b' (file b') (file b' :: p) := by
  have e : (st a b f p).step toy C (.sync 1 g v []) =
      let x := sync toy C (shareWorld g) v [] true b []
      let share := if x.pushed = [] then f else x.sent
      ⟨{ (st a b f p).fleet.set 1 x.session with share := share }, share :: p⟩ := rfl
  have hp := h.pushed
  simp only [Bool.not_true, decide_eq_false_iff_not] at hp
  rw [e]
  simp only [h.session, h.sent rfl, if_neg hp, Fleet.set, st, CrewDemo.st, Race.mk.injEq, Fleet.mk.injEq, and_true]
  funext j
  by_cases k : j = 1 <;> simp [k]

theorem comes1 : Comes (afterA turnsN) (file (onA base)) (onA (base ++ opsN)) true :=
  ⟨by decide +kernel, by decide +kernel, by decide +kernel, fun _ => by decide +kernel⟩
theorem comes2 : Comes (afterB turnsU) (file (onA base)) (onB (base ++ opsU)) true :=
  ⟨by decide +kernel, by decide +kernel, by decide +kernel, fun _ => by decide +kernel⟩
theorem comes3 : Comes (onA (base ++ opsN)) (file (onB (base ++ opsU))) (onA (base ++ opsN ++ opsU)) true :=
  ⟨by decide +kernel, by decide +kernel, by decide +kernel, fun _ => by decide +kernel⟩
theorem comes4 : Comes (onB (base ++ opsU)) (file (onA (base ++ opsN ++ opsU))) (onB (base ++ opsN ++ opsU)) true :=
  ⟨by decide +kernel, by decide +kernel, by decide +kernel, fun _ => by decide +kernel⟩
theorem comes5 : Comes (onA (base ++ opsN ++ opsU)) (file (onB (base ++ opsN ++ opsU))) (onA (base ++ opsN ++ opsU)) false :=
  ⟨by decide +kernel, by decide +kernel, by decide +kernel, fun h => by cases h⟩

def X0 : Race := st (onA base) (onB base) (file (onA base)) [file (onA base)]

/-- both read the file as it was, and "b" writes last -/
def es : List RaceEvent := [.work 0 turnsN, .work 1 turnsU, .sync 0 (file (onA base)) v [], .sync 1 (file (onA base)) v []]
def s1 : List RaceEvent := [.sync 0 (file (onB (base ++ opsU))) v [], .sync 1 (file (onA (base ++ opsN ++ opsU))) v []]
def s2 : List RaceEvent := [.sync 0 (file (onB (base ++ opsN ++ opsU))) v []]

theorem run_es : X0.run toy C es = st (onA (base ++ opsN)) (onB (base ++ opsU)) (file (onB (base ++ opsU)))
    [file (onB (base ++ opsU)), file (onA (base ++ opsN)), file (onA base)] := by
  simp only [es, X0, Race.run, work0, work1, sync0 comes1, sync1 comes2]

theorem reads {f : Str} {l : List Tx} {X : Race} {i : Nat} (hs : readShare toy C (X.fleet.machine i).creds f = some l)
    (h : ∀ t ∈ X.fleet.log i ++ l, t.kind ≠ .del)
    (hn : l.length ≠ (X.fleet.log i).length ∨ l.getLast?.map Tx.time ≠ (X.fleet.log i).getLast?.map Tx.time ∨ l = X.fleet.log i) :
    (¬ ∃ d x, Spec.Conflict toy C (X.seen f) i d x) ∧
      ∀ R, readShare toy C (X.fleet.machine i).creds f = some R → LooksSame R (X.fleet.log i) → R = X.fleet.log i := by
  refine ⟨?_, ?_⟩
  · rintro ⟨d, x, R, h1, h2⟩
    have hs' : readShare toy C ((X.seen f).machine i).creds (X.seen f).share = some l := hs
    rw [hs'] at h1
    cases h1
    obtain ⟨a, -, b, -⟩ := h2
    exact h d (List.mem_append.2 a) b
  · intro R hR hl
    rw [hs] at hR
    cases hR
    rcases hn with k | k | k
    · exact absurd hl.1 k
    · exact absurd hl.2.2 k
    · exact k

theorem raceOk : RaceOk toy C (es ++ (s1 ++ s2)) X0 := by
  simp only [es, s1, s2, X0, List.cons_append, List.nil_append, RaceOk, work0, work1, sync0 comes1, sync1 comes2, sync0 comes3, sync1 comes4,
    and_true]
  exact ⟨work rfl rfl legalN (by decide +kernel) (by decide +kernel) (by decide +kernel) (by decide +kernel),
    work rfl rfl legalU (by decide +kernel) (by decide +kernel) (by decide +kernel) (by decide +kernel),
    comes1.ok rfl rfl (by simp [logs]) (.head _), comes2.ok rfl rfl (by simp [logs]) (.tail _ (.head _)),
    comes3.ok rfl rfl (by simp [logs]) (.head _), comes4.ok rfl rfl (by simp [logs]) (.head _),
    comes5.ok rfl rfl (by simp [logs]) (.head _)⟩

theorem crewOk : CrewRaceOk toy C base (es ++ (s1 ++ s2)) X0 := by
  simp only [es, s1, s2, X0, List.cons_append, List.nil_append, CrewRaceOk, work0]
  exact ⟨crew_work rfl rfl (by decide +kernel), crew_work rfl rfl (by decide +kernel), crew_env _ _, crew_env _ _, crew_env _ _,
    crew_env _ _, crew_env _ _, trivial⟩

theorem log0 (a b : Session) (f : Str) (p : List Str) : (st a b f p).fleet.log 0 = a.store.log := rfl
theorem log1 (a b : Session) (f : Str) (p : List Str) : (st a b f p).fleet.log 1 = b.store.log := rfl
theorem machine0 (a b : Session) (f : Str) (p : List Str) : (st a b f p).fleet.machine 0 = a := rfl
theorem machine1 (a b : Session) (f : Str) (p : List Str) : (st a b f p).fleet.machine 1 = b := rfl

-- C107: "b" overwrites what "a" has pushed, and after two rounds "a" has everything
example : CrewCopies toy C master rs F0 base ∧ X0 = ⟨F0, [F0.share]⟩ ∧ RaceOk toy C (es ++ (s1 ++ s2)) X0 ∧
    CrewRaceOk toy C base (es ++ (s1 ++ s2)) X0 ∧ OneByOne toy C (s1 ++ s2) (X0.run toy C es) ∧
    Clear toy C (s1 ++ s2) (X0.run toy C es) ∧ (∀ i ∈ racers s2, i ∈ racers s1) ∧ racers s1 = [0, 1] ∧
    (X0.run toy C es).fleet.share = file (onB (base ++ opsU)) := by
  refine ⟨copies, rfl, raceOk, crewOk, ?_, ?_, by simp [s1, s2, racers], rfl, by rw [run_es]; rfl⟩
  · rw [run_es]
    simp only [s1, s2, List.cons_append, List.nil_append, OneByOne, sync0 comes3, sync1 comes4, and_true]
    exact ⟨rfl, rfl, rfl⟩
  · rw [run_es]
    simp only [s1, s2, List.cons_append, List.nil_append, Clear, sync0 comes3, sync1 comes4, and_true]
    have h3 : ∀ p, _ := fun p => reads (X := st (onA (base ++ opsN)) (onB (base ++ opsU)) (file (onB (base ++ opsU))) p) (i := 0)
      (f := file (onB (base ++ opsU))) (l := base ++ opsU) (by rw [machine0]; decide +kernel) (by rw [log0]; decide +kernel) (by rw [log0]; decide +kernel)
    have h4 : ∀ p, _ := fun p => reads (X := st (onA (base ++ opsN ++ opsU)) (onB (base ++ opsU)) (file (onA (base ++ opsN ++ opsU))) p) (i := 1)
      (f := file (onA (base ++ opsN ++ opsU))) (l := base ++ opsN ++ opsU) (by rw [machine1]; decide +kernel) (by rw [log1]; decide +kernel) (by rw [log1]; decide +kernel)
    have h5 : ∀ p, _ := fun p => reads (X := st (onA (base ++ opsN ++ opsU)) (onB (base ++ opsN ++ opsU)) (file (onB (base ++ opsN ++ opsU))) p) (i := 0)
      (f := file (onB (base ++ opsN ++ opsU))) (l := base ++ opsN ++ opsU) (by rw [machine0]; decide +kernel) (by rw [log0]; decide +kernel) (by rw [log0]; decide +kernel)
    exact ⟨(h3 _).1, (h3 _).2, (h4 _).1, (h4 _).2, (h5 _).1, (h5 _).2⟩

end RaceUsersDemo
end Verif.App
