import Verif.App.RaceLemmas
import Verif.App.CrewLemmas
/-!
# C107: machines that sync at the same time
-/
set_option linter.unusedSimpArgs false
namespace Verif.App
open Verif Verif.Txlogs Verif.Blob Verif.Crypt Verif.App.Spec
open Verif.Txlogs.Spec (LooksSame TouchedAfterDelete)

private theorem single_race {P : Prims} (hP : Crypt.Spec.Lawful P) {C : Codec} {c : Creds} (hc : SingleCreds c) (es : List RaceEvent)
    (X : Race) : (singleScheme hP C hc).race es X := by
  induction es generalizing X with
  | nil => trivial
  | cons e es ih => cases e <;> exact ⟨by simp [Scheme.event, singleScheme], ih _⟩

private theorem crew_race {P : Prims} (hP : Crypt.Spec.Lawful P) {C : Codec} {M : Str} {base : List Tx} {rs : List Rec} {cs : Nat → Creds}
    (hb : Txlogs.Spec.GoodHistory base) (hr : Keyring P M base rs) (hroom : Roomy P base) (hc : ∀ i, CredsOf P M base rs (cs i)) :
    ∀ (es : List RaceEvent) (X : Race), CrewRaceOk P C base es X → (crewScheme hP C hb hr hroom hc).race es X := by
  intro es
  induction es with
  | nil => intro X _; trivial
  | cons e es ih =>
    intro X h
    cases e with
    | work i turns =>
      exact ⟨(crew_run hP hb hr hroom hc [.work i turns] X.fleet ⟨h.1, trivial⟩).1, ih _ h.2⟩
    | sync i f v inp => exact ⟨h.1, ih _ h.2⟩

private theorem RInv.intact {P : Prims} {C : Codec} {K : Scheme P C} {x : Tx} {X : Race} {es es' : List RaceEvent} (h : RInv K x X)
    (hr : RaceOk P C (es ++ es') X) (hv : K.race (es ++ es') X) :
    let X1 := X.run P C es
    let X2 := X.run P C (es ++ es')
    (∀ i, (X2.fleet.machine i).creds = K.creds i ∧ Sound (X2.fleet.machine i).store ∧ ∀ t ∈ X1.fleet.log i, t ∈ X2.fleet.log i) ∧
      ∃ R, (K.log R ∧ K.saved X2.fleet.share R) ∧ (∀ i, readShare P C (K.creds i) X2.fleet.share = some R) ∧ OwnHistory R ∧
        ∀ t ∈ R, ∃ i, t ∈ X2.fleet.log i := by
  obtain ⟨r1, r2⟩ := raceOk_append hr
  obtain ⟨v1, v2⟩ := schemeRace_append hv
  obtain ⟨h1, -⟩ := h.run es r1 v1
  obtain ⟨h2, h3⟩ := h1.run es' r2 v2
  simp only [race_append]
  obtain ⟨R, hR⟩ := h2.held _ h2.now
  exact ⟨fun i => ⟨h2.creds i, h2.sound i, h3 i⟩, R, ⟨hR.log, hR.saved⟩, fun i => K.reads i hR.own hR.log hR.saved, hR.own, hR.src⟩

private theorem RInv.agree {P : Prims} {C : Codec} {K : Scheme P C} {x : Tx} {X : Race} {es s1 s2 : List RaceEvent} (h : RInv K x X)
    (hr : RaceOk P C (es ++ (s1 ++ s2)) X) (hv : K.race (es ++ (s1 ++ s2)) X) (ho : OneByOne P C (s1 ++ s2) (X.run P C es))
    (hc : Clear P C (s1 ++ s2) (X.run P C es)) (hsub : ∀ i ∈ racers s2, i ∈ racers s1) :
    let X1 := X.run P C es
    let X2 := X.run P C (es ++ (s1 ++ s2))
    ∃ R1 R2, (∀ i, readShare P C (K.creds i) X1.fleet.share = some R1 ∧ readShare P C (K.creds i) X2.fleet.share = some R2) ∧
      (K.log R2 ∧ K.saved X2.fleet.share R2) ∧ (∀ i ∈ racers s2, X2.fleet.log i = R2) ∧
      ∀ t, t ∈ R2 ↔ t ∈ R1 ∨ ∃ i ∈ racers s1, t ∈ X1.fleet.log i := by
  have ho' : ∀ (a b : List RaceEvent) (X : Race), OneByOne P C (a ++ b) X → OneByOne P C a X ∧ OneByOne P C b (X.run P C a) := by
    intro a b
    induction a with
    | nil => intro X h; exact ⟨trivial, h⟩
    | cons e a ih => intro X h; cases e with
      | work i t => exact h.elim
      | sync i f v inp => exact ⟨⟨h.1, (ih _ h.2).1⟩, (ih _ h.2).2⟩
  have hc' : ∀ (a b : List RaceEvent) (X : Race), Clear P C (a ++ b) X → Clear P C a X ∧ Clear P C b (X.run P C a) := by
    intro a b
    induction a with
    | nil => intro X h; exact ⟨trivial, h⟩
    | cons e a ih => intro X h; cases e with
      | work i t => exact ih _ h
      | sync i f v inp => exact ⟨⟨h.1, h.2.1, (ih _ h.2.2).1⟩, (ih _ h.2.2).2⟩
  obtain ⟨r1, r23⟩ := raceOk_append hr
  obtain ⟨r2, r3⟩ := raceOk_append r23
  obtain ⟨v1, v23⟩ := schemeRace_append hv
  obtain ⟨v2, v3⟩ := schemeRace_append v23
  obtain ⟨o2, o3⟩ := ho' _ _ _ ho
  obtain ⟨c2, c3⟩ := hc' _ _ _ hc
  obtain ⟨i1, -⟩ := h.run es r1 v1
  obtain ⟨R1, hR1⟩ := i1.held _ i1.now
  obtain ⟨R2, i2, hR2, g1, g2, -⟩ := i1.collect s1 hR1 r2 v2 o2 c2
  obtain ⟨i3, hR3, g4, -⟩ := i2.spread s2 hR2 r3 v3 o3 c3 (fun i hi => g2 i (hsub i hi))
  simp only [race_append]
  exact ⟨R1, R2, fun i => ⟨K.reads i hR1.own hR1.log hR1.saved, K.reads i hR3.own hR3.log hR3.saved⟩, ⟨hR3.log, hR3.saved⟩, g4, g1⟩

/-- C107: Whatever is done on however many machines, and however their syncs overlap: no machine loses an operation, every file stays
in order, and the shared file stays readable with the password, is a history bpass could have written itself, and holds only what some
machine has. -/
theorem C107_intact_partial (P : Prims) (hP : Crypt.Spec.Lawful P) (C : Codec) (c : Creds) (F : Fleet) (base : List Tx)
    (es es' : List RaceEvent) (h : Copies P C c F base) (hr : RaceOk P C (es ++ es') ⟨F, [F.share]⟩) :
    let X1 := Race.run P C es ⟨F, [F.share]⟩
    let X2 := Race.run P C (es ++ es') ⟨F, [F.share]⟩
    (∀ i, (X2.fleet.machine i).creds = c ∧ Sound (X2.fleet.machine i).store ∧ ∀ t ∈ X1.fleet.log i, t ∈ X2.fleet.log i) ∧
      ∃ R, readShare P C c X2.fleet.share = some R ∧ OwnHistory R ∧ ∀ t ∈ R, ∃ i, t ∈ X2.fleet.log i := by
  obtain ⟨x, hx⟩ := (Copies.inv hP h).race
  obtain ⟨h1, R, -, h2, h3⟩ := hx.intact hr (single_race hP h.single _ _)
  exact ⟨h1, R, h2 0, h3⟩

/-- C107: What overlapping syncs have overwritten on the share comes back: after any work and any overlapping syncs, when the machines
then sync one after the other twice, they have the same history, that of the shared file, with everything that any of them had. This
needs that no machine takes the log of the share for its own when it is not (`Clear`); without overlaps it never does (`C89`). -/
theorem C107_agree_partial (P : Prims) (hP : Crypt.Spec.Lawful P) (C : Codec) (c : Creds) (F : Fleet) (base : List Tx)
    (es s1 s2 : List RaceEvent) (h : Copies P C c F base) (hr : RaceOk P C (es ++ (s1 ++ s2)) ⟨F, [F.share]⟩)
    (ho : OneByOne P C (s1 ++ s2) (Race.run P C es ⟨F, [F.share]⟩)) (hc : Clear P C (s1 ++ s2) (Race.run P C es ⟨F, [F.share]⟩))
    (hsub : ∀ i ∈ racers s2, i ∈ racers s1) :
    let X1 := Race.run P C es ⟨F, [F.share]⟩
    let X2 := Race.run P C (es ++ (s1 ++ s2)) ⟨F, [F.share]⟩
    ∃ R1 R2, readShare P C c X1.fleet.share = some R1 ∧ readShare P C c X2.fleet.share = some R2 ∧
      (∀ i ∈ racers s2, X2.fleet.log i = R2) ∧ ∀ t, t ∈ R2 ↔ t ∈ R1 ∨ ∃ i ∈ racers s1, t ∈ X1.fleet.log i := by
  obtain ⟨x, hx⟩ := (Copies.inv hP h).race
  obtain ⟨R1, R2, h1, -, h2⟩ := hx.agree hr (single_race hP h.single _ _) ho hc hsub
  exact ⟨R1, R2, (h1 0).1, (h1 0).2, h2⟩

/-- C107: the same in files with users, as long as nobody touches the accounts -/
theorem C107_users_intact_partial (P : Prims) (hP : Crypt.Spec.Lawful P) (C : Codec) (M : Str) (rs : List Rec) (F : Fleet) (base : List Tx)
    (es es' : List RaceEvent) (h : CrewCopies P C M rs F base) (hr : RaceOk P C (es ++ es') ⟨F, [F.share]⟩)
    (hk : CrewRaceOk P C base (es ++ es') ⟨F, [F.share]⟩) :
    let X1 := Race.run P C es ⟨F, [F.share]⟩
    let X2 := Race.run P C (es ++ es') ⟨F, [F.share]⟩
    (∀ i, (X2.fleet.machine i).creds = (F.machine i).creds ∧ Sound (X2.fleet.machine i).store ∧
        ∀ t ∈ X1.fleet.log i, t ∈ X2.fleet.log i) ∧
      ∃ R, (∀ c, CredsOf P M base rs c → readShare P C c X2.fleet.share = some R) ∧ Keyring P M R rs ∧ OwnHistory R ∧
        ∀ t ∈ R, ∃ i, t ∈ X2.fleet.log i := by
  obtain ⟨x, hx⟩ := (CrewCopies.inv hP h).race
  obtain ⟨h1, R, ⟨h3, h4⟩, -, h5⟩ := hx.intact hr (crew_race hP _ h.ring h.roomy h.creds _ _ hk)
  refine ⟨h1, R, fun c hc => ?_, leaves_ring h.ring h3, h5⟩
  obtain ⟨q, pt, -, -, g1, g2, g3, -⟩ := crew_opens hP (CrewCopies.good h) h.ring h.roomy hc h3 h4
  simp only [readShare, g1, g2, if_false, g3]

theorem C107_users_agree_partial (P : Prims) (hP : Crypt.Spec.Lawful P) (C : Codec) (M : Str) (rs : List Rec) (F : Fleet) (base : List Tx)
    (es s1 s2 : List RaceEvent) (h : CrewCopies P C M rs F base) (hr : RaceOk P C (es ++ (s1 ++ s2)) ⟨F, [F.share]⟩)
    (hk : CrewRaceOk P C base (es ++ (s1 ++ s2)) ⟨F, [F.share]⟩)
    (ho : OneByOne P C (s1 ++ s2) (Race.run P C es ⟨F, [F.share]⟩)) (hc : Clear P C (s1 ++ s2) (Race.run P C es ⟨F, [F.share]⟩))
    (hsub : ∀ i ∈ racers s2, i ∈ racers s1) :
    let X1 := Race.run P C es ⟨F, [F.share]⟩
    let X2 := Race.run P C (es ++ (s1 ++ s2)) ⟨F, [F.share]⟩
    ∃ R1 R2, (∀ i, readShare P C (F.machine i).creds X1.fleet.share = some R1 ∧
        readShare P C (F.machine i).creds X2.fleet.share = some R2) ∧
      (∀ i ∈ racers s2, X2.fleet.log i = R2) ∧ ∀ t, t ∈ R2 ↔ t ∈ R1 ∨ ∃ i ∈ racers s1, t ∈ X1.fleet.log i := by
  obtain ⟨x, hx⟩ := (CrewCopies.inv hP h).race
  obtain ⟨R1, R2, h1, -, h2⟩ := hx.agree hr (crew_race hP _ h.ring h.roomy h.creds _ _ hk) ho hc hsub
  exact ⟨R1, R2, h1, h2⟩

/-- C107: If a machine takes the log of the share for its own because it has the same length and begins and ends at the same times,
`sync` does nothing on it; and when everything else there is is on the share already, that is so for ever, however often the machines
sync: it never gets what the others have, and they never get what it has. -/
theorem C107_apart (P : Prims) (hP : Crypt.Spec.Lawful P) (C : Codec) (c : Creds) (F : Fleet) (base : List Tx)
    (es es' : List RaceEvent) (h : Copies P C c F base) (hr : RaceOk P C (es ++ es') ⟨F, [F.share]⟩) (i : Nat) (R : List Tx) :
    let X := Race.run P C es ⟨F, [F.share]⟩
    let X' := Race.run P C (es ++ es') ⟨F, [F.share]⟩
    readShare P C c X.fleet.share = some R → LooksSame R (X.fleet.log i) → (∀ t, t ∈ R ↔ ∃ j, j ≠ i ∧ t ∈ X.fleet.log j) →
    OneByOne P C es' X →
    readShare P C c X'.fleet.share = some R ∧ X'.fleet.log i = X.fleet.log i ∧ ∀ j, j ≠ i → ∀ t ∈ X'.fleet.log j, t ∈ R := by
  intro X X' hR hl hs ho
  obtain ⟨x, hx⟩ := (Copies.inv hP h).race
  obtain ⟨r1, r2⟩ := raceOk_append hr
  obtain ⟨h1, -⟩ := hx.run es r1 (single_race hP h.single _ _)
  obtain ⟨R', hR'⟩ := h1.held _ h1.now
  have hRR : R' = R := by
    have := (singleScheme hP C h.single).reads 0 hR'.own hR'.log hR'.saved
    exact Option.some.inj (this.symm.trans hR)
  subst hRR
  obtain ⟨-, g1, g2, g3⟩ := h1.apart (i := i) es' hR' r2 (single_race hP h.single _ _) ho hl
    (fun j hj t ht => (hs t).2 ⟨j, hj, ht⟩) (fun t ht => (hs t).1 ht)
  have e : X' = Race.run P C es' X := race_append ..
  rw [e]
  exact ⟨(singleScheme hP C h.single).reads 0 g1.own g1.log g1.saved, g2, g3⟩

end Verif.App
