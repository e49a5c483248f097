import Verif.App.PastLemmas
/-!
# C99: a file opened at a time in the past shows exactly what it held then
-/
namespace Verif.App
open Verif Verif.Txlogs Verif.Blob Verif.Crypt Verif.App.Spec
open Verif.Txlogs.Spec (GoodHistory Replays)
open Verif.Time (Stamp)

/-- Dates are counted in seconds: 1970 began at 0, every second counts one more than the one before it, and counting loses nothing. -/
theorem C99_calendar : Time.unix Time.Spec.epoch = 0 ∧ ∀ t, Time.Spec.Valid t →
    Time.unix (Time.Spec.tick t) = Time.unix t + 1 ∧ Time.civil (Time.unix t) = t :=
  ⟨Time.unix_epoch, fun _ h => ⟨Time.unix_tick h, Time.civil_unix h⟩⟩

/-- `--time` means the instant that is typed, for every second of the years 1678 to 2261. For other years see `C99_far_false`. -/
theorem C99_typed_partial (t : Stamp) (h : Time.Spec.Valid t) (hy : Counts t) :
    cliTime (Time.Spec.text t) = some (some (Time.unix t * 1000000000)) := by
  rw [cliTime_parse (Time.parse_text h) hy]
  simp

/-- Whatever is typed, a time that is accepted is a date that exists. -/
theorem C99_accepted (flag : Str) (x : Int) (h : cliTime flag = some (some x)) :
    ∃ t ns, Time.parse flag = some (t, ns) ∧ Time.Spec.Valid t ∧ ns < 1000000000 ∧
      (Counts t → x = Time.unix t * 1000000000 + ns) := by
  unfold cliTime at h
  split at h
  · cases h
  · split at h
    · cases h
    · rename_i t ns hp
      obtain ⟨h1, h2⟩ := Time.parse_valid hp
      refine ⟨t, ns, hp, h1, h2, fun hy => ?_⟩
      rw [not_zero h1 hy] at h
      rw [Time.unixNano_exact h1 h2 hy.1 hy.2] at h
      cases h
      rfl

/-- With anything typed after `--time`, the file is opened for changing only if what is typed is the first instant of the year 1 (see
`C99_zero_false`): what is not a date ends the program. -/
theorem C99_refused (P : Prims) (C : Codec) (flag f : Str) (inp rest : Input) (u : Session) (hf : flag ≠ []) :
    (Time.parse flag = none → openAt P C flag f inp = none) ∧
    (openAt P C flag f inp = some (.ok u, rest) →
      u.readOnly = true ∨ ∃ t, Time.parse flag = some (t, 0) ∧ Time.unix t = -62135596800) := by
  constructor
  · intro hp
    simp only [openAt, cliTime, if_neg hf, hp, Option.map_none]
  · intro h
    unfold openAt at h
    cases hc : cliTime flag with
    | none => rw [hc] at h; cases h
    | some x =>
      rw [hc] at h
      cases x with
      | some x => exact Or.inl (openFile_readOnly (Option.some.inj h))
      | none =>
        right
        unfold cliTime at hc
        rw [if_neg hf] at hc
        split at hc
        · cases hc
        · rename_i t ns hp
          split at hc
          · rename_i hz
            simp only [Time.isZero, Bool.and_eq_true, decide_eq_true_eq] at hz
            exact ⟨t, hz.2 ▸ hp, hz.1⟩
          · cases hc

/-- A file with a history as bpass writes it that can be opened can be opened at every time, for reading only, by whoever can open
it. It then shows what the operations up to that time amount to, and nothing else. -/
theorem C99_open_partial (P : Prims) (C : Codec) (t : Int) (f : Str) (inp rest : Input) (u : Session)
    (h : openFile P C none f inp = (.ok u, rest)) (hg : GoodHistory u.store.log) :
    ∃ u', openFile P C (some t) f inp = (.ok u', rest) ∧ u'.readOnly = true ∧ u'.creds = u.creds ∧
      Shows u'.store (u.store.log.filter (fun x => x.time ≤ t)) := by
  rw [← cutLog_chrono hg.chrono]
  refine openFile_past h ?_
  obtain ⟨r, hr⟩ := cutLog_prefix t u.store.log
  exact replays_prefix (b := r) (hr ▸ hg.replays)

/-- What a single-user file held at an instant is what it shows when it is opened at that instant, however many sessions came
later and whatever was done in them, `passwd` included: the password is the one given last. Without `sync` and `adduser` (see
`Life`); the clock never reads that instant or an earlier one again. -/
theorem C99_life_partial (P : Prims) (hP : Crypt.Spec.Lawful P) (T : Int) (s0 s : DB) (f pass : Str) (h : Since P T s0 f pass s) :
    ∃ u, openFile P Json.Spec.codec (some T) f [some pass] = (.ok u, []) ∧ u.readOnly = true ∧ Shows u.store s0.log := by
  obtain ⟨h1, h2, l, h3, h4⟩ := since_later hP h
  obtain ⟨u, k1, -, k3, -⟩ := C74_life_partial P hP _ _ _ (since_life h)
  have e : cutLog T u.store.log = s0.log := by rw [k3.log, h3]; exact cutLog_between h1 h4
  obtain ⟨u', g1, g2, -, g4⟩ := openFile_past k1 (e ▸ h2)
  exact ⟨u', g1, g2, e ▸ g4⟩

/-- The same for the time that is typed. -/
theorem C99_program_partial (P : Prims) (hP : Crypt.Spec.Lawful P) (t : Stamp) (ht : Time.Spec.Valid t) (hy : Counts t) (s0 s : DB)
    (f pass : Str) (h : Since P (Time.unix t * 1000000000) s0 f pass s) :
    ∃ u, openAt P Json.Spec.codec (Time.Spec.text t) f [some pass] = some (.ok u, []) ∧ u.readOnly = true ∧ Shows u.store s0.log := by
  obtain ⟨u, h1, h2, h3⟩ := C99_life_partial P hP _ _ _ _ _ h
  refine ⟨u, ?_, h2, h3⟩
  unfold openAt
  rw [C99_typed_partial t ht hy]
  simp only [Option.map_some, h1]

/-- The date shown for an instant, where the local time is UTC, is the second it falls into. Typed into `--time` it means the
beginning of that second, and the second after it means an instant after it. Elsewhere see `C99_zone_false`. -/
theorem C99_shown_partial (x : Int) (h1 : Time.unix { Time.Spec.first with year := 1678 } ≤ x / 1000000000)
    (h2 : x / 1000000000 < Time.unix { Time.Spec.first with year := 2261 }) :
    ∃ t, Time.Spec.Valid t ∧ retype (shownDate 0 x) = Time.Spec.text t ∧
      ∃ a, cliTime (Time.Spec.text t) = some (some a) ∧ a ≤ x ∧
        cliTime (Time.Spec.text (Time.Spec.tick t)) = some (some (a + 1000000000)) ∧ x < a + 1000000000 := by
  have e1 : Time.unix Time.Spec.first ≤ Time.unix { Time.Spec.first with year := 1678 } := by decide +kernel
  have e2 : Time.unix { Time.Spec.first with year := 2261 } ≤ Time.unix Time.Spec.last := by decide +kernel
  obtain ⟨hv, hu⟩ := Time.civil_spec (Int.le_trans e1 h1) (by omega)
  generalize hc : Time.civil (x / 1000000000) = t at hv hu
  have hyear : ∀ t, Time.Spec.Valid t → Time.unix { Time.Spec.first with year := 1678 } ≤ Time.unix t → 1678 ≤ t.year := by
    intro t hv hle
    obtain ⟨a, b⟩ := Time.unix_year_le hv
    apply Decidable.byContradiction
    intro hn
    have := Time.newyear_mono (y := t.year + 1) (z := 1678) (by have := hv.year; omega) (by omega)
    omega
  have hyear' : ∀ t, Time.Spec.Valid t → Time.unix t ≤ Time.unix { Time.Spec.first with year := 2261 } → t.year ≤ 2261 := by
    intro t hv hle
    obtain ⟨a, b⟩ := Time.unix_year_le hv
    apply Decidable.byContradiction
    intro hn
    have := Time.newyear_mono (y := 2262) (z := t.year) (by omega) (by omega)
    have e : Time.unix { Time.Spec.first with year := 2261 } < Time.unix { Time.Spec.first with year := 2262 } := by decide +kernel
    omega
  have hn := Time.unix_tick hv
  have hv' : Time.Spec.Valid (Time.Spec.tick t) := by
    rcases Time.valid_tick hv with h | h
    · exact h
    · rw [h] at hu
      have : Time.unix { Time.Spec.first with year := 2261 } < Time.unix Time.Spec.last := by decide +kernel
      omega
  refine ⟨t, hv, by rw [retype_shown, hc], _, C99_typed_partial t hv ⟨hyear t hv (by omega), hyear' t hv (by omega)⟩, by omega, ?_, by omega⟩
  rw [C99_typed_partial _ hv' ⟨hyear _ hv' (by omega), hyear' _ hv' (by omega)⟩, hn]
  congr 2
  omega

/-- In every time zone the date shown is the local date and time followed by the offset, which together are the instant. -/
theorem C99_local (zone x : Int) (hz : 60 ∣ zone) (h : zone.natAbs < 360000)
    (h1 : Time.unix Time.Spec.first ≤ x / 1000000000 + zone) (h2 : x / 1000000000 + zone ≤ Time.unix Time.Spec.last) :
    ∃ t z, Time.Spec.Valid t ∧ shownDate zone x = Time.Spec.date t ++ b! "T" ++ Time.Spec.clock t ++ z ∧ zoneOf z = some zone ∧
      Time.unix t - zone = x / 1000000000 := by
  obtain ⟨hv, hu⟩ := Time.civil_spec h1 h2
  refine ⟨_, Time.zoneText zone, hv, ?_, ?_, by rw [hu]; omega⟩
  · simp only [shownDate, Time.rfc3339, Time.Spec.date, Time.Spec.clock, List.append_assoc]
  · unfold Time.zoneText
    split
    · rename_i h; rw [h]; rfl
    · rename_i hne
      have hm : zone.natAbs % 60 = 0 := by omega
      split
      · rename_i hs
        have hneg : zone < 0 := by
          apply Decidable.byContradiction
          intro hn
          have := Int.tdiv_nonneg (a := zone) (b := 60) (by omega) (by omega)
          omega
        simp only [Time.two, List.cons_append, List.nil_append, zoneOf, Time.digitVal_digit]
        simp only [show (45 : UInt8) ≠ 43 from by decide, if_false, if_true]
        congr 1
        omega
      · rename_i hs
        have hpos : 0 ≤ zone := by
          apply Decidable.byContradiction
          intro hn
          have : zone.tdiv 60 = -(((-zone) / 60 : Int)) := by
            rw [← Int.tdiv_eq_ediv_of_nonneg (by omega), Int.neg_tdiv, Int.neg_neg]
          omega
        simp only [Time.two, List.cons_append, List.nil_append, zoneOf, Time.digitVal_digit, if_true]
        congr 1
        omega

/-- Not vacuous: two hours ahead of UTC, and three and a half behind. -/
example : shownDate 7200 1000000000000000000 = b! "2001-09-09T03:46:40+02:00" ∧
    shownDate (-12600) 1000000000000000000 = b! "2001-09-08T22:16:40-03:30" ∧
    zoneOf (b! "-03:30") = some (-12600) := by decide +kernel

end Verif.App
