import Verif.App.PastSpec
import Verif.App.HistoryLemmas
import Verif.App.AccessProps
import Verif.App.ReplProps
import Verif.Go.TimeLemmas
/-!
# Helper lemmas about opening a file in the past
-/
namespace Verif.App
open Verif Verif.Txlogs Verif.Blob Verif.Crypt Verif.App.Spec
open Verif.Txlogs.Spec (GoodHistory Replays)

theorem replays_prefix {a b : List Tx} (h : Replays (a ++ b)) : Replays a := by
  unfold Replays at h ⊢
  rw [meaning_append] at h
  cases ha : Txlogs.Spec.meaning Txlogs.Spec.empty a with
  | none => rw [ha] at h; cases h
  | some st => rfl

theorem cutLog_prefix (t : Int) (l : List Tx) : ∃ r, l = cutLog t l ++ r := by
  induction l with
  | nil => exact ⟨[], rfl⟩
  | cons x l ih =>
    unfold cutLog
    split
    · exact ⟨_, rfl⟩
    · obtain ⟨r, h⟩ := ih
      exact ⟨r, by rw [List.cons_append, ← h]⟩

theorem cutLog_between {t : Int} {a b : List Tx} (ha : ∀ x ∈ a, x.time ≤ t) (hb : ∀ x ∈ b, t < x.time) : cutLog t (a ++ b) = a := by
  induction a with
  | nil =>
    cases b with
    | nil => rfl
    | cons x b =>
      show cutLog t (x :: b) = []
      unfold cutLog
      rw [if_pos (hb x (by simp))]
  | cons x a ih =>
    show cutLog t (x :: (a ++ b)) = _
    unfold cutLog
    have := ha x (by simp)
    rw [if_neg (by omega), ih (fun y hy => ha y (by simp [hy]))]

theorem cutLog_chrono {t : Int} {l : List Tx} (h : Txlogs.Spec.Chrono l) : cutLog t l = l.filter (fun x => x.time ≤ t) := by
  induction l with
  | nil => rfl
  | cons x l ih =>
    obtain ⟨h1, h2⟩ := List.pairwise_cons.1 h
    unfold cutLog
    by_cases hx : x.time > t
    · rw [if_pos hx, List.filter_cons_of_neg (by simpa using hx)]
      symm
      rw [List.filter_eq_nil_iff]
      intro y hy
      have := h1 y hy
      simp only [decide_eq_true_eq]
      omega
    · rw [if_neg hx, List.filter_cons_of_pos (by simp only [decide_eq_true_eq]; omega), ih h2]

theorem openStore_past {t : Int} {c : Creds} {s : DB} (h : Replays (cutLog t s.log)) :
    ∃ s', openStore (some t) c (some s) = .ok { creds := c, store := s', readOnly := true, startTx := s'.log.length } ∧
      Shows s' (cutLog t s.log) := by
  have hc : Coherent ({ s.resetSnapshot with log := cutLog t s.log } : DB) := coherent_reset _ _
  unfold openStore
  dsimp only
  rcases updateSnapshot_spec hc with ⟨snap, h1, h2⟩ | ⟨e, n, snap, h1, -⟩
  · rw [h2]
    exact ⟨_, rfl, rfl, rfl, h1⟩
  · unfold Replays at h
    rw [h1] at h
    cases h

/-- a file opened at a time is for reading only -/
theorem openFile_readOnly {P : Prims} {C : Codec} {t : Int} {f : Str} {inp rest : Input} {u : Session}
    (h : openFile P C (some t) f inp = (.ok u, rest)) : u.readOnly = true := by
  unfold openFile at h
  split at h
  · cases h
  · cases h
  rename_i multi hm
  generalize (if multi = true then prompt inp else (some [], inp)) = q at h
  obtain ⟨user, inp⟩ := q
  simp only at h
  split at h
  · cases h
  split at h
  · cases h
  split at h
  · cases h
  · cases h
  split at h
  · split at h
    · cases h
    · cases h
    · rename_i s _
      have h := (Prod.mk.inj h).1
      cases s with
      | none => cases h; rfl
      | some s =>
        simp only [openStore] at h
        split at h
        · cases h
        · cases h; rfl
  · cases h

theorem openFile_past {P : Prims} {C : Codec} {t : Int} {f : Str} {inp rest : Input} {u : Session}
    (h : openFile P C none f inp = (.ok u, rest)) (hr : Replays (cutLog t u.store.log)) :
    ∃ u', openFile P C (some t) f inp = (.ok u', rest) ∧ u'.readOnly = true ∧ u'.creds = u.creds ∧
      Shows u'.store (cutLog t u.store.log) := by
  unfold openFile at h ⊢
  split at h
  · cases h
  · cases h
  rename_i multi hm
  try rw [hm]
  try dsimp only at h ⊢
  split at h
  · cases h
  rename_i user hu
  try rw [hu]
  try dsimp only at h ⊢
  split at h
  · cases h
  rename_i pwd inp' hp
  try rw [hp]
  try dsimp only at h ⊢
  split at h
  · cases h
  · cases h
  rename_i x p pt hd
  try rw [hd]
  try dsimp only at h ⊢
  split at h
  · rename_i key salt hk hs
    try rw [hk, hs]
    try dsimp only at h ⊢
    split at h
    · cases h
    · cases h
    rename_i s hl
    try rw [hl]
    try dsimp only
    cases s with
    | none =>
      simp only [openStore, Prod.mk.injEq, Res.ok.injEq] at h
      obtain ⟨rfl, rfl⟩ := h
      exact ⟨_, rfl, rfl, rfl, rfl, rfl, rfl⟩
    | some s =>
      simp only [openStore, Prod.mk.injEq, Res.ok.injEq] at h
      obtain ⟨rfl, rfl⟩ := h
      obtain ⟨s', h1, h2⟩ := openStore_past (c := { user := user, pass := pwd, key := key, salt := salt
                                                    master := p.master.getD [], ivm := p.ivm.getD [] }) hr
      refine ⟨_, congrArg (fun x => (x, inp')) h1, rfl, rfl, h2⟩
  · cases h

/-! ## what is added later -/

/-- `b` is `a` with operations appended that are later than `T` -/
def Later (T : Int) (a b : List Tx) : Prop := ∃ l, b = a ++ l ∧ ∀ x ∈ l, T < x.time

theorem Later.refl {T : Int} (a : List Tx) : Later T a a := ⟨[], by simp, by simp⟩

theorem Later.trans {T : Int} {a b c : List Tx} (h : Later T a b) (h' : Later T b c) : Later T a c := by
  obtain ⟨l, rfl, hl⟩ := h
  obtain ⟨m, rfl, hm⟩ := h'
  refine ⟨l ++ m, by simp, fun x hx => ?_⟩
  rcases List.mem_append.1 hx with hx | hx
  · exact hl x hx
  · exact hm x hx

theorem later_ticks {T : Int} {ts : List Int} {s s' : DB} (h : Ticks ts s s') (ht : ∀ t ∈ ts, T < t) : Later T s.log s'.log := by
  obtain ⟨l, h1, h2⟩ := h
  exact ⟨l, h1, fun x hx => ht _ (h2.subset (List.mem_map_of_mem hx))⟩

theorem late_rounds {T : Int} (n : Nat) : ∀ (ds : Nat → Draw), (∀ k i, T < (ds k).now i) → ∀ t ∈ roundTimes ds n, T < t := by
  induction n with
  | zero => intro ds _ t ht; cases ht
  | succ n ih =>
    intro ds h t ht
    simp only [roundTimes, List.mem_append, List.mem_cons, List.not_mem_nil, or_false] at ht
    rcases ht with (rfl | rfl | rfl) | ht
    · exact h 0 0
    · exact h 0 1
    · exact h 0 2
    · exact ih _ (fun k i => h (k + 1) i) t ht

theorem later_line {P : Prims} {C : Codec} {T : Int} {v : Env} {line : Str} {r : Repl} (h0 : r.u.store.txPoint = 0)
    (h : WellFormed r.u.store) (hl : LegalTurn v line r) (hT : LateTurn T v) (hn : (runLine P C v line r).2 ≠ .panic) :
    Later T r.u.store.log (runLine P C v line r).1.u.store.log := by
  rcases ticksR_line h0 h line hl hn with h1 | ⟨n, h1⟩
  · refine later_ticks h1 fun t ht => ?_
    obtain ⟨i, -, rfl⟩ := List.mem_map.1 ht
    exact hT.now i
  · exact later_ticks h1 (late_rounds n _ hT.nows)

theorem later_session {P : Prims} {C : Codec} {T : Int} (turns : List Turn) (r : Repl) (h0 : r.u.store.txPoint = 0)
    (h : WellFormed r.u.store) (hl : Along P C (fun v line r => LegalTurn v line r ∧ LateTurn T v) turns r)
    (hn : (runRepl P C turns r).2 ≠ .panic) : Later T r.u.store.log (runRepl P C turns r).1.u.store.log := by
  induction turns generalizing r with
  | nil => exact Later.refl _
  | cons t rest ih =>
    obtain ⟨o, v⟩ := t
    cases o with
    | none => exact Later.refl _
    | some line =>
      obtain ⟨⟨hl1, hl1'⟩, hl2⟩ := hl
      have key := C67_line_partial P C v line r h0 h hl1
      have key' := later_line (P := P) (C := C) h0 h hl1 hl1'
      unfold runRepl at hn ⊢
      cases hx : runLine P C v line r with
      | mk r' o =>
        rw [hx] at hn key key' hl2
        cases o with
        | panic => exact absurd rfl hn
        | err e => exact key' (by simp)
        | ok b =>
          obtain ⟨k1, k2⟩ := key (by simp)
          cases b with
          | true => exact key' (by simp)
          | false => exact (key' (by simp)).trans (ih r' k2 k1 hl2 hn)

theorem since_life {P : Prims} {T : Int} {s0 s : DB} {f pass : Str} (h : Since P T s0 f pass s) : Life P f pass s := by
  induction h with
  | «then» h _ => exact h
  | next _ ho hl hr hn hiv hf ih => exact .next ih ho (along_mono (fun _ _ _ h => h.1) _ _ hl) hr hn hiv hf

theorem since_later {P : Prims} (hP : Crypt.Spec.Lawful P) {T : Int} {s0 s : DB} {f pass : Str} (h : Since P T s0 f pass s) :
    (∀ t ∈ s0.log, t.time ≤ T) ∧ Replays s0.log ∧ Later T s0.log s.log := by
  induction h with
  | «then» h ht =>
    obtain ⟨u, -, -, h1, h2, -⟩ := C74_life_partial P hP _ _ _ h
    obtain ⟨st, h3, -⟩ := h2.good.named
    refine ⟨ht, ?_, Later.refl _⟩
    unfold Replays
    rw [← h1.log, h3]
    rfl
  | next hp ho hl hr hn hiv hf ih =>
    obtain ⟨h1, h2, h3⟩ := ih
    refine ⟨h1, h2, h3.trans ?_⟩
    obtain ⟨u', k1, k2, k3, k4, -⟩ := C74_life_partial P hP _ _ _ (since_life hp)
    rw [ho] at k1
    cases k1
    have := later_session _ _ k3.txPoint k4 (along_mono (fun _ _ _ h => ⟨h.1.turn.legal, h.2⟩) _ _ hl) (by rw [hr]; simp)
    rw [hr] at this
    rw [← k3.log]
    exact this

/-! ## dates -/

theorem shown_eq (t : Int) : shownDate 0 t = Time.Spec.date (Time.civil (t / 1000000000)) ++ b! "T" ++
    Time.Spec.clock (Time.civil (t / 1000000000)) ++ b! "Z" := by
  unfold shownDate Time.rfc3339 Time.Spec.date Time.Spec.clock
  simp only [Int.add_zero, List.append_assoc]
  rfl

theorem retype_eq (d c z : Str) (hd : d.length = 10) (hc : c.length = 8) : retype (d ++ b! "T" ++ c ++ z) = d ++ b! " " ++ c := by
  have e : d ++ b! "T" ++ c ++ z = (d ++ b! "T") ++ (c ++ z) := by simp
  have h1 : (d ++ b! "T" ++ c ++ z).take 10 = d := by
    rw [e, List.append_assoc, List.take_append_of_le_length (by omega), List.take_of_length_le (by omega)]
  have h2 : (d ++ b! "T" ++ c ++ z).drop 11 = c ++ z := by
    rw [e]
    exact List.drop_left' (by simp [hd])
  unfold retype
  rw [h1, h2, List.take_left' hc]

theorem retype_shown (t : Int) : retype (shownDate 0 t) = Time.Spec.text (Time.civil (t / 1000000000)) := by
  rw [shown_eq, retype_eq _ _ _ rfl rfl]
  rfl

theorem not_zero {t : Time.Stamp} {ns : Nat} (h : Time.Spec.Valid t) (hy : Counts t) : Time.isZero t ns = false := by
  have h1 := (Time.unix_year_le h).1
  have h2 := Time.newyear_mono (y := 1678) (z := t.year) (by omega) hy.1
  have e : Time.unix { Time.Spec.first with year := 1678 } = -9214560000 := by decide +kernel
  unfold Time.isZero
  rw [Bool.and_eq_false_iff]
  left
  simp only [decide_eq_false_iff_not]
  omega

theorem cliTime_parse {s : Str} {t : Time.Stamp} {ns : Nat} (h : Time.parse s = some (t, ns)) (hy : Counts t) :
    cliTime s = some (some (Time.unix t * 1000000000 + ns)) := by
  obtain ⟨hv, hn⟩ := Time.parse_valid h
  unfold cliTime
  have hs : s ≠ [] := by
    intro e
    rw [e] at h
    exact absurd h (by simp [Time.parse, Time.getYear])
  rw [if_neg hs, h]
  dsimp only
  rw [not_zero hv hy, Time.unixNano_exact hv hn hy.1 hy.2]
  rfl

end Verif.App
