import Verif.App.Merging
import Verif.Txlogs.MergeProps
import Verif.Blob.Lemmas2
/-!
# Properties of the interactive merge: C22, C24, C25, C64

C23 is in `SyncProps.lean`.
-/
set_option linter.unusedSimpArgs false
namespace Verif.App
open Verif Verif.Txlogs Verif.Blob Verif.Txlogs.Spec

/-! ## Helper lemmas -/

theorem resolveAll_ok {cs cs' : List Conflict} {inp rest : Input} (h : resolveAll cs inp = (.ok cs', rest)) :
    (∀ c ∈ cs, c.kind = .root) ∧ cs' = cs.map Conflict.force := by
  induction cs generalizing cs' inp with
  | nil => simp [resolveAll] at h; simp [h]
  | cons c cs ih =>
    simp only [resolveAll] at h
    cases hk : c.kind with
    | root =>
      rw [hk] at h
      cases hy : getYesNo inp with
      | mk y r =>
        rw [hy] at h
        cases y with
        | none => simp at h
        | some y =>
          cases y with
          | false => simp at h
          | true =>
            simp only at h
            cases hr : resolveAll cs r with
            | mk x r' =>
              rw [hr] at h
              cases x with
              | ok x =>
                simp only [Prod.mk.injEq, Res.ok.injEq] at h
                obtain ⟨h1, h2⟩ := h
                subst h1
                subst h2
                obtain ⟨h3, h4⟩ := ih hr
                refine ⟨?_, by simp [h4]⟩
                intro c' hc'
                rcases List.mem_cons.1 hc' with rfl | hc'
                · exact hk
                · exact h3 c' hc'
              | err => simp at h
              | panic => simp at h
    | deleteSet =>
      rw [hk] at h
      have := askRestore_none c inp
      cases hy : askRestore c inp with
      | mk y r =>
        rw [hy] at h this
        simp only at this
        subst this
        simp at h

theorem resolveAll_no_panic (cs : List Conflict) (inp : Input) : (resolveAll cs inp).1 ≠ .panic := by
  induction cs generalizing inp with
  | nil => simp [resolveAll]
  | cons c cs ih =>
    simp only [resolveAll]
    cases hk : c.kind with
    | root =>
      cases hy : getYesNo inp with
      | mk y r =>
        cases y with
        | none => simp
        | some y =>
          cases y with
          | false => simp
          | true =>
            simp only
            have := ih r
            cases hr : resolveAll cs r with
            | mk x r' =>
              rw [hr] at this
              cases x with
              | ok x => simp
              | err => simp
              | panic => exact absurd rfl this
    | deleteSet =>
      cases hy : askRestore c inp with
      | mk y r =>
        cases y with
        | none => simp
        | some y =>
          have := askRestore_none c inp
          rw [hy] at this; cases this

theorem mergeRounds_log {loc rem c : List Tx} {cs : List Conflict} (inp : Input) (h : merge loc rem cs = .log c) :
    mergeRounds loc rem cs inp = (.ok c, inp) := by
  rw [mergeRounds, h]

theorem mergeRounds_conflicts {loc rem : List Tx} {R : List Conflict} {c : Conflict} {cs : List Conflict} (inp : Input)
    (h : merge loc rem R = .conflicts (c :: cs)) :
    mergeRounds loc rem R inp =
      match resolveAll (c :: cs) inp with
      | (.ok cs', rest) => mergeRounds loc rem cs' rest
      | (.err e, rest) => (.err e, rest)
      | (.panic, rest) => (.panic, rest) := by
  rw [mergeRounds, h]
  simp only
  split <;> simp_all

theorem resolve_not_root {cs : List Conflict} {inp : Input} {c : Conflict} (hc : c ∈ cs) (hk : c.kind = .deleteSet) :
    ∃ e rest, resolveAll cs inp = (.err e, rest) := by
  cases h : resolveAll cs inp with
  | mk x rest =>
    cases x with
    | ok cs' => have := (resolveAll_ok h).1 c hc; rw [hk] at this; cases this
    | err e => exact ⟨e, rest, rfl⟩
    | panic => exact absurd (by rw [h]) (resolveAll_no_panic cs inp)

/-! ## C22 -/

/-- C22 is false, in the strongest sense: if an entry was deleted on one side and edited on the other, the merge never
completes, whatever the user answers: the R/D prompt is repeated until it is aborted. -/
theorem C22_never_completes (loc rem : List Tx) (cs : List Conflict) (c : Conflict) (inp : Input)
    (hr : rem ≠ []) (h : merge loc rem [] = .conflicts cs) (hc : c ∈ cs) (hk : c.kind = .deleteSet) :
    ∃ e, (mergeLogs loc rem inp).1 = .err e := by
  simp only [mergeLogs, hr, if_false]
  cases cs with
  | nil => simp at hc
  | cons c0 cs =>
    obtain ⟨e, rest, he⟩ := resolve_not_root (inp := inp) hc hk
    rw [mergeRounds_conflicts inp h, he]
    exact ⟨e, rfl⟩

/-- C22 as stated is false. -/
theorem C22_false : ¬ ∀ (loc rem : List Tx) (c : Conflict), GoodHistory loc → GoodHistory rem → SameFile loc rem →
    merge loc rem [] = .conflicts [c] → c.kind = .deleteSet →
    ∃ log rest, mergeLogs loc rem [some (b! "R")] = (.ok log, rest) := by
  intro h
  obtain ⟨log, rest, h1⟩ := h exDel exEdit exConf exDel_good exEdit_good exDE_same exDE_merge rfl
  obtain ⟨e, h2⟩ := C22_never_completes exDel exEdit [exConf] exConf [some (b! "R")] (by simp [exEdit]) exDE_merge
    (by simp) rfl
  rw [h1] at h2; cases h2

/-- C22 (partial): without a conflict the merge completes without asking; with nothing but the warning about a missing common
root, `yes` completes it with all operations of both sides, `no` or an interrupt aborts it. -/
theorem C22_without_deletes_partial (loc rem : List Tx) (inp : Input) (hl : GoodHistory loc) (hr : GoodHistory rem)
    (hs : SameFile loc rem) (hne : rem ≠ []) (hno : ¬ ∃ d x, TouchedAfterDelete loc rem d x) :
    (¬ NoCommonRoot loc rem → ∃ c, merge loc rem [] = .log c ∧ GoodHistory c ∧ mergeLogs loc rem inp = (.ok c, inp)) ∧
    (NoCommonRoot loc rem →
      (∀ rest, getYesNo inp = (some true, rest) →
        ∃ c, mergeLogs loc rem inp = (.ok c, rest) ∧ GoodHistory c ∧ ∀ t, t ∈ c ↔ t ∈ loc ∨ t ∈ rem) ∧
      (∀ b rest, getYesNo inp = (b, rest) → b ≠ some true → ∃ e, mergeLogs loc rem inp = (.err e, rest))) := by
  have hd : ∀ c, merge loc rem [] = .log c → GoodHistory c := fun c hc => C17_merge_replays _ _ _ hl hr hs hc
  have hnp := C21_total_partial loc rem (.inr hne)
  have hcs : ∀ cs, merge loc rem [] = .conflicts cs → ∀ c ∈ cs, c.kind = .root := by
    intro cs h c hc
    obtain ⟨-, -, h3⟩ := C18_conflicts_named loc rem hl hr hs cs h c hc
    cases hk : c.kind with
    | root => rfl
    | deleteSet => exact absurd ⟨_, _, h3 hk⟩ hno
  constructor
  · intro hroot
    cases h : merge loc rem [] with
    | panic => exact absurd h hnp
    | log c => exact ⟨c, rfl, hd c h, by simp only [mergeLogs, hne, if_false]; exact mergeRounds_log inp h⟩
    | conflicts cs =>
      obtain ⟨-, ds, h1, -⟩ := first_pass hl hr hs h
      cases cs with
      | nil =>
        rcases merge_nil loc rem (.inr hne) with ⟨-, h2⟩ | ⟨-, st', -, -, -, -, h2⟩
        · rw [h2] at h; cases h
        · rw [h2] at h
          split at h
          · cases h
          · rename_i hst; simp only [MergeRes.conflicts.injEq] at h; exact absurd h hst
      | cons c cs =>
        have hk := hcs _ h c (by simp)
        exact absurd ((C18_conflicts_named loc rem hl hr hs _ h c (by simp)).2.1 hk).1 hroot
  · intro hroot
    obtain ⟨x, a', y, b', rfl, rfl, hxy⟩ := hroot
    obtain ⟨cs, h⟩ := C20_root_reported x y a' b' hxy
    obtain ⟨-, ds, h1, h2, -⟩ := first_pass hl hr hs h
    have hrc : rootConf [] (x :: a') (y :: b') = [{ kind := .root, initial := x, conflict := y }] := by
      simp [rootConf, hxy, rootForced]
    rw [hrc] at h1
    simp only [List.cons_append, List.nil_append, List.cons.injEq, true_and] at h1
    have hds : ds = [] := by
      cases ds with
      | nil => rfl
      | cons c ds =>
        have := (h2 c (by simp)).kind
        have h3 := hcs _ h c (by simp [h1])
        rw [this] at h3; cases h3
    rw [h1, hds] at h
    simp only [mergeLogs, hne, if_false]
    rw [mergeRounds_conflicts inp h]
    constructor
    · intro rest hy
      simp only [resolveAll, hy]
      obtain ⟨c, h3, h4, h5⟩ := C19_one_round _ _ hl hr hs _ h (fun _ => true)
      rw [mergeRounds_log rest (c := c) (by simpa [answer] using h3)]
      refine ⟨c, rfl, h4, ?_⟩
      intro t
      rw [h5]
      simp [Discarded]
    · intro b rest hy hb
      cases b with
      | none => simp only [resolveAll, hy]; exact ⟨_, rfl⟩
      | some b =>
        cases b with
        | true => exact absurd rfl hb
        | false => simp only [resolveAll, hy]; exact ⟨_, rfl⟩

/-- C22 (safety, for all inputs): merging two histories of the same file never crashes, and whatever log it returns is again a
good history. -/
theorem C22_good_partial (loc rem : List Tx) (inp : Input) (hl : GoodHistory loc) (hr : GoodHistory rem)
    (hs : SameFile loc rem) :
    (mergeLogs loc rem inp).1 ≠ .panic ∧
    ∀ c, (mergeLogs loc rem inp).1 = .ok c → GoodHistory c := by
  by_cases hne : rem = []
  · simp only [mergeLogs, hne, if_true]
    exact ⟨by simp, fun c hc => by cases hc; exact hl⟩
  · simp only [mergeLogs, hne, if_false]
    cases h : merge loc rem [] with
    | panic => exact absurd h (C21_total_partial loc rem (.inr hne))
    | log c =>
      rw [mergeRounds_log inp h]
      exact ⟨by simp, fun c' hc' => by cases hc'; exact C17_merge_replays _ _ _ hl hr hs h⟩
    | conflicts cs =>
      cases cs with
      | nil =>
        rw [mergeRounds, h]
        exact ⟨by simp, fun c hc => by cases hc; exact ⟨by simp [Chrono], rfl, by simp [KnownKinds], by simp [AddsOnce]⟩⟩
      | cons c0 cs =>
        rw [mergeRounds_conflicts inp h]
        cases hres : resolveAll (c0 :: cs) inp with
        | mk x rest =>
          cases x with
          | panic => exact absurd (by rw [hres]) (resolveAll_no_panic (c0 :: cs) inp)
          | err e => simp
          | ok cs' =>
            obtain ⟨h1, h2⟩ := resolveAll_ok hres
            have : cs' = (c0 :: cs).map (answer (fun _ => true)) := by
              rw [h2]
              exact List.map_congr_left (fun c hc => by simp [answer, h1 c hc])
            obtain ⟨c, h3, h4, -⟩ := C19_one_round _ _ hl hr hs _ h (fun _ => true)
            rw [← this] at h3
            simp only [mergeRounds_log rest h3]
            exact ⟨by simp, fun c' hc' => by cases hc'; exact h4⟩

-- the hypotheses of C22_without_deletes_partial hold for concrete logs
example : GoodHistory exA ∧ GoodHistory exB ∧ SameFile exA exB ∧ ¬ NoCommonRoot exA exB ∧
    ¬ ∃ d x, TouchedAfterDelete exA exB d x := by
  refine ⟨exA_good, exB_good, exAB_same, ?_, ?_⟩
  · rintro ⟨x, a', y, b', h1, h2, h3⟩
    simp only [exA, exB, List.cons.injEq] at h1 h2
    rw [← h1.1, ← h2.1] at h3; exact h3 rfl
  · rintro ⟨d, x, h1, h2, h3, h4, h5, h6⟩
    simp only [exA, exB, List.mem_cons, List.not_mem_nil, or_false] at h1 h2
    rcases h1 with (rfl | rfl) | (rfl | rfl | rfl) <;> rcases h2 with (rfl | rfl) | (rfl | rfl | rfl) <;> simp_all

/-! ## C24 -/

theorem mergeRemotes_creds (ord : Order) (u : Creds) (rs : List Remote) (m m' : Merged) (inp rest : Input)
    (h : mergeRemotes ord u rs m inp = (.ok m', rest)) :
    m'.creds = m.creds ∨ ∃ r ∈ rs, m'.creds = r.creds := by
  induction rs generalizing m inp with
  | nil => simp [mergeRemotes] at h; left; rw [h.1]
  | cons r rs ih =>
    simp only [mergeRemotes] at h
    cases h1 : mergeLogs m.log r.log inp with
    | mk x rest1 =>
      rw [h1] at h
      cases x with
      | panic => simp at h
      | err e => simp at h
      | ok merged =>
        simp only at h
        cases h2 : takeRemote ord u m r merged rest1 with
        | mk y rest2 =>
          rw [h2] at h
          cases y with
          | panic => simp at h
          | err e => simp at h
          | ok take =>
            simp only at h
            rcases ih _ _ h with h3 | ⟨r', h3, h4⟩
            · cases take with
              | false => left; simpa using h3
              | true => right; exact ⟨r, by simp, by simpa using h3⟩
            · right; exact ⟨r', by simp [h3], h4⟩

/-- C24: after merging any list of remotes the six credentials are all those of the session or all those of one remote. -/
theorem C24_unit (ord : Order) (u : Creds) (log : List Tx) (rs : List Remote) (inp rest : Input) (m : Merged)
    (h : mergeBlobs ord u log rs inp = (.ok m, rest)) :
    m.creds = u ∨ ∃ r ∈ rs, m.creds = r.creds :=
  mergeRemotes_creds ord u rs _ m inp rest h

/-! ## C25 -/

/-- C25 (partial: one remote, both logs non-empty): between single-user files with different keys the remote's credentials
are adopted exactly if its last operation is newer, or equally new and the user says yes. -/
theorem C25_newest_wins_partial (ord : Order) (u : Creds) (log : List Tx) (r : Remote) (inp rest : Input)
    (merged : List Tx) (l r' : Tx) (hu : u.master = []) (hr : r.creds.master = []) (hk : u.key ≠ r.creds.key)
    (hl : log.getLast? = some l) (hr' : r.log.getLast? = some r')
    (hm : mergeLogs log r.log inp = (.ok merged, rest)) :
    (l.time < r'.time → mergeBlobs ord u log [r] inp = (.ok ⟨r.creds, merged⟩, rest)) ∧
    (r'.time < l.time → mergeBlobs ord u log [r] inp = (.ok ⟨u, merged⟩, rest)) ∧
    (l.time = r'.time →
      (∀ b rest', getYesNo rest = (some b, rest') →
        mergeBlobs ord u log [r] inp = (.ok ⟨if b then r.creds else u, merged⟩, rest')) ∧
      (∀ rest', getYesNo rest = (none, rest') → ∃ e, mergeBlobs ord u log [r] inp = (.err e, rest'))) := by
  simp only [mergeBlobs, mergeRemotes, hm, takeRemote, hu, hr, hk, and_self, if_true, if_false, hl, hr']
  refine ⟨?_, ?_, ?_⟩
  · intro h; simp [h]
  · intro h
    simp [show ¬ l.time < r'.time by omega, show ¬ l.time = r'.time by omega]
  · intro h
    simp only [show ¬ l.time < r'.time by omega, h, Int.lt_irrefl, if_false, if_true]
    exact ⟨fun b rest' hy => by simp [hy], fun rest' hy => by simp [hy]⟩

/-- C25 (same key): a remote with the key of the session does not change the credentials. -/
theorem C25_same_key (ord : Order) (u : Creds) (log : List Tx) (r : Remote) (inp rest : Input) (merged : List Tx)
    (hu : u.master = []) (hr : r.creds.master = []) (hk : u.key = r.creds.key)
    (hm : mergeLogs log r.log inp = (.ok merged, rest)) :
    mergeBlobs ord u log [r] inp = (.ok ⟨u, merged⟩, rest) := by
  simp [mergeBlobs, mergeRemotes, hm, takeRemote, hu, hr, hk]

/-- C25 as stated is false: a remote file with an empty log and another key crashes the merge. -/
theorem C25_false : ¬ ∀ (ord : Order) (u : Creds) (log : List Tx) (r : Remote) (inp : Input),
    u.master = [] → r.creds.master = [] → (mergeBlobs ord u log [r] inp).1 ≠ .panic := by
  intro h
  exact h id { key := [1] } [⟨1, .add, b! "u", [], []⟩] { creds := { key := [2] }, log := [] } [] rfl rfl rfl

section
private def t1 : Tx := ⟨1, .add, b! "u", [], []⟩
private def t2 : Tx := ⟨2, .setk, b! "u", b! "k", b! "v"⟩
private def t3 : Tx := ⟨3, .setk, b! "u", b! "k", b! "w"⟩
private def uc : Creds := { key := [1] }
private def r1 : Remote := { creds := { key := [2] }, log := [t1, t2] }
private def r2 : Remote := { creds := { key := [1] }, log := [t1, t2, t3] }

theorem two_logs : mergeLogs [t1] [t1, t2] [] = (.ok [t1, t2], []) := by
  simp only [mergeLogs, reduceCtorEq, if_false]
  exact mergeRounds_log [] (by
    simp [merge, fastPath, t1, t2, mergeLoop, appendRest, checkConflict, MState.push, GoMap.get?])

theorem three_logs : mergeLogs [t1, t2] [t1, t2, t3] [] = (.ok [t1, t2, t3], []) := by
  simp only [mergeLogs, reduceCtorEq, if_false]
  exact mergeRounds_log [] (by
    simp [merge, fastPath, t1, t2, t3, mergeLoop, appendRest, checkConflict, MState.push, GoMap.get?])

/-- C25 is also false for several remotes: the key of every remote is compared with the key the session started with, so the
credentials of an older remote win over those of the newest one. -/
theorem C25_several_false : ¬ ∀ (ord : Order) (u : Creds) (log : List Tx) (r1 r2 : Remote) (inp rest : Input) (m : Merged)
    (x y : Tx), u.master = [] → r1.creds.master = [] → r2.creds.master = [] →
    r1.log.getLast? = some x → r2.log.getLast? = some y → x.time < y.time →
    mergeBlobs ord u log [r1, r2] inp = (.ok m, rest) → m.creds.key = r2.creds.key ∨ m.creds.key ≠ r1.creds.key := by
  intro h
  have := h id uc [t1] r1 r2 [] [] ⟨r1.creds, [t1, t2, t3]⟩ t2 t3 rfl rfl rfl rfl rfl (by decide) (by
    have e1 : takeRemote id uc ⟨uc, [t1]⟩ r1 [t1, t2] [] = (.ok true, []) := by decide
    have e2 : takeRemote id uc ⟨r1.creds, [t1, t2]⟩ r2 [t1, t2, t3] [] = (.ok false, []) := by decide
    simp only [mergeBlobs, mergeRemotes]
    rw [show r1.log = [t1, t2] from rfl, show r2.log = [t1, t2, t3] from rfl, two_logs]
    simp only [e1, if_true]
    rw [three_logs]
    simp only [e2]
    rfl)
  revert this
  decide

-- the hypotheses of C25_newest_wins_partial are met
example : uc.master = [] ∧ r1.creds.master = [] ∧ uc.key ≠ r1.creds.key ∧ [t1].getLast? = some t1 ∧
    r1.log.getLast? = some t2 ∧ mergeLogs [t1] r1.log [] = (.ok [t1, t2], []) :=
  ⟨rfl, rfl, by decide, rfl, rfl, two_logs⟩
end

/-! ## C64 Merging a single-user file with a multi-user file -/

/-- some visible entry of the log is a user entry -/
def HasUsers (log : List Tx) : Prop :=
  ∃ u n, Blob.Spec.Named { log := log } u n ∧ hasPrefix n userPrefix = true

theorem users_hasUsers {ord : Order} (hord : ∀ m, (ord m).Perm m) {log : List Tx} {s : DB} {us : Results}
    (h : users ord { log := log } = (s, .ok us)) : us ≠ [] ↔ HasUsers log := by
  have hok : Ok ({ log := log } : DB) := ⟨⟨by simp, rfl⟩, GoMap.nodupKeys_nil, inner_nil⟩
  obtain ⟨h1, h2, h3⟩ := withSnapshot_ok hok h
  generalize hs' : (DB.updateSnapshot { log := log }).1 = s' at h1 h2 h3
  cases hc : collect (fun e => (name e).map isUserEntry) (ord s'.snapshot) [] with
  | none => rw [hc] at h1; simp at h1
  | some r =>
    rw [hc] at h1
    simp only [Prod.mk.injEq, Res.ok.injEq] at h1
    obtain ⟨-, rfl⟩ := h1
    have spec := collect_spec _ _ _ (order_nodup h2.nodup (hord _)) hc
    have hmem : ∀ u n, r.get? u = some n ↔ Blob.Spec.Named { log := log } u n ∧ hasPrefix n userPrefix = true := by
      intro u n
      rw [spec, ← named_log h3, named_fresh h2]
      constructor
      · rintro ⟨e, h4, h5, h6⟩
        rw [h6] at h5
        simp only [Option.map_some, Option.some.injEq] at h5
        exact ⟨⟨e, (mem_order h2.nodup (hord _) u e).1 h4, h6⟩, h5⟩
      · rintro ⟨⟨e, h4, h5⟩, h6⟩
        exact ⟨e, (mem_order h2.nodup (hord _) u e).2 h4, by simp [h5, isUserEntry, h6], h5⟩
    constructor
    · intro hne
      cases r with
      | nil => exact absurd rfl hne
      | cons p r =>
        exact ⟨p.1, p.2, (hmem p.1 p.2).1 (by simp [GoMap.get?_cons])⟩
    · rintro ⟨u, n, h4⟩ rfl
      have := (hmem u n).2 h4
      simp at this

/-- C64 (partial: one remote): when a single-user file is merged with a multi-user file, the file is multi-user afterwards
exactly if the merged log has user entries. -/
theorem C64_mode_partial (ord : Order) (hord : ∀ m, (ord m).Perm m) (u : Creds) (log : List Tx) (r : Remote)
    (inp rest : Input) (m : Merged) (hd : u.master = [] ↔ r.creds.master ≠ [])
    (h : mergeBlobs ord u log [r] inp = (.ok m, rest)) : m.creds.master ≠ [] ↔ HasUsers m.log := by
  have hlen : u.master.length ≠ r.creds.master.length := by
    intro hl
    by_cases hu : u.master = []
    · have := hd.1 hu
      rw [hu] at hl
      exact this (List.length_eq_zero_iff.1 hl.symm)
    · have : r.creds.master = [] := by
        false_or_by_contra
        rename_i hh
        exact hu (hd.2 hh)
      rw [this] at hl
      exact hu (List.length_eq_zero_iff.1 hl)
  have hnb : ¬ (u.master = [] ∧ r.creds.master = []) := by rintro ⟨h1, h2⟩; exact hd.1 h1 h2
  simp only [mergeBlobs, mergeRemotes] at h
  cases h1 : mergeLogs log r.log inp with
  | mk x rest1 =>
    rw [h1] at h
    cases x with
    | panic => simp at h
    | err e => simp at h
    | ok merged =>
      simp only [takeRemote, hnb, if_false, hlen, ne_eq, not_false_eq_true, if_true] at h
      cases hu : users ord { log := merged } with
      | mk s x =>
        rw [hu] at h
        cases x with
        | panic => simp at h
        | err e => simp at h
        | ok us =>
          have hh := users_hasUsers hord hu
          by_cases hus : us = [] <;> by_cases hm : u.master = [] <;> simp [hus, hm] at h <;>
            obtain ⟨rfl, -⟩ := h <;> simp [hm, ← hh, hus] <;> simpa [hm] using hd

section
private def e1 : Tx := ⟨1, .add, b! "s", [], []⟩
private def e2 : Tx := ⟨2, .setk, b! "s", keyName, b! "sync"⟩
private def e3 : Tx := ⟨3, .add, b! "x", [], []⟩
private def e4 : Tx := ⟨4, .setk, b! "x", keyName, b! "user/a"⟩
private def e5 : Tx := ⟨5, .del, b! "x", [], []⟩
private def lc : Creds := { key := [1] }
private def rm1 : Remote := { creds := { user := b! "a", key := [2], master := [9] }, log := [e1, e2, e3, e4] }
private def rm2 : Remote := { creds := { key := [1] }, log := [e1, e2, e3, e4, e5] }

theorem round1 : mergeLogs [e1, e2] [e1, e2, e3, e4] [] = (.ok [e1, e2, e3, e4], []) := by
  simp only [mergeLogs, reduceCtorEq, if_false]
  exact mergeRounds_log [] (by
    simp [merge, fastPath, e1, e2, e3, e4, mergeLoop, appendRest, checkConflict, MState.push, GoMap.get?])

theorem round2 : mergeLogs [e1, e2, e3, e4] [e1, e2, e3, e4, e5] [] = (.ok [e1, e2, e3, e4, e5], []) := by
  simp only [mergeLogs, reduceCtorEq, if_false]
  exact mergeRounds_log [] (by
    simp [merge, fastPath, e1, e2, e3, e4, e5, mergeLoop, appendRest, checkConflict, MState.push, GoMap.get?])

theorem take1 : takeRemote id lc ⟨lc, [e1, e2]⟩ rm1 [e1, e2, e3, e4] [] = (.ok true, []) := by decide

-- the hypotheses of C64_mode_partial are met
example : (lc.master = [] ↔ rm1.creds.master ≠ []) ∧
    mergeBlobs id lc [e1, e2] [rm1] [] = (.ok ⟨rm1.creds, [e1, e2, e3, e4]⟩, []) := by
  refine ⟨by decide, ?_⟩
  simp only [mergeBlobs, mergeRemotes]
  rw [show rm1.log = [e1, e2, e3, e4] from rfl, round1]
  simp only [take1, if_true]

/-- C64 is false for several remotes: a remote with users makes the file multi-user, and another, single-user remote that
deleted the users does not turn it back; the file then cannot be saved, because it is multi-user without users. -/
theorem C64_false : ¬ ∀ (ord : Order) (u : Creds) (log : List Tx) (rs : List Remote) (inp rest : Input) (m : Merged),
    (∀ m, (ord m).Perm m) → mergeBlobs ord u log rs inp = (.ok m, rest) → (m.creds.master ≠ [] ↔ HasUsers m.log) := by
  intro h
  have h1 := h id lc [e1, e2] [rm1, rm2] [] [] ⟨rm1.creds, [e1, e2, e3, e4, e5]⟩ (fun _ => List.Perm.refl _) (by
    have e2' : takeRemote id lc ⟨rm1.creds, [e1, e2, e3, e4]⟩ rm2 [e1, e2, e3, e4, e5] [] = (.ok false, []) := by decide
    simp only [mergeBlobs, mergeRemotes]
    rw [show rm1.log = [e1, e2, e3, e4] from rfl, show rm2.log = [e1, e2, e3, e4, e5] from rfl, round1]
    simp only [take1, if_true]
    rw [round2]
    simp only [e2']
    rfl)
  have h2 := h1.1 (by decide)
  have h3 : users id { log := [e1, e2, e3, e4, e5] } =
      ((DB.updateSnapshot { log := [e1, e2, e3, e4, e5] }).1, .ok []) := by decide
  exact (users_hasUsers (ord := id) (fun _ => List.Perm.refl _) h3).2 h2 rfl
end

end Verif.App
