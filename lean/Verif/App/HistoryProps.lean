import Verif.App.HistoryLemmas3
/-!
# C86, C87: what the program writes is a history it can merge, and `sync` keeps files in order
-/
namespace Verif.App
open Verif Verif.Txlogs Verif.Blob Verif.Crypt Verif.App.Spec
open Verif.Crypt.Spec (toy toy_lawful)
open Verif.Txlogs.Spec (GoodHistory Replays KnownKinds AddsOnce SameFile SameIds)

/-! ## C86 -/

theorem C86_new : OwnHistory [] :=
  ⟨⟨List.Pairwise.nil, rfl, fun _ h => (List.not_mem_nil h).elim, fun _ h => (List.not_mem_nil h).elim⟩, by simp, by simp, by simp, by simp⟩

/-- One line other than `sync`, typed at the prompt while the clock runs: whatever it does, what is recorded is again a history as
`sync` needs it. -/
theorem C86_line_partial (P : Prims) (C : Codec) (v : Env) (line : Str) (r : Repl) (h0 : r.u.store.txPoint = 0)
    (h : WellFormed r.u.store) (ho : OwnHistory r.u.store.log) (hl : HistoryTurn v line r)
    (hn : (runLine P C v line r).2 ≠ .panic) : OwnHistory (runLine P C v line r).1.u.store.log :=
  history_line h0 h ho hl hn

/-- Any number of lines. -/
theorem C86_session_partial (P : Prims) (C : Codec) (turns : List Turn) (r : Repl) (h0 : r.u.store.txPoint = 0)
    (h : WellFormed r.u.store) (ho : OwnHistory r.u.store.log) (hl : Along P C HistoryTurn turns r)
    (hn : (runRepl P C turns r).2 ≠ .panic) : OwnHistory (runRepl P C turns r).1.u.store.log := by
  induction turns generalizing r with
  | nil => exact ho
  | cons t rest ih =>
    obtain ⟨o, v⟩ := t
    cases o with
    | none => exact ho
    | some line =>
      obtain ⟨hl1, hl2⟩ := hl
      have key := C67_line_partial P C v line r h0 h hl1.legal
      have key' := C86_line_partial P C v line r h0 h ho hl1
      unfold runRepl at hn ⊢
      cases hx : runLine P C v line r with
      | mk r' o =>
        rw [hx] at hn key key' hl2
        cases o with
        | panic => exact absurd rfl hn
        | err e => exact key' (by simp)
        | ok b =>
          obtain ⟨k1, k2⟩ := key (by simp)
          cases b with
          | true => exact key' (by simp)
          | false => exact ih r' k2 k1 (key' (by simp)) hl2 hn

/-- What such a history shows: a file in order, except that a name can occur twice. -/
theorem C86_reads (s : DB) (hs : Ok s) (h : OwnHistory s.log) :
    Good s ∧ (∀ u n, Blob.Spec.Named s u n → u ≠ [] ∧ ValidUtf8 n) ∧ (NamesApart s.log → WellFormed s) := own_wf hs h

/-! ## C87 -/

/-- A `sync` that succeeds leaves a history as it needs it and a file in order, except that a name can occur twice; no operation
of the file or of a remote that was merged is lost. -/
theorem C87_sync_partial (P : Prims) (C : Codec) (w : World) (v : SyncEnv) (nm : Str) (push : Bool) (u : Session) (inp : Input)
    (hok : Ok u.store) (h : OwnHistory u.store.log) (hs : SyncOk P C w v nm u inp)
    (hr : (sync P C w v nm push u inp).result = .ok ()) :
    let s := (sync P C w v nm push u inp).session.store
    OwnHistory s.log ∧ Good s ∧ s.txPoint = u.store.txPoint ∧ (∀ t ∈ u.store.log, t ∈ s.log) ∧
      (∀ x n, Blob.Spec.Named s x n → x ≠ [] ∧ ValidUtf8 n) ∧
      (WellFormed u.store → NamesApartAll P C w v nm u inp → WellFormed s) := by
  obtain ⟨a, b, c, d⟩ := own_sync (push := push) hok h hs hr
  obtain ⟨e, f, g⟩ := own_wf a c
  refine ⟨c, e, b, ?_, f, ?_⟩
  · rcases d with d | ⟨-, -, -, -, -, d, -⟩
    · rw [d]; exact fun t ht => ht
    · exact d
  · intro hw hn
    rcases d with d | ⟨syncs, l, rest, d1, d2, -, -, d3⟩
    · exact wf_log hw a d
    · refine g (namesApart_hosts (hn syncs l rest d1 d2) fun t ht => ?_)
      rcases d3 t ht with h1 | ⟨q, hq, h1⟩ | h1
      · exact .inl (by simp [h1])
      · exact .inl (List.mem_append.2 (.inr (List.mem_flatten.2 ⟨q.log, List.mem_map.2 ⟨q, hq, rfl⟩, h1⟩)))
      · exact .inr h1

theorem C87_sound_sync {P : Prims} {C : Codec} {w : World} {v : SyncEnv} {nm : Str} {push : Bool} {u : Session} {inp : Input}
    (h : Sound u.store) (hs : SyncOk P C w v nm u inp) (hn : NamesApartAll P C w v nm u inp)
    (hr : (sync P C w v nm push u inp).result = .ok ()) : Sound (sync P C w v nm push u inp).session.store := by
  obtain ⟨a, -, b, -, -, c⟩ := C87_sync_partial P C w v nm push u inp h.wf.good.ok h.own hs hr
  exact ⟨c h.wf hn, a, b.trans h.tx⟩

/-- Any line, `sync` included. -/
theorem C87_line_partial (P : Prims) (C : Codec) (v : Env) (line : Str) (r : Repl) (b : Bool) (h : Sound r.u.store)
    (hl : WholeTurn P C v line r) (hr : (runLine P C v line r).2 = .ok b) : Sound (runLine P C v line r).1.u.store := by
  rcases hl with hl | ⟨args, hp, hs, hn⟩
  · have hnp : (runLine P C v line r).2 ≠ .panic := by rw [hr]; simp
    obtain ⟨a, c⟩ := C67_line_partial P C v line r h.tx h.wf hl.legal hnp
    exact ⟨a, history_line h.tx h.wf h.own hl hnp, c⟩
  · have hrun : runLine P C v line r = if r.u.readOnly then (r, .ok false) else execWrite P C v (b! "sync") args r := by
      unfold runLine
      rw [hp]
      rfl
    rw [hrun] at hr ⊢
    by_cases hro : r.u.readOnly
    · rw [if_pos hro]; exact h
    · rw [if_neg hro] at hr ⊢
      have hx : execWrite P C v (b! "sync") args r =
          let x := sync P C v.w v.v (args.head?.getD []) true r.u v.d.inp
          let r := if x.pushed = [] then r else { r with pushed := r.pushed ++ [(x.sent, x.pushed)] }
          back r (x.session, x.result) := by
        unfold execWrite
        simp (decide := true) only [if_false, if_true]
      rw [hx] at hr ⊢
      simp only at hr ⊢
      cases hres : (sync P C v.w v.v (args.head?.getD []) true r.u v.d.inp).result with
      | panic => rw [hres] at hr; cases hr
      | err e => rw [hres] at hr; cases hr
      | ok x =>
        have := C87_sound_sync (push := true) h hs hn hres
        split <;> exact this

/-- Any number of lines, `sync` included, of a session that ends normally. -/
theorem C87_session_partial (P : Prims) (C : Codec) (turns : List Turn) (r : Repl) (h : Sound r.u.store)
    (hl : Along P C (WholeTurn P C) turns r) (hr : (runRepl P C turns r).2 = .ok ()) : Sound (runRepl P C turns r).1.u.store := by
  induction turns generalizing r with
  | nil => exact h
  | cons t rest ih =>
    obtain ⟨o, v⟩ := t
    cases o with
    | none => exact h
    | some line =>
      obtain ⟨hl1, hl2⟩ := hl
      have key := C87_line_partial P C v line r (h := h) (hl := hl1)
      unfold runRepl at hr ⊢
      cases hx : runLine P C v line r with
      | mk r' o =>
        rw [hx] at hr key hl2
        cases o with
        | panic => cases hr
        | err e => cases hr
        | ok b =>
          have k := key b rfl
          cases b with
          | true => exact k
          | false => exact ih r' k hl2 hr

theorem sound_autoSync {P : Prims} {C : Codec} {v : Env} {auto : Bool} {r : Repl} (h : Sound r.u.store)
    (ha : auto = true → AutoOk P C v r.u) (hr : (autoSync P C v auto r).2 = .ok ()) :
    Sound (autoSync P C v auto r).1.u.store := by
  unfold autoSync at hr ⊢
  by_cases hc : r.u.readOnly = false ∧ auto = true
  · rw [if_pos hc] at hr ⊢
    obtain ⟨hs, hn⟩ := ha hc.2
    exact C87_sound_sync h hs hn hr
  · rw [if_neg hc]
    exact h

/-- The whole program, from the opened file through the automatic `sync`s and everything typed to the file that is written. -/
theorem C87_program_partial (P : Prims) (C : Codec) (auto : Bool) (v v' : Env) (iv : Str) (turns : List Turn) (u : Session)
    (o : Option Str) (h : Sound u.store) (h1 : auto = true → AutoOk P C v u)
    (h2 : Along P C (WholeTurn P C) turns (autoSync P C v auto { u := u }).1)
    (h3 : auto = true → AutoOk P C v' (runRepl P C turns (autoSync P C v auto { u := u }).1).1.u)
    (hr : (session P C auto v v' iv turns u).2 = .ok o) : Sound (session P C auto v v' iv turns u).1.u.store := by
  have a := sound_autoSync (P := P) (C := C) (v := v) (auto := auto) (r := { u := u }) h h1
  unfold session at hr ⊢
  cases hx : autoSync P C v auto { u := u } with
  | mk r1 o1 =>
    rw [hx] at hr a h2 h3
    cases o1 with
    | panic => cases hr
    | err e => cases hr
    | ok x =>
      have a := a rfl
      simp only at hr h2 h3 ⊢
      have b := C87_session_partial P C turns r1 a h2
      cases hy : runRepl P C turns r1 with
      | mk r2 o2 =>
        rw [hy] at hr b h3
        cases o2 with
        | panic => cases hr
        | err e => cases hr
        | ok x =>
          have b := b rfl
          simp only at hr h3 ⊢
          have c := sound_autoSync (P := P) (C := C) (v := v') (auto := auto && r2.u.startTx ≠ r2.u.store.log.length) (r := r2) b
            (fun h => h3 (by simp only [Bool.and_eq_true] at h; exact h.1))
          cases hz : autoSync P C v' (auto && r2.u.startTx ≠ r2.u.store.log.length) r2 with
          | mk r3 o3 =>
            rw [hz] at hr c
            cases o3 with
            | panic => cases hr
            | err e => cases hr
            | ok x => exact c rfl

/-- What a file holds on a machine after any number of sessions, all of them ended normally, saved and opened again. -/
inductive Lived (P : Prims) (C : Codec) : DB → Prop where
  | new : Lived P C DB.new
  | next {auto : Bool} {v v' : Env} {iv : Str} {turns : List Turn} {u : Session} {o : Option Str} {s' : DB} : Lived P C u.store →
      (auto = true → AutoOk P C v u) →
      Along P C (WholeTurn P C) turns (autoSync P C v auto { u := u }).1 →
      (auto = true → AutoOk P C v' (runRepl P C turns (autoSync P C v auto { u := u }).1).1.u) →
      (session P C auto v v' iv turns u).2 = .ok o →
      Spec.SameStore s' (session P C auto v v' iv turns u).1.u.store → Lived P C s'

/-- So every file on every machine is in order and has a history that the other machines can merge. -/
theorem C87_file_partial (P : Prims) (C : Codec) (s : DB) (h : Lived P C s) : Sound s := by
  induction h with
  | new => exact ⟨wf_new_file, C86_new, rfl⟩
  | next _ h1 h2 h3 hr hs ih =>
    have := C87_program_partial P C _ _ _ _ _ _ _ ih h1 h2 h3 hr
    exact ⟨wf_sameStore this.wf hs, by rw [hs.log]; exact this.own, hs.txPoint⟩

/-! ## The hypotheses can be met, and what is false -/

namespace HistoryDemo
open Verif.App.SyncDemo (entryOps iv fileOf)
open Demo (perm_id perm_id' fresh_concrete named_concrete parse_ne)

instance (l : List Tx) : Decidable (Txlogs.Spec.Chrono l) := by unfold Txlogs.Spec.Chrono; infer_instance
instance (l : List Tx) : Decidable (AddsOnce l) := by unfold AddsOnce; infer_instance
instance (a b : List Tx) : Decidable (SameIds a b) := by unfold SameIds; infer_instance
instance (l : List Tx) : Decidable (Replays l) := by unfold Replays; infer_instance
instance (l : List Tx) : Decidable (NamesApart l) := by unfold NamesApart; infer_instance

/-- a check of `OwnHistory` -/
def ownB (l : List Tx) : Bool :=
  decide (Txlogs.Spec.Chrono l) && decide (Replays l) && decide (AddsOnce l) &&
  l.all (fun t => match t.kind with | .other _ => false | _ => true) &&
  decide (∀ x ∈ l, x.kind = .add → ∃ y ∈ l, y.kind = .setk ∧ y.uuid = x.uuid ∧ y.key = keyName) &&
  decide (∀ x ∈ l, x.kind = .delk → x.key ≠ keyName) &&
  decide (∀ x ∈ l, x.kind = .setk → x.key = keyName → x.value.all (· < 0x80) = true) &&
  decide (∀ x ∈ l, x.kind = .add → x.uuid ≠ [])

theorem own {l : List Tx} (h : ownB l = true) : OwnHistory l := by
  simp only [ownB, Bool.and_eq_true, decide_eq_true_eq] at h
  obtain ⟨⟨⟨⟨⟨⟨⟨h1, h2⟩, h3⟩, h4⟩, h5⟩, h6⟩, h7⟩, h8⟩ := h
  exact ⟨⟨h1, h2, KeepDemo.kinds h4, h3⟩, h5, h6, fun x hx hk hkey => valid_ascii _ (h7 x hx hk hkey), h8⟩

/-- the file here: a sync entry and an entry "bank" -/
def logL : List Tx := entryOps 1 97 ++ [⟨5, .add, [1], [], []⟩, ⟨6, .setk, [1], keyName, b! "bank"⟩]
/-- the file there: the same sync entry, and another entry called `n` -/
def logR (n : Str) : List Tx :=
  entryOps 1 97 ++ [⟨7, .add, [2], [], []⟩, ⟨8, .setk, [2], keyName, n⟩, ⟨9, .setk, [2], b! "note", [1]⟩]

def D (n : Str) : Codec where
  marshal _ := [2]
  load _ := .ok (some { log := logR n })
  loadLog _ := .ok (logR n)

def u : Session := { SyncDemo.u with store := { log := logL } }

def w : World := { SyncDemo.w with readFile := fun _ _ => .bytes (fileOf SyncDemo.logB) }
def v : SyncEnv :=
  { now := fun i => 100 + i
    now' := fun i => 200 + i
    iv := iv }

theorem ok_log (l : List Tx) : Ok ({ log := l } : DB) := ⟨coherent_reset (s := DB.new) l 0, GoMap.nodupKeys_nil, inner_nil⟩

theorem sound : Sound u.store := by
  have ho : OwnHistory u.store.log := own (by decide +kernel)
  exact ⟨(own_wf (ok_log _) ho).2.2 (by decide +kernel), ho, rfl⟩

theorem selected {syncs : List Str} (h : Selected w v u [] syncs) : syncs = [[97]] := by
  rw [h.1 rfl]
  decide +kernel

/-- what is pulled -/
def got (n : Str) : List (Str × Fate × Str) := [([97], .merge { name := b! "sync/a", creds := u.creds, log := logR n }, [])]

theorem early : ∀ t ∈ logL, t.time < 9 := by decide +kernel

theorem told (n : Str) : Told logL [logR n] := by
  intro pre r post c h hc hu hs
  have hpre : pre = [] := by
    cases pre with
    | nil => rfl
    | cons a pre => cases pre <;> simp at h
  subst hpre
  simp only [List.nil_append, List.cons.injEq] at h
  obtain ⟨rfl, -⟩ := h
  exfalso
  obtain ⟨-, -, h3⟩ := hs
  cases hl : c.getLast? with
  | none => rw [hl] at h3; cases h3
  | some t =>
    have ht := early t (by simpa using (hu t).1 (List.mem_of_getLast? hl))
    rw [hl] at h3
    have h4 : (logR n).getLast?.map Tx.time = some 9 := rfl
    rw [h4] at h3
    simp only [Option.map_some, Option.some.injEq] at h3
    omega

theorem syncOk {n : Str} (hp : pullAll toy (D n) w { u with store := u.store.updateSnapshot.1 } [[97]] [] = (some (got n), []))
    (ho : ownB (logR n) = true)
    (hf : (SameIds logL (logR n) ∧ ∀ x ∈ logL, ∀ y ∈ logR n, x.kind = .add → y.kind = .add → x.uuid = y.uuid → x = y) ∧
      (SameIds (logR n) (logR n) ∧ ∀ x ∈ logR n, ∀ y ∈ logR n, x.kind = .add → y.kind = .add → x.uuid = y.uuid → x = y)) :
    SyncOk toy (D n) w v [] u [] := by
  refine ⟨perm_id', fun i j h => ?_, fun i j h => ?_, by decide, by decide +kernel, fun syncs l rest hsel h => ?_⟩
  · simp only [v]; omega
  · simp only [v]; omega
  · rw [selected hsel, hp] at h
    obtain ⟨rfl, -⟩ := Prod.mk.inj h |>.imp Option.some.inj id
    have hone : ∀ q ∈ remotes (got n), q.log = logR n := by
      intro q hq
      rw [List.mem_singleton.1 (show q ∈ [_] from hq)]
    refine ⟨fun q hq => by rw [hone q hq]; exact own ho, ⟨sound.own.good, ?_, ?_⟩, told n, ?_, ?_⟩
    · intro r hr
      rw [List.mem_singleton.1 (show r ∈ [logR n] from hr)]
      exact ⟨(own ho).good, ⟨hf.1.1, hf.1.2⟩⟩
    · intro r hr r' hr'
      rw [List.mem_singleton.1 (show r ∈ [logR n] from hr), List.mem_singleton.1 (show r' ∈ [logR n] from hr')]
      exact ⟨hf.2.1, hf.2.2⟩
    · intro q hq t ht
      rw [hone q hq] at ht
      have : ∀ t ∈ logR n, t.time < 100 := by
        intro t ht
        simp only [logR, entryOps, List.cons_append, List.nil_append, List.mem_cons, List.not_mem_nil, or_false] at ht
        rcases ht with rfl | rfl | rfl | rfl | rfl | rfl | rfl
        all_goals first | decide | exact (by decide : (8 : Int) < 100)
      exact this t ht
    · intro i hi
      have : (got n).length = 1 := rfl
      simp only [v]
      omega

theorem syncOk_bank : SyncOk toy (D (b! "bank")) w v [] u [] :=
  syncOk (by decide +kernel) (by decide +kernel) (by decide +kernel)

theorem syncOk_shop : SyncOk toy (D (b! "shop")) w v [] u [] :=
  syncOk (by decide +kernel) (by decide +kernel) (by decide +kernel)

theorem apart_shop : NamesApartAll toy (D (b! "shop")) w v [] u [] := by
  intro syncs l rest hsel h
  have hp : pullAll toy (D (b! "shop")) w { u with store := u.store.updateSnapshot.1 } [[97]] [] = (some (got (b! "shop")), []) := by
    decide +kernel
  rw [selected hsel, hp] at h
  obtain ⟨rfl, -⟩ := Prod.mk.inj h |>.imp Option.some.inj id
  decide +kernel

-- C87: `sync` brings the entry "shop", and the file is in order
example : Sound (sync toy (D (b! "shop")) w v [] true u []).session.store ∧
    (⟨8, .setk, [2], keyName, b! "shop"⟩ : Tx) ∈ (sync toy (D (b! "shop")) w v [] true u []).session.store.log :=
  ⟨C87_sound_sync sound syncOk_shop apart_shop (by decide +kernel), by decide +kernel⟩

-- also as a line of a session
example : Along toy (D (b! "shop")) (WholeTurn toy (D (b! "shop"))) [(some (b! "sync"), { w := w, v := v })] { u := u } :=
  ⟨.inr ⟨[], by decide +kernel, syncOk_shop, apart_shop⟩, trivial⟩

-- and as the automatic `sync` when the program starts
example : AutoOk toy (D (b! "shop")) { w := w, v := v } u := ⟨syncOk_shop, apart_shop⟩

/-- what `add x` meets -/
def vA (now : Nat → Int) : Env :=
  { d := { now := now
           uuid := [8]
           inp := [some [], some [], some (b! "m"), some [7], some [7]] }
    ds := fun k => { now := fun i => 300 + 10 * (k : Int) + i } }

theorem legalA (now : Nat → Int) : LegalTurn (vA now) (b! "add x") { u := u } :=
  ⟨valid_ascii _ (by decide), ⟨perm_id, perm_id', (by decide : ([8] : Str) ≠ []),
    fresh_concrete sound.wf.good (v := [8]) (by decide +kernel)⟩,
    parse_ne (x := (b! "add", [b! "x"])) (by decide +kernel) (by decide)⟩

theorem turnA : HistoryTurn (vA (fun i => 100 + i)) (b! "add x") { u := u } := by
  refine ⟨legalA _, ⟨fun i j h => ?_, by decide +kernel, fun k i j h => ?_, by decide +kernel, fun k => ?_⟩, by unfold NewUuid; decide +kernel⟩
  · simp only [vA]; omega
  · simp only [vA]; omega
  · simp only [vA]; omega

-- C86: `add x` records something
example : (runLine toy (D (b! "shop")) (vA (fun i => 100 + i)) (b! "add x") { u := u }).2 ≠ .panic ∧
    (⟨100, .add, [8], [], []⟩ : Tx) ∈ (runLine toy (D (b! "shop")) (vA (fun i => 100 + i)) (b! "add x") { u := u }).1.u.store.log := by
  decide +kernel

example : OwnHistory (runLine toy (D (b! "shop")) (vA (fun i => 100 + i)) (b! "add x") { u := u }).1.u.store.log :=
  C86_line_partial _ _ _ _ { u := u } rfl sound.wf sound.own turnA (by decide +kernel)

end HistoryDemo

/-- Without a clock that runs it is false: time stamps are the only identity of operations, and two readings of the clock can be
equal (or go back). -/
theorem C86_clock_false : ∃ (v : Env) (r : Repl), Sound r.u.store ∧ LegalTurn v (b! "add x") r ∧
    (∀ t ∈ r.u.store.log, t.time < v.d.now 0) ∧ (∀ i j, i < j → v.d.now i ≤ v.d.now j) ∧
    (runLine toy (HistoryDemo.D []) v (b! "add x") r).2 = .ok false ∧
    ¬ GoodHistory (runLine toy (HistoryDemo.D []) v (b! "add x") r).1.u.store.log := by
  refine ⟨HistoryDemo.vA (fun _ => 100), { u := HistoryDemo.u }, HistoryDemo.sound, HistoryDemo.legalA _, by decide +kernel,
    fun _ _ _ => Int.le_refl _, by decide +kernel, fun h => ?_⟩
  have := h.chrono
  revert this
  decide +kernel

/-- Names are not unique after `sync`: an entry "bank" made on two machines is there twice afterwards, although everything else is
as it should be; and which of them the name stands for depends on the order in which a map is visited. (`Blobs.RenameDuplicates` is meant for this, but nothing calls it, and it renames nothing, see C37.) -/
theorem C87_names_false : ∃ (C : Codec) (w : World) (v : SyncEnv) (u : Session), Sound u.store ∧ SyncOk toy C w v [] u [] ∧
    (sync toy C w v [] true u []).result = .ok () ∧
    ∃ x y, x ≠ y ∧ Blob.Spec.Named (sync toy C w v [] true u []).session.store x (b! "bank") ∧
      Blob.Spec.Named (sync toy C w v [] true u []).session.store y (b! "bank") ∧
      ∃ ord ord' : Order, (∀ m, (ord m).Perm m) ∧ (∀ m, (ord' m).Perm m) ∧
        (findByName ord (sync toy C w v [] true u []).session.store (b! "bank")).2 ≠
          (findByName ord' (sync toy C w v [] true u []).session.store (b! "bank")).2 := by
  refine ⟨HistoryDemo.D (b! "bank"), HistoryDemo.w, HistoryDemo.v, HistoryDemo.u, HistoryDemo.sound, HistoryDemo.syncOk_bank,
    by decide +kernel, [1], [2], by decide, ?_⟩
  have hg := (C87_sync_partial toy (HistoryDemo.D (b! "bank")) HistoryDemo.w HistoryDemo.v [] true HistoryDemo.u [] HistoryDemo.sound.wf.good.ok
    HistoryDemo.sound.own HistoryDemo.syncOk_bank (by decide +kernel)).2.1
  rw [Demo.named_concrete hg, Demo.named_concrete hg]
  exact ⟨⟨[(keyName, b! "bank")], by decide +kernel, by decide +kernel⟩,
    ⟨[(keyName, b! "bank"), (b! "note", [1])], by decide +kernel, by decide +kernel⟩, id, List.reverse, Demo.perm_id,
    fun m => List.reverse_perm m, by decide +kernel⟩

end Verif.App
