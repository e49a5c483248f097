import Verif.Txlogs.Lemmas
/-!
# Properties of the store (C01–C10)

`Spec.meaning Spec.empty log` is the meaning of a log (see `Spec.lean`), `Spec.view snap` what is visible in a
snapshot. Histories start in any store whose snapshot is right (`StartOk`), e.g. the empty one.
-/
namespace Verif.Txlogs
open Verif

/-- A store whose snapshot shows the meaning of the first `version` operations of its log
(true of a new store and of every store saved in such a state). -/
def StartOk (s : DB) : Prop :=
  s.version ≤ s.log.length ∧
    Spec.meaning Spec.empty (s.log.take s.version) = some (Spec.view s.snapshot)

theorem startOk_new : StartOk DB.new := coherent_new

/-- In this history Rollback is never called when exactly one operation of the transaction has been applied to
the snapshot (`Version == txPoint`, txlogs.go:163). -/
def NoStaleRollback : DB → List Op → Prop
  | _, [] => True
  | s, op :: ops =>
    (op = .rollback → s.txPoint ≠ 0 → s.version ≠ s.txPoint) ∧
    ∀ s' e, step s op = some (s', e) → NoStaleRollback s' ops

/-- API-level view: no UpdateSnapshot call happens while a transaction is open. -/
def NoUpdateInTx : Bool → List Op → Prop
  | _, [] => True
  | _, .begin :: ops => NoUpdateInTx true ops
  | _, .commit :: ops => NoUpdateInTx false ops
  | _, .rollback :: ops => NoUpdateInTx false ops
  | isOpen, .updateSnapshot :: ops => isOpen = false ∧ NoUpdateInTx isOpen ops
  | isOpen, _ :: ops => NoUpdateInTx isOpen ops

theorem coherent_run {s s' : DB} {ops : List Op} (h : Coherent s) (hsafe : NoStaleRollback s ops)
    (hr : run s ops = some s') : Coherent s' := by
  induction ops generalizing s with
  | nil => simp [run] at hr; subst hr; exact h
  | cons op ops ih =>
    simp only [run] at hr
    cases hst : step s op with
    | none => simp [hst] at hr
    | some p =>
      obtain ⟨s1, e⟩ := p
      simp only [hst] at hr
      refine ih (coherent_step h ?_ hst) (hsafe.2 s1 e hst) hr
      rintro rfl
      refine hsafe.1 rfl ?_
      intro h0
      simp [step, DB.rollback, h0] at hst

/-! ## C01 Snapshot always equals the replay of the log -/

/-- The current snapshot, after a successful UpdateSnapshot, is the meaning of the current log. -/
def SnapshotIsReplay (s : DB) : Prop :=
  s.updateSnapshot.2 = none →
    Spec.meaning Spec.empty s.log = some (Spec.view s.updateSnapshot.1.snapshot)

/-- C01 as stated is false: begin, add, update, rollback leaves the rolled-back entry visible. -/
theorem C01_false : ¬ ∀ (ops : List Op) (s : DB), run DB.new ops = some s → SnapshotIsReplay s := by
  intro h
  have := h [.begin, .add 1 (b! "u"), .updateSnapshot, .rollback]
    { version := 1, snapshot := [(b! "u", [])], log := [], txPoint := 0 } (by decide) (by decide)
  have h2 := congrFun (Option.some.inj this) (b! "u")
  simp [Spec.empty, Spec.view, DB.updateSnapshot, GoMap.get?] at h2

/-- C01 for all histories in which no Rollback hits the off-by-one case. Missing for the full property:
histories with `Rollback` at `Version == txPoint`, where it is false (`C01_false`). -/
theorem C01_snapshot_is_replay_partial (s0 s : DB) (ops : List Op) (h0 : StartOk s0)
    (hsafe : NoStaleRollback s0 ops) (hr : run s0 ops = some s) : SnapshotIsReplay s := by
  intro hok
  have hc := coherent_run h0 hsafe hr
  rcases updateSnapshot_spec hc with ⟨snap, h1, h2⟩ | ⟨e, n, snap, _, _, _, _, h4, _⟩
  · rw [h2]; exact h1
  · rw [h4] at hok; simp at hok

/-- With no snapshot update inside transactions the version never passes the transaction point. -/
theorem noStale_of_noUpdate {s : DB} {ops : List Op} (isOpen : Bool)
    (hlen : s.version ≤ s.log.length)
    (hopen : s.txPoint ≠ 0 → isOpen = true)
    (hlt : s.txPoint ≠ 0 → s.version < s.txPoint)
    (hn : NoUpdateInTx isOpen ops) : NoStaleRollback s ops := by
  induction ops generalizing s isOpen with
  | nil => trivial
  | cons op ops ih =>
    refine ⟨?_, ?_⟩
    · rintro rfl h
      have := hlt h; omega
    · intro s' e hst
      cases op <;> simp only [step, Option.some.injEq, Prod.mk.injEq, Option.map_eq_some_iff] at hst <;>
        simp only [NoUpdateInTx] at hn
      case add => obtain ⟨rfl, _⟩ := hst; exact ih isOpen (by simp [DB.add]; omega) hopen hlt hn
      case set =>
        obtain ⟨rfl, _⟩ := hst
        exact ih isOpen (by simp [DB.setKey, DB.appendLog]; omega) hopen hlt hn
      case delete =>
        obtain ⟨rfl, _⟩ := hst
        exact ih isOpen (by simp [DB.delete, DB.appendLog]; omega) hopen hlt hn
      case deleteKey =>
        obtain ⟨rfl, _⟩ := hst
        exact ih isOpen (by simp [DB.deleteKey, DB.appendLog]; omega) hopen hlt hn
      case begin =>
        obtain ⟨rfl, _⟩ := hst
        exact ih true hlen (fun _ => rfl) (fun _ => by simp [DB.begin]; omega) hn
      case commit =>
        obtain ⟨a, h1, h2, _⟩ := hst
        unfold DB.commit at h1
        split at h1
        · simp at h1
        · simp only [Option.some.injEq] at h1; subst h1 h2
          exact ih false hlen (by simp) (by simp) hn
      case rollback =>
        obtain ⟨a, h1, rfl, _⟩ := hst
        unfold DB.rollback at h1
        split at h1
        · simp at h1
        · rename_i h0
          have := hlt h0
          dsimp only at h1
          split at h1
          · simp at h1
          · simp only [Option.some.injEq] at h1
            subst h1
            have hng : ¬ s.version > s.txPoint := by omega
            simp only [hng, if_false]
            exact ih false (by simp; omega) (by simp) (by simp) hn
      case rollbackN n =>
        have htp := rollbackN_txPoint s n
        rw [hst] at htp
        have hv : s'.version ≤ s'.log.length ∧ s'.version ≤ s.version := by
          unfold DB.rollbackN at hst
          split at hst
          · cases hst; exact ⟨hlen, Nat.le_refl _⟩
          · split at hst
            · cases hst; exact ⟨hlen, Nat.le_refl _⟩
            · dsimp only at hst
              split at hst
              · cases hst; simp [DB.resetSnapshot]
              · cases hst; simp; omega
        simp only at htp
        refine ih isOpen hv.1 (by rw [htp]; exact hopen) ?_ hn
        rw [htp]; intro h; have := hlt h; omega
      case resetSnapshot =>
        obtain ⟨rfl, _⟩ := hst
        exact ih isOpen (by simp [DB.resetSnapshot]) hopen
          (fun h => by simp only [DB.resetSnapshot] at h ⊢; omega) hn
      case updateSnapshot =>
        have htp := updateSnapshot_txPoint s
        have hlog := updateSnapshot_log s
        rw [hst] at htp hlog
        have h0 : s.txPoint = 0 := by
          by_cases h : s.txPoint = 0
          · exact h
          · have := hopen h; simp [hn.1] at this
        have hv : s'.version ≤ s'.log.length := by
          unfold DB.updateSnapshot at hst
          split at hst
          · cases hst; exact hlen
          · cases hst
            rcases updateLoop_spec (s.log.drop s.version) s.version s.snapshot with
              ⟨_, _, h4⟩ | ⟨_, n, _, _, h3, _, _, h4⟩ <;> simp only [h4]
            · simp; omega
            · simp at h3; omega
        simp only at htp
        exact ih isOpen hv (by rw [htp, h0]; simp) (by rw [htp, h0]; simp) hn.2

/-- C01 in API terms: if UpdateSnapshot is never called inside an open transaction, the snapshot is always the
replay of the log. Missing for the full property: see `C01_false`. -/
theorem C01_no_update_in_tx_partial (s : DB) (ops : List Op) (hsafe : NoUpdateInTx false ops)
    (hr : run DB.new ops = some s) : SnapshotIsReplay s :=
  C01_snapshot_is_replay_partial DB.new s ops startOk_new
    (noStale_of_noUpdate false (by decide) (by decide) (by decide) hsafe) hr

/-- non-vacuity: a history with a committed and a rolled back transaction. -/
example : ∃ s, run DB.new [.add 1 (b! "u"), .updateSnapshot, .begin, .set 2 (b! "u") (b! "k") (b! "v"),
      .commit, .begin, .delete 3 (b! "u"), .rollback, .updateSnapshot] = some s ∧
    NoUpdateInTx false [.add 1 (b! "u"), .updateSnapshot, .begin, .set 2 (b! "u") (b! "k") (b! "v"),
      .commit, .begin, .delete 3 (b! "u"), .rollback, .updateSnapshot] ∧
    s.snapshot = [(b! "u", [(b! "k", b! "v")])] ∧ s.updateSnapshot.2 = none :=
  ⟨_, rfl, by simp [NoUpdateInTx], by decide, by decide⟩

/-! ## C02 A read returns the last write -/

/-- The four calls that write do what they say to the meaning of the log: a new empty entry, one value set, one value gone, an
entry gone; nothing else changes. -/
theorem C02_writes (s : DB) (now : Int) (u k v : Str) (st : Spec.State) (hm : Spec.meaning Spec.empty s.log = some st) :
    (st u = none → Spec.meaning Spec.empty (s.add now u).log = some (Spec.upd st u (some fun _ => none))) ∧
    (∀ e, st u = some e →
      Spec.meaning Spec.empty (s.setKey now u k v).log = some (Spec.upd st u (some (Spec.upd e k (some v)))) ∧
      Spec.meaning Spec.empty (s.deleteKey now u k).log = some (Spec.upd st u (some (Spec.upd e k none))) ∧
      Spec.meaning Spec.empty (s.delete now u).log = some (Spec.upd st u none)) := by
  have key : ∀ tx, Spec.meaning Spec.empty (s.log ++ [tx]) = Spec.apply st tx := by
    intro tx
    rw [meaning_append, hm, Option.bind_some]
    unfold Spec.meaning
    cases Spec.apply st tx <;> rfl
  refine ⟨fun h => ?_, fun e h => ⟨?_, ?_, ?_⟩⟩
  · simp only [DB.add, key, Spec.apply, h]
  · simp only [DB.setKey, DB.appendLog, key, Spec.apply, h]
  · simp only [DB.deleteKey, DB.appendLog, key, Spec.apply, h]
  · simp only [DB.delete, DB.appendLog, key, Spec.apply, h]

/-- Not vacuous: an entry in a new file. -/
example : ∃ st, Spec.meaning Spec.empty (DB.new.add 1 (b! "u")).log = some st ∧ (st (b! "u")).isSome := ⟨_, rfl, rfl⟩

/-- C02 for a replay from scratch (SnapshotAt(0)), for every store whatsoever. -/
theorem C02_last_write (s : DB) (snap : Snapshot) (h : s.snapshotAt 0 = .ok snap) (u : Str) :
    (snap.get? u).isSome = Spec.visibleRev u s.log.reverse ∧
    ∀ k, (snap.get? u).bind (fun e => e.get? k) = Spec.valueRev u k s.log.reverse := by
  unfold DB.snapshotAt at h
  split at h
  · simp at h
  · have e1 : ((s.log.length : Int) - 1 - 0 + 1).toNat = s.log.length := by omega
    dsimp only at h
    rw [e1, List.range_eq_range', applyIdx_range _ _ _ _ (by omega)] at h
    simp only [List.drop_zero, List.take_length] at h
    cases hr : replay [] s.log with
    | error e => simp [hr] at h
    | ok sn =>
      simp [hr] at h; subst h
      have hm := meaning_of_replay hr
      have := lastWrite_rev s.log.reverse (by simpa using hm) u
      refine ⟨by simpa [Spec.view] using this.1, fun k => ?_⟩
      rw [← this.2 k, Spec.view]
      cases GoMap.get? sn u <;> rfl

/-- C02 for the maintained snapshot after a successful UpdateSnapshot, in every history that avoids the
Rollback defect of `C01_false`. -/
theorem C02_last_write_snapshot (s0 s : DB) (ops : List Op) (h0 : StartOk s0)
    (hsafe : NoStaleRollback s0 ops) (hr : run s0 ops = some s) (hok : s.updateSnapshot.2 = none)
    (u : Str) :
    (s.updateSnapshot.1.snapshot.get? u).isSome = Spec.visibleRev u s.log.reverse ∧
    ∀ k, (s.updateSnapshot.1.snapshot.get? u).bind (fun e => e.get? k)
      = Spec.valueRev u k s.log.reverse := by
  have hm := C01_snapshot_is_replay_partial s0 s ops h0 hsafe hr hok
  have := lastWrite_rev s.log.reverse (by simpa using hm) u
  refine ⟨by simpa [Spec.view] using this.1, fun k => ?_⟩
  rw [← this.2 k, Spec.view]
  cases GoMap.get? s.updateSnapshot.1.snapshot u <;> rfl

example : ({ log := [⟨1, .add, b! "u", [], []⟩, ⟨2, .setk, b! "u", b! "k", b! "v"⟩,
      ⟨3, .setk, b! "u", b! "k", b! "w"⟩] } : DB).snapshotAt 0
    = .ok [(b! "u", [(b! "k", b! "w")])] := by decide

/-! ## C03 Operations on one entry never affect another -/

/-- The contents of an entry depend only on the operations carrying its uuid: two logs with the same sub-log
for `u` show the same entry `u`. -/
theorem C03_entry_depends_on_own_operations (s1 s2 : DB) (snap1 snap2 : Snapshot) (u : Str)
    (h1 : s1.snapshotAt 0 = .ok snap1) (h2 : s2.snapshotAt 0 = .ok snap2)
    (hsub : s1.log.filter (fun t => t.uuid = u) = s2.log.filter (fun t => t.uuid = u)) :
    Spec.view snap1 u = Spec.view snap2 u := by
  have aux : ∀ (s : DB) snap, s.snapshotAt 0 = .ok snap →
      Spec.meaning Spec.empty s.log = some (Spec.view snap) := by
    intro s snap h
    unfold DB.snapshotAt at h
    split at h
    · simp at h
    · have e1 : ((s.log.length : Int) - 1 - 0 + 1).toNat = s.log.length := by omega
      dsimp only at h
      rw [e1, List.range_eq_range', applyIdx_range _ _ _ _ (by omega)] at h
      simp only [List.drop_zero, List.take_length] at h
      cases hr : replay [] s.log with
      | error e => simp [hr] at h
      | ok sn => simp [hr] at h; subst h; exact meaning_of_replay hr
  obtain ⟨a, ha, ha'⟩ := meaning_filter (u := u) rfl (aux _ _ h1)
  obtain ⟨b, hb, hb'⟩ := meaning_filter (u := u) rfl (aux _ _ h2)
  rw [hsub] at ha
  rw [ha] at hb
  rw [ha', hb', Option.some.inj hb]

/-- Applying one operation leaves every other entry exactly as it was. -/
theorem C03_operation_is_local (snap snap' : Snapshot) (tx : Tx) (h : applyTx snap tx = .ok snap')
    (u : Str) (hu : u ≠ tx.uuid) : snap'.get? u = snap.get? u := by
  unfold applyTx getEntry at h
  cases hk : tx.kind <;> cases hg : snap.get? tx.uuid <;> simp [hk, hg] at h <;> subst h <;>
    first | rfl | exact GoMap.get?_set_ne _ hu _ | exact GoMap.get?_del_ne _ hu

/-- A log replays iff for every uuid the sub-log of its operations replays. -/
theorem C03_replays_iff_each_entry (log : List Tx) :
    (Spec.meaning Spec.empty log).isSome ↔
      ∀ u, (Spec.meaning Spec.empty (log.filter (fun t => t.uuid = u))).isSome :=
  meaning_isSome_iff log Spec.empty

example : applyTx [(b! "u", []), (b! "w", [(b! "k", b! "1")])] ⟨3, .setk, b! "u", b! "k", b! "2"⟩ =
    .ok [(b! "u", [(b! "k", b! "2")]), (b! "w", [(b! "k", b! "1")])] := by rfl

/-! ## C04 Rollback undoes a transaction completely -/

/-- Calls that may happen inside a transaction: writes and snapshot maintenance. -/
def Op.isWork : Op → Bool
  | .add .. | .set .. | .delete .. | .deleteKey .. | .updateSnapshot | .resetSnapshot => true
  | _ => false

/-- The operations a sequence of calls appends to the log. -/
def appended : List Op → List Tx
  | [] => []
  | .add t u :: ops => ⟨t, .add, u, [], []⟩ :: appended ops
  | .set t u k v :: ops => ⟨t, .setk, u, k, v⟩ :: appended ops
  | .delete t u :: ops => ⟨t, .del, u, [], []⟩ :: appended ops
  | .deleteKey t u k :: ops => ⟨t, .delk, u, k, []⟩ :: appended ops
  | _ :: ops => appended ops

theorem run_work (s : DB) (ops : List Op) (hw : ∀ op ∈ ops, op.isWork = true) :
    ∃ s', run s ops = some s' ∧ s'.log = s.log ++ appended ops ∧ s'.txPoint = s.txPoint := by
  induction ops generalizing s with
  | nil => exact ⟨s, rfl, by simp [appended], rfl⟩
  | cons op ops ih =>
    have hw' : ∀ o ∈ ops, o.isWork = true := fun o ho => hw o (List.mem_cons_of_mem _ ho)
    have h1 := hw op (by simp)
    cases op <;> simp only [Op.isWork, Bool.false_eq_true] at h1 <;>
      simp only [run, step]
    case updateSnapshot =>
      obtain ⟨s', a, b, c⟩ := ih s.updateSnapshot.1 hw'
      refine ⟨s', a, ?_, ?_⟩
      · rw [b, updateSnapshot_log]; rfl
      · rw [c, updateSnapshot_txPoint]
    all_goals
      obtain ⟨s', a, b, c⟩ := ih _ hw'
      refine ⟨s', a, ?_, ?_⟩
      · rw [b]; simp [DB.add, DB.setKey, DB.delete, DB.deleteKey, DB.appendLog, appended,
          DB.resetSnapshot]
      · rw [c]; rfl

theorem run_append (s : DB) (a b : List Op) :
    run s (a ++ b) = (run s a).bind (fun s' => run s' b) := by
  induction a generalizing s with
  | nil => rfl
  | cons op a ih =>
    simp only [List.cons_append, run]
    cases step s op with
    | none => rfl
    | some p => exact ih p.1

/-- Begin; any work; Rollback: never panics, the log is exactly what it was, no transaction is open. -/
theorem C04_rollback_restores_log (s0 : DB) (ops : List Op) (hw : ∀ op ∈ ops, op.isWork = true) :
    ∃ s1, run s0 (.begin :: ops ++ [.rollback]) = some s1 ∧ s1.log = s0.log ∧ s1.txPoint = 0 := by
  obtain ⟨s', h1, h2, h3⟩ := run_work s0.begin ops hw
  have h3' : s'.txPoint = s0.log.length + 1 := h3
  have hlen : s'.log.length = s0.log.length + (appended ops).length := by
    rw [h2]; simp [DB.begin]
  rw [List.cons_append, run, step]
  simp only [run_append, h1, Option.bind_some, run, step]
  have hne : ¬ s'.txPoint = 0 := by omega
  have hng : ¬ s'.txPoint - 1 > s'.log.length := by omega
  simp only [DB.rollback, hne, hng, if_false, Option.map_some]
  refine ⟨_, rfl, ?_, rfl⟩
  rw [h3', h2]
  simp [DB.begin]

/-- What a caller can observe of the current state: UpdateSnapshot's verdict and, if fine, the visible data. -/
def observe (s : DB) : Option Spec.State :=
  if s.updateSnapshot.2 = none then some (Spec.view s.updateSnapshot.1.snapshot) else none

theorem observe_coherent {s : DB} (h : Coherent s) : observe s = Spec.meaning Spec.empty s.log := by
  unfold observe
  rcases updateSnapshot_spec h with ⟨snap, h1, h2⟩ | ⟨e, n, snap, h1, _, _, _, h4, _⟩
  · simp [h2, h1]
  · simp [h4, h1]

/-- The read half of C04 is false in general (same defect as `C01_false`). -/
theorem C04_false : ¬ ∀ (s0 s1 : DB) (ops : List Op), StartOk s0 →
    (∀ op ∈ ops, op.isWork = true) → run s0 (.begin :: ops ++ [.rollback]) = some s1 →
    observe s1 = observe s0 := by
  intro h
  have := h DB.new { version := 1, snapshot := [(b! "u", [])], log := [], txPoint := 0 }
    [.add 1 (b! "u"), .updateSnapshot] startOk_new (by decide) (by decide)
  simp [observe, DB.updateSnapshot, DB.new] at this
  have h2 := congrFun this (b! "u")
  simp [Spec.view, GoMap.get?] at h2

/-- C04, read half: after rollback the store reads as at Begin, unless exactly one operation of the transaction
had been applied to the snapshot. Missing: that one case (`C04_false`). -/
theorem C04_rollback_restores_reads_partial (s0 s1 : DB) (ops : List Op) (h0 : StartOk s0)
    (hsafe : NoStaleRollback s0 (.begin :: ops ++ [.rollback]))
    (hw : ∀ op ∈ ops, op.isWork = true)
    (hr : run s0 (.begin :: ops ++ [.rollback]) = some s1) :
    s1.log = s0.log ∧ s1.txPoint = 0 ∧ observe s1 = observe s0 := by
  obtain ⟨s1', h1, h2, h3⟩ := C04_rollback_restores_log s0 ops hw
  have : s1 = s1' := by rw [hr] at h1; exact Option.some.inj h1
  subst this
  refine ⟨h2, h3, ?_⟩
  rw [observe_coherent (coherent_run h0 hsafe hr), observe_coherent h0, h2]

/-- `Do` with a failing function restores the log; with a succeeding one keeps every appended operation, in
order; in both cases no transaction stays open and nothing panics. -/
theorem C04_do (s0 : DB) (ops : List Op) (hw : ∀ op ∈ ops, op.isWork = true) :
    (∃ s1, doTx s0 ops true = some s1 ∧ s1.log = s0.log ∧ s1.txPoint = 0) ∧
    (∃ s1, doTx s0 ops false = some s1 ∧ s1.log = s0.log ++ appended ops ∧ s1.txPoint = 0) := by
  obtain ⟨s', h1, h2, h3⟩ := run_work s0.begin ops hw
  constructor
  · obtain ⟨s1, a, b, c⟩ := C04_rollback_restores_log s0 ops hw
    refine ⟨s1, ?_, b, c⟩
    rw [List.cons_append, run, step] at a
    simp only [run_append, h1, Option.bind_some, run, step] at a
    simp only [doTx, h1, if_true]
    cases hrb : s'.rollback with
    | none => simp [hrb] at a
    | some x => simpa [hrb] using a
  · have h3' : s'.txPoint = s0.log.length + 1 := h3
    have hne : ¬ s'.txPoint = 0 := by omega
    simp only [doTx, h1, DB.commit, hne, if_false]
    exact ⟨_, rfl, by simpa [DB.begin] using h2, rfl⟩

example : ∃ s1, run DB.new (.begin :: [.add 1 (b! "u"), .set 2 (b! "u") (b! "k") (b! "v"),
      .updateSnapshot] ++ [.rollback]) = some s1 ∧
    NoStaleRollback DB.new (.begin :: [.add 1 (b! "u"), .set 2 (b! "u") (b! "k") (b! "v"),
      .updateSnapshot] ++ [.rollback]) ∧ s1 = DB.new :=
  ⟨_, rfl, by
    simp [NoStaleRollback, step, DB.begin, DB.add, DB.setKey, DB.appendLog, DB.updateSnapshot,
      DB.updateLoop, applyTx, getEntry, GoMap.get?, GoMap.set, DB.new], by decide⟩

/-! ## C05 RollbackN removes exactly the last n operations -/

theorem C05_rollbackN (s0 s : DB) (ops : List Op) (n : Nat) (h0 : StartOk s0)
    (hsafe : NoStaleRollback s0 ops) (hr : run s0 ops = some s) :
    (n ≤ s.log.length →
      (s.rollbackN n).2 = none ∧
      (s.rollbackN n).1.log ++ s.log.drop (s.log.length - n) = s.log ∧
      (s.rollbackN n).1.log.length = s.log.length - n ∧
      observe (s.rollbackN n).1 = Spec.meaning Spec.empty (s.log.take (s.log.length - n))) ∧
    (s.log.length < n → s.rollbackN n = (s, some .rollbackPastBeginning)) := by
  have hc := coherent_run h0 hsafe hr
  constructor
  · intro hn
    have hlog : (s.rollbackN n).1.log = s.log.take (s.log.length - n) ∧ (s.rollbackN n).2 = none := by
      unfold DB.rollbackN
      split
      · rename_i h; subst h; simp
      · split
        · omega
        · exact ⟨rfl, rfl⟩
    refine ⟨hlog.2, ?_, ?_, ?_⟩
    · rw [hlog.1, List.take_append_drop]
    · rw [hlog.1]; simp
    · rw [observe_coherent (coherent_rollbackN hc n), hlog.1]
  · intro hn
    have h1 : ¬ n = 0 := by omega
    have h2 : n > s.log.length := hn
    simp [DB.rollbackN, h1, h2]

example : (run DB.new [.add 1 (b! "u"), .set 2 (b! "u") (b! "k") (b! "v"), .updateSnapshot]).map
      (fun s => (s.rollbackN 1).1)
    = some { log := [⟨1, .add, b! "u", [], []⟩] } := by decide

/-! ## C06 SnapshotAt shows exactly the state n operations ago -/

theorem snapshotAt_eq (s : DB) (n : Nat) (hn : n ≤ s.log.length) :
    s.snapshotAt n = match replay [] (s.log.take (s.log.length - n)) with
      | .ok sn => .ok sn
      | .error e => .err e := by
  have e0 : ¬ ((n : Int) > (s.log.length : Int)) := by omega
  have e1 : ((s.log.length : Int) - 1 - n + 1).toNat = s.log.length - n := by omega
  simp only [DB.snapshotAt, e0, if_false, e1]
  rw [List.range_eq_range', applyIdx_range _ _ _ _ (by omega)]
  simp only [List.drop_zero]
  cases replay [] (s.log.take (s.log.length - n)) <;> rfl

/-- SnapshotAt(n), 0 ≤ n ≤ length: the meaning of the log without its last n operations, an error iff that
prefix does not replay; an error for larger n. (SnapshotAt is a pure function of the store, so it cannot
change it.) -/
theorem C06_snapshotAt (s : DB) (n : Nat) :
    (n ≤ s.log.length →
      (∀ st, Spec.meaning Spec.empty (s.log.take (s.log.length - n)) = some st →
        ∃ snap, s.snapshotAt n = .ok snap ∧ Spec.view snap = st) ∧
      (Spec.meaning Spec.empty (s.log.take (s.log.length - n)) = none →
        ∃ e, s.snapshotAt n = .err e)) ∧
    (s.log.length < n → s.snapshotAt n = .err .notThatManyVersions) := by
  refine ⟨fun hn => ⟨fun st h => ?_, fun h => ?_⟩, fun hn => ?_⟩
  · obtain ⟨sn, h1, h2⟩ := replay_ok_of_meaning h
    exact ⟨sn, by rw [snapshotAt_eq s n hn, h1], h2⟩
  · obtain ⟨e, h1⟩ := replay_err_of_meaning h
    exact ⟨e, by rw [snapshotAt_eq s n hn, h1]⟩
  · have : (n : Int) > (s.log.length : Int) := by omega
    simp [DB.snapshotAt, this]

/-- n = 0 agrees with the current snapshot; n = length shows the empty store. -/
theorem C06_ends (s0 s : DB) (ops : List Op) (h0 : StartOk s0)
    (hsafe : NoStaleRollback s0 ops) (hr : run s0 ops = some s) (hok : s.updateSnapshot.2 = none) :
    (∃ snap, s.snapshotAt 0 = .ok snap ∧ Spec.view snap = Spec.view s.updateSnapshot.1.snapshot) ∧
    s.snapshotAt s.log.length = .ok [] := by
  have hm := C01_snapshot_is_replay_partial s0 s ops h0 hsafe hr hok
  constructor
  · exact (((C06_snapshotAt s 0).1 (by omega)).1 _ (by simpa using hm))
  · rw [snapshotAt_eq s _ (Nat.le_refl _)]; simp

/-- SnapshotAt with a negative argument crashes on every log that replays. -/
theorem C06_negative_panics (s : DB) (n : Int) (hn : n < 0)
    (hm : (Spec.meaning Spec.empty s.log).isSome) : s.snapshotAt n = .panic := by
  obtain ⟨st, h⟩ := Option.isSome_iff_exists.1 hm
  obtain ⟨sn, h1, -⟩ := replay_ok_of_meaning h
  have e0 : ¬ (n > (s.log.length : Int)) := by omega
  simp only [DB.snapshotAt, e0, if_false]
  obtain ⟨m, hm⟩ : ∃ m, ((s.log.length : Int) - 1 - n + 1).toNat = s.log.length + (m + 1) :=
    ⟨((s.log.length : Int) - 1 - n + 1).toNat - s.log.length - 1, by omega⟩
  rw [hm]
  -- split the index list
  have aux : ∀ (is js : List Nat) (a b : Snapshot), DB.applyIdx s.log is a = .ok b →
      DB.applyIdx s.log (is ++ js) a = DB.applyIdx s.log js b := by
    intro is
    induction is with
    | nil => intro js a b h; simp [DB.applyIdx] at h; subst h; rfl
    | cons i is ih =>
      intro js a b h
      simp only [DB.applyIdx, List.cons_append] at h ⊢
      cases hg : s.log[i]? with
      | none => simp [hg] at h
      | some tx =>
        simp only [hg] at h ⊢
        cases ha : applyTx a tx with
        | error e => simp [ha] at h
        | ok x => simp only [ha] at h ⊢; exact ih js x b h
  have hsplit : List.range (s.log.length + (m + 1)) =
      List.range' 0 s.log.length ++ (s.log.length :: List.range' (s.log.length + 1) m) := by
    rw [List.range_eq_range', ← List.range'_succ]
    simpa using (List.range'_append (s := 0) (m := s.log.length) (n := m + 1) (step := 1)).symm
  rw [hsplit, aux _ _ _ sn]
  · simp [DB.applyIdx]
  · rw [applyIdx_range _ _ _ _ (by omega)]; simp [h1]

example : ({ log := [⟨1, .add, b! "u", [], []⟩, ⟨2, .setk, b! "u", b! "k", b! "v"⟩] } : DB).snapshotAt 1
    = .ok [(b! "u", [])] := by decide

/-! ## C07 EntrySnapshotAt shows exactly the entry n of its own versions ago -/

/-- For every way to cut the log such that exactly n operations on `u` come after the cut: if the part before
the cut replays, EntrySnapshotAt(u,n) returns entry `u` of that part, or "not found" if it does not exist
there. -/
theorem C07_entrySnapshotAt (s : DB) (u : Str) (n : Nat) (pre post : List Tx) (st : Spec.State)
    (hlog : s.log = pre ++ post) (hn : (post.filter (fun t => t.uuid = u)).length = n)
    (hlt : n < s.log.length) (hst : Spec.meaning Spec.empty pre = some st) :
    match st u with
    | some e => ∃ entry, s.entrySnapshotAt u n = .ok entry ∧ (fun k => entry.get? k) = e
    | none => s.entrySnapshotAt u n = .err (.keyNotFound u) := by
  have hidx := entryTxIndices_spec u s.log s.log 0 (by simp)
  have hlen : (DB.entryTxIndices u s.log 0).length
      = (s.log.filter (fun t => t.uuid = u)).length := by
    have := congrArg List.length hidx
    simpa using this
  have hl2 : (s.log.filter (fun t => t.uuid = u)).length
      = (pre.filter (fun t => t.uuid = u)).length + n := by
    rw [hlog, List.filter_append, List.length_append, hn]
  have h1 : ¬ ((n : Int) ≥ (s.log.length : Int)) := by omega
  have h2 : ¬ ((n : Int) > ((DB.entryTxIndices u s.log 0).length : Int)) := by omega
  have h3 : (((DB.entryTxIndices u s.log 0).length : Int) - 1 - n + 1).toNat
      = (pre.filter (fun t => t.uuid = u)).length := by omega
  have h4 : ¬ ((n : Int) < 0) := by omega
  have hmap : ((DB.entryTxIndices u s.log 0).take (pre.filter (fun t => t.uuid = u)).length).map
      (fun j => s.log[j]?) = (pre.filter (fun t => t.uuid = u)).map some := by
    rw [List.map_take, hidx, ← List.map_take, hlog, List.filter_append]
    simp
  obtain ⟨st2, hm2, hu⟩ := meaning_filter (u := u) (st2 := Spec.empty) rfl hst
  obtain ⟨sn, hr, hv⟩ := replay_ok_of_meaning hm2
  have hap := applyIdx_map s.log _ _ [] hmap
  rw [hr] at hap
  simp only [DB.entrySnapshotAt, h1, h2, h3, h4, if_false, hap]
  rw [hu, ← hv]
  simp only [Spec.view]
  cases hg : sn.get? u with
  | none => simp
  | some e => simp

/-- Too many versions are refused. -/
theorem C07_too_many (s : DB) (u : Str) (n : Nat)
    (hn : s.log.length ≤ n ∨ (s.log.filter (fun t => t.uuid = u)).length < n) :
    ∃ e, s.entrySnapshotAt u n = .err e := by
  have hidx := entryTxIndices_spec u s.log s.log 0 (by simp)
  have hlen : (DB.entryTxIndices u s.log 0).length
      = (s.log.filter (fun t => t.uuid = u)).length := by
    have := congrArg List.length hidx
    simpa using this
  unfold DB.entrySnapshotAt
  split
  · exact ⟨_, rfl⟩
  · have : (n : Int) > ((DB.entryTxIndices u s.log 0).length : Int) := by omega
    simp [this]

/-- n = 0 agrees with the current entry. -/
theorem C07_current (s : DB) (u : Str) (snap : Snapshot) (hne : s.log ≠ [])
    (h : s.snapshotAt 0 = .ok snap) :
    match snap.get? u with
    | some e => ∃ entry, s.entrySnapshotAt u 0 = .ok entry ∧ (fun k => entry.get? k) = (fun k => e.get? k)
    | none => s.entrySnapshotAt u 0 = .err (.keyNotFound u) := by
  have h0 := snapshotAt_eq s 0 (by omega)
  rw [show ((0 : Nat) : Int) = 0 from rfl, h] at h0
  simp only [Nat.sub_zero, List.take_length] at h0
  cases hr : replay [] s.log with
  | error e => simp [hr] at h0
  | ok sn =>
    simp [hr] at h0; subst h0
    have := C07_entrySnapshotAt s u 0 s.log [] _ (by simp) rfl
      (List.length_pos_iff.2 hne) (meaning_of_replay hr)
    simp only [Spec.view] at this
    cases hg : snap.get? u with
    | none => simpa [hg] using this
    | some e => simpa [hg] using this

example : ({ log := [⟨1, .add, b! "u", [], []⟩, ⟨2, .add, b! "w", [], []⟩,
      ⟨3, .setk, b! "u", b! "k", b! "v"⟩, ⟨4, .setk, b! "w", b! "k", b! "x"⟩,
      ⟨5, .setk, b! "u", b! "k", b! "y"⟩] } : DB).entrySnapshotAt (b! "u") 1
    = .ok [(b! "k", b! "v")] := by decide

/-! ## C08 Version count and last-updated agree with the log -/

theorem C08_nVersions (s : DB) (u : Str) :
    s.nVersions u = (s.log.filter (fun t => t.uuid = u)).length := nVersions_eq s u

/-- LastUpdated is the time of the last operation on `u`, and -1 if there is none. -/
theorem C08_lastUpdated (s : DB) (u : Str) :
    (∀ t, (s.log.filter (fun t => t.uuid = u)).getLast? = some t → s.lastUpdated u = t.time) ∧
    ((∀ t ∈ s.log, t.uuid ≠ u) → s.lastUpdated u = -1) := by
  have hfl : s.log.reverse.find? (fun t => t.uuid = u)
      = (s.log.filter (fun t => t.uuid = u)).getLast? := by
    rw [← List.head?_filter, List.filter_reverse, List.head?_reverse]
  unfold DB.lastUpdated
  rw [hfl]
  constructor
  · intro t ht; simp [ht]
  · intro h
    have : s.log.filter (fun t => t.uuid = u) = [] := by
      rw [List.filter_eq_nil_iff]; simpa using h
    simp [this]

/-- Every call that writes counts as one version of its entry, made at the time of the call, and of no other entry. -/
theorem C08_writes (s s' : DB) (now : Int) (u k v : Str)
    (h : s' = s.add now u ∨ s' = s.setKey now u k v ∨ s' = s.deleteKey now u k ∨ s' = s.delete now u) :
    s'.lastUpdated u = now ∧ s'.nVersions u = s.nVersions u + 1 ∧
    ∀ w, w ≠ u → s'.lastUpdated w = s.lastUpdated w ∧ s'.nVersions w = s.nVersions w := by
  have hlog : ∃ tx : Tx, tx.uuid = u ∧ tx.time = now ∧ s'.log = s.log ++ [tx] := by
    rcases h with rfl | rfl | rfl | rfl <;> exact ⟨_, rfl, rfl, rfl⟩
  obtain ⟨tx, h1, h2, h3⟩ := hlog
  refine ⟨?_, ?_, fun w hw => ⟨?_, ?_⟩⟩
  · rw [← h2]
    refine (C08_lastUpdated s' u).1 tx ?_
    rw [h3, List.filter_append]
    simp [h1]
  · rw [C08_nVersions, C08_nVersions, h3, List.filter_append]
    simp [h1]
  · unfold DB.lastUpdated
    rw [h3, List.reverse_append]
    simp [h1, Ne.symm hw]
  · rw [C08_nVersions, C08_nVersions, h3, List.filter_append]
    simp [h1, Ne.symm hw]

/-- Clock readings after 1970 are not negative, so -1 then means exactly "no operation on u". -/
theorem C08_lastUpdated_minus_one_iff (s : DB) (u : Str) (hpos : ∀ t ∈ s.log, 0 ≤ t.time) :
    s.lastUpdated u = -1 ↔ ∀ t ∈ s.log, t.uuid ≠ u := by
  refine ⟨fun h t ht hu => ?_, (C08_lastUpdated s u).2⟩
  have hne : s.log.filter (fun t => t.uuid = u) ≠ [] := by
    intro h0; rw [List.filter_eq_nil_iff] at h0; exact h0 t ht (by simpa using hu)
  obtain ⟨x, hx⟩ := Option.isSome_iff_exists.1 (by simpa using hne :
    (s.log.filter (fun t => t.uuid = u)).getLast?.isSome = true)
  have h1 := (C08_lastUpdated s u).1 x hx
  have h2 := hpos x (List.mem_filter.1 (List.mem_of_getLast? hx)).1
  omega

example : ({ log := [⟨1, .add, b! "u", [], []⟩, ⟨7, .setk, b! "u", b! "k", b! "v"⟩,
    ⟨9, .add, b! "w", [], []⟩] } : DB).lastUpdated (b! "u") = 7 := by decide

/-! ## C09 A log that does not replay is reported, stays reported, and is not altered -/

/-- UpdateSnapshot never changes the log or the transaction state, whatever happens. -/
theorem C09_log_untouched (s : DB) :
    s.updateSnapshot.1.log = s.log ∧ s.updateSnapshot.1.txPoint = s.txPoint :=
  ⟨updateSnapshot_log s, updateSnapshot_txPoint s⟩

/-- It returns an error iff the log does not replay; then it has stopped right before the first operation that
is illegal, and calling it again changes nothing and returns the same error. -/
theorem C09_reported (s0 s : DB) (ops : List Op) (h0 : StartOk s0)
    (hsafe : NoStaleRollback s0 ops) (hr : run s0 ops = some s) :
    (s.updateSnapshot.2 = none ↔ (Spec.meaning Spec.empty s.log).isSome) ∧
    (s.updateSnapshot.2 ≠ none →
      let s' := s.updateSnapshot.1
      (Spec.meaning Spec.empty (s.log.take s'.version)).isSome ∧
      Spec.meaning Spec.empty (s.log.take (s'.version + 1)) = none ∧
      s'.updateSnapshot = (s', s.updateSnapshot.2)) := by
  have hc := coherent_run h0 hsafe hr
  rcases updateSnapshot_spec hc with ⟨snap, h1, h2⟩ | ⟨e, n, snap, h1, h2, h3, h4, h5, h6⟩
  · simp [h2, h1]
  · simp [h5, h1, h3, h4, h6]

example : (run DB.new [.add 1 (b! "u"), .delete 2 (b! "w"), .set 3 (b! "u") (b! "k") (b! "v")]).map
    (fun s => s.updateSnapshot.2) = some (some (.notInSnapshot (b! "w"))) := by decide

/-! ## C10 Nothing is saved while a transaction is open -/

/-- Is a transaction open after these calls? -/
def txOpen : Bool → List Op → Bool
  | b, [] => b
  | _, .begin :: ops => txOpen true ops
  | _, .commit :: ops => txOpen false ops
  | _, .rollback :: ops => txOpen false ops
  | b, _ :: ops => txOpen b ops

theorem step_txPoint {s s' : DB} {op : Op} {e : Option TxErr} (h : step s op = some (s', e)) :
    s'.txPoint = match op with
      | .begin => s.log.length + 1
      | .commit => 0
      | .rollback => 0
      | _ => s.txPoint := by
  cases op <;> simp only [step, Option.some.injEq, Prod.mk.injEq, Option.map_eq_some_iff] at h
  case commit =>
    obtain ⟨a, h1, rfl, _⟩ := h
    unfold DB.commit at h1; split at h1 <;> simp at h1; subst h1; rfl
  case rollback =>
    obtain ⟨a, h1, rfl, _⟩ := h
    unfold DB.rollback at h1
    split at h1
    · simp at h1
    · dsimp only at h1
      split at h1
      · simp at h1
      · simp only [Option.some.injEq] at h1; subst h1; rfl
  case rollbackN n _ => have := rollbackN_txPoint s n; rw [h] at this; exact this
  case updateSnapshot => have := updateSnapshot_txPoint s; rw [h] at this; exact this
  all_goals obtain ⟨rfl, _⟩ := h; rfl

theorem run_txOpen {s s' : DB} {ops : List Op} {b : Bool} (hb : s.txPoint ≠ 0 ↔ b = true)
    (h : run s ops = some s') : s'.txPoint ≠ 0 ↔ txOpen b ops = true := by
  induction ops generalizing s b with
  | nil => simp [run] at h; subst h; exact hb
  | cons op ops ih =>
    simp only [run] at h
    cases hst : step s op with
    | none => simp [hst] at h
    | some p =>
      obtain ⟨s1, e⟩ := p
      simp only [hst] at h
      have htp := step_txPoint hst
      cases op <;> simp only at htp <;> simp only [txOpen]
      case begin => exact ih (by rw [htp]; simp) h
      case commit => exact ih (by rw [htp]; simp) h
      case rollback => exact ih (by rw [htp]; simp) h
      all_goals exact ih (by rw [htp]; exact hb) h

/-- Save fails exactly while a Begin has not been matched, otherwise it gives the store. -/
theorem C10_save (ops : List Op) (s : DB) (h : run DB.new ops = some s) :
    (txOpen false ops = true → s.save = .error .saveInTransaction) ∧
    (txOpen false ops = false → s.save = .ok s) := by
  have := run_txOpen (b := false) (by decide) h
  unfold DB.save
  constructor
  · intro ho; have := this.2 ho; simp [this]
  · intro ho; rw [ho] at this; simp at this; simp [this]

/-- Commit and Rollback without an open transaction panic. -/
theorem C10_panics (ops : List Op) (h : txOpen false ops = false) :
    run DB.new (ops ++ [.commit]) = none ∧ run DB.new (ops ++ [.rollback]) = none := by
  rw [run_append, run_append]
  cases hr : run DB.new ops with
  | none => simp
  | some s =>
    have := run_txOpen (b := false) (by decide) hr
    rw [h] at this; simp at this
    simp [run, step, DB.commit, DB.rollback, this]

example : txOpen false [.add 1 (b! "u"), .begin, .delete 2 (b! "u")] = true ∧
    (run DB.new [.add 1 (b! "u"), .begin, .delete 2 (b! "u")]).isSome := by decide

end Verif.Txlogs
