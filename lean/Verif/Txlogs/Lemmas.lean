import Verif.Txlogs.Spec
/-! Helper lemmas about replaying logs and the store invariant. -/
namespace Verif.Txlogs
open Verif

/-- Replay a log on top of a snapshot (proof device: the iteration of `applyTx`). -/
def replay : Snapshot → List Tx → Except TxErr Snapshot
  | s, [] => .ok s
  | s, tx :: log =>
    match applyTx s tx with
    | .error e => .error e
    | .ok s' => replay s' log

@[simp] theorem replay_nil (s : Snapshot) : replay s [] = .ok s := rfl

theorem replay_append (s : Snapshot) (a b : List Tx) :
    replay s (a ++ b) = match replay s a with
      | .error e => .error e
      | .ok s' => replay s' b := by
  induction a generalizing s with
  | nil => rfl
  | cons tx a ih =>
    simp only [List.cons_append, replay]
    cases applyTx s tx with
    | error e => rfl
    | ok s' => exact ih s'

/-! ## applyTx refines the specification -/

theorem view_set (s : Snapshot) (u : Str) (e : Entry) :
    Spec.view (s.set u e) = Spec.upd (Spec.view s) u (some (fun k => e.get? k)) := by
  funext x
  simp only [Spec.view, Spec.upd, GoMap.get?_set]
  split <;> simp

theorem view_del (s : Snapshot) (u : Str) :
    Spec.view (s.del u) = Spec.upd (Spec.view s) u none := by
  funext x
  simp only [Spec.view, Spec.upd, GoMap.get?_del]
  split <;> simp

theorem entry_set (e : Entry) (k v : Str) :
    (fun x => (e.set k v).get? x) = Spec.upd (fun x => e.get? x) k (some v) := by
  funext x
  simp only [Spec.upd, GoMap.get?_set]

theorem entry_del (e : Entry) (k : Str) :
    (fun x => (e.del k).get? x) = Spec.upd (fun x => e.get? x) k none := by
  funext x
  simp only [Spec.upd, GoMap.get?_del]

theorem applyTx_spec (s : Snapshot) (tx : Tx) :
    (match applyTx s tx with
      | .ok s' => some (Spec.view s')
      | .error _ => none) = Spec.apply (Spec.view s) tx := by
  unfold applyTx Spec.apply getEntry
  have hv : Spec.view s tx.uuid = (s.get? tx.uuid).map (fun e k => e.get? k) := rfl
  rw [hv]
  cases hk : tx.kind <;> cases hg : s.get? tx.uuid <;>
    simp [view_set, view_del, entry_set, entry_del]

theorem replay_spec (s : Snapshot) (log : List Tx) :
    (match replay s log with
      | .ok s' => some (Spec.view s')
      | .error _ => none) = Spec.meaning (Spec.view s) log := by
  induction log generalizing s with
  | nil => rfl
  | cons tx log ih =>
    have h := applyTx_spec s tx
    simp only [replay, Spec.meaning]
    cases ha : applyTx s tx with
    | error e => simp [ha] at h; simp [← h]
    | ok s' => simp [ha] at h; simp [← h, ih]

theorem view_nil : Spec.view [] = Spec.empty := rfl

theorem meaning_of_replay {log : List Tx} {s : Snapshot} (h : replay [] log = .ok s) :
    Spec.meaning Spec.empty log = some (Spec.view s) := by
  have := replay_spec [] log
  rw [h, view_nil] at this
  exact this.symm

theorem meaning_none_of_replay {log : List Tx} {e : TxErr} (h : replay [] log = .error e) :
    Spec.meaning Spec.empty log = none := by
  have := replay_spec [] log
  rw [h, view_nil] at this
  exact this.symm

theorem replay_ok_of_meaning {log : List Tx} {st : Spec.State}
    (h : Spec.meaning Spec.empty log = some st) :
    ∃ s, replay [] log = .ok s ∧ Spec.view s = st := by
  have := replay_spec [] log
  rw [view_nil, h] at this
  cases hr : replay [] log with
  | error e => simp [hr] at this
  | ok s => simp [hr] at this; exact ⟨s, rfl, this⟩

theorem replay_err_of_meaning {log : List Tx} (h : Spec.meaning Spec.empty log = none) :
    ∃ e, replay [] log = .error e := by
  have := replay_spec [] log
  rw [view_nil, h] at this
  cases hr : replay [] log with
  | error e => exact ⟨e, rfl⟩
  | ok s => simp [hr] at this

/-! ## UpdateSnapshot -/

theorem updateLoop_spec (pending : List Tx) (v : Nat) (s : Snapshot) :
    (∃ s', replay s pending = .ok s' ∧
      DB.updateLoop pending v s = (v + pending.length, s', none)) ∨
    (∃ e n s', replay s pending = .error e ∧ n < pending.length ∧
      replay s (pending.take n) = .ok s' ∧ DB.updateLoop (pending.drop n) (v + n) s' = (v + n, s', some e) ∧
      DB.updateLoop pending v s = (v + n, s', some e)) := by
  induction pending generalizing v s with
  | nil => left; exact ⟨s, rfl, rfl⟩
  | cons tx pending ih =>
    cases ha : applyTx s tx with
    | error e =>
      right
      exact ⟨e, 0, s, by simp [replay, ha], by simp, by simp, by simp [DB.updateLoop, ha],
        by simp [DB.updateLoop, ha]⟩
    | ok s1 =>
      rcases ih (v + 1) s1 with ⟨s', h1, h2⟩ | ⟨e, n, s', h1, h2, h3, h4, h5⟩
      · left
        refine ⟨s', by simp [replay, ha, h1], ?_⟩
        simp only [DB.updateLoop, ha, h2, List.length_cons]
        congr 1; omega
      · right
        refine ⟨e, n + 1, s', by simp [replay, ha, h1], by simpa using h2,
          by simp [replay, ha, h3], ?_, ?_⟩
        · rw [List.drop_succ_cons, show v + (n + 1) = v + 1 + n by omega]; exact h4
        · simp only [DB.updateLoop, ha, h5]
          congr 1; omega

/-- The store invariant: what the snapshot shows is the meaning of the first `version` operations. -/
def Coherent (s : DB) : Prop :=
  s.version ≤ s.log.length ∧
    Spec.meaning Spec.empty (s.log.take s.version) = some (Spec.view s.snapshot)

theorem coherent_new : Coherent DB.new := ⟨by decide, rfl⟩

theorem coherent_append {s s' : DB} {txs : List Tx} (h : Coherent s) (hl : s'.log = s.log ++ txs)
    (hv : s'.version = s.version) (hs : s'.snapshot = s.snapshot) : Coherent s' := by
  obtain ⟨h1, h2⟩ := h
  refine ⟨by rw [hl, hv]; simp; omega, ?_⟩
  rw [hl, hv, hs, List.take_append_of_le_length h1]; exact h2

theorem coherent_reset {s : DB} (l : List Tx) (p : Nat) :
    Coherent { s.resetSnapshot with log := l, txPoint := p } :=
  ⟨Nat.zero_le _, rfl⟩

theorem coherent_take {s : DB} (h : Coherent s) {n p : Nat} (hn : s.version ≤ n)
    (hl : n ≤ s.log.length) :
    Coherent { s with log := s.log.take n, txPoint := p } := by
  obtain ⟨h1, h2⟩ := h
  refine ⟨by simp; omega, ?_⟩
  simp only [List.take_take]
  rw [Nat.min_eq_left hn]; exact h2

theorem meaning_append (st : Spec.State) (a b : List Tx) :
    Spec.meaning st (a ++ b) = (Spec.meaning st a).bind (fun st' => Spec.meaning st' b) := by
  induction a generalizing st with
  | nil => rfl
  | cons tx a ih =>
    simp only [List.cons_append, Spec.meaning]
    cases Spec.apply st tx with
    | none => rfl
    | some st' => exact ih st'

theorem meaning_split {s : DB} (h : Coherent s) :
    Spec.meaning Spec.empty s.log = Spec.meaning (Spec.view s.snapshot) (s.log.drop s.version) := by
  conv => lhs; rw [← List.take_append_drop s.version s.log]
  rw [meaning_append, h.2]; rfl

/-- What UpdateSnapshot does in a coherent store. -/
theorem updateSnapshot_spec {s : DB} (h : Coherent s) :
    (∃ snap, Spec.meaning Spec.empty s.log = some (Spec.view snap) ∧
      s.updateSnapshot = ({ s with version := s.log.length, snapshot := snap }, none)) ∨
    (∃ e n snap, Spec.meaning Spec.empty s.log = none ∧ n < s.log.length ∧
      Spec.meaning Spec.empty (s.log.take n) = some (Spec.view snap) ∧
      Spec.meaning Spec.empty (s.log.take (n + 1)) = none ∧
      s.updateSnapshot = ({ s with version := n, snapshot := snap }, some e) ∧
      ({ s with version := n, snapshot := snap } : DB).updateSnapshot =
        ({ s with version := n, snapshot := snap }, some e)) := by
  have hr := meaning_split h
  obtain ⟨h1, h2⟩ := h
  by_cases hv : s.version ≥ s.log.length
  · left
    have he : s.version = s.log.length := by omega
    refine ⟨s.snapshot, ?_, ?_⟩
    · rw [hr, he]; simp [Spec.meaning]
    · simp only [DB.updateSnapshot, hv, if_true]; cases s; simp_all
  · have hlen : (s.log.drop s.version).length = s.log.length - s.version := by simp
    rcases updateLoop_spec (s.log.drop s.version) s.version s.snapshot with
      ⟨s', h3, h4⟩ | ⟨e, n, s', h3, h4, h5, h6, h7⟩
    · left
      refine ⟨s', ?_, ?_⟩
      · rw [hr, ← replay_spec, h3]
      · simp only [DB.updateSnapshot, hv, if_false, h4, hlen]
        congr 2; omega
    · right
      rw [hlen] at h4
      have hlt : s.version + n < s.log.length := by omega
      have hm : Spec.meaning Spec.empty (s.log.take (s.version + n)) = some (Spec.view s') := by
        rw [List.take_add, meaning_append, h2]
        simp only [Option.bind_some]
        rw [← replay_spec, h5]
      refine ⟨e, s.version + n, s', by rw [hr, ← replay_spec, h3], hlt, hm, ?_, ?_, ?_⟩
      · rw [List.take_add, meaning_append, hm, Option.bind_some]
        rw [List.drop_drop] at h6
        rw [List.drop_eq_getElem_cons hlt] at h6 ⊢
        simp only [List.take_succ_cons, List.take_zero]
        rw [← replay_spec]
        simp only [DB.updateLoop] at h6
        simp only [replay]
        cases ha : applyTx s' (s.log[s.version + n]) with
        | error e => rfl
        | ok x =>
          exfalso
          simp only [ha] at h6
          rcases updateLoop_spec (s.log.drop (s.version + n + 1)) (s.version + n + 1) x with
            ⟨y, _, h9⟩ | ⟨e', n', y, _, _, _, _, h9⟩ <;> rw [h9] at h6 <;> simp at h6
          omega
      · simp only [DB.updateSnapshot, hv, if_false, h7]
      · rw [List.drop_drop] at h6
        have : ¬ s.log.length ≤ s.version + n := by omega
        simp only [DB.updateSnapshot, ge_iff_le, this, if_false, h6]

theorem coherent_update {s : DB} (h : Coherent s) : Coherent s.updateSnapshot.1 := by
  rcases updateSnapshot_spec h with ⟨snap, h1, h2⟩ | ⟨e, n, snap, _, h2, h3, _, h4, _⟩
  · rw [h2]; exact ⟨by simp, by simpa using h1⟩
  · rw [h4]; exact ⟨by simp; omega, h3⟩

theorem updateSnapshot_log (s : DB) : s.updateSnapshot.1.log = s.log := by
  unfold DB.updateSnapshot; split <;> rfl

theorem updateSnapshot_txPoint (s : DB) : s.updateSnapshot.1.txPoint = s.txPoint := by
  unfold DB.updateSnapshot; split <;> rfl

theorem rollbackN_txPoint (s : DB) (n : Nat) : (s.rollbackN n).1.txPoint = s.txPoint := by
  unfold DB.rollbackN
  split
  · rfl
  · split
    · rfl
    · dsimp only; split <;> rfl

theorem coherent_rollbackN {s : DB} (h : Coherent s) (n : Nat) : Coherent (s.rollbackN n).1 := by
  unfold DB.rollbackN
  split
  · exact h
  · split
    · exact h
    · dsimp only
      split
      · exact coherent_reset _ _
      · exact coherent_take h (p := s.txPoint) (by omega) (by omega)

/-- Rollback keeps the invariant unless `version = txPoint`. -/
theorem coherent_rollback {s s' : DB} (h : Coherent s) (hne : s.version ≠ s.txPoint)
    (hr : s.rollback = some s') : Coherent s' := by
  unfold DB.rollback at hr
  split at hr
  · simp at hr
  · dsimp only at hr
    split at hr
    · simp at hr
    · simp only [Option.some.injEq] at hr
      subst hr
      split
      · exact coherent_reset _ _
      · exact coherent_take h (by omega) (by omega)

theorem coherent_step {s s' : DB} {op : Op} {e : Option TxErr} (h : Coherent s)
    (hsafe : op = .rollback → s.version ≠ s.txPoint) (hst : step s op = some (s', e)) :
    Coherent s' := by
  cases op <;> simp only [step, Option.some.injEq, Prod.mk.injEq, Option.map_eq_some_iff] at hst
  case add => obtain ⟨rfl, _⟩ := hst; exact coherent_append h rfl rfl rfl
  case set => obtain ⟨rfl, _⟩ := hst; exact coherent_append h rfl rfl rfl
  case delete => obtain ⟨rfl, _⟩ := hst; exact coherent_append h rfl rfl rfl
  case deleteKey => obtain ⟨rfl, _⟩ := hst; exact coherent_append h rfl rfl rfl
  case begin => obtain ⟨rfl, _⟩ := hst; exact h
  case commit =>
    obtain ⟨a, h1, h2, _⟩ := hst
    unfold DB.commit at h1
    split at h1
    · simp at h1
    · simp only [Option.some.injEq] at h1; subst h1 h2; exact h
  case rollback =>
    obtain ⟨a, h1, rfl, _⟩ := hst
    exact coherent_rollback h (hsafe rfl) h1
  case rollbackN n => have := coherent_rollbackN h n; rw [hst] at this; exact this
  case resetSnapshot => obtain ⟨rfl, _⟩ := hst; exact coherent_reset (s := s) _ _
  case updateSnapshot => have := coherent_update h; rw [hst] at this; exact this

/-! ## applyIdx -/

theorem applyIdx_range (log : List Tx) (snap : Snapshot) (i n : Nat) (h : i + n ≤ log.length) :
    DB.applyIdx log (List.range' i n) snap =
      match replay snap ((log.drop i).take n) with
      | .ok s => .ok s
      | .error e => .err e := by
  induction n generalizing i snap with
  | zero => simp [DB.applyIdx]
  | succ n ih =>
    have hi : i < log.length := by omega
    rw [List.range'_succ, DB.applyIdx, List.getElem?_eq_getElem hi]
    have hd : log.drop i = log[i] :: log.drop (i + 1) := (List.drop_eq_getElem_cons hi)
    rw [hd, List.take_succ_cons]
    simp only [replay]
    cases applyTx snap log[i] with
    | error e => rfl
    | ok s' => exact ih s' (i + 1) (by omega)

theorem entryTxIndices_spec (u : Str) (full log : List Tx) (i : Nat) (h : full.drop i = log) :
    (DB.entryTxIndices u log i).map (fun j => full[j]?) =
      (log.filter (fun t => t.uuid = u)).map some := by
  induction log generalizing i with
  | nil => rfl
  | cons tx log ih =>
    have h0 : full[i]? = some tx := by
      have : (full.drop i)[0]? = some tx := by rw [h]; rfl
      simpa using this
    have h' : full.drop (i + 1) = log := by
      rw [← List.drop_drop, h]; rfl
    unfold DB.entryTxIndices
    by_cases hu : tx.uuid = u
    · simp [hu, ih (i + 1) h', h0]
    · simp [hu, ih (i + 1) h']

theorem applyIdx_map (log : List Tx) (is : List Nat) (txs : List Tx) (snap : Snapshot)
    (h : is.map (fun j => log[j]?) = txs.map some) :
    DB.applyIdx log is snap =
      match replay snap txs with
      | .ok s => .ok s
      | .error e => .err e := by
  induction is generalizing txs snap with
  | nil =>
    cases txs with
    | nil => rfl
    | cons => simp at h
  | cons i is ih =>
    cases txs with
    | nil => simp at h
    | cons tx txs =>
      simp only [List.map_cons, List.cons.injEq] at h
      rw [DB.applyIdx, h.1]
      simp only [replay]
      cases applyTx snap tx with
      | error e => rfl
      | ok s' => exact ih _ _ h.2

/-! ## Projection to one entry -/

theorem apply_other {st st' : Spec.State} {tx : Tx} {u : Str} (hu : tx.uuid ≠ u)
    (h : Spec.apply st tx = some st') : st' u = st u := by
  unfold Spec.apply at h
  have hne : u ≠ tx.uuid := Ne.symm hu
  split at h <;> simp at h <;> subst h <;> simp [Spec.upd, hne]

/-- The effect of an operation on its own entry depends only on that entry. -/
theorem apply_local {st1 st2 st1' : Spec.State} {tx : Tx} (hst : st1 tx.uuid = st2 tx.uuid)
    (h : Spec.apply st1 tx = some st1') :
    ∃ st2', Spec.apply st2 tx = some st2' ∧ st1' tx.uuid = st2' tx.uuid := by
  unfold Spec.apply at h ⊢
  rw [← hst]
  split at h <;> simp at h <;> subst h <;> simp_all [Spec.upd]

theorem apply_local_none {st1 st2 : Spec.State} {tx : Tx} (hst : st1 tx.uuid = st2 tx.uuid)
    (h : Spec.apply st1 tx = none) : Spec.apply st2 tx = none := by
  unfold Spec.apply at h ⊢
  rw [← hst]
  split at h <;> simp_all

/-- An entry's contents depend only on its own operations. -/
theorem meaning_filter {log : List Tx} {u : Str} {st1 st2 st1' : Spec.State}
    (hst : st1 u = st2 u) (h : Spec.meaning st1 log = some st1') :
    ∃ st2', Spec.meaning st2 (log.filter (fun t => t.uuid = u)) = some st2' ∧ st1' u = st2' u := by
  induction log generalizing st1 st2 with
  | nil => simp [Spec.meaning] at h; subst h; exact ⟨st2, rfl, hst⟩
  | cons tx log ih =>
    simp only [Spec.meaning] at h
    cases ha : Spec.apply st1 tx with
    | none => simp [ha] at h
    | some s1 =>
      simp only [ha] at h
      by_cases hu : tx.uuid = u
      · subst hu
        obtain ⟨s2, h2, h3⟩ := apply_local hst ha
        obtain ⟨st2', h4, h5⟩ := ih h3 h
        refine ⟨st2', ?_, h5⟩
        simp [Spec.meaning, h2, h4]
      · have := apply_other hu ha
        obtain ⟨st2', h4, h5⟩ := ih (this.trans hst) h
        refine ⟨st2', ?_, h5⟩
        simp [hu, h4]

/-- A log replays iff each entry's own sub-log does. -/
theorem meaning_isSome_iff (log : List Tx) (st : Spec.State) :
    (Spec.meaning st log).isSome ↔
      ∀ u, (Spec.meaning st (log.filter (fun t => t.uuid = u))).isSome := by
  constructor
  · intro h u
    obtain ⟨st', h'⟩ := Option.isSome_iff_exists.1 h
    obtain ⟨s2, h2, _⟩ := meaning_filter (u := u) rfl h'
    simp [h2]
  · intro h
    -- generalise: states agreeing per uuid
    suffices H : ∀ (log : List Tx) (st : Spec.State) (f : Str → Spec.State),
        (∀ u, f u u = st u) →
        (∀ u, (Spec.meaning (f u) (log.filter (fun t => t.uuid = u))).isSome) →
        (Spec.meaning st log).isSome from H log st (fun _ => st) (fun _ => rfl) h
    clear h log st
    intro log
    induction log with
    | nil => intros; rfl
    | cons tx log ih =>
      intro st f hf h
      have hu := h tx.uuid
      rw [List.filter_cons_of_pos (by simp)] at hu
      simp only [Spec.meaning] at hu ⊢
      cases ha : Spec.apply (f tx.uuid) tx with
      | none => simp [ha] at hu
      | some s1 =>
        obtain ⟨st', h1, h2⟩ := apply_local (hf tx.uuid) ha
        simp only [h1]
        simp only [ha] at hu
        refine ih st' (fun u => if u = tx.uuid then s1 else f u) ?_ ?_
        · intro u
          by_cases hx : u = tx.uuid
          · subst hx; simp [h2]
          · simp only [hx, if_false, hf]
            exact (apply_other (Ne.symm hx) h1).symm
        · intro u
          by_cases hx : u = tx.uuid
          · subst hx; simpa using hu
          · have := h u
            rw [List.filter_cons_of_neg (by simpa using Ne.symm hx)] at this
            simpa [hx] using this

/-! ## Last-write characterisation -/

theorem meaning_snoc (st : Spec.State) (a : List Tx) (tx : Tx) :
    Spec.meaning st (a ++ [tx]) = (Spec.meaning st a).bind (fun st' => Spec.apply st' tx) := by
  rw [meaning_append]
  congr 1
  funext s
  simp only [Spec.meaning]
  cases Spec.apply s tx <;> rfl

theorem lastWrite_rev (r : List Tx) {st : Spec.State}
    (h : Spec.meaning Spec.empty r.reverse = some st) (u : Str) :
    (st u).isSome = Spec.visibleRev u r ∧ ∀ k, (st u).bind (fun e => e k) = Spec.valueRev u k r := by
  induction r generalizing st with
  | nil => simp [Spec.meaning] at h; subst h; simp [Spec.visibleRev, Spec.valueRev, Spec.empty]
  | cons tx r ih =>
    rw [List.reverse_cons, meaning_snoc] at h
    cases hm : Spec.meaning Spec.empty r.reverse with
    | none => simp [hm] at h
    | some st0 =>
      simp only [hm, Option.bind_some] at h
      obtain ⟨i1, i2⟩ := ih hm
      by_cases hu : tx.uuid = u
      · subst hu
        unfold Spec.apply at h
        simp only [Spec.visibleRev, Spec.valueRev, if_true]
        cases hk : tx.kind <;> cases hg : st0 tx.uuid <;> simp only [hk, hg] at h <;>
          simp only [Option.some.injEq, reduceCtorEq] at h <;> subst h <;>
          simp [Spec.upd]
        all_goals first
          | exact ⟨i1, i2⟩
          | (rw [hg] at i1 i2
             refine ⟨by simpa using i1.symm, fun k => ?_⟩
             rw [← i2 k]
             simp only [eq_comm (a := k), Option.bind_some])
      · have := apply_other hu h
        simp only [Spec.visibleRev, Spec.valueRev, hu, if_false, this]
        exact ⟨i1, i2⟩

/-! ## Counting -/

theorem nVersions_eq (s : DB) (u : Str) :
    s.nVersions u = (s.log.filter (fun t => t.uuid = u)).length := by
  unfold DB.nVersions
  suffices ∀ (l : List Tx) (n : Nat),
      l.foldl (fun v t => if t.uuid = u then v + 1 else v) n =
        n + (l.filter (fun t => t.uuid = u)).length by simpa using this s.log 0
  intro l
  induction l with
  | nil => simp
  | cons t l ih =>
    intro n
    simp only [List.foldl_cons, ih, List.filter_cons]
    by_cases h : t.uuid = u <;> simp [h]; omega

end Verif.Txlogs
