import Verif.App.HistoryLemmas2
/-!
# Facts about `sync` and histories
-/
set_option linter.unusedSimpArgs false
namespace Verif.App
open Verif Verif.Txlogs Verif.Blob Verif.Crypt Verif.App.Spec
open Verif.Txlogs.Spec (GoodHistory Replays KnownKinds AddsOnce)

/-- the operations of `saveHosts` -/
def HostOp (t : Tx) : Prop := t.kind = .setk ∧ t.key = keyKnownHosts

theorem saveHostsLoop_ops (hs : List (Str × Str)) : ∀ (now : Nat → Int) (s : DB),
    (saveHostsLoop now s hs).snapshot = s.snapshot ∧ (saveHostsLoop now s hs).version = s.version ∧
      ∃ txs, (saveHostsLoop now s hs).log = s.log ++ txs ∧ txs.map Tx.time = (List.range hs.length).map now ∧ ∀ t ∈ txs, HostOp t := by
  induction hs with
  | nil => intro now s; exact ⟨rfl, rfl, [], by simp [saveHostsLoop], rfl, by simp⟩
  | cons p hs ih =>
    intro now s
    obtain ⟨u, h⟩ := p
    simp only [saveHostsLoop]
    obtain ⟨h1, h2, txs, h3, h4, h5⟩ := ih (fun i => now (i + 1))
      (s.setKey (now 0) u keyKnownHosts (appendHost (val ((s.snapshot.get? u).getD []) keyKnownHosts) h))
    refine ⟨h1, h2, ⟨now 0, .setk, u, keyKnownHosts,
      appendHost (val ((s.snapshot.get? u).getD []) keyKnownHosts) h⟩ :: txs, ?_, ?_, ?_⟩
    · rw [h3]; simp [DB.setKey, DB.appendLog]
    · rw [List.length_cons, List.range_succ_eq_map]
      simp only [List.map_cons, List.map_map, h4]
      rfl
    · intro t ht
      rcases List.mem_cons.1 ht with rfl | ht
      · exact ⟨rfl, rfl⟩
      · exact h5 t ht

/-- operations that neither add, nor delete, nor touch names leave a history a history, if it replays -/
theorem own_hosts {log txs : List Tx} (h : OwnHistory log) (ht : ∀ t ∈ txs, HostOp t) (hc : Txlogs.Spec.Chrono (log ++ txs))
    (hr : Replays (log ++ txs)) : OwnHistory (log ++ txs) := by
  have hmem : ∀ t ∈ log ++ txs, t ∈ log ∨ HostOp t := fun t h => (List.mem_append.1 h).imp id (ht t)
  have hadd : ∀ t ∈ log ++ txs, t.kind = .add → t ∈ log := by
    intro t h1 h2
    rcases hmem t h1 with h | h
    · exact h
    · rw [h.1] at h2; cases h2
  refine ⟨⟨hc, hr, ?_, ?_⟩, ?_, ?_, ?_, ?_⟩
  · intro t h1
    rcases hmem t h1 with h2 | h2
    · exact h.good.kinds t h2
    · rw [h2.1]; simp
  · intro x hx y hy h1 h2
    exact h.good.addsOnce x (hadd x hx h1) y (hadd y hy h2) h1 h2
  · intro x hx h1
    obtain ⟨y, hy, h2⟩ := h.given x (hadd x hx h1) h1
    exact ⟨y, by simp [hy], h2⟩
  · intro t h1 hk
    rcases hmem t h1 with h2 | h2
    · exact h.kept t h2 hk
    · rw [h2.1] at hk; cases hk
  · intro t h1 hk hkey
    rcases hmem t h1 with h2 | h2
    · exact h.utf8 t h2 hk hkey
    · rw [h2.2] at hkey; exact absurd hkey (by decide)
  · intro t h1 hk
    exact h.uuids t (hadd t h1 hk) hk

/-- `saveHosts`, if it succeeds -/
theorem own_saveHosts {now : Nat → Int} {s s' : DB} {hs : List (Str × Str)} (ho : Ok s) (h : OwnHistory s.log)
    (htick : ∀ i j, i < j → now i < now j) (hlate : ∀ t ∈ s.log, t.time < now 0) (hr : saveHosts now s hs = (s', none)) :
    Ok s' ∧ s'.txPoint = s.txPoint ∧ OwnHistory s'.log ∧ s.log <+: s'.log ∧
      (∀ t ∈ s'.log, t ∈ s.log ∨ (HostOp t ∧ ∃ i, i < hs.length ∧ t.time = now i)) := by
  have htx := saveHosts_txPoint now s hs
  obtain ⟨h1, h2, txs, h3, h4, h5⟩ := saveHostsLoop_ops hs now s
  have hok : Ok (saveHostsLoop now s hs) := ok_append ho h3 h2 h1
  unfold saveHosts at hr htx
  have hup := ok_update hok
  have hlog := updateSnapshot_log (saveHostsLoop now s hs)
  have hrep : Replays (s.log ++ txs) := by
    rcases updateSnapshot_spec hok.coh with ⟨snap, h6, -⟩ | ⟨e, n, snap, -, -, -, -, h6, -⟩
    · unfold Replays
      rw [← h3, h6]; rfl
    · rw [hr] at h6; cases h6
  rw [hr] at hup hlog htx
  simp only [h3] at hlog
  have hc : Txlogs.Spec.Chrono (s.log ++ txs) := by
    refine own_append (t0 := now 0) (T := (List.range hs.length).map now) h.good.chrono ?_ ?_ hlate (by rw [h4]; exact List.Sublist.refl _)
    · rw [List.pairwise_map]
      exact List.Pairwise.imp (fun h' => htick _ _ h') List.pairwise_lt_range
    · intro x hx
      obtain ⟨i, -, rfl⟩ := List.mem_map.1 hx
      cases i with
      | zero => omega
      | succ i => have := htick 0 (i + 1) (by omega); omega
  refine ⟨hup, htx, ?_, ?_, ?_⟩
  · rw [hlog]; exact own_hosts h h5 hc hrep
  · rw [hlog]; exact List.prefix_append _ _
  · intro t ht
    rw [hlog, List.mem_append] at ht
    rcases ht with ht | ht
    · exact .inl ht
    · have : t.time ∈ (List.range hs.length).map now := by rw [← h4]; exact List.mem_map.2 ⟨t, ht, rfl⟩
      obtain ⟨i, hi, he⟩ := List.mem_map.1 this
      exact .inr ⟨h5 t ht, i, List.mem_range.1 hi, he.symm⟩

theorem length_set_le (m : Results) (k h : Str) : (m.set k h).length ≤ m.length + 1 := by
  induction m with
  | nil => simp [GoMap.set]
  | cons a m ih =>
    obtain ⟨k', v'⟩ := a
    simp only [GoMap.set]
    split <;> simp only [List.length_cons] <;> omega

theorem newHosts_length (l : List (Str × Fate × Str)) : ∀ m : Results, (newHosts l m).length ≤ m.length + l.length := by
  induction l with
  | nil => intro m; simp [newHosts]
  | cons x l ih =>
    intro m
    obtain ⟨a, f, h⟩ := x
    simp only [newHosts, List.length_cons]
    have := ih (if h = [] then m else m.set a h)
    have h2 := length_set_le m a h
    split at this
    · rw [if_pos (by assumption)]; omega
    · rw [if_neg (by assumption)]; omega

/-! ## With an up to date snapshot reading changes nothing -/

theorem users_store {s : DB} (h : s.updateSnapshot = (s, none)) (ord : Order) : (users ord s).1 = s := by
  unfold users withSnapshot
  rw [h]
  simp only
  split <;> rfl

theorem mustFind_store {s : DB} (h : s.updateSnapshot = (s, none)) (uuid : Str) : (mustFind s uuid).1 = s := by
  have h : (find s uuid).1 = s := by
    unfold find withSnapshot
    rw [h]
  unfold mustFind
  split <;> rename_i heq <;> rw [heq] at h <;> exact h

theorem paramLoop_store (P : Prims) (c : Creds) (l : List (Str × Str)) {s : DB} (h : s.updateSnapshot = (s, none)) (p : Params) :
    (paramLoop P c l s p).1 = s := by
  induction l generalizing p with
  | nil => rfl
  | cons a l ih =>
    have hm := mustFind_store h a.1
    simp only [paramLoop]
    split
    · rfl
    · split
      · rename_i heq; rw [heq] at hm; exact hm
      · rename_i heq; rw [heq] at hm; exact hm
      · rename_i heq
        rw [heq] at hm
        simp only at hm
        subst hm
        split
        · rfl
        · split
          · rfl
          · split
            · rfl
            · rw [ih]

theorem sealFile_store (P : Prims) (C : Codec) (ord : Order) (ord' : Results → Results) (iv : Str) (c : Creds) {s : DB}
    (h : s.updateSnapshot = (s, none)) : (sealFile P C ord ord' iv c s).1 = s := by
  have hm : (makeParams P ord ord' c s).1 = s := by
    have hu := users_store h ord
    unfold makeParams
    split
    · rfl
    · split
      · rename_i heq; rw [heq] at hu; exact hu
      · rename_i heq; rw [heq] at hu; exact hu
      · rename_i s1 us heq
        rw [heq] at hu
        simp only at hu
        subst hu
        have hp := paramLoop_store P c (ord' us) h {}
        split
        · rename_i heq'; rw [heq'] at hp; exact hp
        · exact hp
  unfold sealFile
  split
  · rfl
  · split
    · rename_i heq; rw [heq] at hm; exact hm
    · rename_i heq; rw [heq] at hm; exact hm
    · rename_i heq
      rw [heq] at hm
      split <;> exact hm

/-! ## Pushing back, merging, the command -/

theorem own_pushBack {P : Prims} {C : Codec} {w : World} {v : SyncEnv} {push : Bool} {hosts : Results} {ts : List Str}
    {u : Session} {inp : Input} (hok : Ok u.store) (h : OwnHistory u.store.log) (hord : ∀ m, (v.ordH m).Perm m)
    (htick : ∀ i j, i < j → v.now i < v.now j) (htick' : ∀ i j, i < j → v.now' i < v.now' j) (hb : v.now 0 ≤ v.now' 0)
    (hlate : ∀ t ∈ u.store.log, t.time < v.now 0) (hafter : ∀ i, i < hosts.length → v.now i < v.now' 0)
    (hr : (pushBack P C w v push hosts ts u inp).result = .ok ()) :
    let s := (pushBack P C w v push hosts ts u inp).session.store
    Ok s ∧ s.txPoint = u.store.txPoint ∧ OwnHistory s.log ∧ u.store.log <+: s.log ∧ ∀ t ∈ s.log, t ∈ u.store.log ∨ HostOp t := by
  simp only [pushBack] at hr ⊢
  cases hs : saveHosts v.now u.store (v.ordH hosts) with
  | mk s e =>
    rw [hs] at hr
    cases e with
    | some e => cases hr
    | none =>
      obtain ⟨a1, a2, a3, a4, a5⟩ := own_saveHosts hok h htick hlate hs
      simp only at hr ⊢
      by_cases hp : push = false
      · rw [if_pos hp]
        exact ⟨a1, a2, a3, a4, fun t ht => (a5 t ht).imp id And.left⟩
      · rw [if_neg hp] at hr ⊢
        have hst := sealFile_store P C v.ord v.ord' v.iv u.creds (s := s) (update_again hs)
        cases hf : sealFile P C v.ord v.ord' v.iv u.creds s with
        | mk s2 r =>
          rw [hf] at hst hr
          simp only at hst
          subst hst
          cases r with
          | panic => cases hr
          | err e => cases hr
          | ok ct =>
            simp only at hr ⊢
            cases ha : pushAll w s2 ct ts [] inp with
            | mk done x =>
              obtain ⟨crash, hosts', i3⟩ := x
              rw [ha] at hr
              cases crash with
              | true => cases hr
              | false =>
                simp only at hr ⊢
                cases hs' : saveHosts v.now' s2 (v.ordH hosts') with
                | mk s3 e =>
                  rw [hs'] at hr
                  cases e with
                  | some e => cases hr
                  | none =>
                    have hlate' : ∀ t ∈ s2.log, t.time < v.now' 0 := by
                      intro t ht
                      rcases a5 t ht with h1 | ⟨-, i, hi, h1⟩
                      · have := hlate t h1; omega
                      · rw [(hord hosts).length_eq] at hi
                        rw [h1]; exact hafter i hi
                    obtain ⟨b1, b2, b3, b4, b5⟩ := own_saveHosts a1 a3 htick' hlate' hs'
                    refine ⟨b1, b2.trans a2, b3, a4.trans b4, fun t ht => ?_⟩
                    rcases b5 t ht with h1 | ⟨h1, -⟩
                    · exact (a5 t h1).imp id And.left
                    · exact .inr h1

/-- a union of own histories that is a good history is an own history -/
theorem own_union {c log : List Tx} {rs : List Remote} (hg : GoodHistory c) (h : OwnHistory log) (hr : ∀ q ∈ rs, OwnHistory q.log)
    (hu : ∀ t, t ∈ c ↔ t ∈ log ∨ ∃ x ∈ rs, t ∈ x.log) : OwnHistory c := by
  refine ⟨hg, ?_, ?_, ?_, ?_⟩
  · intro x hx hk
    rcases (hu x).1 hx with h1 | ⟨q, hq, h1⟩
    · obtain ⟨y, hy, h2⟩ := h.given x h1 hk
      exact ⟨y, (hu y).2 (.inl hy), h2⟩
    · obtain ⟨y, hy, h2⟩ := (hr q hq).given x h1 hk
      exact ⟨y, (hu y).2 (.inr ⟨q, hq, hy⟩), h2⟩
  · intro x hx
    rcases (hu x).1 hx with h1 | ⟨q, hq, h1⟩
    · exact h.kept x h1
    · exact (hr q hq).kept x h1
  · intro x hx
    rcases (hu x).1 hx with h1 | ⟨q, hq, h1⟩
    · exact h.utf8 x h1
    · exact (hr q hq).utf8 x h1
  · intro x hx
    rcases (hu x).1 hx with h1 | ⟨q, hq, h1⟩
    · exact h.uuids x h1
    · exact (hr q hq).uuids x h1

theorem own_syncWith {P : Prims} {C : Codec} {w : World} {v : SyncEnv} {push : Bool} {u : Session} {syncs : List Str} {inp : Input}
    (hok : Ok u.store) (h : OwnHistory u.store.log) (hord : ∀ m, (v.ordH m).Perm m)
    (htick : ∀ i j, i < j → v.now i < v.now j) (htick' : ∀ i j, i < j → v.now' i < v.now' j) (hb : v.now 0 ≤ v.now' 0)
    (hlate : ∀ t ∈ u.store.log, t.time < v.now 0)
    (hp : ∀ l rest, pullAll P C w u syncs inp = (some l, rest) → PulledOk v u.store.log l)
    (hr : (syncWith P C w v push u syncs inp).result = .ok ()) :
    let s := (syncWith P C w v push u syncs inp).session.store
    Ok s ∧ s.txPoint = u.store.txPoint ∧ OwnHistory s.log ∧
      (s.log = u.store.log ∨ ∃ l rest, pullAll P C w u syncs inp = (some l, rest) ∧
        (∀ t ∈ u.store.log, t ∈ s.log) ∧ (∀ q ∈ remotes l, ∀ t ∈ q.log, t ∈ s.log) ∧
        ∀ t ∈ s.log, t ∈ u.store.log ∨ (∃ q ∈ remotes l, t ∈ q.log) ∨ HostOp t) := by
  simp only [syncWith] at hr ⊢
  cases hl : pullAll P C w u syncs inp with
  | mk o i1 =>
    cases o with
    | none => rw [hl] at hr; cases hr
    | some l =>
      rw [hl] at hr
      simp only at hr ⊢
      have hpl := hp l i1 hl
      cases hm : mergeBlobs v.ord u.creds u.store.log (remotes l) i1 with
      | mk o i2 =>
        rw [hm] at hr
        cases o with
        | panic => cases hr
        | err e => exact ⟨hok, rfl, h, .inl rfl⟩
        | ok m =>
          simp only at hr ⊢
          obtain ⟨hg, hu⟩ := C80_blobs_partial v.ord u.creds u.store.log (remotes l) i1 i2 m hpl.family hpl.told hm
          have hown := own_union hg h hpl.own hu
          have hok1 : Ok ({ u.store.resetSnapshot with log := m.log } : DB) :=
            ⟨coherent_reset _ _, GoMap.nodupKeys_nil, inner_nil⟩
          have hok2 := ok_update hok1
          have hlog := updateSnapshot_log ({ u.store.resetSnapshot with log := m.log } : DB)
          have htx := updateSnapshot_txPoint ({ u.store.resetSnapshot with log := m.log } : DB)
          cases hs : ({ u.store.resetSnapshot with log := m.log } : DB).updateSnapshot with
          | mk s e =>
            rw [hs] at hr hok2 hlog htx
            cases e with
            | some e => cases hr
            | none =>
              simp only at hr hok2 hlog htx ⊢
              have hlate2 : ∀ t ∈ s.log, t.time < v.now 0 := by
                intro t ht
                rw [hlog] at ht
                rcases (hu t).1 ht with h1 | ⟨q, hq, h1⟩
                · exact hlate t h1
                · exact hpl.late q hq t h1
              obtain ⟨c1, c2, c3, c4, c5⟩ := own_pushBack (P := P) (C := C) (w := w) (v := v) (push := push) (hosts := newHosts l [])
                (ts := targets l) (u := { u with creds := m.creds, store := s }) (inp := i2) hok2 (by rw [hlog]; exact hown) hord
                htick htick' hb hlate2
                (fun i hi => hpl.after i (by have := newHosts_length l []; simp only [List.length_nil] at this; omega)) hr
              refine ⟨c1, c2.trans (htx.trans rfl), c3, .inr ⟨l, i1, rfl, ?_, ?_, ?_⟩⟩
              · intro t ht
                exact c4.subset (by simp only [hlog]; exact (hu t).2 (.inl ht))
              · intro q hq t ht
                exact c4.subset (by simp only [hlog]; exact (hu t).2 (.inr ⟨q, hq, ht⟩))
              · intro t ht
                rcases c5 t ht with h1 | h1
                · simp only [hlog] at h1
                  rcases (hu t).1 h1 with h2 | h2
                  · exact .inl h2
                  · exact .inr (.inl h2)
                · exact .inr (.inr h1)

/-- `sync` either stops with the store updated only, or goes on. -/
theorem sync_store (P : Prims) (C : Codec) (w : World) (v : SyncEnv) (nm : Str) (push : Bool) (u : Session) (inp : Input) :
    (sync P C w v nm push u inp).session.store = u.store.updateSnapshot.1 ∨
    ∃ syncs, Selected w v u nm syncs ∧
      sync P C w v nm push u inp = syncWith P C w v push { u with store := u.store.updateSnapshot.1 } syncs inp := by
  cases hs : u.store.updateSnapshot with
  | mk s e =>
    cases e with
    | some e => left; simp only [sync, hs]
    | none =>
      by_cases hn : nm = []
      · right
        exact ⟨_, ⟨fun _ => rfl, fun h => absurd hn h⟩, by simp only [sync, hs, hn, ne_eq, not_true, if_false]⟩
      · have hst := findByName_store (ord := v.ord) (update_again hs) nm
        cases hf : findByName v.ord s nm with
        | mk s1 r =>
          rw [hf] at hst
          simp only at hst
          subst hst
          simp only [sync, hs, ne_eq, hn, not_false_eq_true, if_true, hf]
          rcases r with (_ | ⟨uuid, _⟩) | _ | _
          · exact .inl rfl
          · simp only
            by_cases hu : uuid = []
            · rw [if_pos hu]; exact .inl rfl
            · rw [if_neg hu]; exact .inr ⟨[uuid], ⟨fun h => absurd h hn, fun _ => ⟨uuid, hu, rfl⟩⟩, rfl⟩
          · exact .inl rfl
          · exact .inl rfl

/-- `sync`, when it succeeds -/
theorem own_sync {P : Prims} {C : Codec} {w : World} {v : SyncEnv} {nm : Str} {push : Bool} {u : Session} {inp : Input}
    (hok : Ok u.store) (h : OwnHistory u.store.log) (hs : SyncOk P C w v nm u inp)
    (hr : (sync P C w v nm push u inp).result = .ok ()) :
    let s := (sync P C w v nm push u inp).session.store
    Ok s ∧ s.txPoint = u.store.txPoint ∧ OwnHistory s.log ∧
      (s.log = u.store.log ∨ ∃ syncs l rest, Selected w v u nm syncs ∧
        pullAll P C w { u with store := u.store.updateSnapshot.1 } syncs inp = (some l, rest) ∧
        (∀ t ∈ u.store.log, t ∈ s.log) ∧ (∀ q ∈ remotes l, ∀ t ∈ q.log, t ∈ s.log) ∧
        ∀ t ∈ s.log, t ∈ u.store.log ∨ (∃ q ∈ remotes l, t ∈ q.log) ∨ HostOp t) := by
  have hlog := updateSnapshot_log u.store
  have htx := updateSnapshot_txPoint u.store
  rcases sync_store P C w v nm push u inp with he | ⟨syncs, hsel, he⟩
  · simp only [he]
    exact ⟨ok_update hok, htx, by rw [hlog]; exact h, .inl hlog⟩
  · rw [he] at hr ⊢
    obtain ⟨a, b, c, d⟩ := own_syncWith (P := P) (C := C) (w := w) (v := v) (push := push) (syncs := syncs) (inp := inp)
      (u := { u with store := u.store.updateSnapshot.1 }) (ok_update hok) (by simp only [hlog]; exact h) hs.ordH hs.tick hs.tick'
      hs.begins (by simp only [hlog]; exact hs.late)
      (fun l rest hp => by simp only [hlog]; exact hs.pulled syncs l rest hsel hp) hr
    simp only [hlog, htx] at b d
    refine ⟨a, b, c, ?_⟩
    rcases d with d | ⟨l, rest, d1, d2⟩
    · exact .inl d
    · exact .inr ⟨syncs, l, rest, hsel, d1, d2⟩

theorem namesApart_hosts {log all : List Tx} (h : NamesApart all) (hm : ∀ t ∈ log, t ∈ all ∨ HostOp t) : NamesApart log := by
  have hk : ∀ t ∈ log, t.kind = .setk → t.key = keyName → t ∈ all := by
    intro t ht _ hkey
    rcases hm t ht with h1 | h1
    · exact h1
    · rw [h1.2] at hkey; exact absurd hkey (by decide)
  intro x hx y hy h1 h2 h3 h4
  exact h x (hk x hx h1 h3) y (hk y hy h2 h4) h1 h2 h3 h4

end Verif.App
