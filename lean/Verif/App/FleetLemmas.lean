import Verif.App.FleetScheme
import Verif.App.HistoryProps
import Verif.App.SessionProps
import Verif.App.EffectProps
/-!
# Lemmas about several machines
-/
set_option linter.unusedSimpArgs false
namespace Verif.App
open Verif Verif.Txlogs Verif.Blob Verif.Crypt Verif.App.Spec
open Verif.Txlogs.Spec (GoodHistory Replays KnownKinds AddsOnce SameFile SameIds Distinguishable LooksSame NoCommonRoot TouchedAfterDelete)

theorem Scheme.reads {P : Prims} {C : Codec} (K : Scheme P C) (i : Nat) {f : Str} {R : List Tx} (ho : OwnHistory R) (hl : K.log R)
    (h : K.saved f R) : readShare P C (K.creds i) f = some R := by
  obtain ⟨q, pt, -, -, h1, h2, h3, -⟩ := K.opens i ho hl h
  simp only [readShare, h1, h2, if_false, h3]

/-- the remote that `pullOne` makes of a file on the share -/
structure OfShare (c : Creds) (R : List Tx) (r : Remote) : Prop where
  log : r.log = R
  master : r.creds.master = c.master
  key : c.master = [] → r.creds.key = c.key

/-- such a remote does not change the credentials -/
theorem OfShare.keeps {c : Creds} {R : List Tx} {r : Remote} (h : OfShare c R r) (ord : Order) (m : Merged) (l : List Tx) (inp : Input) :
    takeRemote ord c m r l inp = (.ok false, inp) := by
  unfold takeRemote
  by_cases hm : c.master = []
  · rw [if_pos ⟨hm, h.master.trans hm⟩, if_pos (h.key hm).symm]
  · rw [if_neg (fun k => hm k.1), if_neg (by rw [h.master]; simp), if_neg (by rw [h.master]; simp)]

theorem pull_share {P : Prims} {C : Codec} {K : Scheme P C} {i : Nat} {u : Session} (hc : u.creds = K.creds i) {f : Str} {R : List Tx}
    (ho : OwnHistory R) (hlr : K.log R) (h : K.saved f R) (hne : R ≠ []) (hl : u.store.log ≠ []) (x : Str) (inp : Input) :
    (LooksSame R u.store.log ∧ pullAll P C (shareWorld f) u [x] inp = (some [(x, .skip, [])], inp)) ∨
    ∃ r, OfShare u.creds R r ∧ pullAll P C (shareWorld f) u [x] inp = (some [(x, .merge r, [])], inp) := by
  obtain ⟨q, pt, key, salt, h1, h2, h3, h4, h5, h6, h7⟩ := K.opens i ho hlr h
  rw [← hc] at h1 h6 h7
  have hd : decryptBlob P u.creds f u.creds.user u.creds.pass inp = (.ok (some (u.creds.user, u.creds.pass, q, pt)), inp) := by
    cases inp with
    | nil => simp only [decryptBlob, tryDecrypt, h1]
    | cons a rest => cases a <;> simp only [decryptBlob, tryDecrypt, h1]
  have hp : ∀ e, pullBlob (shareWorld f) x e inp = (some (.bytes f, []), inp) := by
    intro e
    have : syncFile ≠ syncSCP := by decide
    simp only [pullBlob, shareWorld, this, if_false, if_true]
  cases hn : noChanges R u.store.log with
  | none =>
    exfalso
    unfold noChanges at hn
    split at hn
    · cases hn
    · obtain ⟨a, R', rfl⟩ := List.exists_cons_of_ne_nil hne
      obtain ⟨b, L', hL⟩ := List.exists_cons_of_ne_nil hl
      rw [hL] at hn
      simp only [List.head?_cons, List.getLast?_cons] at hn
      cases hn
  | some b =>
    cases b with
    | true =>
      left
      refine ⟨?_, ?_⟩
      · unfold noChanges at hn
        split at hn
        · cases hn
        · rename_i hlen
          simp only [ne_eq, Decidable.not_not] at hlen
          split at hn
          · rename_i a b c d h1 h2 h3 h4
            simp only [Option.some.injEq, decide_eq_true_eq] at hn
            exact ⟨hlen, by rw [h1, h2]; simp [hn.1], by rw [h3, h4]; simp [hn.2]⟩
          · cases hn
      · simp only [pullAll, pullOne, hp, hd, h2, if_false, h3, hn]
    | false =>
      right
      refine ⟨{ name := val ((u.store.snapshot.get? x).getD []) keyName
                creds := { user := u.creds.user, pass := u.creds.pass, key := key, salt := salt
                           master := q.master.getD [], ivm := q.ivm.getD [] }
                log := R }, ⟨rfl, h6, h7⟩, ?_⟩
      simp only [pullAll, pullOne, hp, hd, h2, if_false, h3, hn, h4, h5]

/-- writing to the share -/
theorem pushAll_share (f ct : Str) (s : DB) (ts : List Str) (inp : Input) :
    pushAll (shareWorld f) s ct ts [] inp = (ts.map (fun x => (x, true)), false, [], inp) := by
  have hsc : syncFile ≠ syncSCP := by decide
  induction ts with
  | nil => rfl
  | cons x ts ih =>
    simp only [pushAll, pushBlob, shareWorld, hsc, if_false, if_true] at ih ⊢
    simp [ih]

theorem pushBack_store {P : Prims} {C : Codec} {f : Str} {v : SyncEnv} (hord : ∀ m, (v.ordH m).Perm m) {ts : List Str} {u : Session}
    {inp : Input} (hu : u.store.updateSnapshot = (u.store, none)) :
    (pushBack P C (shareWorld f) v true [] ts u inp).session = u := by
  have h0 : v.ordH [] = [] := List.Perm.eq_nil (hord [])
  have hs := sealFile_store P C v.ord v.ord' v.iv u.creds hu
  simp only [pushBack, h0, saveHosts, saveHostsLoop, hu, Bool.true_eq_false, if_false]
  cases hx : sealFile P C v.ord v.ord' v.iv u.creds u.store with
  | mk s o =>
    rw [hx] at hs
    simp only at hs
    subst hs
    cases o with
    | panic => rfl
    | err e => rfl
    | ok ct => simp only [pushAll_share, h0, saveHostsLoop, hu]

theorem push_share {P : Prims} {C : Codec} {K : Scheme P C} {i : Nat} {f : Str} {v : SyncEnv} (hord : ∀ m, (v.ordH m).Perm m)
    (hv : K.env v) (hiv : v.iv.length = 40) {ts : List Str} {u : Session} {inp : Input} (hu : u.store.updateSnapshot = (u.store, none))
    (hc : u.creds = K.creds i) (hs : Sound u.store) (hl : K.log u.store.log) (hC : Faithful C u.store) :
    ∃ ct, pushBack P C (shareWorld f) v true [] ts u inp =
      { session := u, result := .ok (), sent := ct, pushed := ts.map (fun x => (x, true)), rest := inp } ∧
      K.saved ct u.store.log := by
  have h0 : v.ordH [] = [] := List.Perm.eq_nil (hord [])
  obtain ⟨ct, hseal, hsaved⟩ := K.seals i hs hl hv hiv hC hu
  rw [← hc] at hseal
  refine ⟨ct, ?_, hsaved⟩
  simp only [pushBack, h0, saveHosts, saveHostsLoop, hu, Bool.true_eq_false, if_false, hseal, pushAll_share]

/-- a store in order can be brought up to date -/
theorem sound_update {s : DB} (h : Ok s) (hr : Replays s.log) : s.updateSnapshot = (s.updateSnapshot.1, none) := by
  unfold Replays at hr
  rcases updateSnapshot_spec h.1 with ⟨snap, -, h2⟩ | ⟨e, n, snap, h1, -⟩
  · rw [h2]
  · rw [h1] at hr; cases hr

theorem own_two {c a b : List Tx} (hg : GoodHistory c) (ha : OwnHistory a) (hb : OwnHistory b)
    (hu : ∀ t, t ∈ c ↔ t ∈ a ∨ t ∈ b) : OwnHistory c :=
  own_union (rs := [{ name := [], creds := {}, log := b }]) hg ha (by simpa using hb) (by simpa using hu)

/-- what the file on the share is, and how it relates to the session that syncs with it -/
structure ShareFor {P : Prims} {C : Codec} (K : Scheme P C) (i : Nat) (u : Session) (f : Str) (R : List Tx) : Prop where
  creds : u.creds = K.creds i
  sound : Sound u.store
  saved : K.saved f R
  log : K.log u.store.log
  log' : K.log R
  own : OwnHistory R
  some : R ≠ []
  some' : u.store.log ≠ []
  same : SameFile u.store.log R
  root : ¬ NoCommonRoot u.store.log R
  told : LooksSame R u.store.log → R = u.store.log
  names : ∀ c : List Tx, (∀ t, t ∈ c ↔ t ∈ u.store.log ∨ t ∈ R) → NamesApart c

theorem looksSame_symm {a b : List Tx} (h : LooksSame a b) : LooksSame b a := ⟨h.1.symm, h.2.1.symm, h.2.2.symm⟩

/-- what `sync` with the share merges, before it writes anything -/
theorem sync_merges {P : Prims} {C : Codec} {K : Scheme P C} {i : Nat} {u : Session} {f : Str} {R : List Tx} {v : SyncEnv} {inp : Input}
    (h : ShareFor K i u f R) {x : Str} (hx : x ≠ [])
    (hone : collectSyncs (shareWorld f) v.ord u.store.updateSnapshot.1 = [x])
    (hq : ¬ ∃ d x, TouchedAfterDelete u.store.log R d x) :
    ∃ l s1, sync P C (shareWorld f) v [] true u inp =
        pushBack P C (shareWorld f) v true [] (targets l) { u with store := s1 } inp ∧
      s1.updateSnapshot = (s1, none) ∧ Sound s1 ∧ (∀ t, t ∈ s1.log ↔ t ∈ u.store.log ∨ t ∈ R) ∧
      (targets l = [] → R = s1.log ∧ LooksSame R u.store.log) := by
  have hok := h.sound.wf.good.ok
  have hu0 := sound_update hok h.sound.own.good.replays
  have hlog := updateSnapshot_log u.store
  have htx := updateSnapshot_txPoint u.store
  have hok0 := ok_update hok
  generalize hs0 : u.store.updateSnapshot.1 = s0 at hu0 hlog htx hok0 hone
  have hs : sync P C (shareWorld f) v [] true u inp = syncWith P C (shareWorld f) v true { u with store := s0 } [x] inp := by
    simp only [sync, hu0, ne_eq, not_true, if_false, hone]
  rw [hs]
  -- what was pulled and what comes of merging it
  have hpull : ∃ l c, pullAll P C (shareWorld f) { u with store := s0 } [x] inp = (some l, inp) ∧ newHosts l [] = [] ∧
      mergeBlobs v.ord u.creds s0.log (remotes l) inp = (.ok ⟨u.creds, c⟩, inp) ∧ GoodHistory c ∧
      (∀ t, t ∈ c ↔ t ∈ u.store.log ∨ t ∈ R) ∧ (targets l = [] → R = c ∧ LooksSame R u.store.log) := by
    rcases pull_share (u := { u with store := s0 }) h.creds h.own h.log' h.saved h.some (by simp only [hlog]; exact h.some') x inp with
      ⟨hsame, hp⟩ | ⟨q, hq', hp⟩
    · simp only [hlog] at hsame
      have hRL := h.told hsame
      refine ⟨_, s0.log, hp, rfl, rfl, ?_, ?_, ?_⟩
      · rw [hlog]; exact h.sound.own.good
      · intro t; rw [hlog, hRL]; simp
      · intro _; rw [hlog]; exact ⟨hRL, hsame⟩
    · obtain ⟨h1, -⟩ := C22_without_deletes_partial u.store.log R inp h.sound.own.good h.own.good h.same h.some hq
      obtain ⟨c, -, hg, hm⟩ := h1 h.root
      have hd : Distinguishable u.store.log R := fun k => (h.told (looksSame_symm k)).symm
      have hmem := (C80_merge_partial _ _ _ _ _ h.sound.own.good h.own.good h.same hd hm).2
      refine ⟨_, c, hp, rfl, ?_, hg, hmem, ?_⟩
      · simp only [mergeBlobs, remotes, mergeRemotes, hq'.log, hlog, hm, hq'.keeps, Bool.false_eq_true, if_false]
      · simp [targets, hx]
  obtain ⟨l, c, hp, hh, hm, hg, hmem, htar⟩ := hpull
  have hownc := own_two hg h.sound.own h.own hmem
  have hok1 : Ok ({ s0.resetSnapshot with log := c } : DB) := ⟨coherent_reset _ _, GoMap.nodupKeys_nil, inner_nil⟩
  have hok2 := ok_update hok1
  have hu1 := sound_update hok1 hownc.good.replays
  have hlog1 := updateSnapshot_log ({ s0.resetSnapshot with log := c } : DB)
  have htx1 := updateSnapshot_txPoint ({ s0.resetSnapshot with log := c } : DB)
  generalize hs1 : ({ s0.resetSnapshot with log := c } : DB).updateSnapshot.1 = s1 at hok2 hu1 hlog1 htx1
  have hlog1 : s1.log = c := hlog1
  have htx1 : s1.txPoint = 0 := htx1.trans (htx.trans h.sound.tx)
  have hagain := update_again hu1
  refine ⟨l, s1, by simp only [syncWith, hp, hm, hu1, hh], hagain,
    ⟨(own_wf hok2 (by rw [hlog1]; exact hownc)).2.2 (by rw [hlog1]; exact h.names c hmem), by rw [hlog1]; exact hownc, htx1⟩,
    by rw [hlog1]; exact hmem, by rw [hlog1]; exact htar⟩

/-- the store after `sync` with the share, whatever becomes of writing it -/
theorem sync_merged_store {P : Prims} {C : Codec} {K : Scheme P C} {i : Nat} {u : Session} {f : Str} {R : List Tx} {v : SyncEnv} {inp : Input}
    (h : ShareFor K i u f R) (hord : ∀ m, (v.ordH m).Perm m) {x : Str} (hx : x ≠ [])
    (hone : collectSyncs (shareWorld f) v.ord u.store.updateSnapshot.1 = [x])
    (hq : ¬ ∃ d x, TouchedAfterDelete u.store.log R d x) :
    let r := sync P C (shareWorld f) v [] true u inp
    Sound r.session.store ∧ ∀ t, t ∈ r.session.store.log ↔ t ∈ u.store.log ∨ t ∈ R := by
  obtain ⟨l, s1, h1, h2, h3, h4, -⟩ := sync_merges (v := v) (inp := inp) h hx hone hq
  dsimp only
  rw [h1, pushBack_store hord h2]
  exact ⟨h3, h4⟩

/-- what `sync` with the share does -/
theorem sync_share {P : Prims} {C : Codec} {K : Scheme P C} {i : Nat} {u : Session} {f : Str} {R : List Tx} {v : SyncEnv} {inp : Input}
    (h : ShareFor K i u f R) (hv : K.env v) (hiv : v.iv.length = 40) (hord : ∀ m, (v.ordH m).Perm m)
    {x : Str} (hx : x ≠ []) (hone : collectSyncs (shareWorld f) v.ord u.store.updateSnapshot.1 = [x])
    (hC : Faithful C (sync P C (shareWorld f) v [] true u inp).session.store)
    (hq : ¬ ∃ d x, TouchedAfterDelete u.store.log R d x) :
    let r := sync P C (shareWorld f) v [] true u inp
    r.result = .ok () ∧ r.rest = inp ∧ r.session.creds = u.creds ∧ Sound r.session.store ∧
      (∀ t, t ∈ r.session.store.log ↔ t ∈ u.store.log ∨ t ∈ R) ∧
      K.saved (if r.pushed = [] then f else r.sent) r.session.store.log ∧ K.log r.session.store.log := by
  obtain ⟨l, s1, hw, hagain, hs1, hmem, htar⟩ := sync_merges (v := v) (inp := inp) h hx hone hq
  rw [hw] at hC ⊢
  rw [pushBack_store hord hagain] at hC
  obtain ⟨ct, h1, h2⟩ := push_share (f := f) hord hv hiv (ts := targets l) (u := { u with store := s1 }) (inp := inp) hagain h.creds
    hs1 (K.union h.log h.log' hmem) hC
  rw [h1]
  refine ⟨rfl, rfl, rfl, hs1, hmem, ?_, K.union h.log h.log' hmem⟩
  simp only at h2 ⊢
  by_cases ht : targets l = []
  · simp only [ht, List.map_nil, if_true, ← (htar ht).1]; exact h.saved
  · simp only [List.map_eq_nil_iff, ht, if_false]; exact h2

/-- what `sync` does when there is a conflict: nothing, whatever the user answers -/
theorem sync_conflict {P : Prims} {C : Codec} {K : Scheme P C} {i : Nat} {u : Session} {f : Str} {R : List Tx} {v : SyncEnv} {inp : Input}
    (h : ShareFor K i u f R) {x : Str} (hone : collectSyncs (shareWorld f) v.ord u.store.updateSnapshot.1 = [x])
    {d y : Tx} (hq : TouchedAfterDelete u.store.log R d y) :
    (sync P C (shareWorld f) v [] true u inp).session = { u with store := u.store.updateSnapshot.1 } ∧
      (sync P C (shareWorld f) v [] true u inp).pushed = [] ∧ (sync P C (shareWorld f) v [] true u inp).result = .ok () := by
  have hu0 := sound_update h.sound.wf.good.ok h.sound.own.good.replays
  have hlog := updateSnapshot_log u.store
  generalize hs0 : u.store.updateSnapshot.1 = s0 at hu0 hlog hone ⊢
  have hs : sync P C (shareWorld f) v [] true u inp = syncWith P C (shareWorld f) v true { u with store := s0 } [x] inp := by
    simp only [sync, hu0, ne_eq, not_true, if_false, hone]
  rw [hs]
  have hd : Distinguishable u.store.log R := fun k => (h.told (looksSame_symm k)).symm
  rcases pull_share (u := { u with store := s0 }) h.creds h.own h.log' h.saved h.some (by simp only [hlog]; exact h.some') x inp with
    ⟨hsame, -⟩ | ⟨q, hq', hp⟩
  · exfalso
    simp only [hlog] at hsame
    rw [h.told hsame] at hq
    obtain ⟨-, h2, -, -, -, h6⟩ := hq
    rw [or_self] at h2
    exact h6 ⟨h2, h2⟩
  · obtain ⟨cs, hcs⟩ := (C18_conflict_iff_partial u.store.log R (.inl h.some') h.sound.own.good.chrono h.own.good.chrono h.same.ids
      hd).2 (.inr ⟨d, y, hq⟩)
    obtain ⟨con, hcon, hk, -⟩ := C18_every_entry_named _ _ h.sound.own.good h.own.good h.same cs hcs d y hq
    obtain ⟨e, he⟩ := C22_never_completes u.store.log R cs con inp h.some hcs hcon hk
    cases hm : mergeLogs u.store.log R inp with
    | mk o rest =>
      rw [hm] at he
      cases he
      simp only [syncWith, hp, mergeBlobs, remotes, mergeRemotes, hq'.log, hlog, hm, and_self]

end Verif.App
