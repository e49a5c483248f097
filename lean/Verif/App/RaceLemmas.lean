import Verif.App.RaceSpec
import Verif.App.FleetCore
/-!
# Lemmas about machines that sync at the same time
-/
set_option linter.unusedSimpArgs false
namespace Verif.App
open Verif Verif.Txlogs Verif.Blob Verif.Crypt Verif.App.Spec
open Verif.Txlogs.Spec (GoodHistory Replays SameFile Distinguishable LooksSame NoCommonRoot TouchedAfterDelete)

/-- with nothing to write to, nothing is written -/
theorem pushBack_none {P : Prims} {C : Codec} {f : Str} {v : SyncEnv} (hord : ∀ m, (v.ordH m).Perm m) {u : Session}
    {inp : Input} (hu : u.store.updateSnapshot = (u.store, none)) : (pushBack P C (shareWorld f) v true [] [] u inp).pushed = [] := by
  have h0 : v.ordH [] = [] := List.Perm.eq_nil (hord [])
  have hs := sealFile_store P C v.ord v.ord' v.iv u.creds hu
  simp only [pushBack, h0, saveHosts, saveHostsLoop, hu, Bool.true_eq_false, if_false]
  cases hx : sealFile P C v.ord v.ord' v.iv u.creds u.store with
  | mk s o =>
    rw [hx] at hs
    simp only at hs
    subst hs
    cases o with
    | panic => rfl
    | err e => rfl
    | ok ct => simp only [pushAll_share, h0, saveHostsLoop, hu, List.map_nil]

theorem pull_skip {P : Prims} {C : Codec} {K : Scheme P C} {i : Nat} {u : Session} (hc : u.creds = K.creds i) {f : Str} {R : List Tx}
    (ho : OwnHistory R) (hlr : K.log R) (h : K.saved f R) (hl : u.store.log ≠ []) (x : Str) (inp : Input)
    (hs : LooksSame R u.store.log) : pullAll P C (shareWorld f) u [x] inp = (some [(x, .skip, [])], inp) := by
  obtain ⟨q, pt, key, salt, h1, h2, h3, h4, h5, h6, h7⟩ := K.opens i ho hlr h
  rw [← hc] at h1 h6 h7
  have hd : decryptBlob P u.creds f u.creds.user u.creds.pass inp = (.ok (some (u.creds.user, u.creds.pass, q, pt)), inp) := by
    cases inp with
    | nil => simp only [decryptBlob, tryDecrypt, h1]
    | cons a rest => cases a <;> simp only [decryptBlob, tryDecrypt, h1]
  have hp : ∀ e, pullBlob (shareWorld f) x e inp = (some (.bytes f, []), inp) := by
    intro e
    have : syncFile ≠ syncSCP := by decide
    simp only [pullBlob, shareWorld, this, if_false, if_true]
  have hn : noChanges R u.store.log = some true := by
    obtain ⟨b, L, hL⟩ := List.exists_cons_of_ne_nil hl
    obtain ⟨g1, g2, g3⟩ := hs
    rw [hL] at g1 g2 g3 ⊢
    obtain ⟨a, R', rfl⟩ := List.exists_cons_of_ne_nil (show R ≠ [] by intro k; rw [k] at g1; simp at g1)
    unfold noChanges
    rw [if_neg (by simp only [ne_eq, Decidable.not_not]; exact g1)]
    simp only [List.head?_cons, List.getLast?_cons, Option.map_some, Option.some.injEq] at g2 g3 ⊢
    simp only [g2, g3, and_self, decide_true]
  simp only [pullAll, pullOne, hp, hd, h2, if_false, h3, hn]

/-- `sync` when the log of the share is taken for the own one -/
theorem sync_skip {P : Prims} {C : Codec} {K : Scheme P C} {i : Nat} {u : Session} {f : Str} {R : List Tx} {v : SyncEnv} {inp : Input}
    (hc : u.creds = K.creds i) (hs : Sound u.store) (hn : NamesApart u.store.log) (ho : OwnHistory R) (hlr : K.log R) (hf : K.saved f R)
    (hl : u.store.log ≠ []) (hord : ∀ m, (v.ordH m).Perm m) {x : Str}
    (hone : collectSyncs (shareWorld f) v.ord u.store.updateSnapshot.1 = [x])
    (hsame : LooksSame R u.store.log) :
    (sync P C (shareWorld f) v [] true u inp).session.creds = u.creds ∧ Sound (sync P C (shareWorld f) v [] true u inp).session.store ∧
      (sync P C (shareWorld f) v [] true u inp).session.store.log = u.store.log ∧
      (sync P C (shareWorld f) v [] true u inp).pushed = [] := by
  have hok := hs.wf.good.ok
  have hu0 := sound_update hok hs.own.good.replays
  have hlog := updateSnapshot_log u.store
  have htx := updateSnapshot_txPoint u.store
  generalize hs0 : u.store.updateSnapshot.1 = s0 at hu0 hlog htx hone
  have hsy : sync P C (shareWorld f) v [] true u inp = syncWith P C (shareWorld f) v true { u with store := s0 } [x] inp := by
    simp only [sync, hu0, ne_eq, not_true, if_false, hone]
  rw [hsy]
  have hp : pullAll P C (shareWorld f) { u with store := s0 } [x] inp = (some [(x, .skip, [])], inp) := by
    exact pull_skip (C := C) (K := K) (u := { u with store := s0 }) hc ho hlr hf (by simp only [hlog]; exact hl) x inp
      (by simp only [hlog]; exact hsame)
  have hok1 : Ok ({ s0.resetSnapshot with log := s0.log } : DB) := ⟨coherent_reset _ _, GoMap.nodupKeys_nil, inner_nil⟩
  have hok2 := ok_update hok1
  have hu1 := sound_update hok1 (show Replays s0.log by rw [hlog]; exact hs.own.good.replays)
  have hlog1 := updateSnapshot_log ({ s0.resetSnapshot with log := s0.log } : DB)
  have htx1 := updateSnapshot_txPoint ({ s0.resetSnapshot with log := s0.log } : DB)
  generalize hs1 : ({ s0.resetSnapshot with log := s0.log } : DB).updateSnapshot.1 = s1 at hok2 hu1 hlog1 htx1
  have hw : syncWith P C (shareWorld f) v true { u with store := s0 } [x] inp =
      pushBack P C (shareWorld f) v true [] []
        { u with store := s1 } inp := by
    have hm : mergeBlobs v.ord u.creds s0.log (remotes [(x, Fate.skip, [])]) inp = (.ok ⟨u.creds, s0.log⟩, inp) := rfl
    have hh : newHosts [(x, Fate.skip, [])] [] = [] := rfl
    have ht : targets [(x, Fate.skip, [])] = [] := rfl
    simp only [syncWith, hp, hm, hu1, hh, ht]
  have hlog1 : s1.log = u.store.log := Eq.trans hlog1 hlog
  have htx1 : s1.txPoint = 0 := htx1.trans (htx.trans hs.tx)
  have hagain := update_again hu1
  rw [hw, pushBack_store hord hagain, pushBack_none hord hagain]
  exact ⟨rfl, ⟨(own_wf hok2 (by rw [hlog1]; exact hs.own)).2.2 (by rw [hlog1]; exact hn), by rw [hlog1]; exact hs.own, htx1⟩, hlog1, rfl⟩

/-- `sync` when the log of the share is not taken for the own one, and there is no conflict -/
theorem sync_pushes {P : Prims} {C : Codec} {K : Scheme P C} {i : Nat} {u : Session} {f : Str} {R : List Tx} {v : SyncEnv} {inp : Input}
    (h : ShareFor K i u f R) (hv : K.env v) (hiv : v.iv.length = 40) (hord : ∀ m, (v.ordH m).Perm m)
    {x : Str} (hx : x ≠ []) (hone : collectSyncs (shareWorld f) v.ord u.store.updateSnapshot.1 = [x])
    (hC : Faithful C (sync P C (shareWorld f) v [] true u inp).session.store)
    (hq : ¬ ∃ d x, TouchedAfterDelete u.store.log R d x) (hd : ¬ LooksSame R u.store.log) :
    let r := sync P C (shareWorld f) v [] true u inp
    r.session.creds = u.creds ∧ Sound r.session.store ∧ (∀ t, t ∈ r.session.store.log ↔ t ∈ u.store.log ∨ t ∈ R) ∧
      K.saved r.sent r.session.store.log ∧ K.log r.session.store.log ∧ r.pushed ≠ [] := by
  obtain ⟨-, -, h3, h4, h5, h6, h7⟩ := sync_share h hv hiv hord hx hone hC hq
  have hp : (sync P C (shareWorld f) v [] true u inp).pushed ≠ [] := by
    obtain ⟨l, s1, hw, hagain, hs1, hmem, htar⟩ := sync_merges (v := v) (inp := inp) h hx hone hq
    have hst := hC
    rw [hw, pushBack_store hord hagain] at hst
    obtain ⟨ct, h1, h2⟩ := push_share (f := f) hord hv hiv (ts := targets l) (u := { u with store := s1 }) (inp := inp) hagain h.creds
      hs1 (K.union h.log h.log' hmem) hst
    rw [hw, h1]
    simp only [ne_eq, List.map_eq_nil_iff]
    exact fun k => hd (htar k).2
  exact ⟨h3, h4, h5, by rw [if_neg hp] at h6; exact h6, h7, hp⟩

/-- a file the share held, with its log -/
structure Shared {P : Prims} {C : Codec} (K : Scheme P C) (F : Fleet) (x : Tx) (f : Str) (R : List Tx) : Prop where
  saved : K.saved f R
  log : K.log R
  own : OwnHistory R
  root : R.head? = some x
  src : ∀ t ∈ R, ∃ j, t ∈ F.log j

/-- what always holds -/
structure RInv {P : Prims} {C : Codec} (K : Scheme P C) (x : Tx) (X : Race) : Prop where
  creds : ∀ i, (X.fleet.machine i).creds = K.creds i
  logs : ∀ i, K.log (X.fleet.log i)
  sound : ∀ i, Sound (X.fleet.machine i).store
  root : ∀ i, (X.fleet.log i).head? = some x
  alike : ∀ i j, ∀ t ∈ X.fleet.log i, ∀ y ∈ X.fleet.log j, Like t y
  held : ∀ f ∈ X.past, ∃ R, Shared K X.fleet x f R
  now : X.fleet.share ∈ X.past

theorem Inv.race {P : Prims} {C : Codec} {K : Scheme P C} {F : Fleet} {R : List Tx} (h : Inv K F R) : ∃ x, RInv K x ⟨F, [F.share]⟩ := by
  obtain ⟨x, hx, hxi⟩ := h.root
  refine ⟨x, h.creds, h.logs, h.sound, hxi, h.alike, fun f hf => ?_, List.mem_cons_self ..⟩
  rw [List.mem_singleton] at hf
  subst hf
  exact ⟨R, h.saved, h.log, h.own, hx, h.src⟩

theorem RInv.shareFor {P : Prims} {C : Codec} {K : Scheme P C} {x : Tx} {X : Race} (h : RInv K x X) (i : Nat) {f : Str} {R : List Tx}
    (hf : Shared K X.fleet x f R) (ht : LooksSame R (X.fleet.log i) → R = X.fleet.log i) :
    ShareFor K i (X.fleet.machine i) f R := by
  have hlike : ∀ t ∈ X.fleet.log i, ∀ y ∈ R, Like t y := by
    intro t ht y hy
    obtain ⟨j, hj⟩ := hf.src y hy
    exact h.alike i j t ht y hj
  have hx := hf.root
  refine ⟨h.creds i, h.sound i, hf.saved, h.logs i, hf.log, hf.own, ?_, ?_, ⟨?_, ?_⟩, ?_, ht, ?_⟩
  · intro k; rw [k] at hx; cases hx
  · intro k; have := h.root i; unfold Fleet.log at this; rw [k] at this; cases this
  · intro t ht y hy; exact (hlike t ht y hy).time
  · intro t ht y hy; exact (hlike t ht y hy).add
  · rintro ⟨a, a', b, b', h1, h2, h3⟩
    have := h.root i
    unfold Fleet.log at this
    rw [h1] at this
    rw [h2] at hx
    cases hx; cases this
    exact h3 rfl
  · intro c hc t ht y hy
    have hsrc : ∀ z ∈ c, ∃ j, z ∈ X.fleet.log j := by
      intro z hz
      rcases (hc z).1 hz with k | k
      · exact ⟨i, k⟩
      · exact hf.src z k
    obtain ⟨j, hj⟩ := hsrc t ht
    obtain ⟨k, hk⟩ := hsrc y hy
    exact (h.alike j k t hj y hk).name

theorem RInv.names {P : Prims} {C : Codec} {K : Scheme P C} {x : Tx} {X : Race} (h : RInv K x X) (i : Nat) :
    NamesApart (X.fleet.log i) := fun t ht x hx => (h.alike i i t ht x hx).name

/-- what a sync comes to: nothing, or the union of what the machine had and what it read -/
inductive Came {P : Prims} {C : Codec} (K : Scheme P C) (i : Nat) (R : List Tx) (X X' : Race) : Prop where
  | skipped : LooksSame R (X.fleet.log i) → X'.fleet.log i = X.fleet.log i → X'.fleet.share = X.fleet.share → Came K i R X X'
  | stuck (d y : Tx) : TouchedAfterDelete (X.fleet.log i) R d y → X'.fleet.log i = X.fleet.log i → X'.fleet.share = X.fleet.share →
      Came K i R X X'
  | merged : ¬ LooksSame R (X.fleet.log i) → (∀ t, t ∈ X'.fleet.log i ↔ t ∈ X.fleet.log i ∨ t ∈ R) →
      K.saved X'.fleet.share (X'.fleet.log i) → Came K i R X X'

theorem RInv.sync {P : Prims} {C : Codec} {K : Scheme P C} {x : Tx} {X : Race} (h : RInv K x X) {i : Nat} {f : Str} {R : List Tx}
    (hf : Shared K X.fleet x f R) {v : SyncEnv} {inp : Input} (he : ShareEnv P C (X.seen f) i v inp) (hv : K.env v) :
    RInv K x (X.step P C (.sync i f v inp)) ∧ (∀ j, j ≠ i → (X.step P C (.sync i f v inp)).fleet.log j = X.fleet.log j) ∧
      Came K i R X (X.step P C (.sync i f v inp)) := by
  obtain ⟨y, hy, hone⟩ := he.one
  have hiv := he.iv
  have hordH := he.ordH
  have hcodec : Faithful C (App.sync P C (shareWorld f) v [] true (X.fleet.machine i) inp).session.store := he.codec
  have hone : collectSyncs (shareWorld f) v.ord (X.fleet.machine i).store.updateSnapshot.1 = [y] := hone
  have hRne : R ≠ [] := by intro k; have := hf.root; rw [k] at this; cases this
  have hLne : (X.fleet.machine i).store.log ≠ [] := by
    intro k; have := h.root i; unfold Fleet.log at this; rw [k] at this; cases this
  -- what `sync` does
  have key : (App.sync P C (shareWorld f) v [] true (X.fleet.machine i) inp).session.creds = K.creds i ∧
      Sound (App.sync P C (shareWorld f) v [] true (X.fleet.machine i) inp).session.store ∧
      ((App.sync P C (shareWorld f) v [] true (X.fleet.machine i) inp).session.store.log = X.fleet.log i ∧
        (App.sync P C (shareWorld f) v [] true (X.fleet.machine i) inp).pushed = [] ∧
        (LooksSame R (X.fleet.log i) ∨ ∃ d y, TouchedAfterDelete (X.fleet.log i) R d y) ∨
       ¬ LooksSame R (X.fleet.log i) ∧
       (∀ t, t ∈ (App.sync P C (shareWorld f) v [] true (X.fleet.machine i) inp).session.store.log ↔ t ∈ X.fleet.log i ∨ t ∈ R) ∧
        K.saved (App.sync P C (shareWorld f) v [] true (X.fleet.machine i) inp).sent
          (App.sync P C (shareWorld f) v [] true (X.fleet.machine i) inp).session.store.log ∧
        K.log (App.sync P C (shareWorld f) v [] true (X.fleet.machine i) inp).session.store.log ∧
        (App.sync P C (shareWorld f) v [] true (X.fleet.machine i) inp).pushed ≠ []) := by
    by_cases hsame : LooksSame R (X.fleet.log i)
    · obtain ⟨k1, k2, k3, k4⟩ := sync_skip (K := K) (v := v) (inp := inp) (C := C) (h.creds i) (h.sound i) (h.names i) hf.own hf.log hf.saved hLne hordH
        hone hsame
      exact ⟨k1.trans (h.creds i), k2, .inl ⟨k3, k4, .inl hsame⟩⟩
    · have hsf := h.shareFor i hf (fun k => absurd k hsame)
      by_cases hq : ∃ d y, TouchedAfterDelete (X.fleet.log i) R d y
      · obtain ⟨d, z, hq⟩ := hq
        obtain ⟨k1, k2, -⟩ := sync_conflict (v := v) (inp := inp) hsf hone hq
        have hl := updateSnapshot_log (X.fleet.machine i).store
        rw [k1, k2]
        refine ⟨h.creds i, ?_, .inl ⟨hl, rfl, .inr ⟨d, z, hq⟩⟩⟩
        have hs := h.sound i
        refine ⟨(own_wf (ok_update hs.wf.good.ok) (by rw [hl]; exact hs.own)).2.2 (by rw [hl]; exact h.names i), ?_, ?_⟩
        · rw [hl]; exact hs.own
        · rw [updateSnapshot_txPoint]; exact hs.tx
      · obtain ⟨k1, k2, k3, k4, k5, k6⟩ := sync_pushes (v := v) (inp := inp) hsf hv hiv hordH hy hone hcodec hq hsame
        exact ⟨k1.trans (h.creds i), k2, .inr ⟨hsame, k3, k4, k5, k6⟩⟩
  have hi : (X.step P C (.sync i f v inp)).fleet.machine i =
      (App.sync P C (shareWorld f) v [] true (X.fleet.machine i) inp).session := by
    simp [Race.step, Fleet.set]
  have hj : ∀ j, j ≠ i → (X.step P C (.sync i f v inp)).fleet.machine j = X.fleet.machine j := by
    intro j k; simp [Race.step, Fleet.set, k]
  have hsh : (X.step P C (.sync i f v inp)).fleet.share =
      if (App.sync P C (shareWorld f) v [] true (X.fleet.machine i) inp).pushed = [] then X.fleet.share
      else (App.sync P C (shareWorld f) v [] true (X.fleet.machine i) inp).sent := rfl
  have hpast : (X.step P C (.sync i f v inp)).past = (X.step P C (.sync i f v inp)).fleet.share :: X.past := rfl
  generalize App.sync P C (shareWorld f) v [] true (X.fleet.machine i) inp = r at key hi hsh
  generalize X.step P C (.sync i f v inp) = X' at hi hj hsh hpast
  have hlj : ∀ j, j ≠ i → X'.fleet.log j = X.fleet.log j := by
    intro j k; simp only [Fleet.log, hj j k]
  have hli : X'.fleet.log i = r.session.store.log := by simp only [Fleet.log, hi]
  obtain ⟨kc, ks, kk⟩ := key
  have hcame : Came K i R X X' := by
    rcases kk with ⟨k1, k2, k3 | ⟨d, z, k3⟩⟩ | ⟨k0, k1, k2, k3, k4⟩
    · exact .skipped k3 (hli.trans k1) (by rw [hsh, k2]; rfl)
    · exact .stuck d z k3 (hli.trans k1) (by rw [hsh, k2]; rfl)
    · exact .merged k0 (by rw [hli]; exact k1) (by rw [hsh, if_neg k4, hli]; exact k2)
  have hup : ∀ j, ∀ t ∈ X.fleet.log j, t ∈ X'.fleet.log j := by
    intro j t ht
    by_cases hji : j = i
    · subst hji
      cases hcame with
      | skipped _ k _ => rw [k]; exact ht
      | stuck _ _ _ k _ => rw [k]; exact ht
      | merged _ k _ => exact (k t).2 (.inl ht)
    · rw [hlj j hji]; exact ht
  have hold : ∀ j, ∀ t ∈ X'.fleet.log j, ∃ k, t ∈ X.fleet.log k := by
    intro j t ht
    by_cases hji : j = i
    · subst hji
      cases hcame with
      | skipped _ k _ => rw [k] at ht; exact ⟨j, ht⟩
      | stuck _ _ _ k _ => rw [k] at ht; exact ⟨j, ht⟩
      | merged _ k _ =>
        rcases (k t).1 ht with ht | ht
        · exact ⟨j, ht⟩
        · exact hf.src t ht
    · rw [hlj j hji] at ht; exact ⟨j, ht⟩
  have hroot : (X'.fleet.log i).head? = some x := by
    cases hcame with
    | skipped _ k _ => rw [k]; exact h.root i
    | stuck _ _ _ k _ => rw [k]; exact h.root i
    | merged _ k _ =>
      exact chrono_head (h.sound i).own.good.chrono hf.own.good.chrono (by rw [hli]; exact ks.own.good.chrono) (h.root i) hf.root k
  have hklog : K.log (X'.fleet.log i) := by
    rcases kk with ⟨k1, -⟩ | ⟨-, -, -, k3, -⟩
    · rw [hli, k1]; exact h.logs i
    · rw [hli]; exact k3
  refine ⟨⟨?_, ?_, ?_, ?_, ?_, ?_, by rw [hpast]; exact List.mem_cons_self ..⟩, hlj, hcame⟩
  · intro j
    by_cases hji : j = i
    · subst hji; rw [hi]; exact kc
    · rw [hj j hji, h.creds]
  · intro j
    by_cases hji : j = i
    · subst hji; exact hklog
    · rw [hlj j hji]; exact h.logs j
  · intro j
    by_cases hji : j = i
    · subst hji; rw [hi]; exact ks
    · rw [hj j hji]; exact h.sound j
  · intro j
    by_cases hji : j = i
    · subst hji; exact hroot
    · rw [hlj j hji]; exact h.root j
  · intro j k t ht z hz
    obtain ⟨j', hj'⟩ := hold j t ht
    obtain ⟨k', hk'⟩ := hold k z hz
    exact h.alike j' k' t hj' z hk'
  · have hup' : ∀ g, (∃ R, Shared K X.fleet x g R) → ∃ R, Shared K X'.fleet x g R := by
      rintro g ⟨R, a, b, c, d, e⟩
      exact ⟨R, a, b, c, d, fun t ht => (e t ht).imp fun j hj => hup j t hj⟩
    intro g hg
    rw [hpast] at hg
    rcases List.mem_cons.1 hg with rfl | hg
    · cases hcame with
      | skipped _ _ k => rw [k]; exact hup' _ (h.held _ h.now)
      | stuck _ _ _ _ k => rw [k]; exact hup' _ (h.held _ h.now)
      | merged _ _ k => exact ⟨X'.fleet.log i, k, hklog, by rw [hli]; exact ks.own, hroot, fun t ht => ⟨i, ht⟩⟩
    · exact hup' g (h.held g hg)

theorem RInv.work {P : Prims} {C : Codec} {K : Scheme P C} {x : Tx} {X : Race} (h : RInv K x X) {i : Nat} {turns : List Turn}
    (he : WorkOk P C X.fleet i turns) (hv : K.event X.fleet (.work i turns)) :
    RInv K x (X.step P C (.work i turns)) ∧ X.fleet.log i <+: (X.step P C (.work i turns)).fleet.log i ∧
      ∀ j, j ≠ i → (X.step P C (.work i turns)).fleet.log j = X.fleet.log j := by
  have hs := h.sound i
  have hn : (runRepl P C turns { u := X.fleet.machine i }).2 ≠ .panic := by rw [he.ends]; simp
  have hl := along_weaken (fun v l r (k : HistoryTurn v l r) => k.legal) turns _ he.legal
  have h1 := C67_session_partial P C turns { u := X.fleet.machine i } hs.tx hs.wf hl hn
  have h2 := C76_session_partial P C turns { u := X.fleet.machine i } hs.tx hs.wf hl hn
  have h3 := C86_session_partial P C turns { u := X.fleet.machine i } hs.tx hs.wf hs.own he.legal hn
  have hcr := he.creds
  have hv' : K.log (runRepl P C turns { u := X.fleet.machine i }).1.u.store.log := hv (h.logs i) h2
  have hnames := he.names
  have hfresh := he.fresh
  have hi : (X.step P C (.work i turns)).fleet.machine i = (runRepl P C turns { u := X.fleet.machine i }).1.u := by
    simp [Race.step, Fleet.step, Fleet.set]
  have hj : ∀ j, j ≠ i → (X.step P C (.work i turns)).fleet.machine j = X.fleet.machine j := by
    intro j k; simp [Race.step, Fleet.step, Fleet.set, k]
  have hsh : (X.step P C (.work i turns)).fleet.share = X.fleet.share := rfl
  have hpast : (X.step P C (.work i turns)).past = X.past := rfl
  generalize (runRepl P C turns { u := X.fleet.machine i }).1.u = u at h1 h2 h3 hv' hcr hnames hfresh hi
  generalize X.step P C (.work i turns) = X' at hi hj hsh hpast
  have hlj : ∀ j, j ≠ i → X'.fleet.log j = X.fleet.log j := by
    intro j k; simp only [Fleet.log, hj j k]
  have hli : X'.fleet.log i = u.store.log := by simp only [Fleet.log, hi]
  have h2 : X.fleet.log i <+: u.store.log := h2
  have hcross : ∀ j, j ≠ i → ∀ t ∈ u.store.log, ∀ x ∈ X.fleet.log j, Like t x := by
    intro j hji t ht x hx
    rcases hfresh t ht with k | k
    · exact h.alike i j t k x hx
    · exact like_of_foreign (k j x hx)
  refine ⟨⟨?_, ?_, ?_, ?_, ?_, ?_, by rw [hpast, hsh]; exact h.now⟩, by rw [hli]; exact h2, hlj⟩
  · intro j
    by_cases hji : j = i
    · subst hji; rw [hi, hcr, h.creds]
    · rw [hj j hji, h.creds]
  · intro j
    by_cases hji : j = i
    · subst hji; rw [hli]; exact hv'
    · rw [hlj j hji]; exact h.logs j
  · intro j
    by_cases hji : j = i
    · subst hji; rw [hi]; exact ⟨h1.1, h3, h1.2⟩
    · rw [hj j hji]; exact h.sound j
  · intro j
    by_cases hji : j = i
    · subst hji
      rw [hli]
      obtain ⟨suf, hsuf⟩ := h2
      have := h.root j
      rw [← hsuf, List.head?_append, this]
      rfl
    · rw [hlj j hji]; exact h.root j
  · intro j k t ht y hy
    by_cases hji : j = i
    · subst hji
      rw [hli] at ht
      by_cases hkj : k = j
      · subst hkj; rw [hli] at hy; exact like_within h3 hnames ht hy
      · rw [hlj k hkj] at hy; exact hcross k hkj t ht y hy
    · rw [hlj j hji] at ht
      by_cases hki : k = i
      · subst hki; rw [hli] at hy; exact (hcross j hji y hy t ht).symm
      · rw [hlj k hki] at hy; exact h.alike j k t ht y hy
  · intro f hf
    rw [hpast] at hf
    obtain ⟨R, a, b, c, d, e⟩ := h.held f hf
    refine ⟨R, a, b, c, d, fun t ht => ?_⟩
    obtain ⟨j, hj'⟩ := e t ht
    by_cases hji : j = i
    · subst hji; exact ⟨j, by rw [hli]; exact h2.subset hj'⟩
    · exact ⟨j, by rw [hlj j hji]; exact hj'⟩

/-- the events leave the accounts alone -/
def Scheme.race {P : Prims} {C : Codec} (K : Scheme P C) : List RaceEvent → Race → Prop
  | [], _ => True
  | .work i turns :: es, X => K.event X.fleet (.work i turns) ∧ K.race es (X.step P C (.work i turns))
  | .sync i f v inp :: es, X => K.env v ∧ K.race es (X.step P C (.sync i f v inp))

theorem race_append (P : Prims) (C : Codec) (a b : List RaceEvent) (X : Race) : X.run P C (a ++ b) = (X.run P C a).run P C b := by
  induction a generalizing X with
  | nil => rfl
  | cons e a ih => exact ih _

theorem schemeRace_append {P : Prims} {C : Codec} {K : Scheme P C} {a b : List RaceEvent} {X : Race} (h : K.race (a ++ b) X) :
    K.race a X ∧ K.race b (X.run P C a) := by
  induction a generalizing X with
  | nil => exact ⟨trivial, h⟩
  | cons e a ih => cases e <;> exact ⟨⟨h.1, (ih h.2).1⟩, (ih h.2).2⟩

theorem raceOk_append {P : Prims} {C : Codec} {a b : List RaceEvent} {X : Race} (h : RaceOk P C (a ++ b) X) :
    RaceOk P C a X ∧ RaceOk P C b (X.run P C a) := by
  induction a generalizing X with
  | nil => exact ⟨trivial, h⟩
  | cons e a ih => exact ⟨⟨h.1, (ih h.2).1⟩, (ih h.2).2⟩

/-- any number of steps: no machine loses anything -/
theorem RInv.run {P : Prims} {C : Codec} {K : Scheme P C} {x : Tx} : ∀ (es : List RaceEvent) {X : Race}, RInv K x X → RaceOk P C es X →
    K.race es X → RInv K x (X.run P C es) ∧ ∀ i, ∀ t ∈ X.fleet.log i, t ∈ (X.run P C es).fleet.log i := by
  intro es
  induction es with
  | nil => intro X h _ _; exact ⟨h, fun _ _ k => k⟩
  | cons e es ih =>
    intro X h hr hv
    cases e with
    | work i turns =>
      obtain ⟨h1, h2, h3⟩ := h.work hr.1 hv.1
      obtain ⟨g1, g2⟩ := ih h1 hr.2 hv.2
      refine ⟨g1, fun j t ht => g2 j t ?_⟩
      by_cases hji : j = i
      · subst hji; exact h2.subset ht
      · rw [h3 j hji]; exact ht
    | sync i f v inp =>
      obtain ⟨R, hf⟩ := h.held f hr.1.1
      obtain ⟨h1, h2, h3⟩ := h.sync hf hr.1.2 hv.1
      obtain ⟨g1, g2⟩ := ih h1 hr.2 hv.2
      refine ⟨g1, fun j t ht => g2 j t ?_⟩
      by_cases hji : j = i
      · subst hji
        cases h3 with
        | skipped _ k _ => rw [k]; exact ht
        | stuck _ _ _ k _ => rw [k]; exact ht
        | merged _ k _ => exact (k t).2 (.inl ht)
      · rw [h2 j hji]; exact ht

/-- a sync with the present share, if it is clear -/
theorem RInv.clear {P : Prims} {C : Codec} {K : Scheme P C} {x : Tx} {X : Race} (h : RInv K x X) {i : Nat} {R : List Tx}
    (hf : Shared K X.fleet x X.fleet.share R) {v : SyncEnv} {inp : Input} (he : ShareEnv P C (X.seen X.fleet.share) i v inp) (hv : K.env v)
    (hq : ¬ ∃ d y, Spec.Conflict P C (X.seen X.fleet.share) i d y)
    (ht : ∀ R, readShare P C (X.fleet.machine i).creds X.fleet.share = some R → LooksSame R (X.fleet.log i) → R = X.fleet.log i) :
    ∃ R', RInv K x (X.step P C (.sync i X.fleet.share v inp)) ∧
      Shared K (X.step P C (.sync i X.fleet.share v inp)).fleet x (X.step P C (.sync i X.fleet.share v inp)).fleet.share R' ∧
      (X.step P C (.sync i X.fleet.share v inp)).fleet.log i = R' ∧ (∀ t, t ∈ R' ↔ t ∈ X.fleet.log i ∨ t ∈ R) ∧
      ∀ j, j ≠ i → (X.step P C (.sync i X.fleet.share v inp)).fleet.log j = X.fleet.log j := by
  have hR : readShare P C (X.fleet.machine i).creds X.fleet.share = some R := by
    rw [h.creds i]; exact K.reads i hf.own hf.log hf.saved
  obtain ⟨h1, h2, h3⟩ := h.sync hf he hv
  cases h3 with
  | skipped k0 k1 k2 =>
    have hRL := ht R hR k0
    refine ⟨R, h1, ?_, by rw [k1, hRL], fun t => by rw [hRL]; simp, h2⟩
    refine ⟨by rw [k2]; exact hf.saved, hf.log, hf.own, hf.root, fun t k => ⟨i, by rw [k1, ← hRL]; exact k⟩⟩
  | stuck d y k0 _ _ => exact absurd ⟨d, y, R, hR, k0⟩ hq
  | merged _ k1 k2 =>
    exact ⟨_, h1, ⟨k2, h1.logs i, (h1.sound i).own, h1.root i, fun t k => ⟨i, k⟩⟩, rfl, k1, h2⟩

theorem RInv.collect {P : Prims} {C : Codec} {K : Scheme P C} {x : Tx} : ∀ (es : List RaceEvent) {X : Race} {R : List Tx},
    RInv K x X → Shared K X.fleet x X.fleet.share R → RaceOk P C es X → K.race es X → OneByOne P C es X → Clear P C es X →
    ∃ R', RInv K x (X.run P C es) ∧ Shared K (X.run P C es).fleet x (X.run P C es).fleet.share R' ∧
      (∀ t, t ∈ R' ↔ t ∈ R ∨ ∃ i ∈ racers es, t ∈ X.fleet.log i) ∧
      (∀ i ∈ racers es, ∀ t ∈ (X.run P C es).fleet.log i, t ∈ R') ∧ ∀ i, i ∉ racers es → (X.run P C es).fleet.log i = X.fleet.log i := by
  intro es
  induction es with
  | nil => intro X R h hf _ _ _ _; exact ⟨R, h, hf, by simp [racers], by simp [racers], fun _ _ => rfl⟩
  | cons e es ih =>
    intro X R h hf hr hv ho hc
    cases e with
    | work i turns => exact ho.elim
    | sync i f v inp =>
      obtain ⟨rfl, ho⟩ := ho
      obtain ⟨R1, h1, h1', h2, h3, h4⟩ := h.clear hf hr.1.2 hv.1 hc.1 hc.2.1
      obtain ⟨R2, g1, g1', g2, g3, g4⟩ := ih h1 h1' hr.2 hv.2 ho hc.2.2
      refine ⟨R2, g1, g1', ?_, ?_, ?_⟩
      · intro t
        rw [g2 t, h3 t]
        simp only [racers, List.mem_cons, exists_eq_or_imp]
        constructor
        · rintro ((k | k) | ⟨j, hj, k⟩)
          · exact .inr (.inl k)
          · exact .inl k
          · by_cases hji : j = i
            · subst hji
              rw [h2] at k
              rcases (h3 t).1 k with k | k
              · exact .inr (.inl k)
              · exact .inl k
            · rw [h4 j hji] at k
              exact .inr (.inr ⟨j, hj, k⟩)
        · rintro (k | k | ⟨j, hj, k⟩)
          · exact .inl (.inr k)
          · exact .inl (.inl k)
          · by_cases hji : j = i
            · subst hji; exact .inl (.inl k)
            · exact .inr ⟨j, hj, by rw [h4 j hji]; exact k⟩
      · intro j hj t ht
        simp only [racers, List.mem_cons] at hj
        by_cases hjs : j ∈ racers es
        · exact g3 j hjs t ht
        · rcases hj with rfl | hj
          · have ht' : t ∈ (Race.run P C es (X.step P C (.sync j X.fleet.share v inp))).fleet.log j := ht
            rw [g4 j hjs, h2] at ht'
            exact (g2 t).2 (.inl ht')
          · exact absurd hj hjs
      · intro j hj
        simp only [racers, List.mem_cons, not_or] at hj
        exact (g4 j hj.2).trans (h4 j hj.1)

theorem RInv.spread {P : Prims} {C : Codec} {K : Scheme P C} {x : Tx} : ∀ (es : List RaceEvent) {X : Race} {R : List Tx},
    RInv K x X → Shared K X.fleet x X.fleet.share R → RaceOk P C es X → K.race es X → OneByOne P C es X → Clear P C es X →
    (∀ i ∈ racers es, ∀ t ∈ X.fleet.log i, t ∈ R) →
    RInv K x (X.run P C es) ∧ Shared K (X.run P C es).fleet x (X.run P C es).fleet.share R ∧
      (∀ i ∈ racers es, (X.run P C es).fleet.log i = R) ∧ ∀ i, i ∉ racers es → (X.run P C es).fleet.log i = X.fleet.log i := by
  intro es
  induction es with
  | nil => intro X R h hf _ _ _ _ _; exact ⟨h, hf, by simp [racers], fun _ _ => rfl⟩
  | cons e es ih =>
    intro X R h hf hr hv ho hc hsub
    cases e with
    | work i turns => exact ho.elim
    | sync i f v inp =>
      obtain ⟨rfl, ho⟩ := ho
      obtain ⟨R1, h1, h1', h2, h3, h4⟩ := h.clear hf hr.1.2 hv.1 hc.1 hc.2.1
      have hR : R1 = R := by
        refine chrono_ext h1'.own.good.chrono hf.own.good.chrono fun t => ?_
        rw [h3 t]
        exact ⟨fun k => k.elim (hsub i (by simp [racers]) t) id, .inr⟩
      subst hR
      obtain ⟨g1, g1', g2, g4⟩ := ih h1 h1' hr.2 hv.2 ho hc.2.2 (by
        intro j hj t ht
        by_cases hji : j = i
        · subst hji; rw [h2] at ht; exact ht
        · rw [h4 j hji] at ht; exact hsub j (by simp [racers, hj]) t ht)
      refine ⟨g1, g1', ?_, ?_⟩
      · intro j hj
        simp only [racers, List.mem_cons] at hj
        by_cases hjs : j ∈ racers es
        · exact g2 j hjs
        · rcases hj with rfl | hj
          · exact (g4 j hjs).trans h2
          · exact absurd hj hjs
      · intro j hj
        simp only [racers, List.mem_cons, not_or] at hj
        exact (g4 j hj.2).trans (h4 j hj.1)

/-- a machine whose log looks like that of the share, and what else there is -/
theorem RInv.apart {P : Prims} {C : Codec} {K : Scheme P C} {x : Tx} {i : Nat} : ∀ (es : List RaceEvent) {X : Race} {R : List Tx},
    RInv K x X → Shared K X.fleet x X.fleet.share R → RaceOk P C es X → K.race es X → OneByOne P C es X →
    LooksSame R (X.fleet.log i) → (∀ j, j ≠ i → ∀ t ∈ X.fleet.log j, t ∈ R) → (∀ t ∈ R, ∃ j, j ≠ i ∧ t ∈ X.fleet.log j) →
    RInv K x (X.run P C es) ∧ Shared K (X.run P C es).fleet x (X.run P C es).fleet.share R ∧
      (X.run P C es).fleet.log i = X.fleet.log i ∧ ∀ j, j ≠ i → ∀ t ∈ (X.run P C es).fleet.log j, t ∈ R := by
  intro es
  induction es with
  | nil => intro X R h hf _ _ _ _ hs _; exact ⟨h, hf, rfl, hs⟩
  | cons e es ih =>
    intro X R h hf hr hv ho hl hs hc
    cases e with
    | work j turns => exact ho.elim
    | sync k f v inp =>
      obtain ⟨rfl, ho⟩ := ho
      obtain ⟨h1, h2, h3⟩ := h.sync hf hr.1.2 hv.1
      obtain ⟨-, hgrow⟩ := h.run [.sync k X.fleet.share v inp] ⟨hr.1, trivial⟩ ⟨hv.1, trivial⟩
      have hgrow : ∀ j, ∀ t ∈ X.fleet.log j, t ∈ (X.step P C (.sync k X.fleet.share v inp)).fleet.log j := hgrow
      have key : (X.step P C (.sync k X.fleet.share v inp)).fleet.log i = X.fleet.log i ∧
          K.saved (X.step P C (.sync k X.fleet.share v inp)).fleet.share R ∧
          ∀ j, j ≠ i → ∀ t ∈ (X.step P C (.sync k X.fleet.share v inp)).fleet.log j, t ∈ R := by
        have hsame : (X.step P C (.sync k X.fleet.share v inp)).fleet.log k = X.fleet.log k →
            (X.step P C (.sync k X.fleet.share v inp)).fleet.share = X.fleet.share →
            (X.step P C (.sync k X.fleet.share v inp)).fleet.log i = X.fleet.log i ∧
              K.saved (X.step P C (.sync k X.fleet.share v inp)).fleet.share R ∧
              ∀ j, j ≠ i → ∀ t ∈ (X.step P C (.sync k X.fleet.share v inp)).fleet.log j, t ∈ R := by
          intro k1 k2
          have hall : ∀ j, (X.step P C (.sync k X.fleet.share v inp)).fleet.log j = X.fleet.log j := by
            intro j
            by_cases hjk : j = k
            · rw [hjk]; exact k1
            · exact h2 j hjk
          exact ⟨hall i, by rw [k2]; exact hf.saved, fun j hj t ht => hs j hj t (by rw [hall j] at ht; exact ht)⟩
        cases h3 with
        | skipped _ k1 k2 => exact hsame k1 k2
        | stuck _ _ _ k1 k2 => exact hsame k1 k2
        | merged k0 k1 k2 =>
          have hki : k ≠ i := fun e => k0 (e ▸ hl)
          have hR : (X.step P C (.sync k X.fleet.share v inp)).fleet.log k = R := by
            refine chrono_ext (h1.sound k).own.good.chrono hf.own.good.chrono fun t => ?_
            exact (k1 t).trans ⟨fun a => a.elim (hs k hki t) id, .inr⟩
          refine ⟨h2 i (fun e => hki e.symm), by rw [← hR]; exact k2, fun j hj t ht => ?_⟩
          by_cases hjk : j = k
          · rw [hjk, hR] at ht; exact ht
          · rw [h2 j hjk] at ht; exact hs j hj t ht
      obtain ⟨g1, g2, g3⟩ := key
      have hc' : ∀ t ∈ R, ∃ j, j ≠ i ∧ t ∈ (X.step P C (.sync k X.fleet.share v inp)).fleet.log j := fun t ht =>
        let ⟨j, a, b⟩ := hc t ht; ⟨j, a, hgrow j t b⟩
      obtain ⟨a1, a2, a3, a4⟩ := ih h1 ⟨g2, hf.log, hf.own, hf.root, fun t ht => let ⟨j, _, b⟩ := hc' t ht; ⟨j, b⟩⟩ hr.2 hv.2 ho
        (by rw [g1]; exact hl) g3 hc'
      exact ⟨a1, a2, a3.trans g1, a4⟩

end Verif.App
