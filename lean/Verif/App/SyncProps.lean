import Verif.App.SyncSpec
import Verif.App.SessionProps
import Verif.App.MergingProps
import Verif.App.HostsProps
/-!
# Properties of `sync`: C23, C26, C27, C65
-/
set_option linter.unusedSimpArgs false
namespace Verif.App
open Verif Verif.Txlogs Verif.Blob Verif.Crypt Verif.App.Spec

/-! ## Lemmas -/

theorem updateLoop_version : ∀ (l : List Tx) (v : Nat) (snap : Snapshot), (DB.updateLoop l v snap).2.2 = none →
    (DB.updateLoop l v snap).1 = v + l.length
  | [], v, snap, _ => by simp [DB.updateLoop]
  | tx :: l, v, snap, h => by
    simp only [DB.updateLoop] at h ⊢
    split
    · rename_i e he
      rw [he] at h
      simp at h
    · rename_i e he
      rw [he] at h
      have := updateLoop_version l (v + 1) _ h
      simp only [this, List.length_cons]
      omega

/-- a snapshot that was updated without error is up to date -/
theorem update_again {s s' : DB} (h : s.updateSnapshot = (s', none)) : s'.updateSnapshot = (s', none) := by
  have hge : s'.version ≥ s'.log.length := by
    unfold DB.updateSnapshot at h
    split at h
    · cases h; assumption
    · simp only [Prod.mk.injEq] at h
      obtain ⟨rfl, h2⟩ := h
      have := updateLoop_version _ _ _ h2
      simp only [this, List.length_drop]
      omega
  unfold DB.updateSnapshot
  rw [if_pos hge]

theorem findByName_store {ord : Order} {s : DB} (h : s.updateSnapshot = (s, none)) (nm : Str) :
    (findByName ord s nm).1 = s := by
  unfold findByName withSnapshot
  rw [h]
  simp only
  split <;> rfl

/-- `sync` either stops early, or goes on with an updated snapshot. -/
theorem sync_cases (P : Prims) (C : Codec) (w : World) (v : SyncEnv) (nm : Str) (push : Bool) (u : Session) (inp : Input) :
    Untouched u (sync P C w v nm push u inp) ∨
    ∃ syncs, u.store.updateSnapshot.2 = none ∧
      (nm = [] → syncs = collectSyncs w v.ord u.store.updateSnapshot.1) ∧ (nm ≠ [] → ∃ uuid, uuid ≠ [] ∧ syncs = [uuid]) ∧
      sync P C w v nm push u inp = syncWith P C w v push { u with store := u.store.updateSnapshot.1 } syncs inp := by
  have hlog := updateSnapshot_log u.store
  have htx := updateSnapshot_txPoint u.store
  cases hs : u.store.updateSnapshot with
  | mk s e =>
    rw [hs] at hlog htx
    cases e with
    | some e =>
      left
      simp only [sync, hs]
      exact ⟨rfl, hlog, htx, rfl, rfl, rfl⟩
    | none =>
      by_cases hn : nm = []
      · right
        refine ⟨_, rfl, fun _ => rfl, fun h => absurd hn h, ?_⟩
        simp only [sync, hs, hn, ne_eq, not_true, if_false]
      · have hst := findByName_store (ord := v.ord) (update_again hs) nm
        cases hf : findByName v.ord s nm with
        | mk s1 r =>
          rw [hf] at hst
          simp only at hst
          subst hst
          have ht : sync P C w v nm push u inp = match (s1, r) with
            | (s, .panic) => { session := { u with store := s }, result := .panic, rest := inp }
            | (s, .err e) => { session := { u with store := s }, result := .err (.blob e), rest := inp }
            | (s, .ok none) => { session := { u with store := s }, result := .ok (), rest := inp }
            | (s, .ok (some (uuid, _))) =>
              if uuid = [] then { session := { u with store := s }, result := .ok (), rest := inp }
              else syncWith P C w v push { u with store := s } [uuid] inp := by
            simp only [sync, hs, ne_eq, hn, not_false_eq_true, if_true, hf]
            rcases r with (_ | ⟨_, _⟩) | _ | _ <;> rfl
          rw [ht]
          rcases r with (_ | ⟨uuid, _⟩) | _ | _
          · exact .inl ⟨rfl, hlog, htx, rfl, rfl, rfl⟩
          · simp only
            by_cases hu : uuid = []
            · rw [if_pos hu]
              exact .inl ⟨rfl, hlog, htx, rfl, rfl, rfl⟩
            · rw [if_neg hu]
              exact .inr ⟨[uuid], trivial, fun h => absurd h hn, fun _ => ⟨uuid, hu, rfl⟩, rfl⟩
          · exact .inl ⟨rfl, hlog, htx, rfl, rfl, rfl⟩
          · exact .inl ⟨rfl, hlog, htx, rfl, rfl, rfl⟩

theorem saveHosts_txPoint (now : Nat → Int) (s : DB) (hs : List (Str × Str)) :
    (saveHosts now s hs).1.txPoint = s.txPoint := by
  unfold saveHosts
  rw [updateSnapshot_txPoint]
  induction hs generalizing now s with
  | nil => rfl
  | cons a hs ih => simp only [saveHostsLoop, ih]; rfl

theorem saveHosts_log (now : Nat → Int) (s : DB) (hs : List (Str × Str)) : s.log <+: (saveHosts now s hs).1.log := by
  obtain ⟨-, -, txs, h, -⟩ := saveHostsLoop_snapshot now s hs
  unfold saveHosts
  rw [updateSnapshot_log, h]
  exact List.prefix_append _ _

theorem users_log (ord : Order) (s : DB) : (users ord s).1.log = s.log := by
  unfold users
  refine withSnapshot_log _ ?_
  intro s'
  split <;> rfl

theorem mustFind_log (s : DB) (uuid : Str) : (mustFind s uuid).1.log = s.log := by
  have h : (find s uuid).1.log = s.log := by
    unfold find
    exact withSnapshot_log _ (fun s' => rfl)
  unfold mustFind
  split <;> rename_i heq <;> rw [heq] at h <;> exact h

theorem paramLoop_log (P : Prims) (c : Creds) (l : List (Str × Str)) (s : DB) (p : Params) :
    (paramLoop P c l s p).1.log = s.log := by
  induction l generalizing s p with
  | nil => rfl
  | cons a l ih =>
    have hm := mustFind_log s a.1
    simp only [paramLoop]
    split
    · rfl
    · split
      · rename_i heq; rw [heq] at hm; exact hm
      · rename_i heq; rw [heq] at hm; exact hm
      · rename_i heq
        rw [heq] at hm
        split
        · exact hm
        · split
          · exact hm
          · split
            · exact hm
            · rw [ih]; exact hm

theorem makeParams_log (P : Prims) (ord : Order) (ord' : Results → Results) (c : Creds) (s : DB) :
    (makeParams P ord ord' c s).1.log = s.log := by
  have hu := users_log ord s
  unfold makeParams
  split
  · rfl
  · split
    · rename_i heq; rw [heq] at hu; exact hu
    · rename_i heq; rw [heq] at hu; exact hu
    · rename_i s1 us heq
      rw [heq] at hu
      have hp := paramLoop_log P c (ord' us) s1 {}
      split
      · rename_i heq'; rw [heq'] at hp; exact hp.trans hu
      · exact hp.trans hu

theorem sealFile_log (P : Prims) (C : Codec) (ord : Order) (ord' : Results → Results) (iv : Str) (c : Creds) (s : DB) :
    (sealFile P C ord ord' iv c s).1.log = s.log := by
  have hm := makeParams_log P ord ord' c s
  unfold sealFile
  split
  · rfl
  · split
    · rename_i heq; rw [heq] at hm; exact hm
    · rename_i heq; rw [heq] at hm; exact hm
    · rename_i heq
      rw [heq] at hm
      split <;> exact hm

theorem pullAll_spec (P : Prims) (C : Codec) (w : World) (u : Session) : ∀ (syncs : List Str) (inp inp' : Input)
    (l : List (Str × Fate × Str)), pullAll P C w u syncs inp = (some l, inp') →
    l.map Prod.fst = syncs ∧ ∀ x ∈ l, ∃ i i', pullOne P C w u x.1 i = (some x.2, i')
  | [], inp, inp', l, h => by
    simp only [pullAll, Prod.mk.injEq, Option.some.injEq] at h
    simp [← h.1]
  | uuid :: syncs, inp, inp', l, h => by
    simp only [pullAll] at h
    split at h
    · cases h
    · rename_i f hh i1 h1
      split at h
      · cases h
      · rename_i l' i2 h2
        cases h
        obtain ⟨a, b⟩ := pullAll_spec P C w u _ _ _ _ h2
        refine ⟨by simp [a], ?_⟩
        intro x hx
        rcases List.mem_cons.1 hx with rfl | hx
        · exact ⟨_, _, h1⟩
        · exact b x hx

theorem mem_targets (l : List (Str × Fate × Str)) (uuid : Str) :
    uuid ∈ targets l ↔ uuid ≠ [] ∧ ∃ f h, (uuid, f, h) ∈ l ∧ f ≠ .skip := by
  induction l with
  | nil => simp [targets]
  | cons a l ih =>
    obtain ⟨x, f, h⟩ := a
    cases f with
    | skip =>
      simp only [targets, ih]
      constructor
      · rintro ⟨a, f, h, b, c⟩; exact ⟨a, f, h, List.mem_cons_of_mem _ b, c⟩
      · rintro ⟨a, f, h, b, c⟩
        refine ⟨a, f, h, ?_, c⟩
        rcases List.mem_cons.1 b with b | b
        · cases b; exact absurd rfl c
        · exact b
    | absent =>
      simp only [targets]
      by_cases hx : x = []
      · rw [if_pos hx, ih]
        constructor
        · rintro ⟨a, f, h, b, c⟩; exact ⟨a, f, h, List.mem_cons_of_mem _ b, c⟩
        · rintro ⟨a, f, h, b, c⟩
          refine ⟨a, f, h, ?_, c⟩
          rcases List.mem_cons.1 b with b | b
          · cases b; exact absurd hx a
          · exact b
      · rw [if_neg hx, List.mem_cons, ih]
        constructor
        · rintro (rfl | ⟨a, f, h, b, c⟩)
          · exact ⟨hx, _, _, List.mem_cons_self .., by simp⟩
          · exact ⟨a, f, h, List.mem_cons_of_mem _ b, c⟩
        · rintro ⟨a, f, h, b, c⟩
          rcases List.mem_cons.1 b with b | b
          · cases b; exact .inl rfl
          · exact .inr ⟨a, f, h, b, c⟩
    | merge r =>
      simp only [targets]
      by_cases hx : x = []
      · rw [if_pos hx, ih]
        constructor
        · rintro ⟨a, f, h, b, c⟩; exact ⟨a, f, h, List.mem_cons_of_mem _ b, c⟩
        · rintro ⟨a, f, h, b, c⟩
          refine ⟨a, f, h, ?_, c⟩
          rcases List.mem_cons.1 b with b | b
          · cases b; exact absurd hx a
          · exact b
      · rw [if_neg hx, List.mem_cons, ih]
        constructor
        · rintro (rfl | ⟨a, f, h, b, c⟩)
          · exact ⟨hx, _, _, List.mem_cons_self .., by simp⟩
          · exact ⟨a, f, h, List.mem_cons_of_mem _ b, c⟩
        · rintro ⟨a, f, h, b, c⟩
          rcases List.mem_cons.1 b with b | b
          · cases b; exact .inl rfl
          · exact .inr ⟨a, f, h, b, c⟩

theorem tryDecrypt_ok {P : Prims} {c : Creds} {ct user pass : Str} {x : Str × Str × Params × Str}
    (h : tryDecrypt P c ct user pass = .done (.ok (some x))) :
    x.1 = user ∧ x.2.1 = pass ∧ ∃ v, decrypt P user pass (orNil c.key) c.salt ct = .ok (v, x.2.2) := by
  unfold tryDecrypt at h
  split at h
  · cases h
  · rename_i v p pt heq
    cases h
    exact ⟨rfl, rfl, v, heq⟩
  · split at h
    · cases h
    · split at h <;> cases h

/-- what `decryptBlob` returns was decrypted with the credentials it returns -/
theorem decryptBlob_ok {P : Prims} {c : Creds} {ct : Str} : ∀ (inp : Input) (user pass : Str) (inp' : Input)
    (x : Str × Str × Params × Str), decryptBlob P c ct user pass inp = (.ok (some x), inp') →
    ∃ v, decrypt P x.1 x.2.1 (orNil c.key) c.salt ct = .ok (v, x.2.2)
  | [], user, pass, inp', x, h => by
    simp only [decryptBlob] at h
    split at h
    · rename_i r heq
      cases h
      obtain ⟨a, b, c⟩ := tryDecrypt_ok heq
      rw [a, b]; exact c
    · cases h
  | none :: rest, user, pass, inp', x, h => by
    simp only [decryptBlob] at h
    split at h
    · rename_i r heq
      cases h
      obtain ⟨a, b, c⟩ := tryDecrypt_ok heq
      rw [a, b]; exact c
    · cases h
  | some line :: rest, user, pass, inp', x, h => by
    simp only [decryptBlob] at h
    split at h
    · rename_i r heq
      cases h
      obtain ⟨a, b, c⟩ := tryDecrypt_ok heq
      rw [a, b]; exact c
    · exact decryptBlob_ok rest _ _ _ _ h
    · split at h
      · cases h
      · exact decryptBlob_ok rest _ _ _ _ h

/-- a remote that is not skipped is absent or was understood -/
theorem pullOne_fate {P : Prims} {C : Codec} {w : World} {u : Session} {uuid : Str} {inp inp' : Input} {f : Fate} {h : Str}
    (hp : pullOne P C w u uuid inp = (some (f, h), inp')) (hf : f ≠ .skip) :
    (f = .absent ∧ Absent w uuid ((u.store.snapshot.get? uuid).getD [])) ∨
    ∃ ct r, f = .merge r ∧ Reads w uuid ((u.store.snapshot.get? uuid).getD []) ct ∧ ∃ v p pt,
      decrypt P r.creds.user r.creds.pass (orNil u.creds.key) u.creds.salt ct = .ok (v, p, pt) ∧ pt ≠ [] ∧
        C.loadLog pt = .ok r.log := by
  simp only [pullOne] at hp
  split at hp
  · cases hp
  · cases hp; exact absurd rfl hf
  · rename_i heq
    cases hp
    exact .inl ⟨rfl, _, _, _, heq⟩
  · rename_i ct h' i1 heq
    right
    split at hp
    · cases hp
    · cases hp; exact absurd rfl hf
    · cases hp; exact absurd rfl hf
    · rename_i user pass p pt i2 hd
      split at hp
      · cases hp; exact absurd rfl hf
      · rename_i hpt
        split at hp
        · cases hp
        · cases hp; exact absurd rfl hf
        · rename_i log hlog
          split at hp
          · cases hp
          · cases hp; exact absurd rfl hf
          · split at hp
            · cases hp
              obtain ⟨v, hv⟩ := decryptBlob_ok _ _ _ _ _ hd
              exact ⟨ct, _, rfl, ⟨_, _, _, heq⟩, v, p, pt, hv, hpt, hlog⟩
            · cases hp

/-- what was pushed to are targets, and nobody else -/
theorem pushAll_sub (w : World) (s : DB) (ct : Str) (ts : List Str) (m : Results) (inp : Input) :
    ∀ x ∈ (pushAll w s ct ts m inp).1, x.1 ∈ ts := by
  induction ts generalizing m inp with
  | nil => simp [pushAll]
  | cons uuid ts ih =>
    simp only [pushAll]
    split
    · simp
    · rename_i ok h inp' heq
      intro x hx
      simp only [List.mem_cons] at hx ⊢
      rcases hx with rfl | hx
      · exact .inl rfl
      · exact .inr (ih _ _ x hx)

/-- `syncWith`, by how far it gets -/
theorem syncWith_cases (P : Prims) (C : Codec) (w : World) (v : SyncEnv) (push : Bool) (u : Session) (syncs : List Str)
    (inp : Input) :
    ((syncWith P C w v push u syncs inp).session = u ∧ (syncWith P C w v push u syncs inp).pushed = []) ∨
    ∃ l i1 m i2, pullAll P C w u syncs inp = (some l, i1) ∧ mergeBlobs v.ord u.creds u.store.log (remotes l) i1 = (.ok m, i2) ∧
      ((∃ s e, ({ u.store.resetSnapshot with log := m.log } : DB).updateSnapshot = (s, some e) ∧
        syncWith P C w v push u syncs inp =
          { session := { u with creds := m.creds, store := s }, result := .err .poisoned, rest := i2 }) ∨
       ∃ s, ({ u.store.resetSnapshot with log := m.log } : DB).updateSnapshot = (s, none) ∧
        syncWith P C w v push u syncs inp =
          pushBack P C w v push (newHosts l []) (targets l) { u with creds := m.creds, store := s } i2) := by
  unfold syncWith
  cases hp : pullAll P C w u syncs inp with
  | mk l i1 =>
    cases l with
    | none => exact .inl ⟨rfl, rfl⟩
    | some l =>
      simp only
      cases hm : mergeBlobs v.ord u.creds u.store.log (remotes l) i1 with
      | mk m i2 =>
        cases m with
        | panic => exact .inl ⟨rfl, rfl⟩
        | err e => exact .inl ⟨rfl, rfl⟩
        | ok m =>
          right
          refine ⟨l, i1, m, i2, rfl, hm, ?_⟩
          simp only
          cases hs : ({ u.store.resetSnapshot with log := m.log } : DB).updateSnapshot with
          | mk s e =>
            cases e with
            | some e => exact .inl ⟨s, e, rfl, rfl⟩
            | none => exact .inr ⟨s, rfl, rfl⟩

theorem pushBack_spec (P : Prims) (C : Codec) (w : World) (v : SyncEnv) (push : Bool) (hosts : Results) (ts : List Str)
    (u : Session) (inp : Input) :
    let r := pushBack P C w v push hosts ts u inp
    r.session.creds = u.creds ∧ u.store.log <+: r.session.store.log ∧ (∀ x ∈ r.pushed, x.1 ∈ ts) ∧
      (push = false → r.pushed = []) := by
  have h1 := saveHosts_log v.now u.store (v.ordH hosts)
  simp only [pushBack]
  cases hs : saveHosts v.now u.store (v.ordH hosts) with
  | mk s e =>
    rw [hs] at h1
    cases e with
    | some e => exact ⟨rfl, h1, by simp, fun _ => rfl⟩
    | none =>
      simp only
      by_cases hp : push = false
      · rw [if_pos hp]
        exact ⟨rfl, h1, by simp, fun _ => rfl⟩
      · rw [if_neg hp]
        have h2 := sealFile_log P C v.ord v.ord' v.iv u.creds s
        cases hf : sealFile P C v.ord v.ord' v.iv u.creds s with
        | mk s2 r =>
          rw [hf] at h2
          simp only at h1 h2
          rw [← h2] at h1
          cases r with
          | panic => exact ⟨rfl, h1, by simp, fun _ => rfl⟩
          | err e => exact ⟨rfl, h1, by simp, fun _ => rfl⟩
          | ok ct =>
            simp only
            have h3 := pushAll_sub w s2 ct ts [] inp
            cases ha : pushAll w s2 ct ts [] inp with
            | mk done x =>
              obtain ⟨crash, hosts', i3⟩ := x
              rw [ha] at h3
              cases crash with
              | true => exact ⟨rfl, h1, h3, fun h => absurd h hp⟩
              | false =>
                simp only
                have h4 := saveHosts_log v.now' s2 (v.ordH hosts')
                cases hs' : saveHosts v.now' s2 (v.ordH hosts') with
                | mk s3 e =>
                  rw [hs'] at h4
                  cases e with
                  | some e => exact ⟨rfl, h1.trans h4, h3, fun h => absurd h hp⟩
                  | none => exact ⟨rfl, h1.trans h4, h3, fun h => absurd h hp⟩

/-! ## C23 -/

/-- C23 (one remote is enough): if merging one remote fails, the merge of the whole list fails. -/
theorem C23_any_failure (ord : Order) (u : Creds) (log : List Tx) (pre post : List Remote) (r : Remote) (inp i1 i2 : Input)
    (m : Merged) (e : SyncErr) (hpre : mergeBlobs ord u log pre inp = (.ok m, i1))
    (hr : mergeRemotes ord u [r] m i1 = (.err e, i2)) :
    mergeBlobs ord u log (pre ++ r :: post) inp = (.err e, i2) := by
  unfold mergeBlobs at *
  generalize ({ creds := u, log := log } : Merged) = m0 at *
  induction pre generalizing m0 inp with
  | nil =>
    simp only [mergeRemotes, Prod.mk.injEq, Res.ok.injEq] at hpre
    obtain ⟨rfl, rfl⟩ := hpre
    simp only [List.nil_append, mergeRemotes] at hr ⊢
    cases hl : mergeLogs m0.log r.log inp with
    | mk a b =>
      rw [hl] at hr
      cases a with
      | panic => cases hr
      | err e => exact hr
      | ok a =>
        simp only at hr ⊢
        cases ht : takeRemote ord u m0 r a b with
        | mk x y =>
          rw [ht] at hr
          cases x with
          | panic => cases hr
          | err e => exact hr
          | ok x => cases hr
  | cons q pre ih =>
    simp only [List.cons_append, mergeRemotes] at hpre ⊢
    cases hl : mergeLogs m0.log q.log inp with
    | mk a b =>
      rw [hl] at hpre
      cases a with
      | panic => cases hpre
      | err e => cases hpre
      | ok a =>
        simp only at hpre ⊢
        cases ht : takeRemote ord u m0 q a b with
        | mk x y =>
          rw [ht] at hpre
          cases x with
          | panic => cases hpre
          | err e => cases hpre
          | ok x => exact ih _ _ hpre

/-- C23: a run of `sync` in which the merge fails or is aborted ends normally, leaves credentials and log as they were and sends
nothing. -/
theorem C23_failed_merge (P : Prims) (C : Codec) (w : World) (v : SyncEnv) (push : Bool) (u : Session) (syncs : List Str)
    (inp i1 i2 : Input) (l : List (Str × Fate × Str)) (e : SyncErr) (hl : pullAll P C w u syncs inp = (some l, i1))
    (hm : mergeBlobs v.ord u.creds u.store.log (remotes l) i1 = (.err e, i2)) :
    syncWith P C w v push u syncs inp = { session := u, result := .ok (), rest := i2 } := by
  simp only [syncWith, hl, hm]

/-- C23 (whole command): either credentials and log are what they were and nothing was sent, or all remotes were merged, and
credentials and log are the outcome of that merge, the log possibly followed by known-hosts lines. -/
theorem C23_all_or_nothing (P : Prims) (C : Codec) (w : World) (v : SyncEnv) (nm : Str) (push : Bool) (u : Session) (inp : Input) :
    let r := sync P C w v nm push u inp
    Untouched u r ∨
    ∃ syncs l i1 m i2, pullAll P C w { u with store := u.store.updateSnapshot.1 } syncs inp = (some l, i1) ∧
      mergeBlobs v.ord u.creds u.store.log (remotes l) i1 = (.ok m, i2) ∧ r.session.creds = m.creds ∧
      m.log <+: r.session.store.log := by
  simp only
  rcases sync_cases P C w v nm push u inp with h | ⟨syncs, hs, -, -, h⟩
  · exact .inl h
  · rw [h]
    have hlog := updateSnapshot_log u.store
    rcases syncWith_cases P C w v push { u with store := u.store.updateSnapshot.1 } syncs inp with
      ⟨h1, h2⟩ | ⟨l, i1, m, i2, h1, h2, h3⟩
    · left
      unfold Untouched
      rw [h1, h2]
      exact ⟨rfl, hlog, updateSnapshot_txPoint _, rfl, rfl, rfl⟩
    · right
      simp only [hlog] at h2
      refine ⟨syncs, l, i1, m, i2, h1, h2, ?_⟩
      rcases h3 with ⟨s, e, h3, h4⟩ | ⟨s, h3, h4⟩
      · rw [h4]
        have := updateSnapshot_log ({ u.store.updateSnapshot.1.resetSnapshot with log := m.log } : DB)
        rw [h3] at this
        exact ⟨rfl, by simp only at this ⊢; rw [this]; exact List.prefix_refl _⟩
      · rw [h4]
        have := updateSnapshot_log ({ u.store.updateSnapshot.1.resetSnapshot with log := m.log } : DB)
        rw [h3] at this
        obtain ⟨a, b, -⟩ := pushBack_spec P C w v push (newHosts l []) (targets l)
          { u with creds := m.creds, store := s } i2
        exact ⟨a, by simp only at this b; rw [this] at b; exact b⟩

/-! ## C26 -/

/-- C26: everything `sync` writes to was, in this run, either absent, or read, decrypted and parsed. -/
theorem C26_pushed (P : Prims) (C : Codec) (w : World) (v : SyncEnv) (nm : Str) (push : Bool) (u : Session) (inp : Input)
    (uuid : Str) (ok : Bool) (h : (uuid, ok) ∈ (sync P C w v nm push u inp).pushed) :
    push = true ∧ uuid ≠ [] ∧
    (Absent w uuid (syncEntry u uuid) ∨ ∃ ct, Reads w uuid (syncEntry u uuid) ct ∧ Understood P C u.creds ct) := by
  rcases sync_cases P C w v nm push u inp with h' | ⟨syncs, hs, -, -, h'⟩
  · rw [h'.2.2.2.2.2] at h; cases h
  · rw [h'] at h
    rcases syncWith_cases P C w v push { u with store := u.store.updateSnapshot.1 } syncs inp with
      ⟨h1, h2⟩ | ⟨l, i1, m, i2, h1, h2, h3⟩
    · rw [h2] at h; cases h
    · rcases h3 with ⟨s, e, h3, h4⟩ | ⟨s, h3, h4⟩
      · rw [h4] at h; cases h
      · rw [h4] at h
        obtain ⟨-, -, b, c⟩ := pushBack_spec P C w v push (newHosts l []) (targets l)
          { u with creds := m.creds, store := s } i2
        obtain ⟨ht1, f, hh, ht2, ht3⟩ := (mem_targets _ _).1 (b _ h)
        obtain ⟨-, hone⟩ := pullAll_spec P C w _ _ _ _ _ h1
        obtain ⟨i, i', hi⟩ := hone _ ht2
        refine ⟨?_, ht1, ?_⟩
        · cases push with
          | true => rfl
          | false => rw [c rfl] at h; cases h
        · rcases pullOne_fate hi ht3 with ⟨-, h⟩ | ⟨ct, r, -, h, v, p, pt, h5, h6, h7⟩
          · exact .inl h
          · exact .inr ⟨ct, h, _, _, v, p, pt, _, h5, h6, h7⟩

/-- C26, as stated: a remote whose pull always fails, or whose contents nobody can decrypt and parse, is not written to. -/
theorem C26_unreadable (P : Prims) (C : Codec) (w : World) (v : SyncEnv) (nm : Str) (push : Bool) (u : Session) (inp : Input)
    (uuid : Str) (habs : ¬ Absent w uuid (syncEntry u uuid))
    (hbad : ∀ ct, Reads w uuid (syncEntry u uuid) ct → ¬ Understood P C u.creds ct) :
    uuid ∉ (sync P C w v nm push u inp).pushed.map Prod.fst := by
  intro h
  obtain ⟨⟨x, ok⟩, hx, rfl⟩ := List.mem_map.1 h
  rcases (C26_pushed P C w v nm push u inp x ok hx).2.2 with h | ⟨ct, h1, h2⟩
  · exact habs h
  · exact hbad ct h1 h2

/-! ## C27 -/

theorem pushAll_all (w : World) (s : DB) (ct : Str) (ts : List Str) (m m' : Results) (inp i' : Input) (done : List (Str × Bool))
    (h : pushAll w s ct ts m inp = (done, false, m', i')) : done.map Prod.fst = ts := by
  induction ts generalizing m inp done with
  | nil =>
    simp only [pushAll, Prod.mk.injEq] at h
    simp [← h.1]
  | cons uuid ts ih =>
    simp only [pushAll] at h
    split at h
    · simp at h
    · rename_i ok hh i1 heq
      generalize hr : pushAll w s ct ts (if hh = [] then m else m.set uuid hh) i1 = r at h
      obtain ⟨d, c, m2, i2⟩ := r
      simp only [Prod.mk.injEq] at h
      obtain ⟨rfl, rfl, rfl, rfl⟩ := h
      simp [ih _ _ _ hr]

/-- What remains of C27: after a successful sync with push, every remote that was absent or had a different log was written to
(in the order of the pulls), and what was sent is the file that saving a store with the merged log, possibly followed by new
known-hosts lines, gives. -/
theorem C27_sent_partial (P : Prims) (C : Codec) (w : World) (v : SyncEnv) (u : Session) (syncs : List Str)
    (inp i1 i2 : Input) (l : List (Str × Fate × Str)) (m : Merged) (hl : pullAll P C w u syncs inp = (some l, i1))
    (hm : mergeBlobs v.ord u.creds u.store.log (remotes l) i1 = (.ok m, i2))
    (hr : (syncWith P C w v true u syncs inp).result = .ok ()) :
    let r := syncWith P C w v true u syncs inp
    r.pushed.map Prod.fst = targets l ∧
    (∀ uuid f h, (uuid, f, h) ∈ l → f ≠ .skip → uuid ≠ [] → uuid ∈ r.pushed.map Prod.fst) ∧
    ∃ s1 : DB, m.log <+: s1.log ∧ s1.txPoint = u.store.txPoint ∧ r.session.creds = m.creds ∧
      saveBlob P C v.ord v.ord' v.iv { creds := m.creds, store := s1 } = .ok (some r.sent) := by
  have key : ∀ r : Synced, r = syncWith P C w v true u syncs inp → r.pushed.map Prod.fst = targets l ∧
      ∃ s1 : DB, m.log <+: s1.log ∧ s1.txPoint = u.store.txPoint ∧ r.session.creds = m.creds ∧
      saveBlob P C v.ord v.ord' v.iv { creds := m.creds, store := s1 } = .ok (some r.sent) := by
    rintro r rfl
    simp only [syncWith, hl, hm] at hr ⊢
    have hlog := updateSnapshot_log ({ u.store.resetSnapshot with log := m.log } : DB)
    have htx := updateSnapshot_txPoint ({ u.store.resetSnapshot with log := m.log } : DB)
    cases hu : ({ u.store.resetSnapshot with log := m.log } : DB).updateSnapshot with
    | mk s e =>
      rw [hu] at hr hlog htx
      cases e with
      | some e => cases hr
      | none =>
        simp only [pushBack] at hr ⊢
        have h1 := saveHosts_log v.now s (v.ordH (newHosts l []))
        have h2 := saveHosts_txPoint v.now s (v.ordH (newHosts l []))
        cases hs : saveHosts v.now s (v.ordH (newHosts l [])) with
        | mk s1 e =>
          rw [hs] at hr h1 h2
          cases e with
          | some e => cases hr
          | none =>
            simp only [Bool.true_eq_false, if_false] at hr ⊢
            cases hf : sealFile P C v.ord v.ord' v.iv m.creds s1 with
            | mk s2 x =>
              rw [hf] at hr
              cases x with
              | panic => cases hr
              | err e => cases hr
              | ok ct =>
                simp only at hr ⊢
                cases ha : pushAll w s2 ct (targets l) [] i2 with
                | mk done y =>
                  obtain ⟨crash, hosts', i3⟩ := y
                  rw [ha] at hr
                  cases crash with
                  | true => cases hr
                  | false =>
                    have hd := pushAll_all _ _ _ _ _ _ _ _ _ ha
                    simp only at hr ⊢
                    cases hs' : saveHosts v.now' s2 (v.ordH hosts') with
                    | mk s3 e =>
                      rw [hs'] at hr
                      cases e with
                      | some e => cases hr
                      | none =>
                        simp only
                        refine ⟨hd, s1, ?_, h2.trans htx, trivial, ?_⟩
                        · simp only at h1 hlog
                          rwa [hlog] at h1
                        · simp [saveBlob, hf]
  obtain ⟨k1, k2⟩ := key _ rfl
  refine ⟨k1, ?_, k2⟩
  intro uuid f h hmem hf hne
  simp only [k1]
  exact (mem_targets _ _).2 ⟨hne, f, h, hmem, hf⟩

/-- ... so in a single-user file, what was sent opens with the password of the merged credentials and holds the merged log. -/
theorem C27_opens_single_partial (P : Prims) (hP : Crypt.Spec.Lawful P) (C : Codec) (w : World) (v : SyncEnv)
    (hiv : v.iv.length = 40) (u : Session) (syncs : List Str)
    (inp i1 i2 : Input) (l : List (Str × Fate × Str)) (m : Merged) (hl : pullAll P C w u syncs inp = (some l, i1))
    (hm : mergeBlobs v.ord u.creds u.store.log (remotes l) i1 = (.ok m, i2)) (htx : u.store.txPoint = 0)
    (hr : (syncWith P C w v true u syncs inp).result = .ok ()) (hc : SingleCreds m.creds) (pass : Str) (hp : pass ≠ [])
    (hk : m.creds.key = P.kdf pass m.creds.salt) :
    ∃ s1 : DB, m.log <+: s1.log ∧ (Faithful C s1 → ∃ c s', SameStore s' s1 ∧
      openFile P C none (syncWith P C w v true u syncs inp).sent [some pass] =
        (.ok { creds := c, store := s', readOnly := false, startTx := s1.log.length }, [])) := by
  obtain ⟨-, -, s1, h1, h2, h3, h4⟩ := C27_sent_partial P C w v u syncs inp i1 i2 l m hl hm hr
  refine ⟨s1, h1, fun hC => ?_⟩
  obtain ⟨f, s', g1, g2, g3⟩ := C51_save_open_single P hP C v.ord v.ord' v.iv hiv { creds := m.creds, store := s1 } rfl
    (h2.trans htx) hC hc pass hp hk
  rw [h4] at g1
  cases g1
  exact ⟨_, s', g2, g3⟩

/-- ... and in a multi-user file, it opens for everybody with an account. -/
theorem C27_opens_multi_partial (P : Prims) (hP : Crypt.Spec.Lawful P) (C : Codec) (w : World) (v : SyncEnv)
    (hord : ∀ x, (v.ord x).Perm x) (hord' : ∀ x, (v.ord' x).Perm x) (u : Session) (syncs : List Str)
    (inp i1 i2 : Input) (l : List (Str × Fate × Str)) (m : Merged) (hl : pullAll P C w u syncs inp = (some l, i1))
    (hm : mergeBlobs v.ord u.creds u.store.log (remotes l) i1 = (.ok m, i2)) (htx : u.store.txPoint = 0)
    (hr : (syncWith P C w v true u syncs inp).result = .ok ()) (hc : MultiCreds m.creds) :
    ∃ s1 : DB, m.log <+: s1.log ∧ (Faithful C s1 → Good s1 → WfUsers P s1 → ∃ s', SameStore s' s1 ∧
      ∀ user pass salt, Opens P s1 m.creds.master user pass salt → ∃ c,
        openFile P C none (syncWith P C w v true u syncs inp).sent [some user, some pass] =
          (.ok { creds := c, store := s', readOnly := false, startTx := s1.log.length }, [])) := by
  obtain ⟨-, -, s1, h1, h2, h3, h4⟩ := C27_sent_partial P C w v u syncs inp i1 i2 l m hl hm hr
  refine ⟨s1, h1, fun hC hg hw => ?_⟩
  obtain ⟨f, s', g1, g2, g3⟩ := C51_save_open_multi P hP C v.ord hord v.ord' hord' v.iv { creds := m.creds, store := s1 } rfl
    (h2.trans htx) hg hC hc hw
  rw [h4] at g1
  cases g1
  exact ⟨s', g2, fun user pass salt ho => ⟨_, g3 user pass salt ho⟩⟩

/-! ## C65 -/

/-- C65 (`sync` without a name): only entries marked as sync entries with a name and a url of a known kind are contacted. -/
theorem C65_only_syncs (w : World) (ord : Order) (hord : ∀ m, (ord m).Perm m) (s : DB) (hnd : s.snapshot.NodupKeys) (uuid : Str) :
    uuid ∈ collectSyncs w ord s ↔ ∃ e, s.snapshot.get? uuid = some e ∧ val e keySync = b! "true" ∧ val e keyName ≠ [] ∧
      val e keyURL ≠ [] ∧ (w.scheme (val e keyURL) = some syncSCP ∨ w.scheme (val e keyURL) = some syncFile) := by
  unfold collectSyncs
  simp only [List.mem_map, List.mem_filter, (hord s.snapshot).mem_iff]
  constructor
  · rintro ⟨⟨k, e⟩, ⟨h1, h2⟩, rfl⟩
    refine ⟨e, GoMap.get?_of_mem hnd h1, ?_⟩
    simpa [isSync, and_assoc] using h2
  · rintro ⟨e, h1, h2⟩
    refine ⟨(uuid, e), ⟨GoMap.mem_of_get? h1, ?_⟩, rfl⟩
    simpa [isSync, and_assoc] using h2

theorem C65_unnamed_partial (P : Prims) (C : Codec) (w : World) (v : SyncEnv) (hord : ∀ m, (v.ord m).Perm m) (push : Bool)
    (u : Session) (hok : Ok u.store) (inp : Input) (uuid : Str)
    (h : uuid ∈ (sync P C w v [] push u inp).pushed.map Prod.fst) :
    val (syncEntry u uuid) keySync = b! "true" ∧ val (syncEntry u uuid) keyName ≠ [] ∧
      (w.scheme (val (syncEntry u uuid) keyURL) = some syncSCP ∨ w.scheme (val (syncEntry u uuid) keyURL) = some syncFile) := by
  obtain ⟨⟨x, ok⟩, hx, rfl⟩ := List.mem_map.1 h
  rcases sync_cases P C w v [] push u inp with h' | ⟨syncs, hs, hc, -, h'⟩
  · rw [h'.2.2.2.2.2] at hx; cases hx
  · rw [h'] at hx
    rcases syncWith_cases P C w v push { u with store := u.store.updateSnapshot.1 } syncs inp with
      ⟨h1, h2⟩ | ⟨l, i1, m, i2, h1, h2, h3⟩
    · rw [h2] at hx; cases hx
    · rcases h3 with ⟨s, e, h3, h4⟩ | ⟨s, h3, h4⟩
      · rw [h4] at hx; cases hx
      · rw [h4] at hx
        obtain ⟨-, -, b, c⟩ := pushBack_spec P C w v push (newHosts l []) (targets l)
          { u with creds := m.creds, store := s } i2
        obtain ⟨-, f, hh, ht, -⟩ := (mem_targets _ _).1 (b _ hx)
        obtain ⟨hone, -⟩ := pullAll_spec P C w _ _ _ _ _ h1
        have hmem : x ∈ syncs := by rw [← hone]; exact List.mem_map.2 ⟨_, ht, rfl⟩
        rw [hc rfl] at hmem
        obtain ⟨e, g1, g2, g3, -, g4⟩ := (C65_only_syncs w v.ord hord _ (ok_update hok).nodup x).1 hmem
        unfold syncEntry
        simp only [g1, Option.getD_some]
        exact ⟨g2, g3, g4⟩

/-- C65 is false for a named entry: whatever the session and the other machines, naming an entry whose url is missing, does not
parse, or is of another kind crashes the program. -/
theorem C65_false (P : Prims) (C : Codec) (w : World) (v : SyncEnv) (nm : Str) (push : Bool) (u : Session) (inp : Input)
    (uuid : Str) (e : Entry) (s : DB) (hn : nm ≠ []) (hu : u.store.updateSnapshot = (s, none))
    (hf : (findByName v.ord s nm).2 = .ok (some (uuid, e))) (hne : uuid ≠ [])
    (hs : w.scheme (val (syncEntry u uuid) keyURL) ≠ some syncSCP)
    (hs' : w.scheme (val (syncEntry u uuid) keyURL) ≠ some syncFile) :
    (sync P C w v nm push u inp).result = .panic := by
  have hst := findByName_store (ord := v.ord) (update_again hu) nm
  have hfe : findByName v.ord s nm = (s, .ok (some (uuid, e))) := Prod.ext hst hf
  simp only [sync, hu, ne_eq, hn, not_false_eq_true, if_true, hfe, hne, if_false]
  have hp : pullOne P C w { u with store := s } uuid inp = (none, inp) := by
    simp only [syncEntry, hu] at hs hs'
    simp only [pullOne, pullBlob]
    cases hw : w.scheme (val ((s.snapshot.get? uuid).getD []) keyURL) with
    | none => rfl
    | some sc =>
      rw [hw] at hs hs'
      have h1 : sc ≠ syncSCP := fun h => hs (by rw [h])
      have h2 : sc ≠ syncFile := fun h => hs' (by rw [h])
      have hd : ∀ us pa : Str, tryDecrypt P u.creds [] us pa = .done .panic := by
        intro us pa
        simp [tryDecrypt, decrypt, magicLen]
      have hdb : decryptBlob P u.creds [] u.creds.user u.creds.pass inp = (.panic, inp) := by
        cases inp with
        | nil => simp [decryptBlob, hd]
        | cons a inp => cases a <;> simp [decryptBlob, hd]
      simp only [h1, h2, if_false, hdb]
  simp only [syncWith, pullAll, hp]

end Verif.App
