import Verif.App.SoundLemmas
/-!
# The commands that run inside a transaction, and whole lines
-/
set_option linter.unusedSimpArgs false
namespace Verif.App
open Verif Verif.Txlogs Verif.Blob Verif.Crypt Verif.App.Spec

/-- a store inside a transaction that began at `base`, whose snapshot has not moved past its beginning -/
structure InTx (base s : DB) : Prop where
  ok : Ok s
  tx : s.txPoint = base.log.length + 1
  version : s.version ≤ base.log.length
  log : ∃ l, s.log = base.log ++ l

theorem inTx_begin {s : DB} (h : Ok s) : InTx s s.begin := ⟨ok_begin h, rfl, h.coh.1, [], by simp [DB.begin]⟩

theorem inTx_kept {base s s' : DB} {u : Str} (h : InTx base s) (k : Kept u s s') : InTx base s' := by
  obtain ⟨l, hl⟩ := h.log
  obtain ⟨l', hl'⟩ := k.log
  exact ⟨k.wf.good.ok, k.tx.trans h.tx, by rw [k.version]; exact h.version, l ++ l', by rw [hl', hl, List.append_assoc]⟩

/-- undoing such a transaction -/
theorem rollback_inTx {base s : DB} (h : InTx base s) :
    ∃ s', s.rollback = some s' ∧ s'.log = base.log ∧ s'.txPoint = 0 ∧ Ok s' := by
  obtain ⟨l, hl⟩ := h.log
  have h1 : ¬ s.version > s.txPoint := by rw [h.tx]; have := h.version; omega
  have h2 : ¬ s.txPoint - 1 > s.log.length := by rw [h.tx, hl, List.length_append]; omega
  have h3 : s.log.take (s.txPoint - 1) = base.log := by rw [h.tx, hl]; simp
  have h0 : s.txPoint ≠ 0 := by rw [h.tx]; omega
  unfold DB.rollback
  simp only [h0, h1, h2, if_false]
  refine ⟨_, rfl, h3, rfl, coherent_take h.ok.coh (n := s.txPoint - 1) (p := 0) ?_ (by omega), h.ok.nodup, h.ok.inner⟩
  rw [h.tx]; exact h.version

/-- what the body of a transaction may do -/
structure Body (p : Prop) (u : Session) (x : Session × Res AppErr Unit) : Prop where
  safe : p → x.2 ≠ .panic
  rest : x.1 = { u with store := x.1.store }
  done : x.2 = .ok () → WellFormed x.1.store ∧ Grow (fun _ => False) u.store.begin x.1.store
  undo : ∀ e, x.2 = .err e → InTx u.store x.1.store

theorem doCmd_spec {p : Prop} {L : Str → Prop} {u : Session} {f : Session → Session × Res AppErr Unit} (h0 : u.store.txPoint = 0)
    (h : WellFormed u.store) (hf : Body p u (f { u with store := u.store.begin })) :
    Fine p L u (doCmd u f) ∧ (∀ e, (doCmd u f).2 = .err e → Same u (doCmd u f).1) ∧
    ((doCmd u f).2 = .ok () → (f { u with store := u.store.begin }).2 = .ok () ∧
      (doCmd u f).1 = { u with store := { (f { u with store := u.store.begin }).1.store with txPoint := 0 } }) := by
  unfold doCmd
  generalize f { u with store := u.store.begin } = x at hf ⊢
  obtain ⟨⟨c, s, ro, st⟩, o⟩ := x
  obtain ⟨hs, hr, hd, hu⟩ := hf
  simp only [Session.mk.injEq, true_and] at hr
  obtain ⟨rfl, rfl, rfl⟩ := hr
  cases o with
  | panic => exact ⟨fine_crash (fun k => hs k rfl), (by intro e he; cases he), (by intro he; cases he)⟩
  | err e =>
    obtain ⟨s', h1, h2, h3, h4⟩ := rollback_inTx (hu e rfl)
    simp only at h1
    simp only [h1]
    refine ⟨fine_mk (by simp) (wf_log h h4 h2) (grow_log (h3.trans h0.symm) h2), ?_, (by intro he; cases he)⟩
    intro e' _
    exact ⟨h2, h3.trans h0.symm, rfl, rfl, rfl⟩
  | ok a =>
    obtain ⟨w, t⟩ := hd rfl
    have ht : s.txPoint = u.store.log.length + 1 := t.tx
    have hc : s.commit = some { s with txPoint := 0 } := by
      unfold DB.commit
      rw [if_neg (by rw [ht]; omega)]
    simp only [hc]
    refine ⟨fine_mk (by simp) (wf_log w ⟨w.good.ok.coh, w.good.ok.nodup, w.good.ok.inner⟩ rfl)
      ⟨h0.symm, t.log, fun w n _ hn => t.names w n (fun k => k) hn⟩, (by intro e he; cases he), ?_⟩
    intro _
    simp

theorem updated_log {s s' : DB} (h : s'.log = s.log) : ∀ u, Blob.Exists s' u ↔ Blob.Exists s u := fun u => exists_log h u

theorem prompt_suffix (inp : Input) : (prompt inp).2 <:+ inp := by
  cases inp with
  | nil => exact List.suffix_refl _
  | cons a l => exact List.suffix_cons a l

theorem getString_suffix (inp : Input) : (getString inp).2 <:+ inp := by
  induction inp with
  | nil => exact List.suffix_refl _
  | cons a l ih =>
    cases a with
    | none => exact List.suffix_cons _ l
    | some s =>
      unfold getString
      split
      · exact ih.trans (List.suffix_cons _ l)
      · exact List.suffix_cons _ l

theorem askPort_suffix (inp : Input) : (askPort inp).2 <:+ inp := by
  induction inp with
  | nil => exact List.suffix_refl _
  | cons a l ih =>
    cases a with
    | none => exact List.suffix_cons _ l
    | some s =>
      unfold askPort
      split
      · exact List.suffix_cons _ l
      · split
        · exact List.suffix_cons _ l
        · exact ih.trans (List.suffix_cons _ l)

theorem getMenuChoice_suffix (n : Nat) (inp : Input) : (getMenuChoice n inp).2 <:+ inp := by
  induction inp with
  | nil => exact List.suffix_refl _
  | cons a l ih =>
    cases a with
    | none => exact List.suffix_cons _ l
    | some s =>
      unfold getMenuChoice
      split
      · split
        · exact ih.trans (List.suffix_cons _ l)
        · exact List.suffix_cons _ l
      · exact ih.trans (List.suffix_cons _ l)

/-- the body of `addNew` -/
def addBody (v : Env) (nm : Str) (u : Session) : Session × Res AppErr Unit :=
  match Blob.new v.ord v.d.now v.d.uuid u.store nm with
  | (s, .panic) => ({ u with store := s }, .panic)
  | (s, .err .nameNotUnique) => ({ u with store := s }, .ok ())
  | (s, .err e) => ({ u with store := s }, .err (.blob e))
  | (s, .ok uuid) =>
    let u := { u with store := s }
    match prompt v.d.inp with
    | (none, _) => (u, .err .aborted)
    | (some email, inp) =>
      match prompt inp with
      | (none, _) => (u, .err .aborted)
      | (some user, inp) =>
        match getPassword v.d.ent inp with
        | .panic => (u, .panic)
        | .err _ => (u, .err .aborted)
        | .ok pass =>
          let s := setNonEmpty s (v.d.now 4) uuid keyUser user
          let s := setNonEmpty s (v.d.now 5) uuid keyEmail email
          let s := setNonEmpty s (v.d.now 6) uuid keyPass pass
          ({ u with store := s }, .ok ())

theorem addNew_eq (v : Env) (u : Session) (nm : Str) : addNew v u nm = doCmd u (addBody v nm) := rfl

theorem body_add {p : Prop} {v : Env} {u : Session} (hv : EnvOk v u.store) (h : WellFormed u.store) (nm : Str)
    (hn : ValidUtf8 nm) (hp : p → PromptOk v) : Body p u (addBody v nm { u with store := u.store.begin }) := by
  have hb := wf_begin h
  have hT := inTx_begin h.good.ok
  have hfr : ¬ Blob.Exists u.store.begin v.d.uuid := hv.fresh
  unfold addBody
  rcases wf_new hv.ord v.d.now hb hfr hv.uuid_ne hn with h1 | ⟨s', h1, h2, h3, h4, h5, ⟨l, h6⟩, h6a, -, -⟩
  · simp only [h1]
    exact ⟨by simp, rfl, fun _ => ⟨wf_update hb, grow_upd _⟩, (by intro e he; cases he)⟩
  · simp only [h1]
    have hT' : InTx u.store s' := ⟨h2.good.ok, h4, Nat.le_of_eq h5, l, h6⟩
    have herr : ∀ e, Body p u (({ u with store := s' } : Session), (.err e : Res AppErr Unit)) := fun e =>
      ⟨by simp, rfl, (by intro he; cases he), fun _ _ => hT'⟩
    cases h7 : prompt v.d.inp with
    | mk a inp1 =>
    have s1 : inp1 <:+ v.d.inp := by have := prompt_suffix v.d.inp; rw [h7] at this; exact this
    cases a with
    | none => exact herr _
    | some email =>
      simp only
      cases h8 : prompt inp1 with
      | mk b inp2 =>
      have s2 : inp2 <:+ inp1 := by have := prompt_suffix inp1; rw [h8] at this; exact this
      cases b with
      | none => exact herr _
      | some user =>
        simp only
        cases h9 : getPassword v.d.ent inp2 with
        | panic => exact ⟨fun k => absurd h9 (hp k _ (s2.trans s1)), rfl, (by intro he; cases he), (by intro e he; cases he)⟩
        | err e => exact herr _
        | ok pass =>
          have k1 := kept_setNonEmpty (v.d.now 4) v.d.uuid keyUser user (by decide) h2 h3
          have k2 := kept_setNonEmpty (v.d.now 5) v.d.uuid keyEmail email (by decide) k1.wf k1.ex
          have k3 := kept_setNonEmpty (v.d.now 6) v.d.uuid keyPass pass (by decide) k2.wf k2.ex
          have k := (k1.trans k2).trans k3
          exact ⟨by simp, rfl, fun _ => ⟨k.wf, (grow_new hfr h4 h6 h6a).trans k.grow⟩, (by intro e he; cases he)⟩

theorem fine_addNew {p : Prop} {L : Str → Prop} {v : Env} {u : Session} (h0 : u.store.txPoint = 0) (hv : EnvOk v u.store)
    (h : WellFormed u.store) (nm : Str) (hn : ValidUtf8 nm) (hp : p → PromptOk v) : Fine p L u (addNew v u nm) :=
  (doCmd_spec h0 h (body_add hv h nm hn hp)).1

/-! ## addsync -/

theorem newSync_wf {s : DB} {ord : Order} (hord : ∀ m, (ord m).Perm m) (now : Nat → Int) {u kind : Str} (h : WellFormed s)
    (hfresh : ¬ Blob.Exists s u) (hu : u ≠ []) (hk : ValidUtf8 kind) (fuel : Nat) (hfuel : s.log.length < fuel) :
    ∃ s' k, newSync ord now u fuel s kind = some (s', .ok u) ∧ WellFormed s' ∧
      Blob.Spec.Named s' u (syncPrefix ++ kind ++ List.replicate k 49) ∧ s'.txPoint = s.txPoint ∧
      s'.version = s.log.length ∧ (∃ l, s'.log = s.log ++ l) ∧
      ∀ w f, w ≠ u → (Blob.Spec.Visible s' w f ↔ Blob.Spec.Visible s w f) := by
  obtain ⟨s', k, h1, h2, h3, -⟩ := newSync_good ord hord now u kind h.good hfresh fuel hfuel
  have key : ∀ (fuel : Nat) (s0 : DB) (nm : Str) (s' : DB), WellFormed s0 → ¬ Blob.Exists s0 u → ValidUtf8 nm →
      newSyncLoop ord now u fuel s0 nm = some (s', .ok u) →
      WellFormed s' ∧ s'.txPoint = s0.txPoint ∧ s'.version = s0.log.length ∧ (∃ l, s'.log = s0.log ++ l) ∧
      ∀ w f, w ≠ u → (Blob.Spec.Visible s' w f ↔ Blob.Spec.Visible s0 w f) := by
    intro fuel
    induction fuel with
    | zero => intro s0 nm s' _ _ _ hr; simp [newSyncLoop] at hr
    | succ fuel ih =>
      intro s0 nm s' hw hfr hv hr
      rcases wf_new hord now hw hfr hu hv with g1 | ⟨s2, g1, g2, g3, g4, g5, g6, g7, -, -⟩
      · simp only [newSyncLoop, g1] at hr
        have hl := updateSnapshot_log s0
        obtain ⟨a, b, c, d, e⟩ := ih s0.updateSnapshot.1 _ s' (wf_update hw) (by rw [exists_log hl]; exact hfr)
          (valid_append hv (valid_ascii _ (by decide))) hr
        rw [hl] at c d
        exact ⟨a, b.trans (upd_tx _), c, d, fun w f hw => (e w f hw).trans (visible_log hl w f)⟩
      · simp only [newSyncLoop, g1] at hr
        obtain ⟨rfl, -⟩ := Prod.mk.inj (Option.some.inj hr)
        exact ⟨g2, g4, g5, g6, g7⟩
  obtain ⟨a, b, c, d, e⟩ := key fuel s _ s' h hfresh (valid_append (valid_ascii _ (by decide)) hk) h1
  exact ⟨s', k, h1, a, h3, b, c, d, e⟩

/-- what `addSCPEntry` may do -/
theorem addSCP_spec {p : Prop} {v : Env} {u : Session} {uuid : Str} (h : WellFormed u.store) (he : Blob.Exists u.store uuid)
    (hp : p → PromptOk v) :
    (p → (addSCPEntry v u uuid).2 ≠ .panic) ∧ Kept uuid u.store (addSCPEntry v u uuid).1.store ∧
      (addSCPEntry v u uuid).1 = { u with store := (addSCPEntry v u uuid).1.store } := by
  have hr := Kept.refl h he
  unfold addSCPEntry
  cases h1 : getString v.d.inp with
  | mk a i1 =>
  have s1 : i1 <:+ v.d.inp := by have := getString_suffix v.d.inp; rw [h1] at this; exact this
  cases a with
  | none => exact ⟨by simp, hr, rfl⟩
  | some user =>
  simp only
  cases h2 : getString i1 with
  | mk b i2 =>
  have s2 : i2 <:+ i1 := by have := getString_suffix i1; rw [h2] at this; exact this
  cases b with
  | none => exact ⟨by simp, hr, rfl⟩
  | some host =>
  simp only
  cases h3 : askPort i2 with
  | mk c i3 =>
  have s3 : i3 <:+ i2 := by have := askPort_suffix i2; rw [h3] at this; exact this
  cases c with
  | none => exact ⟨by simp, hr, rfl⟩
  | some port =>
  simp only
  cases h4 : getString i3 with
  | mk d i4 =>
  have s4 : i4 <:+ i3 := by have := getString_suffix i3; rw [h4] at this; exact this
  cases d with
  | none => exact ⟨by simp, hr, rfl⟩
  | some path =>
  simp only
  cases h5 : getMenuChoice 3 i4 with
  | mk e i5 =>
  have s5 : i5 <:+ i4 := by have := getMenuChoice_suffix 3 i4; rw [h5] at this; exact this
  cases e with
  | none => exact ⟨by simp, hr, rfl⟩
  | some choice =>
  simp only
  split
  · cases h6 : getPassword v.d.ent i5 with
    | panic => exact ⟨fun k => absurd h6 (hp k _ (s5.trans (s4.trans (s3.trans (s2.trans s1))))), hr, rfl⟩
    | err e => exact ⟨by simp, hr, rfl⟩
    | ok pass => exact ⟨by simp, hr, rfl⟩
  · cases h7 : v.keys with
    | none => exact ⟨by simp, hr, rfl⟩
    | some kp =>
      obtain ⟨priv, pub⟩ := kp
      simp only
      obtain ⟨k1, -⟩ := kept_set (fun i => v.d.now (i + 4)) uuid keyPriv priv h he
      refine ⟨by simp, ?_, trivial⟩
      split
      · exact k1.trans (kept_set _ _ _ _ k1.wf k1.ex).1
      · exact k1.trans (kept_setKey _ _ _ _ (by decide) k1.wf k1.ex)

/-- how `addSync` obtains the url -/
def syncUri (v : Env) (kind uuid : Str) (u : Session) : Session × Res AppErr Str :=
  if kind = syncFile then
    match getString v.d.inp with
    | (none, _) => (u, .err .aborted)
    | (some file, _) =>
      match v.fileUrl file with
      | none => (u, .err .aborted)
      | some uri => (u, .ok uri)
  else addSCPEntry v u uuid

/-- the body of `addSync` -/
def syncBody (v : Env) (kind : Str) (u : Session) : Session × Res AppErr Unit :=
  match newSync v.ord v.d.now v.d.uuid (u.store.log.length + 1) u.store kind with
  | none => (u, .panic)
  | some r =>
    match lift u r with
    | (u, .panic) => (u, .panic)
    | (u, .err e) => (u, .err e)
    | (u, .ok uuid) =>
      match syncUri v kind uuid u with
      | (u, .panic) => (u, .panic)
      | (u, .err e) => (u, .err e)
      | (u, .ok uri) =>
        let s := (u.store.setKey (v.d.now 10) uuid keySync (b! "true")).setKey (v.d.now 11) uuid keyURL uri
        match lift { u with store := s } (find s uuid) with
        | (u, .panic) => (u, .panic)
        | (u, .err e) => (u, .err e)
        | (u, .ok e) =>
          match e.bind name with
          | none => (u, .panic)
          | some _ => (u, .ok ())

theorem addSync_eq (v : Env) (u : Session) (kind : Str) :
    addSync v u kind = if kind ≠ syncSCP ∧ kind ≠ syncFile then (u, .ok ()) else doCmd u (syncBody v kind) := rfl

theorem syncUri_spec {p : Prop} {v : Env} {u : Session} {kind uuid : Str} (h : WellFormed u.store)
    (he : Blob.Exists u.store uuid) (hp : p → PromptOk v) :
    (p → (syncUri v kind uuid u).2 ≠ .panic) ∧ Kept uuid u.store (syncUri v kind uuid u).1.store ∧
      (syncUri v kind uuid u).1 = { u with store := (syncUri v kind uuid u).1.store } := by
  have hr := Kept.refl h he
  unfold syncUri
  split
  · repeat' split
    all_goals exact ⟨by simp, hr, rfl⟩
  · exact addSCP_spec h he hp

theorem body_sync {p : Prop} {v : Env} {u : Session} (hv : EnvOk v u.store) (h : WellFormed u.store) (kind : Str)
    (hk : ValidUtf8 kind) (hp : p → PromptOk v) : Body p u (syncBody v kind { u with store := u.store.begin }) := by
  have hb := wf_begin h
  have hfr : ¬ Blob.Exists u.store.begin v.d.uuid := hv.fresh
  obtain ⟨s', k, h1, h2, h3, h4, h5, ⟨l, h6⟩, h6a⟩ := newSync_wf hv.ord v.d.now hb hfr hv.uuid_ne hk
    (u.store.begin.log.length + 1) (by omega)
  have hT : InTx u.store s' := ⟨h2.good.ok, h4, Nat.le_of_eq h5, l, h6⟩
  unfold syncBody
  simp only [h1, lift]
  obtain ⟨g1, g2, g3⟩ := syncUri_spec (p := p) (v := v) (u := { u with store := s' }) (kind := kind) (uuid := v.d.uuid) h2
    (exists_of_named h3) hp
  generalize syncUri v kind v.d.uuid { u with store := s' } = x at g1 g2 g3 ⊢
  obtain ⟨u2, o⟩ := x
  simp only at g1 g2 g3
  have hT2 := inTx_kept hT g2
  have hrest : u2 = { u with store := u2.store } := g3
  cases o with
  | panic => exact ⟨fun k => absurd rfl (g1 k), hrest, (by intro he; cases he), (by intro e he; cases he)⟩
  | err e => exact ⟨by simp, hrest, (by intro he; cases he), fun _ _ => hT2⟩
  | ok uri =>
    simp only
    have k1 := kept_setKey (v.d.now 10) v.d.uuid keySync (b! "true") (by decide) g2.wf g2.ex
    have k2 := kept_setKey (v.d.now 11) v.d.uuid keyURL uri (by decide) k1.wf k1.ex
    have k := k1.trans k2
    generalize (u2.store.setKey (v.d.now 10) v.d.uuid keySync (b! "true")).setKey (v.d.now 11) v.d.uuid keyURL uri = s3 at k ⊢
    obtain ⟨-, hf, hg, hlog⟩ := good_withSnapshot k.wf.good (fun s => ((s, .panic) : Out Str))
    have hfind : find s3 v.d.uuid = (s3.updateSnapshot.1, .ok (s3.updateSnapshot.1.snapshot.get? v.d.uuid)) := by
      unfold find
      rw [(good_withSnapshot k.wf.good _).1]
    rw [hfind]
    simp only [lift]
    obtain ⟨en, hen⟩ := (exists_iff hf v.d.uuid).1 ((exists_log hlog _).2 k.ex)
    have hw := wf_update k.wf
    obtain ⟨n, hn⟩ := name_of_visible hw ((visible_fresh hf v.d.uuid _).2 ⟨en, hen, rfl⟩)
    rw [hen]
    simp only [Option.bind_some, hn]
    refine ⟨by simp, ?_, fun _ => ⟨hw, (((grow_new hfr h4 h6 h6a).trans g2.grow).trans k.grow).trans (grow_upd _)⟩, (by intro e he; cases he)⟩
    rw [hrest]

theorem fine_addSync {p : Prop} {L : Str → Prop} {v : Env} {u : Session} (h0 : u.store.txPoint = 0) (hv : EnvOk v u.store)
    (h : WellFormed u.store) (kind : Str) (hk : ValidUtf8 kind) (hp : p → PromptOk v) : Fine p L u (addSync v u kind) := by
  rw [addSync_eq]
  split
  · exact fine_mk (by simp) h (Grow.refl _)
  · exact (doCmd_spec h0 h (body_sync hv h kind hk hp)).1

theorem fine_interruptible {p : Prop} {L : Str → Prop} {v : Env} {u : Session} {x : Session × Res AppErr Unit} (h : Fine p L u x) :
    Fine p L u (x.1, interruptible v x.2) := by
  obtain ⟨u', o⟩ := x
  have : (interruptible v o = .panic ↔ o = .panic) := by
    cases o with
    | ok a => simp [interruptible]
    | panic => simp [interruptible]
    | err e =>
      cases e <;> simp [interruptible]
      split <;> simp
  refine ⟨fun k => ?_, fun hx => ?_⟩
  · simp only [ne_eq, this]; exact h.1 k
  · simp only [ne_eq, this] at hx
    exact h.2 hx

/-! ## Lines -/

/-- the outcome of a line -/
def FineR (p : Prop) (L : Str → Prop) (r : Repl) (x : Repl × Res AppErr Bool) : Prop :=
  (p → x.2 ≠ .panic) ∧ (x.2 ≠ .panic → WellFormed x.1.u.store ∧ Grow L r.u.store x.1.u.store)

theorem fineR_mk {p : Prop} {L : Str → Prop} {r r' : Repl} {b : Bool} (h : WellFormed r'.u.store)
    (ht : Grow L r.u.store r'.u.store) : FineR p L r (r', .ok b) := ⟨by simp, fun _ => ⟨h, ht⟩⟩

theorem fineR_back {p : Prop} {L : Str → Prop} {r : Repl} {x : Session × Res AppErr Unit} (h : Fine p L r.u x) : FineR p L r (back r x) := by
  obtain ⟨u, o⟩ := x
  cases o with
  | ok a => exact ⟨by simp [back], fun _ => h.2 (by simp)⟩
  | err e => exact ⟨by simp [back], fun _ => h.2 (by simp)⟩
  | panic => exact ⟨fun k => absurd rfl (h.1 k), fun k => absurd rfl k⟩

theorem fineR_back_ {α : Type} {p : Prop} {L : Str → Prop} {r : Repl} {x : Session × Res AppErr α} (h : Fine p L r.u x) :
    FineR p L r (back_ r x) := by
  obtain ⟨u, o⟩ := x
  cases o with
  | ok a => exact ⟨by simp [back_], fun _ => h.2 (by simp)⟩
  | err e => exact ⟨by simp [back_], fun _ => h.2 (by simp)⟩
  | panic => exact ⟨fun k => absurd rfl (h.1 k), fun k => absurd rfl k⟩

theorem fineR_backOut {p : Prop} {L : Str → Prop} {r : Repl} {x : Session × Res AppErr (Option Str)} (h : Fine p L r.u x) :
    FineR p L r (backOut r x) := by
  obtain ⟨u, o⟩ := x
  rcases o with (_ | a) | e | _
  · exact ⟨by simp [backOut], fun _ => h.2 (by simp)⟩
  · exact ⟨by simp [backOut], fun _ => h.2 (by simp)⟩
  · exact ⟨by simp [backOut], fun _ => h.2 (by simp)⟩
  · exact ⟨fun k => absurd rfl (h.1 k), fun k => absurd rfl k⟩

theorem fineR_read {p : Prop} {L : Str → Prop} {v : Env} {r : Repl} (hv : EnvOk v r.u.store) (h : WellFormed r.u.store) (cmd : Str)
    (args : List Str) (hp : p → Careful r cmd args) : FineR p L r (execRead v cmd args r) := by
  have hr : ∀ b, FineR p L r (r, .ok b) := fun b => fineR_mk h (Grow.refl _)
  unfold execRead
  split
  · exact fineR_back_ (fine_list hv h _)
  split
  · unfold cd
    split
    · exact fineR_mk h (Grow.refl _)
    · rename_i q
      have h1 : Fine p L r.u (entryName v r.u q) := fine_entryName hv h q
      split <;> rename_i h' <;> rw [h'] at h1
      · exact ⟨by simp, fun _ => h1.2 (by simp)⟩
      · exact ⟨by simp, fun _ => h1.2 (by simp)⟩
      · exact ⟨by simp, fun _ => h1.2 (by simp)⟩
      · exact ⟨fun k => absurd rfl (h1.1 k), fun k => absurd rfl k⟩
    · exact hr _
  split
  · split
    · exact hr _
    · split
      · exact hr _
      · exact fineR_backOut (fine_getCmd hv h _ _)
  split
  · split
    · exact hr _
    · exact fineR_backOut (fine_getCmd hv h _ _)
  split
  · split
    · exact hr _
    · exact fineR_back_ (fine_openurl hv h _)
  split
  · split
    · exact hr _
    · exact fineR_back_ (fine_listByLabels hv h _)
  split
  · rename_i hcmd
    dsimp only
    split
    · exact hr _
    · refine fineR_back_ (fine_showCmd hv h _ _ ?_)
      intro k
      have h1 := (hp k).1 hcmd
      have h2 : (if r.ctx = [] then (args.head?, args.drop 1) else (some r.ctx, args)).2 =
          (if r.ctx = [] then args.drop 1 else args) := by split <;> rfl
      rw [h2]
      cases hx : (if r.ctx = [] then args.drop 1 else args).head?.bind atoi with
      | none => simp
      | some i => simpa using h1 i hx
  split
  · split
    · exact hr _
    · exact fineR_back_ (fine_dump hv h _)
  split
  · exact hr _
  · exact hr _


theorem fineR_ite {p : Prop} {L : Str → Prop} {r : Repl} {c : Prop} [Decidable c] {a b : Repl × Res AppErr Bool} (ha : c → FineR p L r a)
    (hb : ¬ c → FineR p L r b) : FineR p L r (if c then a else b) := by
  by_cases h : c
  · rw [if_pos h]; exact ha h
  · rw [if_neg h]; exact hb h

theorem fineR_write {p : Prop} {L : Str → Prop} {P : Prims} {C : Codec} {v : Env} {r : Repl} (h0 : r.u.store.txPoint = 0)
    (hv : EnvOk v r.u.store) (h : WellFormed r.u.store) (cmd : Str) (args : List Str)
    (hargs : cmd ≠ b! "set" → ∀ a ∈ args, ValidUtf8 a) (hsync : cmd ≠ b! "sync") (hL : ∀ n, Drops cmd args n → L n)
    (hp : p → Crypt.Spec.Lawful P ∧ SizesOk v ∧ PromptOk v ∧ Careful r cmd args) :
    FineR p L r (execWrite P C v cmd args r) := by
  have hr : ∀ b, FineR p L r (r, .ok b) := fun b => fineR_mk h (Grow.refl _)
  unfold execWrite
  refine fineR_ite (fun hc => ?_) (fun _ => ?_)
  · exact fineR_back (fine_passwd hv h _ (fun k =>
      ⟨(hp k).1, (hp k).2.1.iv, (hp k).2.2.1, fun hm => (hp k).2.2.2.2.1 hc hm⟩))
  refine fineR_ite (fun hc => ?_) (fun _ => ?_)
  · have ha := hargs (by rw [hc]; decide)
    split
    · exact hr _
    · exact fineR_back (fine_adduser hv h _ (ha _ (by simp)) (fun k => ⟨(hp k).1, (hp k).2.1.iv, (hp k).2.2.1⟩))
  refine fineR_ite (fun hc => ?_) (fun _ => ?_)
  · exact fineR_back (fine_rekey hv h _ (fun k =>
      ⟨(hp k).1, (hp k).2.1.iv, (hp k).2.2.1, fun hm => (hp k).2.2.2.2.2 hc hm⟩))
  refine fineR_ite (fun hc => ?_) (fun _ => ?_)
  · exact fineR_back_ (fine_rekeyAll hv h (fun k => ⟨(hp k).1, (hp k).2.1⟩))
  refine fineR_ite (fun hc => ?_) (fun _ => ?_)
  · have ha := hargs (by rw [hc]; decide)
    split
    · exact hr _
    · exact fineR_back (fine_interruptible (fine_addNew h0 hv h _ (ha _ (by simp)) (fun k => (hp k).2.2.1)))
  refine fineR_ite (fun hc => ?_) (fun _ => ?_)
  · have ha := hargs (by rw [hc]; decide)
    split
    · exact fineR_back (fine_renameCmd hv h _ _ (ha _ (by simp)) (hL _ ⟨.inl hc, rfl⟩))
    · exact hr _
  refine fineR_ite (fun hc => ?_) (fun _ => ?_)
  · split
    · exact hr _
    · rename_i nm _
      have h1 : FineR p L r (back r (deleteEntry v.ord (v.d.now 0) v.d.inp r.u nm)) := fineR_back (fine_deleteEntry hv h _ _ _ (hL _ ⟨.inr hc, rfl⟩))
      split
      · rename_i h'
        rw [h'] at h1
        have := h1.2 (by simp)
        split
        · exact fineR_mk this.1 this.2
        · exact fineR_mk this.1 this.2
      · exact h1
  refine fineR_ite (fun hc => ?_) (fun _ => ?_)
  · split
    · exact hr _
    · exact fineR_back (fine_deleteKeyCmd hv h _ _)
  refine fineR_ite (fun hc => ?_) (fun _ => ?_)
  · split
    · exact hr _
    · exact fineR_back_ (fine_login hv h _)
  refine fineR_ite (fun hc => ?_) (fun _ => ?_)
  · split
    · exact hr _
    · exact fineR_back (fine_setCmd hv h _ _ _ (fun k => (hp k).2.2.1))
  refine fineR_ite (fun hc => ?_) (fun _ => ?_)
  · split
    · exact hr _
    · exact fineR_back (fine_edit hv h _ _)
  refine fineR_ite (fun hc => ?_) (fun _ => ?_)
  · split
    · exact hr _
    · exact fineR_back (fine_addLabels hv h _)
  refine fineR_ite (fun hc => ?_) (fun _ => ?_)
  · split
    · exact hr _
    · exact fineR_back (fine_deleteLabel hv h _ _)
  refine fineR_ite (fun hc => ?_) (fun _ => ?_)
  · exact absurd hc hsync
  refine fineR_ite (fun hc => ?_) (fun _ => ?_)
  · have ha := hargs (by rw [hc]; decide)
    split
    · exact hr _
    · exact fineR_back (fine_interruptible (fine_addSync h0 hv h _ (ha _ (by simp)) (fun k => (hp k).2.2.1)))
  · exact hr _

theorem parseLine_valid {line cmd : Str} {args : List Str} (hl : ValidUtf8 line) (h : parseLine line = some (cmd, args)) :
    cmd ≠ b! "set" → ∀ a ∈ args, ValidUtf8 a := by
  intro hne a ha
  have hf := valid_fields (valid_trimSpace hl)
  unfold parseLine at h
  dsimp only at h
  cases hfs : fields (trimSpace line) with
  | nil => rw [hfs] at h; cases h
  | cons c as =>
    rw [hfs] at h hf
    simp only at h
    split at h
    · rename_i hc
      obtain ⟨rfl, -⟩ := Prod.mk.inj (Option.some.inj h)
      exact absurd hc hne
    · obtain ⟨-, rfl⟩ := Prod.mk.inj (Option.some.inj h)
      exact hf a (by simp [ha])

theorem fineR_line {p : Prop} {L : Str → Prop} {P : Prims} {C : Codec} {v : Env} {r : Repl} (h0 : r.u.store.txPoint = 0)
    (hv : EnvOk v r.u.store) (h : WellFormed r.u.store) (line : Str) (hl : ValidUtf8 line)
    (hsync : ∀ args, parseLine line ≠ some (b! "sync", args))
    (hL : ∀ cmd args n, parseLine line = some (cmd, args) → Drops cmd args n → L n)
    (hp : p → Crypt.Spec.Lawful P ∧ SizesOk v ∧ PromptOk v ∧ ∀ cmd args, parseLine line = some (cmd, args) → Careful r cmd args) :
    FineR p L r (runLine P C v line r) := by
  have hr : ∀ b, FineR p L r (r, .ok b) := fun b => fineR_mk h (Grow.refl _)
  unfold runLine
  split
  · exact hr _
  · rename_i cmd args hpl
    have hc : ∀ k : p, Careful r cmd args := fun k => (hp k).2.2.2 _ _ hpl
    split
    · exact hr _
    · exact fineR_read hv h cmd args hc
    · split
      · exact hr _
      · exact fineR_write h0 hv h cmd args (parseLine_valid hl hpl) (fun hcmd => hsync args (by rw [hpl, hcmd]))
          (fun n => hL cmd args n hpl)
          (fun k => ⟨(hp k).1, (hp k).2.1, (hp k).2.2.1, hc k⟩)

end Verif.App
