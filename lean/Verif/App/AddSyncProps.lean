import Verif.App.AddSyncSpec
import Verif.App.PromptProps
import Verif.App.ShowProps
/-!
# C82: `addsync` records what was typed
-/
namespace Verif.App
open Verif Verif.Txlogs Verif.Blob Verif.Crypt Verif.App.Spec

theorem firstAnswer_skip {Q : Str → Prop} {inp rest : Input} {a s : Str} (ha : ¬ Q a) :
    FirstAnswer Q (some a :: inp) s rest ↔ FirstAnswer Q inp s rest := by
  constructor
  · rintro ⟨sk, h1, h2, h3⟩
    cases sk with
    | nil =>
      simp only [List.map_nil, List.nil_append, List.cons.injEq, Option.some.injEq] at h1
      obtain ⟨rfl, -⟩ := h1
      exact absurd h3 ha
    | cons b sk =>
      simp only [List.map_cons, List.cons_append, List.cons.injEq, Option.some.injEq] at h1
      exact ⟨sk, h1.2, fun x hx => h2 x (List.mem_cons_of_mem _ hx), h3⟩
  · rintro ⟨sk, rfl, h2, h3⟩
    refine ⟨a :: sk, rfl, ?_, h3⟩
    intro x hx
    rcases List.mem_cons.1 hx with rfl | hx
    · exact ha
    · exact h2 x hx

theorem firstAnswer_take {Q : Str → Prop} {inp rest : Input} {a s : Str} (ha : Q a) :
    FirstAnswer Q (some a :: inp) s rest ↔ s = a ∧ rest = inp := by
  constructor
  · rintro ⟨sk, h1, h2, h3⟩
    cases sk with
    | nil =>
      simp only [List.map_nil, List.nil_append, List.cons.injEq, Option.some.injEq] at h1
      exact ⟨h1.1.symm, h1.2.symm⟩
    | cons b sk =>
      simp only [List.map_cons, List.cons_append, List.cons.injEq, Option.some.injEq] at h1
      obtain ⟨rfl, -⟩ := h1
      exact absurd ha (h2 _ (by simp))
  · rintro ⟨rfl, rfl⟩
    exact ⟨[], rfl, by simp, ha⟩

/-- The prompt for the port takes the first line that is empty (then the port is 22) or a number. -/
theorem C82_port (inp rest : Input) (port : Str) : askPort inp = (some port, rest) ↔ PortTyped inp port rest := by
  induction inp with
  | nil =>
    constructor
    · intro h; simp [askPort] at h
    · rintro ⟨p, ⟨sk, h, -⟩, -⟩
      cases sk <;> simp at h
  | cons a inp ih =>
    cases a with
    | none =>
      constructor
      · intro h; simp [askPort] at h
      · rintro ⟨p, ⟨sk, h, -⟩, -⟩
        cases sk <;> simp at h
    | some p =>
      unfold askPort PortTyped
      by_cases h1 : p = []
      · subst h1
        simp only [if_true, Prod.mk.injEq, Option.some.injEq]
        simp only [firstAnswer_take (Q := fun p => p = [] ∨ (atoi p).isSome) (a := []) (.inl rfl)]
        constructor
        · rintro ⟨rfl, rfl⟩; exact ⟨[], ⟨rfl, rfl⟩, rfl⟩
        · rintro ⟨q, ⟨rfl, rfl⟩, rfl⟩; exact ⟨rfl, rfl⟩
      · by_cases h2 : (atoi p).isSome
        · simp only [h1, h2, if_false, if_true, Prod.mk.injEq, Option.some.injEq]
          simp only [firstAnswer_take (Q := fun p => p = [] ∨ (atoi p).isSome) (a := p) (.inr h2)]
          constructor
          · rintro ⟨rfl, rfl⟩; exact ⟨p, ⟨rfl, rfl⟩, by simp [h1]⟩
          · rintro ⟨q, ⟨rfl, rfl⟩, rfl⟩; simp [h1]
        · simp only [h1, h2, if_false, Bool.false_eq_true]
          rw [show (askPort inp = (some port, rest) ↔ _) from ih]
          unfold PortTyped
          simp only [firstAnswer_skip (Q := fun p => p = [] ∨ (atoi p).isSome) (a := p) (by simp [h1, h2])]

/-- The program tells the user that a port is a number between 1 and 65534, but it takes every number: for example -1 and
100000. -/
theorem C82_port_false : askPort [some (b! "-1")] = (some (b! "-1"), []) ∧ askPort [some (b! "100000")] = (some (b! "100000"), []) := by
  decide +kernel

theorem newSyncLoop_visible {ord : Order} {now : Nat → Int} {u : Str} (fuel : Nat) {s s' : DB} {nm : Str} (h : Good s)
    (hfresh : ¬ Blob.Exists s u) (hr : newSyncLoop ord now u fuel s nm = some (s', .ok u)) :
    ∃ nm', Blob.Spec.Visible s' u
      (Txlogs.Spec.upd (Txlogs.Spec.upd (fun _ => none) keyUpdated (some (fmtInt (now 1)))) keyName (some nm')) := by
  induction fuel generalizing s nm with
  | zero => simp [newSyncLoop] at hr
  | succ fuel ih =>
    unfold newSyncLoop at hr
    cases hn : new ord now u s nm with
    | mk s1 o =>
      rw [hn] at hr
      have hs1 : o = .err .nameNotUnique → s1 = s.updateSnapshot.1 := by
        rintro rfl
        unfold new at hn
        rw [(good_withSnapshot h _).1] at hn
        split at hn <;> simp at hn
        exact hn.symm
      have hok : o = .ok u → ∃ nm', Blob.Spec.Visible s1 u
          (Txlogs.Spec.upd (Txlogs.Spec.upd (fun _ => none) keyUpdated (some (fmtInt (now 1)))) keyName (some nm')) := by
        rintro rfl; exact ⟨nm, new_visible h hfresh hn⟩
      split at hr
      · rename_i s2 heq
        obtain ⟨rfl, rfl⟩ := Prod.mk.inj heq
        have := hs1 rfl
        subst this
        obtain ⟨-, -, hg, hlog⟩ := good_withSnapshot h (fun s => ((s, .panic) : Out Str))
        exact ih hg (by rw [exists_log hlog]; exact hfresh) hr
      · obtain ⟨rfl, rfl⟩ := Prod.mk.inj (Option.some.inj hr)
        exact hok rfl

theorem set_visible {s : DB} (now : Nat → Int) {uuid key : Str} {e : Str → Option Str} (hk : ¬ Refused key) (x : Str)
    (he : Blob.Spec.Visible s uuid e) :
    Blob.Spec.Visible (Blob.set now s uuid key x).1 uuid
      (Txlogs.Spec.upd (Txlogs.Spec.upd e keyUpdated (some (fmtInt (now 0)))) key (some x)) := by
  have hs : Blob.set now s uuid key x = ((touchUpdated s now uuid).setKey (now 2) uuid key x, .ok ()) := by
    simp only [Blob.set, not_refused hk, Bool.false_eq_true, if_false]
  rw [hs]
  exact (touch_then_set now (now 2) uuid key x e he).1

/-- what `addSCPEntry` records when it succeeds -/
theorem addSCP_says {v : Env} {u u' : Session} {uuid url : Str} {e : Str → Option Str} (he : Blob.Spec.Visible u.store uuid e)
    (hp : e keyPriv = none) (hb : e keyPub = none) (hr : addSCPEntry v u uuid = (u', .ok url)) :
    ∃ e', Blob.Spec.Visible u'.store uuid e' ∧ ScpSays v url (e' keyPriv) (e' keyPub) ∧
      ∀ k, k ∉ [keyUpdated, keyPriv, keyPub] → e' k = e k := by
  unfold addSCPEntry at hr
  cases h1 : getString v.d.inp with
  | mk a i1 =>
  rw [h1] at hr
  cases a with
  | none => simp at hr
  | some user =>
  simp only at hr
  cases h2 : getString i1 with
  | mk b i2 =>
  rw [h2] at hr
  cases b with
  | none => simp at hr
  | some host =>
  simp only at hr
  cases h3 : askPort i2 with
  | mk c i3 =>
  rw [h3] at hr
  cases c with
  | none => simp at hr
  | some port =>
  simp only at hr
  cases h4 : getString i3 with
  | mk d i4 =>
  rw [h4] at hr
  cases d with
  | none => simp at hr
  | some path =>
  simp only at hr
  cases h5 : getMenuChoice 3 i4 with
  | mk f i5 =>
  rw [h5] at hr
  cases f with
  | none => simp at hr
  | some choice =>
  simp only at hr
  have ht : ScpTyped v.d.inp user host port path choice i5 :=
    ⟨i1, i2, i3, i4, (C78_string _ _ _).1 h1, (C78_string _ _ _).1 h2, (C82_port _ _ _).1 h3, (C78_string _ _ _).1 h4,
      (C78_menu 3 _ _ _).1 h5⟩
  by_cases hc : choice = 2
  · rw [if_pos hc] at hr
    cases h6 : getPassword v.d.ent i5 with
    | panic => rw [h6] at hr; simp at hr
    | err e => rw [h6] at hr; simp at hr
    | ok pass =>
      rw [h6] at hr
      simp only [Prod.mk.injEq, Res.ok.injEq] at hr
      obtain ⟨rfl, rfl⟩ := hr
      exact ⟨e, he, ⟨user, host, port, path, choice, i5, ht, .inl ⟨hc, pass, h6, rfl, hp, hb⟩⟩, fun _ _ => rfl⟩
  · rw [if_neg hc] at hr
    cases h7 : v.keys with
    | none =>
      rw [h7] at hr
      simp only [Prod.mk.injEq, Res.ok.injEq] at hr
      obtain ⟨rfl, rfl⟩ := hr
      exact ⟨e, he, ⟨user, host, port, path, choice, i5, ht, .inr ⟨hc, rfl, by rw [hp, h7]; rfl, by rw [hb, h7]; rfl⟩⟩, fun _ _ => rfl⟩
    | some kp =>
      obtain ⟨priv, pub⟩ := kp
      rw [h7] at hr
      simp only [Prod.mk.injEq, Res.ok.injEq] at hr
      obtain ⟨rfl, rfl⟩ := hr
      have k1 := set_visible (fun i => v.d.now (i + 4)) (key := keyPriv) (by unfold Refused; decide) priv he
      have hfin : ∀ s' e', Blob.Spec.Visible s' uuid e' → e' keyPriv = some priv → e' keyPub = some pub →
          (∀ k, k ∉ [keyUpdated, keyPriv, keyPub] → e' k = e k) →
          ∃ e', Blob.Spec.Visible s' uuid e' ∧ ScpSays v (v.scpUrl user host port path none) (e' keyPriv) (e' keyPub) ∧
            ∀ k, k ∉ [keyUpdated, keyPriv, keyPub] → e' k = e k := by
        intro s' e' a b c d
        refine ⟨e', a, ⟨user, host, port, path, choice, i5, ht, .inr ⟨hc, rfl, ?_, ?_⟩⟩, d⟩
        · rw [b, h7]; rfl
        · rw [c, h7]; rfl
      simp only
      split
      · have k2 := set_visible (fun i => v.d.now (i + 7)) (key := keyPub) (by unfold Refused; decide) pub k1
        refine hfin _ _ k2 ?_ ?_ ?_
        · simp (decide := true) [Txlogs.Spec.upd]
        · simp (decide := true) [Txlogs.Spec.upd]
        · intro k hk
          simp only [List.mem_cons, List.not_mem_nil, or_false, not_or] at hk
          simp [Txlogs.Spec.upd, hk.1, hk.2.1, hk.2.2]
      · have k2 := (visible_setKey (v.d.now 7) uuid keyPub pub _ k1).1
        refine hfin _ _ k2 ?_ ?_ ?_
        · simp (decide := true) [Txlogs.Spec.upd]
        · simp (decide := true) [Txlogs.Spec.upd]
        · intro k hk
          simp only [List.mem_cons, List.not_mem_nil, or_false, not_or] at hk
          simp [Txlogs.Spec.upd, hk.1, hk.2.1, hk.2.2]

/-- `addsync` with a kind of remote the program does not know does nothing. -/
theorem C82_unknown (v : Env) (u : Session) (kind : Str) (h : kind ≠ syncSCP) (h' : kind ≠ syncFile) :
    addSync v u kind = (u, .ok ()) := by
  unfold addSync
  rw [if_pos ⟨h, h'⟩]

/-- `addsync` that succeeds adds one entry. Its name is `sync/` and the kind, with as many 1s as needed. It is marked as a remote,
has the address made of what was typed, and the keys if new ones were asked for, and nothing else. Every other entry and the
credentials are as before. -/
theorem C82_added (v : Env) (u : Session) (kind : Str) (h0 : u.store.txPoint = 0) (hv : EnvOk v u.store) (h : WellFormed u.store)
    (hk : kind = syncSCP ∨ kind = syncFile) (hr : (addSync v u kind).2 = .ok ()) :
    ∃ e n url, Blob.Spec.Visible (addSync v u kind).1.store v.d.uuid e ∧
      e keyName = some (syncPrefix ++ kind ++ List.replicate n 49) ∧
      (∀ w, ¬ Blob.Spec.Named u.store w (syncPrefix ++ kind ++ List.replicate n 49)) ∧
      (∀ j < n, ∃ w, Blob.Spec.Named u.store w (syncPrefix ++ kind ++ List.replicate j 49)) ∧
      e keySync = some (b! "true") ∧ e keyURL = some url ∧
      (kind = syncSCP → ScpSays v url (e keyPriv) (e keyPub)) ∧ (kind = syncFile → FileSays v url (e keyPriv) (e keyPub)) ∧
      (∀ k, k ∉ [keyName, keyUpdated, keySync, keyURL, keyPriv, keyPub] → e k = none) ∧
      (∀ w f, w ≠ v.d.uuid → (Blob.Spec.Visible (addSync v u kind).1.store w f ↔ Blob.Spec.Visible u.store w f)) ∧
      (addSync v u kind).1 = { u with store := (addSync v u kind).1.store } ∧ (addSync v u kind).1.store.txPoint = 0 := by
  have hku : ValidUtf8 kind := by rcases hk with rfl | rfl <;> exact valid_ascii _ (by decide)
  have hkc : ¬ (kind ≠ syncSCP ∧ kind ≠ syncFile) := by rcases hk with rfl | rfl <;> simp
  rw [addSync_eq, if_neg hkc] at hr ⊢
  obtain ⟨-, -, h3⟩ := doCmd_spec (p := False) (L := fun _ => False) h0 h (body_sync hv h kind hku (fun k => k.elim))
  obtain ⟨h4, h5⟩ := h3 hr
  rw [h5]
  clear h5 h3 hr
  have hb := wf_begin h
  have hfr : ¬ Blob.Exists u.store.begin v.d.uuid := hv.fresh
  obtain ⟨s', n, g1, g2, g3, g4, g5⟩ := newSync_good v.ord hv.ord v.d.now v.d.uuid kind hb.good hfr (u.store.begin.log.length + 1)
    (by omega)
  obtain ⟨s2, n2, f1, f2, f3, f4, f5, ⟨l, f6⟩, f6a⟩ := newSync_wf hv.ord v.d.now hb hfr hv.uuid_ne hku
    (u.store.begin.log.length + 1) (by omega)
  have heq : s2 = s' := by rw [g1] at f1; exact (Prod.mk.inj (Option.some.inj f1)).1.symm
  subst heq
  obtain ⟨nm, hvis⟩ := newSyncLoop_visible _ hb.good hfr g1
  have hnm : nm = syncPrefix ++ kind ++ List.replicate n 49 := by
    obtain ⟨e, a, b⟩ := g3
    rw [visible_unique a hvis] at b
    simpa [Txlogs.Spec.upd] using b
  subst hnm
  unfold syncBody at h4 ⊢
  simp only [g1, lift] at h4 ⊢
  obtain ⟨-, q2, q3⟩ := syncUri_spec (p := False) (v := v) (u := { u with store := s2 }) (kind := kind) (uuid := v.d.uuid) f2
    (exists_of_named g3) (fun k => k.elim)
  have hsay : ∀ u' url, syncUri v kind v.d.uuid { u with store := s2 } = (u', .ok url) →
      ∃ e', Blob.Spec.Visible u'.store v.d.uuid e' ∧
        (kind = syncSCP → ScpSays v url (e' keyPriv) (e' keyPub)) ∧ (kind = syncFile → FileSays v url (e' keyPriv) (e' keyPub)) ∧
        ∀ k, k ∉ [keyUpdated, keyPriv, keyPub] → e' k =
          Txlogs.Spec.upd (Txlogs.Spec.upd (fun _ => none) keyUpdated (some (fmtInt (v.d.now 1)))) keyName
            (some (syncPrefix ++ kind ++ List.replicate n 49)) k := by
    intro u' url hu
    unfold syncUri at hu
    rcases hk with rfl | rfl
    · rw [if_neg (by decide)] at hu
      obtain ⟨e', a, b, c⟩ := addSCP_says (u := { u with store := s2 }) hvis (by simp (decide := true) [Txlogs.Spec.upd])
        (by simp (decide := true) [Txlogs.Spec.upd]) hu
      exact ⟨e', a, fun _ => b, fun hx => absurd hx (by decide), c⟩
    · rw [if_pos rfl] at hu
      cases hs : getString v.d.inp with
      | mk a i1 =>
      rw [hs] at hu
      cases a with
      | none => simp at hu
      | some file =>
        simp only at hu
        cases hf : v.fileUrl file with
        | none => rw [hf] at hu; simp at hu
        | some uri =>
          rw [hf] at hu
          simp only [Prod.mk.injEq, Res.ok.injEq] at hu
          obtain ⟨rfl, rfl⟩ := hu
          refine ⟨_, hvis, fun hx => absurd hx (by decide), fun _ => ⟨?_, ?_, file, i1, (C78_string _ _ _).1 hs, hf⟩, fun _ _ => rfl⟩
          · simp (decide := true) [Txlogs.Spec.upd]
          · simp (decide := true) [Txlogs.Spec.upd]
  generalize syncUri v kind v.d.uuid { u with store := s2 } = x at h4 hsay q2 q3 ⊢
  obtain ⟨u2, o⟩ := x
  simp only at q2 q3
  cases o with
  | panic => simp at h4
  | err e => simp at h4
  | ok url =>
    obtain ⟨e', a, b, c, d⟩ := hsay u2 url rfl
    simp only at h4 ⊢
    have w1 := (visible_setKey (v.d.now 10) v.d.uuid keySync (b! "true") _ a).1
    have w2 := (visible_setKey (v.d.now 11) v.d.uuid keyURL url _ w1).1
    have k1 := kept_setKey (v.d.now 10) v.d.uuid keySync (b! "true") (by decide) q2.wf q2.ex
    have k2 := kept_setKey (v.d.now 11) v.d.uuid keyURL url (by decide) k1.wf k1.ex
    have k := k1.trans k2
    generalize (u2.store.setKey (v.d.now 10) v.d.uuid keySync (b! "true")).setKey (v.d.now 11) v.d.uuid keyURL url = s3 at k w2 h4 ⊢
    obtain ⟨-, hf, hg, hlog⟩ := good_withSnapshot k.wf.good (fun s => ((s, .panic) : Out Str))
    have hfind : find s3 v.d.uuid = (s3.updateSnapshot.1, .ok (s3.updateSnapshot.1.snapshot.get? v.d.uuid)) := by
      unfold find
      rw [(good_withSnapshot k.wf.good _).1]
    rw [hfind] at h4 ⊢
    simp only at h4 ⊢
    obtain ⟨en, hen⟩ := (exists_iff hf v.d.uuid).1 ((exists_log hlog _).2 k.ex)
    obtain ⟨nm, hn⟩ := name_of_visible (wf_update k.wf) ((visible_fresh hf v.d.uuid _).2 ⟨en, hen, rfl⟩)
    rw [hen] at h4 ⊢
    simp only [Option.bind_some, hn] at h4 ⊢
    refine ⟨_, n, url, (visible_log (s := s3) (by exact hlog) _ _).2 w2, ?_, g4, g5, ?_, ?_, ?_, ?_, ?_, ?_, ?_, trivial⟩
    · simp only [Txlogs.Spec.upd, if_neg (show keyName ≠ keyURL by decide), if_neg (show keyName ≠ keySync by decide)]
      rw [d keyName (by decide)]
      simp [Txlogs.Spec.upd]
    · simp (decide := true) [Txlogs.Spec.upd]
    · simp (decide := true) [Txlogs.Spec.upd]
    · intro hx; simpa (decide := true) [Txlogs.Spec.upd] using b hx
    · intro hx; simpa (decide := true) [Txlogs.Spec.upd] using c hx
    · intro j hj
      simp only [List.mem_cons, List.not_mem_nil, or_false, not_or] at hj
      simp only [Txlogs.Spec.upd, if_neg hj.2.2.2.1, if_neg hj.2.2.1]
      rw [d j (by simp [hj])]
      simp [Txlogs.Spec.upd, hj]
    · intro w f hw
      refine (visible_log (s := s3) (by exact hlog) _ _).trans ((k.others w f hw).trans ((q2.others w f hw).trans ?_))
      exact (f6a w f hw)
    · trivial

/-- The remote added takes part in every later `sync` without a name, if its address is not empty and of its kind. -/
theorem C82_counts (v : Env) (u : Session) (kind : Str) (h0 : u.store.txPoint = 0) (hv : EnvOk v u.store) (h : WellFormed u.store)
    (hk : kind = syncSCP ∨ kind = syncFile) (hr : (addSync v u kind).2 = .ok ()) (w : World) (ord : Order)
    (hord : ∀ m, (ord m).Perm m) {e : Str → Option Str} {url : Str}
    (he : Blob.Spec.Visible (addSync v u kind).1.store v.d.uuid e) (hu : e keyURL = some url) (hne : url ≠ [])
    (hs : w.scheme url = some kind) : v.d.uuid ∈ collectSyncs w ord (addSync v u kind).1.store.updateSnapshot.1 := by
  obtain ⟨e', n, url', a1, a2, -, -, a5, -⟩ := C82_added v u kind h0 hv h hk hr
  have := visible_unique a1 he
  subst this
  have hku : ValidUtf8 kind := by rcases hk with rfl | rfl <;> exact valid_ascii _ (by decide)
  have hkc : ¬ (kind ≠ syncSCP ∧ kind ≠ syncFile) := by rcases hk with rfl | rfl <;> simp
  have hwf : WellFormed (addSync v u kind).1.store := by
    rw [addSync_eq, if_neg hkc] at hr ⊢
    exact ((doCmd_spec (p := False) (L := fun _ => False) h0 h (body_sync hv h kind hku (fun k => k.elim))).1.2 (by rw [hr]; simp)).1
  obtain ⟨-, hf, hg, hlog⟩ := good_withSnapshot hwf.good (fun s => ((s, .panic) : Out Str))
  rw [C65_only_syncs w ord hord _ hg.ok.nodup]
  obtain ⟨en, b1, b2⟩ := (visible_fresh hf _ _).1 ((visible_log hlog _ _).2 a1)
  subst b2
  refine ⟨en, b1, ?_⟩
  have e1 : val en keySync = b! "true" := by unfold val; rw [show en.get? keySync = _ from a5]; rfl
  have e2 : val en keyName ≠ [] := by unfold val; rw [show en.get? keyName = _ from a2]; simp [syncPrefix]
  have e3 : val en keyURL = url := by unfold val; rw [show en.get? keyURL = _ from hu]; rfl
  rw [e3, hs]
  refine ⟨e1, e2, hne, ?_⟩
  rcases hk with rfl | rfl <;> simp

namespace AddSyncDemo
open Demo (perm_id perm_id' fresh_concrete)
open ShowDemo (u u_wf u_env)

instance : DecidableEq (Option Entry) := inferInstanceAs (DecidableEq (Option (List (Str × Str))))

/-- the answers, the address of a remote as `user@host:port/path`, and a new key -/
def v (l : Input) : Env :=
  { d := { Demo.d0 with uuid := [6], inp := l }
    keys := some (b! "priv", b! "pub")
    scpUrl := fun user host port path pass => user ++ (pass.elim [] fun q => 58 :: q) ++ [64] ++ host ++ [58] ++ port ++ path }

/-- a remote with a new key, after an empty line for the user, the port "x" and the choice 4 -/
def v1 : Env := v [some [], some (b! "me"), some (b! "h"), some (b! "x"), some [], some (b! "/p"), some (b! "4"), some (b! "1")]
/-- a remote with a password -/
def v2 : Env := v [some (b! "me"), some (b! "h"), some (b! "23"), some (b! "/p"), some (b! "3"), some (b! "m"), some (b! "q"), some (b! "q")]
/-- a file -/
def v3 : Env := v [some (b! "/tmp/x")]

example : (addSync v1 u syncSCP).2 = .ok () ∧ (addSync v1 u syncSCP).1.store.updateSnapshot.1.snapshot.get? [6] =
    some [(keyUpdated, fmtInt 0), (keyName, b! "sync/scp"), (keyPriv, b! "priv"), (keyPub, b! "pub"), (keySync, b! "true"),
      (keyURL, b! "me@h:22/p")] := by decide +kernel
example : (addSync v2 u syncSCP).2 = .ok () ∧ (addSync v2 u syncSCP).1.store.updateSnapshot.1.snapshot.get? [6] =
    some [(keyUpdated, fmtInt 0), (keyName, b! "sync/scp"), (keySync, b! "true"), (keyURL, b! "me:q@h:23/p")] := by decide +kernel
example : (addSync v3 u syncFile).2 = .ok () ∧ (addSync v3 u syncFile).1.store.updateSnapshot.1.snapshot.get? [6] =
    some [(keyUpdated, fmtInt 0), (keyName, b! "sync/file"), (keySync, b! "true"), (keyURL, b! "/tmp/x")] := by decide +kernel
/-- both theorems hold of the three remotes -/
example : (∃ e n url, Blob.Spec.Visible (addSync v1 u syncSCP).1.store [6] e ∧
    e keyName = some (syncPrefix ++ syncSCP ++ List.replicate n 49) ∧ e keyURL = some url ∧
    ScpSays v1 url (e keyPriv) (e keyPub)) := by
  obtain ⟨e, n, url, a1, a2, -, -, -, a6, a7, -⟩ := C82_added v1 u syncSCP rfl (u_env v1 rfl rfl rfl) u_wf.1 (.inl rfl) (by decide +kernel)
  exact ⟨e, n, url, a1, a2, a6, a7 rfl⟩
example : addSync v1 u (b! "ftp") = (u, .ok ()) := C82_unknown _ _ _ (by decide) (by decide)
example : PortTyped [some (b! "x"), some []] (b! "22") [] := (C82_port _ _ _).1 (by decide)

end AddSyncDemo

end Verif.App
