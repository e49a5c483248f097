import Verif.App.ShowSpec
import Verif.App.EditProps
import Verif.Txlogs.Props
/-!
# C81: the reading commands show what is there
-/
namespace Verif.App
open Verif Verif.Txlogs Verif.Blob Verif.Crypt Verif.App.Spec

theorem results_nodup {s s' : DB} {r : Results} {keep : Entry → Option Bool} {ord : Order}
    (h : withSnapshot s (fun s => if s.snapshot = [] then ((s, .ok []) : Out Results) else
      match collect keep (ord s.snapshot) [] with
      | none => (s, .panic)
      | some r => (s, .ok r)) = (s', .ok r)) : GoMap.NodupKeys r := by
  unfold withSnapshot at h
  split at h <;> try (cases h; done)
  dsimp only at h
  split at h
  · cases h; exact GoMap.nodupKeys_nil
  · split at h
    · cases h
    · rename_i hc
      cases h
      exact collect_nodup _ _ _ _ GoMap.nodupKeys_nil hc

/-- the lines printed for results -/
theorem lists_of {s : DB} {r : Results} {ord' : Results → Results} (hord' : ∀ m, (ord' m).Perm m) (hnd : GoMap.NodupKeys r)
    (hun : ∀ u v n, Blob.Spec.Named s u n → Blob.Spec.Named s v n → u = v) (Q : Str → Str → Prop)
    (hr : ∀ u n, r.get? u = some n ↔ Blob.Spec.Named s u n ∧ Q u n) :
    Lists (lsLines ord' r) (fun n => ∃ u, Blob.Spec.Named s u n ∧ Q u n) := by
  have hm : ∀ u n, (u, n) ∈ r ↔ Blob.Spec.Named s u n ∧ Q u n := fun u n => by rw [← hr, GoMap.mem_iff_get? hnd]
  unfold lsLines
  split
  · rename_i he
    subst he
    exact .inl ⟨fun n ⟨u, hu⟩ => by simpa using (hm u n).2 hu, rfl⟩
  · rename_i hne
    obtain ⟨p, hp⟩ := List.exists_mem_of_ne_nil r hne
    refine .inr ⟨⟨p.2, p.1, (hm p.1 p.2).1 hp⟩, fun n => ?_, ?_, sortStr_sorted _⟩
    · rw [mem_sortStr, List.mem_map]
      constructor
      · rintro ⟨⟨u, m⟩, h1, rfl⟩
        exact ⟨u, (hm u m).1 ((hord' r).mem_iff.1 h1)⟩
      · rintro ⟨u, hu⟩
        exact ⟨(u, n), (hord' r).mem_iff.2 ((hm u n).2 hu), rfl⟩
    · rw [nodup_sortStr]
      refine ((hord' r).map Prod.snd).nodup_iff.2 ?_
      have hnd' : r.Nodup := by
        have := hnd
        unfold GoMap.NodupKeys at this
        exact List.Pairwise.of_map Prod.fst (fun a b hab h => hab (by rw [h])) this
      unfold List.Nodup
      rw [List.pairwise_map]
      refine List.Pairwise.imp_of_mem ?_ hnd'
      rintro ⟨u, n⟩ ⟨v, m⟩ ha hb hab heq
      simp only at heq
      subst heq
      exact hab (by rw [hun u v n ((hm _ _).1 ha).1 ((hm _ _).1 hb).1])

/-- `ls q` lists the names the query selects, each once and in order. It changes nothing. -/
theorem C81_ls (v : Env) (u : Session) (q : Str) (hv : EnvOk v u.store) (h : WellFormed u.store) :
    ∃ r, (list v u q).2 = .ok r ∧ Same u (list v u q).1 ∧
      Lists (lsLines v.ord' r) (fun n => ∃ w, Blob.Spec.Named u.store w n ∧ Blob.Spec.Selects v.lower q n) := by
  obtain ⟨r, hr, -⟩ := wf_search v.lower hv.ord h q
  unfold list
  rw [hr]
  refine ⟨r, rfl, same_update u, ?_⟩
  refine lists_of hv.ord' (results_nodup (hr : withSnapshot _ _ = _)) h.unique _ ?_
  exact (C33_search_exact v.lower v.ord hv.ord h.good.ok q r hr).2

/-- `labels l…` lists the names of the entries that carry all these labels, each once and in order. It changes nothing. Partial:
no entry may carry a label twice (see `C35_false`). -/
theorem C81_labels_partial (v : Env) (u : Session) (ls : List Str) (hv : EnvOk v u.store) (h : WellFormed u.store)
    (hnd : ∀ w e, Blob.Spec.Visible u.store w e → (Blob.Spec.labelsOf e).Nodup) :
    ∃ r, (listByLabels v u ls).2 = .ok r ∧ Same u (listByLabels v u ls).1 ∧
      Lists (lsLines v.ord' r) (fun n => ∃ w, Blob.Spec.Named u.store w n ∧
        ∃ e, Blob.Spec.Visible u.store w e ∧ ∀ l ∈ ls, l ∈ Blob.Spec.labelsOf e) := by
  obtain ⟨r, hr⟩ := wf_searchLabels hv.ord h ls
  unfold listByLabels
  rw [hr]
  refine ⟨r, rfl, same_update u, ?_⟩
  refine lists_of hv.ord' (results_nodup (hr : withSnapshot _ _ = _)) h.unique _ ?_
  intro w n
  rw [(C35_labels_exact_partial v.ord hv.ord h.good.ok hnd ls r hr).2]
  constructor
  · rintro ⟨e, h1, h2, h3⟩
    exact ⟨⟨e, h1, h2⟩, e, h1, h3⟩
  · rintro ⟨⟨e, h1, h2⟩, f, h3, h4⟩
    obtain ⟨st, a, b⟩ := h1
    obtain ⟨st', a', b'⟩ := h3
    rw [a] at a'; cases a'
    rw [b] at b'; cases b'
    exact ⟨e, ⟨st, a, b⟩, h2, h4⟩

theorem updated_dated {en : Entry} : (∃ t, updated en = some t) ↔ Dated (fun k => en.get? k) := by
  unfold updated Dated
  cases hg : en.get? keyUpdated with
  | none => exact ⟨fun _ ts h => (by rw [show en.get? keyUpdated = some ts from h] at hg; cases hg), fun _ => ⟨_, rfl⟩⟩
  | some ts =>
    simp only [Option.map_eq_some_iff]
    constructor
    · rintro ⟨t, a, ha, -⟩ ts' h
      rw [show en.get? keyUpdated = some ts' from h] at hg; cases hg
      simp [ha]
    · intro h
      obtain ⟨a, ha⟩ := Option.isSome_iff_exists.1 (h ts hg)
      exact ⟨some a, a, ha, rfl⟩

/-- `show q` shows the entry selected, as it is now. An entry whose time stamp is no number cannot be shown: that is an error,
which ends the session. -/
theorem C81_show (v : Env) (u : Session) (q uuid : Str) (e : Str → Option Str) (hv : EnvOk v u.store) (h : WellFormed u.store)
    (hp : Picks v u.store q uuid) (he : Blob.Spec.Visible u.store uuid e) :
    Same u (showCmd v u q 0).1 ∧
    (Dated e → ∃ en, (showCmd v u q 0).2 = .ok (some en) ∧ en ≠ [] ∧ (fun k => en.get? k) = e) ∧
    (¬ Dated e → (showCmd v u q 0).2 = .err .json) := by
  unfold showCmd
  obtain ⟨en, rfl, ⟨n, hn⟩, -, hx⟩ := oneEntry_picks hv h hp he (none : Option Entry) _
  rw [hx]
  have hne : en ≠ [] := by rintro rfl; simp at hn
  simp only [ne_eq, not_true, if_false, hne]
  rw [← updated_dated]
  cases hu : updated en with
  | none => exact ⟨same_update u, by simp, fun _ => rfl⟩
  | some t => exact ⟨same_update u, fun _ => ⟨en, rfl, hne, rfl⟩, by simp⟩

theorem nVersions_filter (s : DB) (uuid : Str) : s.nVersions uuid = (s.log.filter (fun t => t.uuid = uuid)).length := by
  unfold DB.nVersions
  generalize s.log = l
  suffices ∀ n, l.foldl (fun versions l => if l.uuid = uuid then versions + 1 else versions) n =
      n + (l.filter (fun t => t.uuid = uuid)).length by simpa using this 0
  induction l with
  | nil => simp
  | cons a l ih =>
    intro n
    simp only [List.foldl_cons, List.filter_cons]
    rw [ih]
    split <;> rename_i h1 <;> simp [h1] <;> omega

/-- `show q n` shows the entry selected as it was before the last `n` operations on it. If it did not exist then (or is older than
its whole history), nothing is shown. -/
theorem C81_show_old (v : Env) (u : Session) (q uuid : Str) (e : Str → Option Str) (hv : EnvOk v u.store) (h : WellFormed u.store)
    (hp : Picks v u.store q uuid) (he : Blob.Spec.Visible u.store uuid e) (n : Nat) (hn : n ≠ 0) :
    Same u (showCmd v u q n).1 ∧
    (u.store.nVersions uuid < n → (showCmd v u q n).2 = .ok none) ∧
    (∀ pre post st, u.store.log = pre ++ post → (post.filter (fun t => t.uuid = uuid)).length = n →
      Txlogs.Spec.meaning Txlogs.Spec.empty pre = some st →
      (st uuid = none → (showCmd v u q n).2 = .ok none) ∧
      (∀ f, st uuid = some f → (∃ k, f k ≠ none) →
        (Dated f → ∃ en, (showCmd v u q n).2 = .ok (some en) ∧ en ≠ [] ∧ (fun k => en.get? k) = f) ∧
        (¬ Dated f → (showCmd v u q n).2 = .err .json)) ∧
      (∀ f, st uuid = some f → (∀ k, f k = none) → (showCmd v u q n).2 = .ok none)) := by
  unfold showCmd
  obtain ⟨en, rfl, ⟨nm, hnm⟩, -, hx⟩ := oneEntry_picks hv h hp he (none : Option Entry) _
  rw [hx]
  have hn' : ((n : Int) ≠ 0) := by omega
  have hname : name en = some nm := hnm
  have hlog : u.store.updateSnapshot.1.log = u.store.log := updateSnapshot_log _
  have hnv : u.store.updateSnapshot.1.nVersions uuid = u.store.nVersions uuid := by unfold DB.nVersions; rw [hlog]
  simp only [ne_eq, hn', not_false_iff, if_true, hnv, hname, reduceCtorEq, if_false]
  by_cases hgt : (n : Int) > u.store.nVersions uuid
  · rw [if_pos hgt]
    refine ⟨same_update u, fun _ => rfl, ?_⟩
    intro pre post st h1 h2 h3
    exfalso
    rw [nVersions_filter, h1, List.filter_append, List.length_append] at hgt
    omega
  · rw [if_neg hgt]
    refine ⟨?_, fun hlt => absurd (by omega) hgt, ?_⟩
    · repeat' split
      all_goals exact same_update u
    · intro pre post st h1 h2 h3
      by_cases hlt : n < u.store.log.length
      · have h07 := Txlogs.C07_entrySnapshotAt u.store.updateSnapshot.1 uuid n pre post st (by rw [hlog, h1]) h2 (by rw [hlog]; exact hlt) h3
        cases hst : st uuid with
        | none =>
          rw [hst] at h07
          simp only at h07
          rw [h07]
          exact ⟨fun _ => rfl, by simp, by simp⟩
        | some f =>
          rw [hst] at h07
          obtain ⟨ent, h4, rfl⟩ := h07
          rw [h4]
          dsimp only
          refine ⟨by simp, ?_, ?_⟩
          · rintro f hf ⟨k, hk⟩
            cases hf
            have hne : ent ≠ [] := by rintro rfl; simp at hk
            rw [if_neg hne, ← updated_dated]
            cases hu : updated ent with
            | none => exact ⟨by simp, fun _ => rfl⟩
            | some t => exact ⟨fun _ => ⟨ent, rfl, hne, rfl⟩, by simp⟩
          · intro f hf hk
            cases hf
            cases ent with
            | nil => rfl
            | cons p ent => have := hk p.1; simp [GoMap.get?_cons] at this
      · have hle : (post.filter (fun t => t.uuid = uuid)).length ≤ post.length := List.length_filter_le _ _
        have hlen : u.store.log.length = pre.length + post.length := by rw [h1, List.length_append]
        have hpre : pre = [] := List.eq_nil_of_length_eq_zero (by omega)
        subst hpre
        simp only [Txlogs.Spec.meaning, Option.some.injEq] at h3
        subst h3
        have : u.store.updateSnapshot.1.entrySnapshotAt uuid n = .err .notThatManyVersions := by
          unfold DB.entrySnapshotAt
          rw [hlog, if_pos (by omega)]
        rw [this]
        exact ⟨fun _ => rfl, by simp [Txlogs.Spec.empty], by simp [Txlogs.Spec.empty]⟩

/-! ## login, open, dump -/

theorem loginValues_eq (v : Env) (en : Entry) (hc : CodeOk v (fun k => en.get? k)) :
    loginValues v en = some (loginKeys.filterMap fun k => (loginValue v (fun k => en.get? k) k).map fun x => (k, x)) := by
  have h1 : ∀ k, k ≠ keyTwoFactor → loginValue v (fun k => en.get? k) k = en.get? k := by
    intro k hk
    unfold loginValue
    dsimp only
    cases en.get? k <;> simp [hk]
  have ha : ∀ k ∈ [keyUser, keyEmail, keyPass], ((loginValue v (fun k => en.get? k) k).map fun x => (k, x)) =
      (en.get? k).map fun x => (k, x) := by
    intro k hk
    rw [h1 k (by rintro rfl; exact absurd hk (by decide))]
  have h2 : (loginKeys.filterMap fun k => (loginValue v (fun k => en.get? k) k).map fun x => (k, x)) =
      ([keyUser, keyEmail, keyPass].filterMap fun k => (en.get? k).map fun x => (k, x)) ++
        ((loginValue v (fun k => en.get? k) keyTwoFactor).map fun x => (keyTwoFactor, x)).toList := by
    rw [show loginKeys = [keyUser, keyEmail, keyPass] ++ [keyTwoFactor] from rfl, List.filterMap_append]
    congr 1
    · simp only [List.filterMap_cons, ha keyUser (by decide), ha keyEmail (by decide), ha keyPass (by decide), List.filterMap_nil]
  rw [h2]
  unfold loginValues loginValue
  dsimp only
  cases ht : en.get? keyTwoFactor with
  | none => simp
  | some t =>
    by_cases h0 : t = []
    · simp [h0]
    · obtain ⟨c, hc⟩ := Option.isSome_iff_exists.1 (hc t ht h0)
      simp [h0, hc]

theorem loginValues_none (v : Env) (en : Entry) (hc : ¬ CodeOk v (fun k => en.get? k)) : loginValues v en = none := by
  unfold CodeOk at hc
  simp only [Classical.not_forall] at hc
  obtain ⟨x, h1, h2, h3⟩ := hc
  unfold loginValues
  rw [show en.get? keyTwoFactor = some x from h1]
  cases hv : v.totp x with
  | none => simp [h2, hv]
  | some c => simp [hv] at h3

theorem loginLoop_all (l : List (Str × Str)) (ans : List Str) (rest : Input) (out : List (Str × Str)) (h : l.length ≤ ans.length + 1) :
    loginLoop l (ans.map some ++ rest) out = (out ++ l, true) := by
  induction l generalizing ans out with
  | nil => simp [loginLoop]
  | cons x l ih =>
    cases l with
    | nil => simp [loginLoop]
    | cons y l =>
      cases ans with
      | nil => simp at h
      | cons a ans =>
        simp only [List.map_cons, List.cons_append, loginLoop, prompt]
        rw [ih ans (out ++ [x]) (by simpa using h)]
        simp

theorem loginLoop_stop (l : List (Str × Str)) (ans : List Str) (rest : Input) (out : List (Str × Str)) (h : ans.length + 1 < l.length)
    (hr : rest = [] ∨ rest.head? = some none) : (loginLoop l (ans.map some ++ rest) out).2 = false := by
  induction ans generalizing l out with
  | nil =>
    match l with
    | [] => simp at h
    | [x] => simp at h
    | x :: y :: l =>
      simp only [List.map_nil, List.nil_append, loginLoop]
      cases rest with
      | nil => rfl
      | cons b rest =>
        rcases hr with hr | hr
        · cases hr
        · simp at hr
          subst hr
          rfl
  | cons a ans ih =>
    match l with
    | [] => simp at h
    | [x] => simp at h
    | x :: y :: l =>
      simp only [List.map_cons, List.cons_append, loginLoop, prompt]
      exact ih (y :: l) _ (by simpa using h)

/-- `login q` copies the user, the email address, the password and a two-factor code of the entry selected, in this order and as
far as the entry has them, each after the prompt for the next was answered. If a prompt is not answered the command ends with an
error (and so does the session), as it does when no code can be made. The file is not changed. -/
theorem C81_login (v : Env) (u : Session) (q uuid : Str) (e : Str → Option Str) (hv : EnvOk v u.store) (h : WellFormed u.store)
    (hp : Picks v u.store q uuid) (he : Blob.Spec.Visible u.store uuid e) :
    let l := loginKeys.filterMap fun k => (loginValue v e k).map fun x => (k, x)
    Same u (login v u q).1 ∧
    (CodeOk v e →
      (∀ (ans : List Str) (rest : Input), v.d.inp = ans.map some ++ rest → l.length ≤ ans.length + 1 → (login v u q).2 = .ok l) ∧
      (∀ (ans : List Str) (rest : Input), v.d.inp = ans.map some ++ rest → ans.length + 1 < l.length → (rest = [] ∨ rest.head? = some none) →
        (login v u q).2 = .err .aborted)) ∧
    (¬ CodeOk v e → (login v u q).2 = .err .json) := by
  intro l
  refine ⟨same_login v u q, ?_⟩
  unfold login
  rw [one_picks hv h hp]
  obtain ⟨-, hfr, hg, hlog⟩ := good_withSnapshot h.good (fun s => ((s, .panic) : Out Str))
  have he' := (visible_log hlog _ _).2 he
  rw [visible_fresh hfr] at he'
  obtain ⟨en, hen, rfl⟩ := he'
  have hf : find u.store.updateSnapshot.1 uuid = (u.store.updateSnapshot.1, .ok (some en)) := by
    unfold find
    rw [(good_withSnapshot (wf_update h).good _).1, update_fresh hfr, hen]
  simp only [hf, lift, Option.getD_some]
  refine ⟨fun hc => ?_, fun hc => by rw [loginValues_none v en hc]⟩
  rw [loginValues_eq v en hc]
  refine ⟨fun ans rest hi hl => ?_, fun ans rest hi hl hr => ?_⟩
  · rw [hi]
    simp only
    rw [loginLoop_all _ ans rest [] hl]
    rfl
  · rw [hi]
    simp only
    have := loginLoop_stop _ ans rest [] hl hr
    split
    · rename_i hx
      rw [hx] at this
      cases this
    · rfl

/-- `open q` opens the address of the entry selected if it is one, and nothing if it has none. -/
theorem C81_open (v : Env) (u : Session) (q uuid : Str) (e : Str → Option Str) (hv : EnvOk v u.store) (h : WellFormed u.store)
    (hp : Picks v u.store q uuid) (he : Blob.Spec.Visible u.store uuid e) :
    Same u (openurl v u q).1 ∧
    (∀ link, e keyURL = some link → link ≠ [] → (openurl v u q).2 = .ok (if v.urlParses link then some link else none)) ∧
    (e keyURL = none ∨ e keyURL = some [] → (openurl v u q).2 = .ok none) := by
  obtain ⟨en, rfl, ⟨n, hn⟩, -, hx⟩ := oneEntry_picks hv h hp he (none : Option Str) (openLink v)
  have hn' : name en = some n := hn
  have hxx : openurl v u q = oneEntry v u q none (openLink v) := by
    rcases openurl_cases v u q with ⟨u', e, h', -⟩ | h2
    · rw [hx] at h'
      simp only [openLink, hn', reduceCtorEq, if_false] at h'
      repeat' split at h'
      all_goals cases h'
    · exact h2
  rw [hxx, hx]
  simp only [openLink, hn', reduceCtorEq, if_false]
  by_cases hl : val en keyURL = []
  · simp only [hl, if_true]
    refine ⟨same_update u, fun link h1 h2 => ?_, fun _ => trivial⟩
    unfold val at hl
    rw [show en.get? keyURL = some link from h1] at hl
    exact absurd hl h2
  · simp only [hl, if_false]
    refine ⟨by split <;> exact same_update u, fun link h1 h2 => ?_, fun h1 => ?_⟩
    · have : val en keyURL = link := by unfold val; rw [show en.get? keyURL = some link from h1]; rfl
      rw [this]
      split <;> rfl
    · unfold val at hl
      rcases h1 with h1 | h1 <;> (rw [show en.get? keyURL = _ from h1] at hl; simp at hl)

/-- `dump q` prints the whole entry selected. -/
theorem C81_dump (v : Env) (u : Session) (q uuid : Str) (e : Str → Option Str) (hv : EnvOk v u.store) (h : WellFormed u.store)
    (hp : Picks v u.store q uuid) (he : Blob.Spec.Visible u.store uuid e) :
    Same u (dump v u q).1 ∧ ∃ en, (dump v u q).2 = .ok (some en) ∧ (fun k => en.get? k) = e := by
  unfold dump
  obtain ⟨en, rfl, -, -, hx⟩ := oneEntry_picks hv h hp he (none : Option Entry) (fun u _ e => (u, .ok (some e)))
  rw [hx]
  exact ⟨same_update u, en, rfl, rfl⟩

/-! ## Which line does what -/

/-- The reading lines do what their names say, for the query typed or the current entry: `ls`, `labels`, `show` (the current
version unless a number is given), `dump`, `open`; a line that needs a query and has none does nothing. -/
theorem C81_line (P : Prims) (C : Codec) (v : Env) (r : Repl) (line cmd : Str) (args : List Str)
    (hp : parseLine line = some (cmd, args)) :
    (cmd = b! "ls" → runLine P C v line r = back_ r (list v r.u (args.head?.getD []))) ∧
    (cmd = b! "labels" → args ≠ [] → runLine P C v line r = back_ r (listByLabels v r.u args)) ∧
    (cmd = b! "show" → r.ctx = [] → ∀ q, args = [q] → runLine P C v line r = back_ r (showCmd v r.u q 0)) ∧
    (cmd = b! "show" → r.ctx = [] → ∀ q n i, args = [q, n] → atoi n = some i →
      runLine P C v line r = back_ r (showCmd v r.u q i)) ∧
    (cmd = b! "show" → r.ctx ≠ [] → args = [] → runLine P C v line r = back_ r (showCmd v r.u r.ctx 0)) ∧
    (cmd = b! "show" → r.ctx ≠ [] → ∀ n i, args = [n] → atoi n = some i →
      runLine P C v line r = back_ r (showCmd v r.u r.ctx i)) ∧
    (cmd = b! "dump" → ∀ q, queryArg r.ctx args = some q → runLine P C v line r = back_ r (dump v r.u q)) ∧
    (cmd = b! "open" → ∀ q, queryArg r.ctx args = some q → runLine P C v line r = back_ r (openurl v r.u q)) ∧
    ((cmd = b! "dump" ∨ cmd = b! "open" ∨ cmd = b! "show" ∨ cmd = b! "labels") → args = [] → r.ctx = [] →
      runLine P C v line r = (r, .ok false)) := by
  have hrun : readOnlyFlag cmd = some true → runLine P C v line r = execRead v cmd args r := by
    intro hf
    unfold runLine
    simp only [hp, hf]
  have hshow : ∀ args, execRead v (b! "show") args r = match (if r.ctx = [] then args.head? else some r.ctx) with
      | none => (r, .ok false)
      | some q => back_ r (showCmd v r.u q (((if r.ctx = [] then args.drop 1 else args).head?.bind atoi).getD 0)) := by
    intro args
    obtain ⟨u, ctx, out⟩ := r
    cases ctx <;> rfl
  refine ⟨?_, ?_, ?_, ?_, ?_, ?_, ?_, ?_, ?_⟩
  · rintro rfl; exact hrun (by decide)
  · rintro rfl hne
    rw [hrun (by decide)]
    have : execRead v (b! "labels") args r = if args = [] then (r, .ok false) else back_ r (listByLabels v r.u args) := rfl
    rw [this, if_neg hne]
  · rintro rfl hctx q rfl
    rw [hrun (by decide), hshow, if_pos hctx, if_pos hctx]
    rfl
  · rintro rfl hctx q n i rfl hi
    rw [hrun (by decide), hshow, if_pos hctx, if_pos hctx]
    simp [hi]
  · rintro rfl hctx rfl
    rw [hrun (by decide), hshow, if_neg hctx, if_neg hctx]
    rfl
  · rintro rfl hctx n i rfl hi
    rw [hrun (by decide), hshow, if_neg hctx, if_neg hctx]
    simp [hi]
  · rintro rfl q hq
    rw [hrun (by decide)]
    have : execRead v (b! "dump") args r = match queryArg r.ctx args with
        | none => (r, .ok false)
        | some q => back_ r (dump v r.u q) := rfl
    rw [this, hq]
  · rintro rfl q hq
    rw [hrun (by decide)]
    have : execRead v (b! "open") args r = match queryArg r.ctx args with
        | none => (r, .ok false)
        | some q => back_ r (openurl v r.u q) := rfl
    rw [this, hq]
  · rintro hc rfl hctx
    obtain ⟨u, ctx, out⟩ := r
    simp only at hctx
    subst hctx
    rcases hc with rfl | rfl | rfl | rfl <;> (rw [hrun (by decide)]; rfl)

/-- The line `login q` runs `login`, with the current entry if no query is typed. In a read-only session it does nothing, though
`login` changes nothing. -/
theorem C81_login_line (P : Prims) (C : Codec) (v : Env) (r : Repl) (line : Str) (args : List Str)
    (hp : parseLine line = some (b! "login", args)) :
    (r.u.readOnly = false → ∀ q, q ≠ [] → (args.head? = some q ∨ (args = [] ∧ r.ctx = q)) →
      runLine P C v line r = back_ r (login v r.u q)) ∧
    (r.u.readOnly = true → runLine P C v line r = (r, .ok false)) := by
  have hf : readOnlyFlag (b! "login") = some false := by decide
  have hrun : runLine P C v line r = if r.u.readOnly then (r, .ok false) else execWrite P C v (b! "login") args r := by
    unfold runLine
    simp only [hp, hf]
  refine ⟨fun hro q hq hc => ?_, fun hro => by rw [hrun, hro]; rfl⟩
  rw [hrun, hro]
  have : execWrite P C v (b! "login") args r = match (match args with | q :: _ => q | [] => r.ctx) with
      | [] => (r, .ok false)
      | q => back_ r (login v r.u q) := rfl
  simp only [Bool.false_eq_true, if_false, this]
  rcases hc with hc | ⟨rfl, hc⟩
  · cases args with
    | nil => cases hc
    | cons a args =>
      simp only [List.head?_cons, Option.some.injEq] at hc
      subst hc
      cases a with
      | nil => exact absurd rfl hq
      | cons c a => rfl
  · simp only [hc]

/-! ## The text of `show` -/

theorem dropKey_perm (o : Str) (l : List Str) : (dropKey o l).Perm (l.erase o) := by
  induction l with
  | nil => exact .refl _
  | cons k l ih =>
    unfold dropKey
    by_cases hk : k = o
    · simp only [hk, if_true, List.erase_cons_head]
      cases hl : l.getLast? with
      | none => rw [List.getLast?_eq_none_iff] at hl; subst hl; exact .refl _
      | some z =>
        obtain ⟨ys, rfl⟩ := List.getLast?_eq_some_iff.1 hl
        simp only [List.dropLast_concat]
        exact (List.perm_append_comm (l₁ := ys) (l₂ := [z])).symm
    · simp only [hk, if_false, List.erase_cons, beq_iff_eq]
      exact ih.cons k

theorem dropKeys_perm (os l : List Str) (hl : l.Nodup) :
    (os.foldl (fun ks o => dropKey o ks) l).Perm (l.filter (fun k => k ∉ os)) := by
  induction os generalizing l with
  | nil => exact .of_eq (List.filter_eq_self.2 (by simp)).symm
  | cons o os ih =>
    rw [List.foldl_cons]
    have h1 := dropKey_perm o l
    have h2 : (dropKey o l).Nodup := h1.nodup_iff.2 (hl.erase o)
    refine (ih _ h2).trans ((h1.filter _).trans ?_)
    rw [hl.erase_eq_filter, List.filter_filter]
    refine List.Perm.of_eq (List.filter_congr ?_)
    intro k hk
    by_cases h3 : k = o <;> by_cases h4 : k ∈ os <;> simp [h3, h4]

/-- The keys are shown in a fixed order: the well-known ones first, the others alphabetically. It does not depend on the order in
which the map is visited. -/
theorem C81_order (keys : List Str) (hk : keys.Nodup) :
    showKeys keys = showFirst ++ sortStr (keys.filter (fun k => k ∉ showFirst)) ∧
    ∀ keys', keys'.Perm keys → showKeys keys' = showKeys keys := by
  have h : ∀ keys : List Str, keys.Nodup → showKeys keys = showFirst ++ sortStr (keys.filter (fun k => k ∉ showFirst)) := by
    intro keys hk
    unfold showKeys
    rw [sortStr_congr (dropKeys_perm showFirst keys hk)]
  refine ⟨h keys hk, fun keys' hp => ?_⟩
  rw [h keys hk, h keys' (hp.nodup_iff.2 hk), sortStr_congr (hp.filter _)]

theorem nodup_showKeys (keys : List Str) (hk : keys.Nodup) : (showKeys keys).Nodup := by
  rw [(C81_order keys hk).1, List.nodup_append]
  refine ⟨by decide, nodup_sortStr.2 (hk.filter _), ?_⟩
  rintro a ha b hb rfl
  rw [mem_sortStr, List.mem_filter] at hb
  simp [ha] at hb

theorem mem_showKeys (keys : List Str) (hk : keys.Nodup) (k : Str) (h : k ∈ keys) : k ∈ showKeys keys := by
  rw [(C81_order keys hk).1, List.mem_append, mem_sortStr, List.mem_filter]
  by_cases h1 : k ∈ showFirst
  · exact .inl h1
  · exact .inr ⟨h, by simp [h1]⟩

theorem mem_showLines (v : Env) (te : Str) (keys : List Str) (e : Entry) (hk : keys.Nodup)
    (hm : ∀ k, k ∈ keys ↔ (e.get? k).isSome) (k t : Str) :
    (k, t) ∈ showLines v te keys e ↔ showOne v te (showWidth keys) e k = some t := by
  unfold showLines
  rw [List.mem_filterMap]
  constructor
  · rintro ⟨k', h1, h2⟩
    rw [Option.map_eq_some_iff] at h2
    obtain ⟨t', h3, h4⟩ := h2
    cases h4
    exact h3
  · intro h
    refine ⟨k, mem_showKeys keys hk k ((hm k).2 ?_), by rw [h]; rfl⟩
    unfold showOne at h
    split at h
    · cases h
    · cases hg : e.get? k with
      | none => rw [hg] at h; cases h
      | some x => rfl

/-- What `show` prints of an entry: no key twice; nothing but keys of the entry; every key other than `updated` (shown last) and
an empty two-factor secret; the password and every value on one line exactly as it is, labels with a space after each comma, the
two-factor secret as a code. -/
theorem C81_lines (v : Env) (te : Str) (keys : List Str) (e : Entry) (hk : keys.Nodup)
    (hm : ∀ k, k ∈ keys ↔ (e.get? k).isSome) :
    let w := showWidth keys
    ((showLines v te keys e).map Prod.fst).Nodup ∧
    (∀ k t, (k, t) ∈ showLines v te keys e → k ≠ keyUpdated ∧ (e.get? k).isSome) ∧
    (∀ k x, e.get? k = some x → k ≠ keyUpdated → (k = keyTwoFactor → x ≠ []) → (k = keyTwoFactor → v.totp x ≠ some []) →
      ∃ t, (k, t) ∈ showLines v te keys e) ∧
    (∀ k x, e.get? k = some x → k ∉ [keyUpdated, keyTwoFactor, keyLabels] → (k = keyPass ∨ 10 ∉ x) →
      (k, keyValueText w k x) ∈ showLines v te keys e) ∧
    (∀ x, e.get? keyLabels = some x → (keyLabels, keyValueText w keyLabels (spreadLabels x)) ∈ showLines v te keys e) ∧
    (∀ x c, e.get? keyTwoFactor = some x → x ≠ [] → v.totp x = some c → c ≠ [] →
      (keyTwoFactor, keyValueText w keyTwoFactor c) ∈ showLines v te keys e) ∧
    (∀ k x, e.get? k = some x → k ∉ [keyUpdated, keyTwoFactor, keyLabels, keyPass] → 10 ∈ x →
      (k, multilineText w k x) ∈ showLines v te keys e) := by
  intro w
  have hmem := mem_showLines v te keys e hk hm
  refine ⟨?_, ?_, ?_, ?_, ?_, ?_, ?_⟩
  · unfold showLines
    rw [List.map_filterMap]
    refine (nodup_showKeys keys hk).sublist ?_
    generalize showKeys keys = l
    induction l with
    | nil => exact List.Sublist.refl _
    | cons k l ih =>
      rw [List.filterMap_cons]
      cases hs : showOne v te (showWidth keys) e k with
      | none => simp only [Option.map_none]; exact ih.cons _
      | some t => simp only [Option.map_some]; exact ih.cons_cons _
  · intro k t h
    rw [hmem] at h
    unfold showOne at h
    split at h
    · cases h
    · rename_i h1
      refine ⟨h1, ?_⟩
      cases hg : e.get? k with
      | none => rw [hg] at h; cases h
      | some x => rfl
  · intro k x h1 h2 h3 h4
    simp only [hmem]
    unfold showOne
    simp only [h1, h2, if_false]
    repeat' split
    all_goals first
      | exact ⟨_, rfl⟩
      | skip
    rename_i hkt _ c hc hc'
    subst hc'
    simp only [h3 hkt, if_false] at hc
    exact absurd hc (h4 hkt)
  · intro k x h1 h2 h3
    simp only [List.mem_cons, List.not_mem_nil, or_false, not_or] at h2
    rw [hmem]
    unfold showOne
    simp only [h1, h2.1, h2.2.1, h2.2.2, if_false]
    rcases h3 with h3 | h3 <;> simp [h3, w]
  · intro x h1
    rw [hmem]
    unfold showOne
    rw [if_neg (by decide), h1]
    simp only
    rw [if_neg (by decide), if_pos trivial]
  · intro x c h1 h2 h3 h4
    rw [hmem]
    unfold showOne
    rw [if_neg (by decide), h1]
    simp only
    rw [if_neg (by decide), if_neg (by decide), if_pos trivial]
    simp [h2, h3, h4, w]
  · intro k x h1 h2 h3
    simp only [List.mem_cons, List.not_mem_nil, or_false, not_or] at h2
    rw [hmem]
    unfold showOne
    simp [h1, h2.1, h2.2.1, h2.2.2.1, h2.2.2.2, h3, w]

theorem showWidth_small (keys : List Str) (h : ∀ k ∈ keys, k.length ≤ 8) : showWidth keys = 8 := by
  unfold showWidth
  induction keys with
  | nil => rfl
  | cons k l ih =>
    rw [List.foldl_cons, if_neg (by have := h k (by simp); omega)]
    exact ih (fun x hx => h x (List.mem_cons_of_mem _ hx))

/-- The width of the first column is at least 8, and every longer key fits; it is at most one more than needed. -/
theorem C81_width (keys : List Str) : 8 ≤ showWidth keys ∧ (∀ k ∈ keys, k.length ≤ showWidth keys) ∧
    (showWidth keys = 8 ∨ ∃ k ∈ keys, showWidth keys = k.length + 1) := by
  unfold showWidth
  suffices h : ∀ w, w ≤ keys.foldl (fun w k => if k.length > w then k.length + 1 else w) w ∧
      (∀ k ∈ keys, k.length ≤ keys.foldl (fun w k => if k.length > w then k.length + 1 else w) w) ∧
      (keys.foldl (fun w k => if k.length > w then k.length + 1 else w) w = w ∨
        ∃ k ∈ keys, keys.foldl (fun w k => if k.length > w then k.length + 1 else w) w = k.length + 1) from h 8
  induction keys with
  | nil => simp
  | cons k l ih =>
    intro w
    rw [List.foldl_cons]
    obtain ⟨h1, h2, h3⟩ := ih (if k.length > w then k.length + 1 else w)
    generalize hr : l.foldl (fun w k => if k.length > w then k.length + 1 else w) (if k.length > w then k.length + 1 else w) = r at *
    refine ⟨?_, ?_, ?_⟩
    · split at h1 <;> omega
    · intro x hx
      rcases List.mem_cons.1 hx with rfl | hx
      · split at h1 <;> omega
      · exact h2 x hx
    · rcases h3 with h3 | ⟨x, hx, h3⟩
      · split at h3
        · exact .inr ⟨k, by simp, h3⟩
        · exact .inl h3
      · exact .inr ⟨x, List.mem_cons_of_mem _ hx, h3⟩

/-- The same entry always looks the same, whatever the order in which its map is visited. Partial: no key may be longer than 8
bytes (see `C81_stable_false`). -/
theorem C81_stable_partial (v : Env) (te : Str) (date : Int → Str) (keys keys' : List Str) (e : Entry) (snaps : Nat)
    (hk : keys.Nodup) (hp : keys'.Perm keys) (h8 : ∀ k ∈ keys, k.length ≤ 8) :
    showText v te date keys' e snaps = showText v te date keys e snaps := by
  unfold showText showLines
  rw [(C81_order keys hk).2 keys' hp, showWidth_small keys h8, showWidth_small keys' (fun k hk' => h8 k (hp.mem_iff.1 hk'))]

/-- False in general: with one key of 9 and one of 10 letters, the width of the first column depends on which of them is visited
first. The same entry then looks different from one time to the next. -/
theorem C81_stable_false : ∃ (v : Env) (te : Str) (date : Int → Str) (keys keys' : List Str) (e : Entry), keys.Nodup ∧
    keys'.Perm keys ∧ keys = e.map Prod.fst ∧ showText v te date keys' e 0 ≠ showText v te date keys e 0 :=
  ⟨{}, [], fun _ => [], [keyName, b! "answer_11", b! "question_1"], [keyName, b! "question_1", b! "answer_11"],
    [(keyName, b! "n"), (b! "answer_11", b! "x"), (b! "question_1", b! "y")],
    by decide, (List.Perm.swap _ _ _).cons _, by decide, by decide +kernel⟩

/-- False: the values are not always aligned. A key of 8 letters pushes its value one column further than the others. -/
theorem C81_aligned_false : ∃ (v : Env) (te : Str) (keys : List Str) (e : Entry), keys = e.map Prod.fst ∧
    (showLines v te keys e).map Prod.snd = [b! "  name:    n\n", b! "  security: x\n"] :=
  ⟨{}, [], [keyName, b! "security"], [(keyName, b! "n"), (b! "security", b! "x")], by decide, by decide +kernel⟩

/-- The value of a key begins after the column of the keys. It is aligned with all others unless the key is exactly as long as
the column is wide. -/
theorem C81_aligned_partial (keys : List Str) (k x : Str) (hk : k ∈ keys) (ha : ∀ b ∈ k, b.toNat < 0x80)
    (hl : k.length ≠ showWidth keys) :
    ∃ col, keyValueText (showWidth keys) k x = col ++ x ++ [10] ∧ col.length = showWidth keys + 3 := by
  refine ⟨keyColumn (showWidth keys) k ++ [32], by simp [keyValueText], ?_⟩
  have h1 := (C81_width keys).2.1 k hk
  have h2 : (runes (k ++ b! ":")).length = k.length + 1 := by
    have hv : ∀ b ∈ k ++ b! ":", b.toNat < 0x80 := by
      intro b hb
      rcases List.mem_append.1 hb with hb | hb
      · exact ha b hb
      · simp at hb; subst hb; decide
    have := runes_ascii _ hv
    rw [this]
    simp
  unfold keyColumn padRight
  simp only [List.length_append, List.length_replicate, h2, List.length_cons, List.length_nil]
  omega

/-- False: what `show` prints does not tell two values apart. Values of several lines lose white space at the beginning and at the
end: notes ending in an empty line look like notes without it. -/
theorem C81_multiline_false : ∃ x y, x ≠ y ∧ ∀ w k, multilineText w k x = multilineText w k y :=
  ⟨b! "a\nb", b! "a\nb\n", by decide, fun w k => by
    unfold multilineText
    have : trimSpace (joinStr (10 :: b! "    ") (split 10 (b! "a\nb"))) =
        trimSpace (joinStr (10 :: b! "    ") (split 10 (b! "a\nb\n"))) := by decide +kernel
    rw [this]⟩

/-- False: what `show` prints does not tell two entries apart. A password with a line break looks like a password followed by
another key. -/
theorem C81_distinct_false : ∃ (v : Env) (e e' : Entry), (∃ k, e.get? k ≠ e'.get? k) ∧ ∀ te date snaps,
    showText v te date (e.map Prod.fst) e snaps = showText v te date (e'.map Prod.fst) e' snaps :=
  ⟨{}, [(keyName, b! "n"), (keyPass, b! "p"), (keyURL, b! "u")], [(keyName, b! "n"), (keyPass, b! "p\n  url:     u")],
    ⟨keyURL, by decide⟩, fun te date snaps => rfl⟩

/-! ## Not vacuous -/

namespace ShowDemo
open Verif.Crypt.Spec (toy)
open Demo (perm_id perm_id' fresh_concrete)

instance : DecidableEq (Option Entry) := inferInstanceAs (DecidableEq (Option (List (Str × Str))))

/-- a file with the entries "bank" (user, password, address, two labels, notes of two lines) and "barn" -/
def u : Session := { store := opened [⟨0, .add, [1], [], []⟩, ⟨0, .setk, [1], keyName, b! "bank"⟩, ⟨0, .setk, [1], keyUser, b! "me"⟩,
  ⟨0, .setk, [1], keyPass, b! "p"⟩, ⟨0, .setk, [1], keyURL, b! "http://b"⟩, ⟨0, .setk, [1], keyLabels, b! "x,y"⟩,
  ⟨0, .setk, [1], keyNotes, b! "a\nb"⟩, ⟨0, .add, [2], [], []⟩, ⟨0, .setk, [2], keyName, b! "barn"⟩] }

theorem u_wf : WellFormed u.store ∧ ∀ w n, Blob.Spec.Named u.store w n ↔ (w, n) ∈ [(([1] : Str), b! "bank"), ([2], b! "barn")] :=
  wf_check (ok_opened _) _ (by decide +kernel) (by decide +kernel) (by decide) (by decide)

theorem u_env (v : Env) (hv : v.ord = id) (hv' : v.ord' = id) (hu : v.d.uuid = [6]) : EnvOk v u.store := by
  refine ⟨by rw [hv]; exact perm_id, by rw [hv']; exact perm_id', by rw [hu]; decide, ?_⟩
  rw [hu]
  exact fresh_concrete u_wf.1.good (by decide +kernel)

theorem u_picks (v : Env) (hv : v.ord = id) (hv' : v.ord' = id) (hu : v.d.uuid = [6]) : Picks v u.store (b! "bank") [1] :=
  picks_named (u_env v hv hv' hu) u_wf.1 ((u_wf.2 _ _).2 (by simp))

def e : Str → Option Str := Txlogs.Spec.upd (Txlogs.Spec.upd (Txlogs.Spec.upd (Txlogs.Spec.upd (Txlogs.Spec.upd (Txlogs.Spec.upd
  (fun _ => none) keyName (some (b! "bank"))) keyUser (some (b! "me"))) keyPass (some (b! "p"))) keyURL (some (b! "http://b")))
  keyLabels (some (b! "x,y"))) keyNotes (some (b! "a\nb"))

theorem u_entry : Blob.Spec.Visible u.store [1] e := ⟨_, rfl, rfl⟩

theorem e_dated : Dated e := by
  intro ts h
  rw [show e keyUpdated = none from by decide] at h
  cases h

/-- `ls` lists both entries in order, `ls bk` the first, `ls q` a message; `labels y x` the first. -/
example : (list Demo.vV u []).2 = .ok [([1], b! "bank"), ([2], b! "barn")] ∧
    lsLines id [([2], b! "barn"), ([1], b! "bank")] = [b! "bank", b! "barn"] ∧
    (list Demo.vV u (b! "bk")).2 = .ok [([1], b! "bank")] ∧ (list Demo.vV u (b! "q")).2 = .ok [] ∧
    lsLines id [] = [b! "No entries found"] ∧ (listByLabels Demo.vV u [b! "y", b! "x"]).2 = .ok [([1], b! "bank")] := by
  decide +kernel

/-- `show bank` shows the entry, `show bank 3` the entry before its last three operations, `show bank 6` an entry without keys,
`show bank 7` and `show bank 8` nothing. -/
example : (∃ en, (showCmd Demo.vV u (b! "bank") 0).2 = .ok (some en) ∧ (fun k => en.get? k) = e) ∧
    (showCmd Demo.vV u (b! "bank") 3).2 = .ok (some [(keyName, b! "bank"), (keyUser, b! "me"), (keyPass, b! "p")]) ∧
    (showCmd Demo.vV u (b! "bank") 6).2 = .ok none ∧ (showCmd Demo.vV u (b! "bank") 7).2 = .ok none ∧
    (showCmd Demo.vV u (b! "bank") 8).2 = .ok none := by
  refine ⟨?_, by decide +kernel⟩
  obtain ⟨en, h1, -, h2⟩ := (C81_show Demo.vV u (b! "bank") [1] e (u_env _ rfl rfl rfl) u_wf.1 (u_picks _ rfl rfl rfl) u_entry).2.1
    e_dated
  exact ⟨en, h1, h2⟩

/-- an entry whose time stamp is no number -/
example : ¬ Dated (Txlogs.Spec.upd e keyUpdated (some (b! "now"))) :=
  fun h => absurd (h (b! "now") (by decide)) (by decide)

/-- `login bank` copies the user and, after one answer, the password. -/
example : (login (Demo.vL [some []]) u (b! "bank")).2 = .ok [(keyUser, b! "me"), (keyPass, b! "p")] ∧
    (login Demo.vV u (b! "bank")).2 = .err .aborted ∧ CodeOk Demo.vV e ∧
    ¬ CodeOk Demo.vV (Txlogs.Spec.upd e keyTwoFactor (some [1])) ∧
    (openurl Demo.vV u (b! "bank")).2 = .ok (some (b! "http://b")) ∧ (openurl Demo.vV u (b! "barn")).2 = .ok none := by
  refine ⟨by decide +kernel, by decide +kernel, ?_, ?_, by decide +kernel, by decide +kernel⟩
  · intro x h
    rw [show e keyTwoFactor = none from by decide] at h
    cases h
  · exact fun h => absurd (h [1] (by decide) (by decide)) (by decide)

/-- the text of `show bank` -/
example : showText Demo.vV [] (fun _ => []) [keyURL, keyNotes, keyName, keyUser, keyPass, keyLabels]
    [(keyName, b! "bank"), (keyUser, b! "me"), (keyPass, b! "p"), (keyURL, b! "http://b"), (keyLabels, b! "x,y"), (keyNotes, b! "a\nb")]
    7 = some (b! "  name:    bank\n  user:    me\n  pass:    p\n  labels:  x, y\n  notes:  \n    a\n    b\n" ++
      b! "  url:     http://b\n  snaps:   7\n") := by decide +kernel

/-- the lines -/
example : parseLine (b! "show bank 3") = some (b! "show", [b! "bank", b! "3"]) ∧ atoi (b! "3") = some 3 ∧
    parseLine (b! "login bank") = some (b! "login", [b! "bank"]) := by decide +kernel

def r0 : Repl := { u := u }
def r1 : Repl := (runLine toy SyncDemo.C Demo.vV (b! "set bank note hi") r0).1

theorem r0_legal : LegalTurn Demo.vV (b! "set bank note hi") r0 :=
  Demo.legal_of (x := (b! "set", [b! "bank", b! "note", b! "hi"])) rfl rfl (by decide) u_wf.1.good (by decide +kernel) (by decide)
    (by decide +kernel) (by decide)

theorem r1_wf : WellFormed r1.u.store ∧ r1.u.store.txPoint = 0 :=
  C67_line_partial toy SyncDemo.C Demo.vV _ r0 rfl u_wf.1 r0_legal (by decide +kernel)

end ShowDemo

/-- Even a command that only reads can lose what was done before: after `set bank note hi`, Ctrl-C or Ctrl-D at the prompt of
`login` ends the session with an error, and nothing is saved after an error. -/
theorem C75_login_false : ∃ (turns : List Turn) (r : Repl), WellFormed r.u.store ∧ r.u.store.txPoint = 0 ∧
    Along Crypt.Spec.toy SyncDemo.C LegalTurn turns r ∧
    turns.map Prod.fst = [some (b! "set bank note hi"), some (b! "login bank")] ∧
    (runRepl Crypt.Spec.toy SyncDemo.C turns r).2 = .err .aborted ∧
    r.u.store.log.length < (runRepl Crypt.Spec.toy SyncDemo.C turns r).1.u.store.log.length :=
  ⟨[(some (b! "set bank note hi"), Demo.vV), (some (b! "login bank"), Demo.vV)], ShowDemo.r0, ShowDemo.u_wf.1, rfl,
    ⟨ShowDemo.r0_legal, Demo.legal_of (x := (b! "login", [b! "bank"])) rfl rfl (by decide) ShowDemo.r1_wf.1.good (by decide +kernel)
      (by decide) (by decide +kernel) (by decide), trivial⟩, rfl, by decide +kernel, by decide +kernel⟩

end Verif.App
