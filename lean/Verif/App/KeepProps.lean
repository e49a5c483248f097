import Verif.App.KeepSpec
import Verif.App.SyncProps
import Verif.App.SyncDemo
import Verif.App.AccountsProps
import Verif.App.TransferProps
/-!
# C80: `sync` keeps every operation

and, found by testing the theorems against wrong programs, more of C25, C29, C51 and C60.
-/
namespace Verif.App
open Verif Verif.Txlogs Verif.Txlogs.Spec Verif.Blob Verif.Crypt Verif.App.Spec

/-- Whenever merging with a history of the same file gives a log, it has exactly the operations of both: the prompts can only
end in the union or in a failure. -/
theorem C80_merge_partial (loc rem c : List Tx) (inp rest : Input) (hl : GoodHistory loc) (hr : GoodHistory rem)
    (hs : SameFile loc rem) (hd : Distinguishable loc rem) (h : mergeLogs loc rem inp = (.ok c, rest)) :
    GoodHistory c ∧ ∀ t, t ∈ c ↔ t ∈ loc ∨ t ∈ rem := by
  have hg := (C22_good_partial loc rem inp hl hr hs).2 c (by rw [h])
  refine ⟨hg, ?_⟩
  by_cases hne : rem = []
  · subst hne
    simp only [mergeLogs, if_true, Prod.mk.injEq, Res.ok.injEq] at h
    obtain ⟨rfl, -⟩ := h
    simp
  · cases hm : merge loc rem [] with
    | panic => exact absurd hm (C21_total_partial loc rem (.inr hne))
    | log c' =>
      simp only [mergeLogs, hne, if_false, mergeRounds_log inp hm, Prod.mk.injEq, Res.ok.injEq] at h
      obtain ⟨rfl, -⟩ := h
      exact fun t => C12_merge_is_union_partial loc rem c' hs.ids hd hm t
    | conflicts cs =>
      have hno : ¬ ∃ d x, TouchedAfterDelete loc rem d x := by
        rintro ⟨d, x, htd⟩
        obtain ⟨con, h1, h2, -⟩ := C18_every_entry_named loc rem hl hr hs cs hm d x htd
        obtain ⟨e, he⟩ := C22_never_completes loc rem cs con inp hne hm h1 h2
        rw [h] at he
        cases he
      obtain ⟨w1, w2⟩ := C22_without_deletes_partial loc rem inp hl hr hs hne hno
      by_cases hroot : NoCommonRoot loc rem
      · obtain ⟨w3, w4⟩ := w2 hroot
        cases hy : getYesNo inp with
        | mk b rest' =>
          by_cases hb : b = some true
          · subst hb
            obtain ⟨c', h1, -, h3⟩ := w3 rest' hy
            rw [h] at h1
            cases h1
            exact h3
          · obtain ⟨e, he⟩ := w4 b rest' hy hb
            rw [h] at he
            cases he
      · obtain ⟨c', h1, -, -⟩ := w1 hroot
        rw [hm] at h1
        cases h1

theorem sameFile_union {c a r : List Tx} {rs : List (List Tx)} (h : ∀ t, t ∈ c ↔ t ∈ a ∨ ∃ x ∈ rs, t ∈ x) (ha : SameFile a r)
    (hrs : ∀ x ∈ rs, SameFile x r) : SameFile c r := by
  constructor
  · intro x hx y hy hxy
    rcases (h x).1 hx with hx | ⟨z, hz, hx⟩
    · exact ha.ids x hx y hy hxy
    · exact (hrs z hz).ids x hx y hy hxy
  · intro x hx y hy h1 h2 h3
    rcases (h x).1 hx with hx | ⟨z, hz, hx⟩
    · exact ha.adds x hx y hy h1 h2 h3
    · exact (hrs z hz).adds x hx y hy h1 h2 h3

theorem mergeRemotes_keep (ord : Order) (u : Creds) (log : List Tx) (rs : List Remote) (hf : OneFile log (rs.map Remote.log))
    (ht : Told log (rs.map Remote.log)) :
    ∀ (pre post : List Remote) (m m' : Merged) (inp rest : Input), rs = pre ++ post → GoodHistory m.log →
      (∀ t, t ∈ m.log ↔ t ∈ log ∨ ∃ x ∈ pre, t ∈ x.log) → mergeRemotes ord u post m inp = (.ok m', rest) →
      GoodHistory m'.log ∧ ∀ t, t ∈ m'.log ↔ t ∈ log ∨ ∃ x ∈ rs, t ∈ x.log := by
  intro pre post
  induction post generalizing pre with
  | nil =>
    intro m m' inp rest hrs hg hu h
    simp only [mergeRemotes, Prod.mk.injEq, Res.ok.injEq] at h
    rw [← h.1, hrs]
    simpa using ⟨hg, hu⟩
  | cons r post ih =>
    intro m m' inp rest hrs hg hu h
    simp only [mergeRemotes] at h
    cases h1 : mergeLogs m.log r.log inp with
    | mk x rest1 =>
      rw [h1] at h
      cases x with
      | panic => simp at h
      | err e => simp at h
      | ok merged =>
        simp only at h
        have hr : r ∈ rs := by rw [hrs]; simp
        have hpre : ∀ x ∈ pre, x ∈ rs := fun x hx => by rw [hrs]; simp [hx]
        obtain ⟨hgr, hsr⟩ := hf.remotes r.log (List.mem_map_of_mem hr)
        have hu' : ∀ t, t ∈ m.log ↔ t ∈ log ∨ ∃ x ∈ pre.map Remote.log, t ∈ x := by
          intro t
          rw [hu t]
          refine or_congr Iff.rfl ⟨fun ⟨x, hx, h⟩ => ⟨_, List.mem_map_of_mem hx, h⟩, fun ⟨x, hx, h⟩ => ?_⟩
          obtain ⟨y, hy, rfl⟩ := List.mem_map.1 hx
          exact ⟨y, hy, h⟩
        have hs : SameFile m.log r.log := by
          refine sameFile_union hu' hsr fun x hx => ?_
          obtain ⟨y, hy, rfl⟩ := List.mem_map.1 hx
          exact hf.pairs _ (List.mem_map_of_mem (hpre y hy)) _ (List.mem_map_of_mem hr)
        have hd : Distinguishable m.log r.log :=
          ht (pre.map Remote.log) r.log (post.map Remote.log) m.log (by rw [hrs]; simp) hg.chrono hu'
        obtain ⟨hg', hm'⟩ := C80_merge_partial m.log r.log merged inp rest1 hg hgr hs hd h1
        cases h2 : takeRemote ord u m r merged rest1 with
        | mk y rest2 =>
          rw [h2] at h
          cases y with
          | panic => simp at h
          | err e => simp at h
          | ok take =>
            simp only at h
            refine ih (pre ++ [r]) _ m' rest2 rest (by rw [hrs]; simp) hg' ?_ h
            intro t
            rw [hm' t, hu t]
            simp only [List.mem_append, List.mem_singleton]
            constructor
            · rintro ((h | ⟨x, hx, h⟩) | h)
              · exact .inl h
              · exact .inr ⟨x, .inl hx, h⟩
              · exact .inr ⟨r, .inr rfl, h⟩
            · rintro (h3 | ⟨x, hx | rfl, h3⟩)
              · exact .inl (.inl h3)
              · exact .inl (.inr ⟨x, hx, h3⟩)
              · exact .inr h3

/-- Merging any number of remotes gives exactly the operations of all of them and of the session. -/
theorem C80_blobs_partial (ord : Order) (u : Creds) (log : List Tx) (rs : List Remote) (inp rest : Input) (m : Merged)
    (hf : OneFile log (rs.map Remote.log)) (ht : Told log (rs.map Remote.log))
    (h : mergeBlobs ord u log rs inp = (.ok m, rest)) :
    GoodHistory m.log ∧ ∀ t, t ∈ m.log ↔ t ∈ log ∨ ∃ x ∈ rs, t ∈ x.log :=
  mergeRemotes_keep ord u log rs hf ht [] rs _ m inp rest rfl hf.good (by simp) h

theorem mem_remotes (l : List (Str × Fate × Str)) (r : Remote) : r ∈ remotes l ↔ ∃ uuid h, (uuid, .merge r, h) ∈ l := by
  induction l with
  | nil => simp [remotes]
  | cons x l ih =>
    obtain ⟨uuid, f, h⟩ := x
    cases f with
    | merge r' =>
      simp only [remotes, List.mem_cons, ih, Prod.mk.injEq, Fate.merge.injEq]
      constructor
      · rintro (rfl | ⟨a, b, h1⟩)
        · exact ⟨uuid, h, .inl ⟨rfl, rfl, rfl⟩⟩
        · exact ⟨a, b, .inr h1⟩
      · rintro ⟨a, b, ⟨-, rfl, -⟩ | h1⟩
        · exact .inl rfl
        · exact .inr ⟨a, b, h1⟩
    | skip => simp [remotes, ih]
    | absent => simp [remotes, ih]

/-- Every remote selected is tried, in order. -/
theorem C80_all_tried (P : Prims) (C : Codec) (w : World) (u : Session) (syncs : List Str) (inp rest : Input)
    (l : List (Str × Fate × Str)) (h : pullAll P C w u syncs inp = (some l, rest)) : l.map Prod.fst = syncs := by
  induction syncs generalizing inp l with
  | nil => simp only [pullAll, Prod.mk.injEq, Option.some.injEq] at h; rw [← h.1]; rfl
  | cons uuid syncs ih =>
    unfold pullAll at h
    split at h
    · cases h
    · split at h
      · cases h
      · rename_i hx
        simp only [Prod.mk.injEq, Option.some.injEq] at h
        obtain ⟨rfl, rfl⟩ := h
        simp [ih _ _ hx]

/-- A remote file that is read is merged, unless it looks like the log of the session. -/
theorem C80_pulled (P : Prims) (C : Codec) (w : World) (u : Session) (uuid : Str) (inp rest : Input) (f : Fate) (h : Str)
    (log : List Tx) (hf : Fetched P C w u uuid inp log) (hp : pullOne P C w u uuid inp = (some (f, h), rest)) :
    (∃ r, f = .merge r ∧ r.log = log) ∨ (f = .skip ∧ LooksSame log u.store.log) := by
  obtain ⟨ct, h', i1, ⟨user, pass, p, pt⟩, i2, f1, f2, f3, f4⟩ := hf
  unfold pullOne at hp
  simp only [f1, f2, f4] at f3 f4 hp
  rw [if_neg f3] at hp
  cases hn : noChanges log u.store.log with
  | none => rw [hn] at hp; cases hp
  | some b =>
    rw [hn] at hp
    cases b with
    | true =>
      right
      simp only [Prod.mk.injEq, Option.some.injEq] at hp
      refine ⟨hp.1.1.symm, ?_⟩
      unfold noChanges at hn
      split at hn
      · cases hn
      · rename_i hlen
        simp only [ne_eq, Decidable.not_not] at hlen
        split at hn
        · rename_i a b c d h1 h2 h3 h4
          simp only [Option.some.injEq, decide_eq_true_eq] at hn
          exact ⟨hlen, by rw [h1, h2]; simp [hn.1], by rw [h3, h4]; simp [hn.2]⟩
        · cases hn
    | false =>
      left
      simp only at hp
      split at hp
      · simp only [Prod.mk.injEq, Option.some.injEq] at hp
        exact ⟨_, hp.1.1.symm, rfl⟩
      · cases hp

theorem pullAll_at (P : Prims) (C : Codec) (w : World) (u : Session) (pre post : List Str) (uuid : Str) (inp rest : Input)
    (l : List (Str × Fate × Str)) (h : pullAll P C w u (pre ++ uuid :: post) inp = (some l, rest)) :
    ∃ l0 i0 f k i1, pullAll P C w u pre inp = (some l0, i0) ∧ pullOne P C w u uuid i0 = (some (f, k), i1) ∧
      (uuid, f, k) ∈ l := by
  induction pre generalizing inp l with
  | nil =>
    simp only [List.nil_append, pullAll] at h
    cases hx : pullOne P C w u uuid inp with
    | mk o i1 =>
      cases o with
      | none => rw [hx] at h; cases h
      | some p =>
        obtain ⟨f, k⟩ := p
        rw [hx] at h
        simp only at h
        split at h
        · cases h
        · simp only [Prod.mk.injEq, Option.some.injEq] at h
          exact ⟨[], inp, f, k, i1, rfl, hx, by rw [← h.1]; simp⟩
  | cons a pre ih =>
    simp only [List.cons_append] at h
    unfold pullAll at h
    cases hx : pullOne P C w u a inp with
    | mk o i1 =>
      cases o with
      | none => rw [hx] at h; cases h
      | some p =>
        obtain ⟨f, k⟩ := p
        rw [hx] at h
        simp only at h
        cases hy : pullAll P C w u (pre ++ uuid :: post) i1 with
        | mk o i2 =>
          rw [hy] at h
          cases o with
          | none => cases h
          | some l' =>
            simp only [Prod.mk.injEq, Option.some.injEq] at h
            obtain ⟨l0, i0, f', k', i1', h1, h2, h3⟩ := ih i1 l' (by rw [hy, h.2])
            refine ⟨(a, f, k) :: l0, i0, f', k', i1', ?_, h2, by rw [← h.1]; simp [h3]⟩
            unfold pullAll
            rw [hx]
            simp only [h1]

theorem syncWith_log (P : Prims) (C : Codec) (w : World) (v : SyncEnv) (push : Bool) (u : Session) (syncs : List Str)
    (inp i1 i2 : Input) (l : List (Str × Fate × Str)) (m : Merged) (hl : pullAll P C w u syncs inp = (some l, i1))
    (hm : mergeBlobs v.ord u.creds u.store.log (remotes l) i1 = (.ok m, i2)) :
    m.log <+: (syncWith P C w v push u syncs inp).session.store.log := by
  unfold syncWith
  simp only [hl, hm]
  have hlog := updateSnapshot_log ({ u.store.resetSnapshot with log := m.log } : DB)
  cases hs : ({ u.store.resetSnapshot with log := m.log } : DB).updateSnapshot with
  | mk s e =>
    rw [hs] at hlog
    simp only at hlog
    cases e with
    | some e => simp only [hlog]; exact List.prefix_refl _
    | none =>
      obtain ⟨-, b, -⟩ := pushBack_spec P C w v push (newHosts l []) (targets l) { u with creds := m.creds, store := s } i2
      simp only at b ⊢
      rw [hlog] at b
      exact b

/-- After `sync` merged, the session has every operation it had and every operation of every remote file that was read (unless
that looks like the log of the session and is not). -/
theorem C80_sync_partial (P : Prims) (C : Codec) (w : World) (v : SyncEnv) (push : Bool) (u : Session) (syncs : List Str)
    (inp i1 i2 : Input) (l : List (Str × Fate × Str)) (m : Merged) (hl : pullAll P C w u syncs inp = (some l, i1))
    (hm : mergeBlobs v.ord u.creds u.store.log (remotes l) i1 = (.ok m, i2))
    (hf : OneFile u.store.log ((remotes l).map Remote.log)) (ht : Told u.store.log ((remotes l).map Remote.log)) :
    let r := syncWith P C w v push u syncs inp
    (∀ t ∈ u.store.log, t ∈ r.session.store.log) ∧
    (∀ pre uuid post l0 i0 log, syncs = pre ++ uuid :: post → pullAll P C w u pre inp = (some l0, i0) →
      Fetched P C w u uuid i0 log → Distinguishable log u.store.log → ∀ t ∈ log, t ∈ r.session.store.log) ∧
    (∃ hosts, r.session.store.log = m.log ++ hosts) ∧
    ∀ t ∈ m.log, t ∈ u.store.log ∨ ∃ uuid q h, (uuid, .merge q, h) ∈ l ∧ t ∈ q.log := by
  intro r
  obtain ⟨-, hu⟩ := C80_blobs_partial v.ord u.creds u.store.log (remotes l) i1 i2 m hf ht hm
  have hpre : m.log <+: r.session.store.log := syncWith_log P C w v push u syncs inp i1 i2 l m hl hm
  refine ⟨fun t h => hpre.subset ((hu t).2 (.inl h)), ?_, hpre.imp fun _ h => h.symm, fun t h => ?_⟩
  · intro pre uuid post l0 i0 log hs h0 hfe hd t h
    subst hs
    obtain ⟨l0', i0', f, k, i1', g1, g2, g3⟩ := pullAll_at P C w u pre post uuid inp i1 l hl
    rw [h0] at g1
    cases g1
    rcases C80_pulled P C w u uuid i0 i1' f k log hfe g2 with ⟨q, rfl, rfl⟩ | ⟨-, hsame⟩
    · exact hpre.subset ((hu t).2 (.inr ⟨q, (mem_remotes l q).2 ⟨_, _, g3⟩, h⟩))
    · rw [hd hsame] at h
      exact hpre.subset ((hu t).2 (.inl h))
  · rcases (hu t).1 h with h | ⟨q, hq, h⟩
    · exact .inl h
    · obtain ⟨uuid, k, h1⟩ := (mem_remotes l q).1 hq
      exact .inr ⟨uuid, q, k, h1, h⟩

/-! ## The others -/

/-- C25 (partial: one remote, two files with users): the credentials of the remote are adopted exactly if the record of the user of
the session changed. -/
theorem C25_multi_partial (ord : Order) (u : Creds) (log : List Tx) (r : Remote) (inp rest : Input) (merged : List Tx)
    (m : Merged) (rest' : Input) (uuid : Str) (lu mu : Entry) (hu : u.master ≠ [])
    (hlen : u.master.length = r.creds.master.length) (hne : u.master ≠ r.creds.master)
    (hm : mergeLogs log r.log inp = (.ok merged, rest))
    (hlu : (findUser ord { log := log } u.user).2 = .ok (some (uuid, lu)))
    (hmu : (find { log := merged } uuid).2 = .ok (some mu)) (h : mergeBlobs ord u log [r] inp = (.ok m, rest')) :
    m.log = merged ∧ (val mu keyMKey = val lu keyMKey → m.creds = u) ∧ (val mu keyMKey ≠ val lu keyMKey → m.creds = r.creds) := by
  simp only [mergeBlobs, mergeRemotes, hm, takeRemote, hu, hlen, hne, false_and, if_false, not_true_eq_false, ne_eq,
    not_false_eq_true, if_true, hlu, Option.map_some, Option.getD_some, hmu] at h
  cases h1 : (users ord { log := log }).2 with
  | panic => rw [h1] at h; simp at h
  | err e => rw [h1] at h; simp at h
  | ok us =>
    cases h2 : (users ord { log := merged }).2 with
    | panic => rw [h1, h2] at h; simp at h
    | err e => rw [h1, h2] at h; simp at h
    | ok us' =>
      rw [h1, h2] at h
      simp only [Prod.mk.injEq, Res.ok.injEq, decide_eq_true_eq] at h
      obtain ⟨rfl, -⟩ := h
      refine ⟨rfl, fun he => ?_, fun he => ?_⟩
      · simp [he]
      · simp [Ne.symm he]

/-- So the user of the session can go on opening the file: if their record held the key of the session before, and a record that
the merge changed holds the key of the remote, it now holds the key of the session. -/
theorem C25_multi_opens_partial (ord : Order) (u : Creds) (log : List Tx) (r : Remote) (inp rest : Input) (merged : List Tx)
    (m : Merged) (rest' : Input) (uuid : Str) (lu mu : Entry) (Holds : Str → Str → Prop) (hu : u.master ≠ [])
    (hlen : u.master.length = r.creds.master.length) (hne : u.master ≠ r.creds.master)
    (hm : mergeLogs log r.log inp = (.ok merged, rest))
    (hlu : (findUser ord { log := log } u.user).2 = .ok (some (uuid, lu)))
    (hmu : (find { log := merged } uuid).2 = .ok (some mu)) (h : mergeBlobs ord u log [r] inp = (.ok m, rest'))
    (h0 : Holds (val lu keyMKey) u.master) (h1 : val mu keyMKey ≠ val lu keyMKey → Holds (val mu keyMKey) r.creds.master) :
    Holds (val mu keyMKey) m.creds.master := by
  obtain ⟨-, a, b⟩ := C25_multi_partial ord u log r inp rest merged m rest' uuid lu mu hu hlen hne hm hlu hmu h
  by_cases he : val mu keyMKey = val lu keyMKey
  · rw [a he, he]; exact h0
  · rw [b he]; exact h1 he

theorem newHosts_other (l : List (Str × Fate × Str)) (m : Results) (uuid : Str) (h : uuid ∉ l.map Prod.fst) :
    (newHosts l m).get? uuid = m.get? uuid := by
  induction l generalizing m with
  | nil => rfl
  | cons x l ih =>
    obtain ⟨a, f, k⟩ := x
    simp only [List.map_cons, List.mem_cons, not_or] at h
    simp only [newHosts]
    rw [ih _ h.2]
    split
    · rfl
    · rw [GoMap.get?_set, if_neg h.1]

/-- The hosts to be remembered are exactly those that were accepted. -/
theorem C29_hosts (l : List (Str × Fate × Str)) (hl : (l.map Prod.fst).Nodup) (uuid h : Str) :
    (newHosts l []).get? uuid = some h ↔ h ≠ [] ∧ ∃ f, (uuid, f, h) ∈ l := by
  suffices H : ∀ m : Results, (∀ a ∈ l.map Prod.fst, m.get? a = none) → ((newHosts l m).get? uuid = some h ↔
      m.get? uuid = some h ∨ (h ≠ [] ∧ ∃ f, (uuid, f, h) ∈ l)) by
    simpa [GoMap.get?] using H [] (fun _ _ => rfl)
  intro m hm
  induction l generalizing m with
  | nil => simp [newHosts]
  | cons x l ih =>
    obtain ⟨a, f, k⟩ := x
    simp only [List.map_cons, List.nodup_cons] at hl
    have hma : m.get? a = none := hm a (by simp)
    have hrest : ∀ b ∈ l.map Prod.fst, (if k = [] then m else m.set a k).get? b = none := by
      intro b hb
      split
      · exact hm b (by simp only [List.map_cons]; exact List.mem_cons_of_mem _ hb)
      · rw [GoMap.get?_set, if_neg (fun (e : b = a) => hl.1 (e ▸ hb))]
        exact hm b (by simp only [List.map_cons]; exact List.mem_cons_of_mem _ hb)
    simp only [newHosts, List.mem_cons, Prod.mk.injEq]
    rw [ih hl.2 _ hrest]
    by_cases hk : k = []
    · subst hk
      simp only [if_true]
      constructor
      · rintro (h1 | ⟨h1, g, h2⟩)
        · exact .inl h1
        · exact .inr ⟨h1, g, .inr h2⟩
      · rintro (h1 | ⟨h1, g, ⟨-, -, h2⟩ | h2⟩)
        · exact .inl h1
        · exact absurd h2 h1
        · exact .inr ⟨h1, g, h2⟩
    · simp only [hk, if_false]
      rw [GoMap.get?_set]
      by_cases hua : uuid = a
      · subst hua
        simp only [if_true, hma, Option.some.injEq, reduceCtorEq, false_or]
        constructor
        · rintro (rfl | ⟨h1, g, h2⟩)
          · exact ⟨hk, f, .inl ⟨trivial, rfl, rfl⟩⟩
          · exact ⟨h1, g, .inr h2⟩
        · rintro ⟨h1, g, ⟨-, -, h2⟩ | h2⟩
          · exact .inl h2.symm
          · exact .inr ⟨h1, g, h2⟩
      · simp only [hua, if_false]
        constructor
        · rintro (h1 | ⟨h1, g, h2⟩)
          · exact .inl h1
          · exact .inr ⟨h1, g, .inr h2⟩
        · rintro (h1 | ⟨h1, g, ⟨h2, -⟩ | h2⟩)
          · exact .inl h1
          · exact absurd h2 (by simp)
          · exact .inr ⟨h1, g, h2⟩

/-- Output that does not begin with the header of Lastpass is refused, nothing is imported. -/
theorem C60_header (toLower : Str → Str) (ord : Order) (ds : Nat → Draw) (s : DB) (out : Str) (r : List Str)
    (rs : List (List Str)) (eof : Bool) (hout : Csv.read out = (r :: rs, eof)) (hr : join comma r ≠ lastpassHeader) :
    importCsv toLower ord ds s out = (s, .err .csv) := by
  simp [importCsv, hout, headerOk, hr]

/-- Into a file that was there before, an import is made exactly if the answer is `y` or `Y`. -/
theorem C60_consent (toLower : Str → Str) (ord : Order) (ds : Nat → Draw) (out : Option Str) (u : Session) (inp : Input) :
    (inp = [] ∨ inp.head? = some none → importLastpass toLower ord ds false out u inp = (u, .err .aborted)) ∧
    ∀ line rest, inp = some line :: rest →
      (line = b! "y" ∨ line = b! "Y" →
        importLastpass toLower ord ds false out u inp = importLastpass toLower ord ds true out u inp) ∧
      (line ≠ b! "y" → line ≠ b! "Y" → importLastpass toLower ord ds false out u inp = (u, .ok ())) := by
  constructor
  · rintro (rfl | h)
    · rfl
    · cases inp with
      | nil => rfl
      | cons a inp =>
        simp only [List.head?_cons, Option.some.injEq] at h
        subst h
        rfl
  · rintro line rest rfl
    constructor
    · intro h
      simp only [importLastpass, prompt, Bool.false_eq_true, if_false, if_pos h, if_true]
    · intro h1 h2
      simp only [importLastpass, prompt, Bool.false_eq_true, if_false, h1, h2, or_self]

/-- A new file is made exactly if the same password is typed twice and is not empty; its key belongs to that password. -/
theorem C51_create (P : Prims) (history : Option Int) (salt : Str) (inp rest : Input) (u : Session) :
    createFile P history salt inp = (.ok u, rest) ↔ ∃ pass, pass ≠ [] ∧ inp = some pass :: some pass :: rest ∧
      u = { creds := { key := P.kdf pass salt, salt := salt }, store := {}, readOnly := history.isSome, startTx := 0 } := by
  constructor
  · intro h
    cases inp with
    | nil => cases h
    | cons a inp =>
      cases a with
      | none => cases h
      | some pass =>
        simp only [createFile, prompt] at h
        split at h
        · cases h
        · rename_i hp
          cases inp with
          | nil => cases h
          | cons a inp =>
            cases a with
            | none => cases h
            | some verify =>
              simp only at h
              split at h
              · cases h
              · rename_i hv
                simp only [ne_eq, Decidable.not_not] at hv
                subst hv
                simp only [deriveKey, ne_eq, not_true_eq_false, if_false, Prod.mk.injEq, Res.ok.injEq] at h
                obtain ⟨rfl, rfl⟩ := h
                exact ⟨pass, hp, rfl, rfl⟩
  · rintro ⟨pass, hp, rfl, rfl⟩
    simp [createFile, prompt, hp, deriveKey]

/-- `adduser` with a name that is taken changes nothing. -/
theorem C51_taken (P : Prims) {ord : Order} (hord : ∀ m, (ord m).Perm m) {d : Draw} {u : Session} (hg : Good u.store)
    {user : Str} (hfresh : ¬ Exists u.store d.uuid) (h : ∃ v, IsUser u.store v user) :
    (adduser P ord d u user).1.creds = u.creds ∧ (adduser P ord d u user).1.store.log = u.store.log ∧
      (adduser P ord d u user).1.readOnly = u.readOnly := by
  rw [adduser_taken P hord hg hfresh h]
  exact ⟨rfl, updateSnapshot_log _, rfl⟩

/-! ## The hypotheses can be met -/

namespace KeepDemo
open Verif.App.SyncDemo
open Verif.Crypt.Spec (toy toy_lawful)

theorem kinds {l : List Tx} (h : l.all (fun t => match t.kind with | .other _ => false | _ => true) = true) : KnownKinds l := by
  intro t ht s hs
  have := List.all_eq_true.1 h t ht
  rw [hs] at this
  cases this

theorem good {l : List Tx} (h1 : Chrono l) (h2 : Replays l)
    (h3 : l.all (fun t => match t.kind with | .other _ => false | _ => true) = true) (h4 : AddsOnce l) : GoodHistory l :=
  ⟨h1, h2, kinds h3, h4⟩

instance (l : List Tx) : Decidable (Chrono l) := by unfold Chrono; infer_instance
instance (l : List Tx) : Decidable (AddsOnce l) := by unfold AddsOnce; infer_instance
instance (a b : List Tx) : Decidable (SameIds a b) := by unfold SameIds; infer_instance
instance (l : List Tx) : Decidable (Replays l) := by unfold Replays; infer_instance

theorem goodA : GoodHistory logA := good (by decide +kernel) (by decide +kernel) (by decide +kernel) (by decide +kernel)
theorem goodB : GoodHistory logB := good (by decide +kernel) (by decide +kernel) (by decide +kernel) (by decide +kernel)
theorem sameAB : SameFile logA logB := ⟨by decide +kernel, by decide +kernel⟩
theorem sameBB : SameFile logB logB := ⟨by decide +kernel, by decide +kernel⟩

theorem oneFile : OneFile logA [logB] := by
  refine ⟨goodA, ?_, ?_⟩
  · intro r hr
    rw [List.mem_singleton] at hr
    subst hr
    exact ⟨goodB, sameAB⟩
  · intro r hr r' hr'
    rw [List.mem_singleton] at hr hr'
    subst hr hr'
    exact sameBB

theorem early : ∀ t ∈ logA, t.time < 9 := by decide +kernel

theorem told : Told logA [logB] := by
  intro pre r post c h hc hu hs
  have hpre : pre = [] := by
    cases pre with
    | nil => rfl
    | cons a pre => cases pre <;> simp at h
  subst hpre
  simp only [List.nil_append, List.cons.injEq] at h
  obtain ⟨rfl, -⟩ := h
  exfalso
  obtain ⟨-, -, h3⟩ := hs
  cases hl : c.getLast? with
  | none => rw [hl] at h3; revert h3; decide +kernel
  | some t =>
    have ht := early t (by simpa using (hu t).1 (List.mem_of_getLast? hl))
    rw [hl] at h3
    have h4 : logB.getLast?.map Tx.time = some 9 := by decide +kernel
    rw [h4] at h3
    simp only [Option.map_some, Option.some.injEq] at h3
    omega

-- C80_sync_partial: two remotes, the second of which brings an operation
example : let s : Session := { u with store := u.store.updateSnapshot.1 }
    ∃ l m, pullAll toy C w s [[97], [98]] [] = (some l, []) ∧ mergeBlobs v.ord s.creds s.store.log (remotes l) [] = (.ok m, []) ∧
      OneFile s.store.log ((remotes l).map Remote.log) ∧ Told s.store.log ((remotes l).map Remote.log) :=
  ⟨_, _, pulls, merges, oneFile, told⟩

-- C80_merge_partial
example : ∃ c, mergeLogs logA logB [] = (.ok c, []) ∧ SameFile logA logB ∧ Distinguishable logA logB :=
  ⟨logB, by decide +kernel, sameAB, told [] logB [] logA rfl goodA.chrono (by simp)⟩

-- C29_hosts: one host was accepted
example : let l : List (Str × Fate × Str) := [([97], .absent, [1]), ([98], .skip, [])]
    (l.map Prod.fst).Nodup ∧ newHosts l [] = [([97], [1])] := by decide

-- C60_header
example : ∃ r rs eof, Csv.read (b! "a,b\n") = (r :: rs, eof) ∧ join comma r ≠ lastpassHeader :=
  ⟨[b! "a", b! "b"], [], true, by decide +kernel, by decide +kernel⟩

-- C51_create
example : ∃ u rest, createFile toy none [] [some [1], some [1]] = (.ok u, rest) :=
  ⟨_, _, (C51_create toy none [] _ [] _).2 ⟨[1], by decide, rfl, rfl⟩⟩

/-- a user entry whose record holds the key `k` -/
def userOps (t : Int) (k : Str) : List Tx :=
  [⟨1, .add, [97], [], []⟩, ⟨2, .setk, [97], keyName, userPrefix ++ [109]⟩, ⟨t, .setk, [97], keyMKey, k⟩]

def me : Creds := { user := [109], master := [1] }
def other : Remote := { creds := { user := [109], master := [2] }, log := userOps 3 [1] ++ [⟨4, .setk, [97], keyMKey, [2]⟩] }

-- C25_multi_partial: the record was changed at the remote, its credentials are adopted
example : mergeLogs (userOps 3 [1]) other.log [] = (.ok other.log, []) ∧
    (∃ lu, (findUser id { log := userOps 3 [1] } me.user).2 = .ok (some ([97], lu)) ∧ val lu keyMKey = [1]) ∧
    (∃ mu, (find { log := other.log } [97]).2 = .ok (some mu) ∧ val mu keyMKey = [2]) ∧
    mergeBlobs id me (userOps 3 [1]) [other] [] = (.ok ⟨other.creds, other.log⟩, []) := by
  refine ⟨by decide +kernel, ⟨[(keyName, userPrefix ++ [109]), (keyMKey, [1])], ?_, ?_⟩,
    ⟨[(keyName, userPrefix ++ [109]), (keyMKey, [2])], ?_, ?_⟩, ?_⟩ <;> decide +kernel

end KeepDemo

end Verif.App
