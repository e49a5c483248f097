import Verif.App.LockoutSpec
import Verif.App.HistoryLemmas3
import Verif.App.SharedLemmas
/-!
# Facts about the records of users in histories
-/
set_option linter.unusedSimpArgs false
namespace Verif.App
open Verif Verif.Txlogs Verif.Blob Verif.Crypt Verif.App.Spec
open Verif.Txlogs.Spec (GoodHistory Replays KnownKinds AddsOnce)

/-- a value stays if nothing writes it -/
theorem value_fixed {u k : Str} : ∀ (l : List Tx) (st st' : Spec.State) (e e' : Str → Option Str),
    Spec.meaning st l = some st' → st u = some e → st' u = some e' →
    (∀ t ∈ l, t.kind = .add → t.uuid ≠ u) → (∀ t ∈ l, t.kind = .setk ∨ t.kind = .delk → t.uuid = u → t.key ≠ k) → e' k = e k := by
  intro l
  induction l with
  | nil => intro st st' e e' h h1 h3 _ _; cases h; rw [h1] at h3; cases h3; rfl
  | cons x l ih =>
    intro st st' e e' h h1 h3 hadd hset
    simp only [Spec.meaning] at h
    cases ha : Spec.apply st x with
    | none => rw [ha] at h; cases h
    | some st1 =>
      rw [ha] at h
      have hadd' : ∀ t ∈ l, t.kind = .add → t.uuid ≠ u := fun t ht => hadd t (by simp [ht])
      have hset' : ∀ t ∈ l, t.kind = .setk ∨ t.kind = .delk → t.uuid = u → t.key ≠ k := fun t ht => hset t (by simp [ht])
      by_cases hx : x.uuid = u
      · subst hx
        have hs := hset x (by simp)
        unfold Spec.apply at ha
        cases hk : x.kind <;> rw [hk, h1] at ha <;> simp only [Option.some.injEq, reduceCtorEq] at ha <;> subst ha
        · have := absent_stays l _ st' h (by simp [Spec.upd]) hadd'
          rw [this] at h3; cases h3
        · rw [ih _ st' _ e' h (if_pos rfl) h3 hadd' hset']
          exact if_neg (fun hkk => hs (.inl hk) rfl hkk.symm)
        · rw [ih _ st' _ e' h (if_pos rfl) h3 hadd' hset']
          exact if_neg (fun hkk => hs (.inr hk) rfl hkk.symm)
        · exact ih _ st' e e' h h1 h3 hadd' hset'
      · exact ih st1 st' e e' h (by rw [apply_other hx ha]; exact h1) h3 hadd' hset'

/-- what was written last is there -/
theorem last_written {l : List Tx} (h : GoodHistory l) {st : Spec.State} (hm : Spec.meaning Spec.empty l = some st) {u k : Str}
    {e : Str → Option Str} (he : st u = some e) {t : Tx} (ht : t ∈ l) (hk : t.kind = .setk) (hu : t.uuid = u) (hkey : t.key = k)
    (hlast : ∀ t' ∈ l, t'.kind = .setk ∨ t'.kind = .delk → t'.uuid = u → t'.key = k → t' = t ∨ t'.time < t.time) :
    e k = some t.value := by
  obtain ⟨a, b, rfl⟩ := List.append_of_mem ht
  have hlater : ∀ t' ∈ b, t.time < t'.time := by
    intro t' ht'
    have := (List.pairwise_append.1 h.chrono).2.1
    exact (List.pairwise_cons.1 this).1 t' ht'
  rw [meaning_append] at hm
  cases hma : Spec.meaning Spec.empty a with
  | none => rw [hma] at hm; cases hm
  | some st1 =>
    rw [hma] at hm
    simp only [Option.bind_some, Spec.meaning] at hm
    cases hap : Spec.apply st1 t with
    | none => rw [hap] at hm; cases hm
    | some st2 =>
      rw [hap] at hm
      unfold Spec.apply at hap
      rw [hk, hu] at hap
      cases hst : st1 u with
      | none => rw [hst] at hap; cases hap
      | some e1 =>
        rw [hst] at hap
        simp only [Option.some.injEq] at hap
        have hadd : ∀ t' ∈ b, t'.kind = .add → t'.uuid ≠ u := by
          intro t' ht' htk htu
          rcases visible_added a _ st1 hma (by rw [hst]; rfl) with h1 | ⟨z, hz, hzk, hzu⟩
          · cases h1
          · have := h.addsOnce z (by simp [hz]) t' (by simp [ht']) hzk htk (hzu.trans htu.symm)
            subst this
            exact chrono_nodup (a := a) (b := t :: b) h.chrono hz (by simp [ht'])
        rw [value_fixed b st2 st _ e hm (by rw [← hap]; exact if_pos rfl) he hadd]
        · simp [Spec.upd, hkey]
        · intro t' ht' h1 h2 h3
          have := hlater t' ht'
          rcases hlast t' (by simp [ht']) h1 h2 h3 with h4 | h4
          · subst h4; omega
          · omega

/-! ## Records -/

theorem exists_max (rs : List Rec) (x : Str) (h : ∃ r ∈ rs, r.uuid = x) :
    ∃ r ∈ rs, r.uuid = x ∧ ∀ r' ∈ rs, r'.uuid = x → r'.t2 ≤ r.t2 := by
  induction rs with
  | nil => obtain ⟨r, hr, -⟩ := h; cases hr
  | cons a rs ih =>
    by_cases hr : ∃ r ∈ rs, r.uuid = x
    · obtain ⟨r, h1, h2, h3⟩ := ih hr
      by_cases ha : a.uuid = x ∧ r.t2 < a.t2
      · refine ⟨a, by simp, ha.1, fun r' hr' hu => ?_⟩
        rcases List.mem_cons.1 hr' with rfl | hr'
        · exact Int.le_refl _
        · have := h3 r' hr' hu
          omega
      · refine ⟨r, by simp [h1], h2, fun r' hr' hu => ?_⟩
        rcases List.mem_cons.1 hr' with rfl | hr'
        · apply Classical.byContradiction
          intro h
          exact ha ⟨hu, by omega⟩
        · exact h3 r' hr' hu
    · obtain ⟨r, h1, h2⟩ := h
      rcases List.mem_cons.1 h1 with rfl | h1
      · refine ⟨r, by simp, h2, fun r' hr' hu => ?_⟩
        rcases List.mem_cons.1 hr' with rfl | hr'
        · exact Int.le_refl _
        · exact absurd ⟨r', hr', hu⟩ hr
      · exact absurd ⟨r, h1, h2⟩ hr

theorem newest_exists {P : Prims} {M : Str} {l : List Tx} {rs : List Rec} (h : Keyring P M l rs) {x : Str}
    (hx : ∃ r ∈ rs, r.uuid = x) : ∃ r, Newest rs r ∧ r.uuid = x := by
  obtain ⟨r, h1, h2, h3⟩ := exists_max rs x hx
  refine ⟨r, ⟨h1, fun r' hr' hu => ?_⟩, h2⟩
  rcases h.apart r' hr' r h1 hu with h4 | h4 | h4
  · exact .inl h4
  · exact .inr h4
  · have h5 := h3 r' hr' (hu.trans h2)
    have h6 := (h.unlocks r' hr').first
    have h7 := (h.unlocks r' hr').second
    omega

theorem newest_eq {rs : List Rec} {P : Prims} {M : Str} (hu : ∀ r ∈ rs, Unlocks P M r) {r r' : Rec} (h : Newest rs r)
    (h' : Newest rs r') (hx : r.uuid = r'.uuid) : r = r' := by
  rcases h.2 r' h'.1 hx.symm with h1 | h1
  · exact h1.symm
  · rcases h'.2 r h.1 hx with h2 | h2
    · exact h2
    · have a1 := (hu r h.1).first
      have a2 := (hu r h.1).second
      have a3 := (hu r' h'.1).first
      have a4 := (hu r' h'.1).second
      omega

theorem ops_cases {r : Rec} {t : Tx} (h : t ∈ r.ops) :
    t = ⟨r.t0, .setk, r.uuid, keySalt, hexEncode r.salt⟩ ∨ t = ⟨r.t1, .setk, r.uuid, keyIV, hexEncode r.iv⟩ ∨
      t = ⟨r.t2, .setk, r.uuid, keyMKey, hexEncode r.mkey⟩ := by
  simpa [Rec.ops] using h

/-- the record of a user is the one written last -/
theorem keyring_holds {P : Prims} {M : Str} {l : List Tx} {rs : List Rec} (hg : GoodHistory l) (h : Keyring P M l rs)
    {st : Spec.State} (hm : Spec.meaning Spec.empty l = some st) {r : Rec} (hr : Newest rs r) {e : Str → Option Str}
    (he : st r.uuid = some e) : Holds e r.salt r.iv r.mkey := by
  have hu := h.unlocks r hr.1
  have hw := h.written r hr.1
  have n1 : keySalt ≠ keyIV := by decide
  have n2 : keySalt ≠ keyMKey := by decide
  have n3 : keyIV ≠ keyMKey := by decide
  have key : ∀ t ∈ r.ops, e t.key = some t.value := by
    intro t ht
    have hlast : ∀ t' ∈ l, t'.kind = .setk ∨ t'.kind = .delk → t'.uuid = r.uuid → t'.key = t.key → t' = t ∨ t'.time < t.time := by
      intro t' ht' hk hu' hkey
      have hmem : t'.key ∈ recordKeys := by
        rw [hkey]
        rcases ops_cases ht with rfl | rfl | rfl <;> simp [recordKeys]
      obtain ⟨r', hr', ho⟩ := h.only t' ht' hk hmem
      have huu : r'.uuid = r.uuid := by
        rw [← hu']
        rcases ops_cases ho with rfl | rfl | rfl <;> rfl
      have hv := h.unlocks r' hr'
      have a1 := hu.first
      have a2 := hu.second
      have a3 := hv.first
      have a4 := hv.second
      rcases hr.2 r' hr' huu with h1 | h1
      · subst h1
        left
        rcases ops_cases ho with rfl | rfl | rfl <;> rcases ops_cases ht with rfl | rfl | rfl <;>
          first
          | rfl
          | exact absurd hkey n1
          | exact absurd hkey n2
          | exact absurd hkey n3
          | exact absurd hkey.symm n1
          | exact absurd hkey.symm n2
          | exact absurd hkey.symm n3
      · right
        rcases ops_cases ho with rfl | rfl | rfl <;> rcases ops_cases ht with rfl | rfl | rfl <;> simp only <;> omega
    have h1 : t.kind = .setk ∧ t.uuid = r.uuid := by
      rcases ops_cases ht with rfl | rfl | rfl <;> exact ⟨rfl, rfl⟩
    exact last_written hg hm he (hw t ht) h1.1 h1.2 rfl hlast
  have k1 := key ⟨r.t0, .setk, r.uuid, keySalt, hexEncode r.salt⟩ (by simp [Rec.ops])
  have k2 := key ⟨r.t1, .setk, r.uuid, keyIV, hexEncode r.iv⟩ (by simp [Rec.ops])
  have k3 := key ⟨r.t2, .setk, r.uuid, keyMKey, hexEncode r.mkey⟩ (by simp [Rec.ops])
  simp only at k1 k2 k3
  refine ⟨?_, ?_, ?_, hu.salt_length, hu.iv_length, hu.mkey_length⟩
  · rw [k1]; exact hexDecode_hexEncode _
  · rw [k2]; exact hexDecode_hexEncode _
  · rw [k3]; exact hexDecode_hexEncode _

theorem isUser_uuid {s : DB} {uuid user : Str} (h : IsUser s uuid user) :
    ∃ x ∈ s.log, x.kind = .setk ∧ x.uuid = uuid ∧ x.key = keyName ∧ x.value = userPrefix ++ user := by
  obtain ⟨e, ⟨st, hm, he⟩, hn⟩ := h
  rcases value_written s.log _ st e hm he hn with ⟨_, h4, -⟩ | h4
  · cases h4
  · exact h4

theorem isUser_userUuid {s : DB} {uuid user : Str} (h : IsUser s uuid user) : UserUuid s.log uuid := by
  obtain ⟨x, hx, h1, h2, h3, h4⟩ := isUser_uuid h
  exact ⟨x, hx, h1, h2, h3, by rw [h4]; exact user_prefix _⟩

/-- everybody can open the file with the password set last -/
theorem keyring_opens {P : Prims} {M : Str} {s : DB} {rs : List Rec} (hg : GoodHistory s.log) (h : Keyring P M s.log rs)
    {uuid user : Str} (hu : IsUser s uuid user) :
    ∃ r, Newest rs r ∧ r.uuid = uuid ∧ Opens P s M user r.pass r.salt := by
  obtain ⟨r, hr, hru⟩ := newest_exists h (h.each uuid (isUser_userUuid hu))
  obtain ⟨x, hx, h1, h2, h3, h4⟩ := isUser_uuid hu
  have hne : user ≠ [] := by
    intro h0
    refine h.names x hx h1 h3 ?_
    rw [h4, h0, List.append_nil]
  obtain ⟨e, ⟨st, hm, he⟩, hn⟩ := hu
  subst hru
  have hh := keyring_holds hg h hm hr he
  exact ⟨r, hr, rfl, (h.unlocks r hr.1).pass_ne, hne, r.uuid, e, r.iv, r.mkey, ⟨st, hm, he⟩, hn, hh, (h.unlocks r hr.1).wraps⟩

/-- ... and it can be saved -/
theorem keyring_wf {P : Prims} {M : Str} {s : DB} {rs : List Rec} (hw : WellFormed s) (hg : GoodHistory s.log)
    (h : Keyring P M s.log rs) (hr : Roomy P s.log) (hs : ∃ uuid user, IsUser s uuid user) : WfUsers P s := by
  refine ⟨hs, ?_, ?_, ?_⟩
  · intro us hnd hus
    refine hr.few us hnd fun uuid hm => ?_
    obtain ⟨user, hu⟩ := hus uuid hm
    exact isUser_userUuid hu
  · intro uuid e user hv hn
    obtain ⟨r, hnew, hru, ho, hne, -⟩ := keyring_opens hg h (uuid := uuid) (user := user) ⟨e, hv, hn⟩
    obtain ⟨st, hm, he⟩ := hv
    subst hru
    exact ⟨hne, r.salt, r.iv, r.mkey, keyring_holds hg h hm hnew he⟩
  · intro uuid uuid' user user' h1 h2 hsha
    obtain ⟨x, hx, a1, a2, a3, a4⟩ := isUser_uuid h1
    obtain ⟨y, hy, b1, b2, b3, b4⟩ := isUser_uuid h2
    have := hr.hash x hx y hy user user' a1 b1 a3 b3 a4 b4 hsha
    subst this
    exact hw.unique uuid uuid' _ h1 h2

theorem keyring_append {P : Prims} {M : Str} {a b : List Tx} {ra rb : List Rec} (ha : Keyring P M a ra) (hb : Keyring P M b rb)
    (hab : Apart ra rb) : Keyring P M (a ++ b) (ra ++ rb) := by
  refine ⟨?_, ?_, ?_, ?_, ?_, ?_⟩
  · intro r hr
    exact (List.mem_append.1 hr).elim (ha.unlocks r) (hb.unlocks r)
  · intro r hr t ht
    rcases List.mem_append.1 hr with h | h
    · exact List.mem_append.2 (.inl (ha.written r h t ht))
    · exact List.mem_append.2 (.inr (hb.written r h t ht))
  · intro t ht hk hkey
    rcases List.mem_append.1 ht with h | h
    · obtain ⟨r, hr, ho⟩ := ha.only t h hk hkey
      exact ⟨r, List.mem_append.2 (.inl hr), ho⟩
    · obtain ⟨r, hr, ho⟩ := hb.only t h hk hkey
      exact ⟨r, List.mem_append.2 (.inr hr), ho⟩
  · intro r hr r' hr' hu
    rcases List.mem_append.1 hr with h | h <;> rcases List.mem_append.1 hr' with h' | h'
    · exact ha.apart r h r' h' hu
    · exact hab r h r' h' hu
    · rcases hab r' h' r h hu.symm with h1 | h1 | h1
      · exact .inl h1.symm
      · exact .inr (.inr h1)
      · exact .inr (.inl h1)
    · exact hb.apart r h r' h' hu
  · rintro uuid ⟨t, ht, h1⟩
    rcases List.mem_append.1 ht with h | h
    · obtain ⟨r, hr, hu⟩ := ha.each uuid ⟨t, h, h1⟩
      exact ⟨r, List.mem_append.2 (.inl hr), hu⟩
    · obtain ⟨r, hr, hu⟩ := hb.each uuid ⟨t, h, h1⟩
      exact ⟨r, List.mem_append.2 (.inr hr), hu⟩
  · intro t ht
    exact (List.mem_append.1 ht).elim (ha.names t) (hb.names t)

theorem keyring_hosts {P : Prims} {M : Str} {all l : List Tx} {rs : List Rec} (h : Keyring P M all rs) (h1 : ∀ t ∈ all, t ∈ l)
    (h2 : ∀ t ∈ l, t ∈ all ∨ HostOp t) : Keyring P M l rs := by
  have hk : ∀ t ∈ l, t.key ≠ keyKnownHosts → t ∈ all := fun t ht hk => (h2 t ht).resolve_right (fun h => hk h.2)
  have hn : keyName ≠ keyKnownHosts := by decide
  have hrk : ∀ k ∈ recordKeys, k ≠ keyKnownHosts := by decide
  refine ⟨h.unlocks, fun r hr t ht => h1 t (h.written r hr t ht), ?_, h.apart, ?_, ?_⟩
  · intro t ht hkind hkey
    exact h.only t (hk t ht (hrk _ hkey)) hkind hkey
  · rintro uuid ⟨t, ht, a, b, c, d⟩
    exact h.each uuid ⟨t, hk t ht (by rw [c]; exact hn), a, b, c, d⟩
  · intro t ht a b
    exact h.names t (hk t ht (by rw [b]; exact hn)) a b

theorem keyring_flatten {P : Prims} {M : Str} {a : List Tx} {ra : List Rec} (ha : Keyring P M a ra) (rsOf : Remote → List Rec) :
    ∀ (l : List Remote), (∀ q ∈ l, Keyring P M q.log (rsOf q)) → (∀ q ∈ l, Apart ra (rsOf q)) →
      (∀ q ∈ l, ∀ q' ∈ l, Apart (rsOf q) (rsOf q')) →
      Keyring P M (a ++ (l.map Remote.log).flatten) (ra ++ (l.map rsOf).flatten) := by
  intro l
  induction l generalizing a ra with
  | nil => intro _ _ _; simpa using ha
  | cons q l ih =>
    intro h1 h2 h3
    have := ih (keyring_append ha (h1 q (by simp)) (h2 q (by simp))) (fun q' h => h1 q' (by simp [h]))
      (by
        intro q' h r hr
        rcases List.mem_append.1 hr with h' | h'
        · exact h2 q' (by simp [h]) r h'
        · exact h3 q (by simp) q' (by simp [h]) r h')
      (fun q' h q'' h' => h3 q' (by simp [h]) q'' (by simp [h']))
    simpa using this

/-! ## Credentials -/

theorem mergeRemotes_keeps {ord : Order} {u : Creds} (good : Creds → Prop) : ∀ (rs : List Remote) (m m' : Merged) (inp rest : Input),
    mergeRemotes ord u rs m inp = (.ok m', rest) → good m.creds → (∀ q ∈ rs, good q.creds) → good m'.creds := by
  intro rs
  induction rs with
  | nil => intro m m' inp rest h hm _; cases h; exact hm
  | cons q rs ih =>
    intro m m' inp rest h hm hq
    simp only [mergeRemotes] at h
    split at h
    · cases h
    · cases h
    · split at h
      · cases h
      · cases h
      · refine ih _ m' _ rest h ?_ (fun q' h => hq q' (by simp [h]))
        simp only
        split
        · exact hq q (by simp)
        · exact hm

theorem syncWith_creds {P : Prims} {C : Codec} {w : World} {v : SyncEnv} {push : Bool} {u : Session} {syncs : List Str} {inp : Input}
    (good : Creds → Prop) (hu : good u.creds)
    (hq : ∀ l rest, pullAll P C w u syncs inp = (some l, rest) → ∀ q ∈ remotes l, good q.creds) :
    good (syncWith P C w v push u syncs inp).session.creds := by
  simp only [syncWith]
  cases hl : pullAll P C w u syncs inp with
  | mk o i1 =>
    cases o with
    | none => exact hu
    | some l =>
      simp only
      cases hm : mergeBlobs v.ord u.creds u.store.log (remotes l) i1 with
      | mk o i2 =>
        cases o with
        | panic => exact hu
        | err e => exact hu
        | ok m =>
          have hc := mergeRemotes_keeps good _ _ _ _ _ hm hu (hq l i1 hl)
          simp only
          cases hs : ({ u.store.resetSnapshot with log := m.log } : DB).updateSnapshot with
          | mk s e =>
            cases e with
            | some e => exact hc
            | none =>
              simp only [pushBack]
              repeat' split
              all_goals exact hc

theorem sync_creds {P : Prims} {C : Codec} {w : World} {v : SyncEnv} {nm : Str} {push : Bool} {u : Session} {inp : Input}
    (good : Creds → Prop) (hu : good u.creds)
    (hq : ∀ syncs l rest, Selected w v u nm syncs →
      pullAll P C w { u with store := u.store.updateSnapshot.1 } syncs inp = (some l, rest) → ∀ q ∈ remotes l, good q.creds) :
    good (sync P C w v nm push u inp).session.creds := by
  cases hs : u.store.updateSnapshot with
  | mk s e =>
    cases e with
    | some e => simp only [sync, hs]; exact hu
    | none =>
      by_cases hn : nm = []
      · have : sync P C w v nm push u inp =
            syncWith P C w v push { u with store := s } (collectSyncs w v.ord s) inp := by
          simp only [sync, hs, hn, ne_eq, not_true, if_false]
        rw [this]
        refine syncWith_creds good hu fun l rest hl => hq _ l rest ⟨fun _ => rfl, fun h => absurd hn h⟩ ?_
        simp only [hs]; exact hl
      · have hst := findByName_store (ord := v.ord) (update_again hs) nm
        cases hf : findByName v.ord s nm with
        | mk s1 r =>
          rw [hf] at hst
          simp only at hst
          subst hst
          simp only [sync, hs, ne_eq, hn, not_false_eq_true, if_true, hf]
          rcases r with (_ | ⟨uuid, _⟩) | _ | _
          · exact hu
          · simp only
            by_cases hu' : uuid = []
            · rw [if_pos hu']; exact hu
            · rw [if_neg hu']
              refine syncWith_creds good hu fun l rest hl => hq [uuid] l rest ⟨fun h => absurd h hn, fun _ => ⟨uuid, hu', rfl⟩⟩ ?_
              simp only [hs]; exact hl
          · exact hu
          · exact hu

end Verif.App
