import Verif.App.SessionSpec
import Verif.App.MergingProps
import Verif.Crypt.Props
/-!
# Helper lemmas about sessions
-/
set_option linter.unusedSimpArgs false
namespace Verif.App
open Verif Verif.Txlogs Verif.Blob Verif.Crypt Verif.App.Spec

theorem indexOf_prefix (p s : Str) : indexOf (p ++ s) p = some 0 := by
  have h : hasPrefix (p ++ s) p = true := (hasPrefix_iff _ _).2 ⟨s, rfl⟩
  cases hp : p ++ s with
  | nil =>
    have := (List.append_eq_nil_iff.1 hp).1
    subst this
    rfl
  | cons c r => rw [hp] at h; simp [indexOf, h]

theorem splitUsername_prefix (user : Str) : splitUsername (userPrefix ++ user) = user := by
  simp [splitUsername, indexOf_prefix]

/-- `Users` in a readable store -/
theorem users_spec {ord : Order} (hord : ∀ m, (ord m).Perm m) {s : DB} (h : Good s) :
    ∃ us, users ord s = (s.updateSnapshot.1, .ok us) ∧ Fresh s.updateSnapshot.1 ∧ s.updateSnapshot.1.log = s.log ∧
      GoMap.NodupKeys us ∧ ∀ uuid n, us.get? uuid = some n ↔ Blob.Spec.Named s uuid n ∧ hasPrefix n userPrefix = true := by
  obtain ⟨-, hf, hg, hl⟩ := good_withSnapshot h (fun s => ((s, .panic) : Out Str))
  unfold users
  rw [(good_withSnapshot h _).1]
  have hn := good_names hg hf (hord s.updateSnapshot.1.snapshot)
  obtain ⟨us, hus⟩ := collect_some (fun e => (name e).map isUserEntry) (ord s.updateSnapshot.1.snapshot) []
    (fun p hp => by have := hn p hp; simpa using this) hn
  rw [hus]
  refine ⟨us, rfl, hf, hl, collect_nodup _ _ _ _ GoMap.nodupKeys_nil hus, ?_⟩
  intro uuid n
  rw [collect_spec _ _ _ (order_nodup hf.nodup (hord _)) hus, ← named_log hl, named_fresh hf]
  constructor
  · rintro ⟨e, e1, e2, e3⟩
    have e4 := (mem_order hf.nodup (hord _) uuid e).1 e1
    refine ⟨⟨e, e4, e3⟩, ?_⟩
    rw [e3] at e2
    simpa [isUserEntry] using e2
  · rintro ⟨⟨e, e1, e2⟩, e3⟩
    exact ⟨e, (mem_order hf.nodup (hord _) uuid e).2 e1, by simp [e2, isUserEntry, e3], e2⟩

theorem find_fresh {s : DB} (hf : Fresh s) (u : Str) : find s u = (s, .ok (s.snapshot.get? u)) := by
  have hu := update_fresh hf
  have : s.updateSnapshot = (s, none) := by
    have : s.version ≥ s.log.length := by rw [hf.current]; exact Nat.le_refl _
    simp [DB.updateSnapshot, this]
  simp [find, withSnapshot, this]

theorem mustFind_fresh {s : DB} (hf : Fresh s) {u : Str} {e : Entry} (h : s.snapshot.get? u = some e) :
    mustFind s u = (s, .ok e) := by
  simp [mustFind, find_fresh hf, h]

/-- two lists of the same length, related element by element -/
inductive All2 {α β : Type} (R : α → β → Prop) : List α → List β → Prop
  | nil : All2 R [] []
  | cons {a b l m} : R a b → All2 R l m → All2 R (a :: l) (b :: m)

/-- the header record of a user entry -/
structure RecOf (P : Prims) (s : DB) (x : Str × Str) (r : UserRec) : Prop where
  user : splitUsername x.2 ≠ []
  hash : r.hash = P.sha256 (splitUsername x.2)
  entry : ∃ e, s.snapshot.get? x.1 = some e ∧ Holds (fun k => e.get? k) r.salt r.iv r.mkey

/-- what `paramLoop` computes when all entries are complete -/
theorem paramLoop_ok (P : Prims) (c : Creds) (l : List (Str × Str)) (s : DB) (p : Params) (hf : Fresh s)
    (hl : ∀ x ∈ l, ∃ r, RecOf P s x r) :
    ∃ (rs : List UserRec) (i : Int), All2 (RecOf P s) l rs ∧
      paramLoop P c l s p = (s, .ok { p with
        user := i
        keys := p.keys ++ l.map (fun x => if c.user = splitUsername x.2 then c.key else [])
        users := p.users ++ rs.map UserRec.hash
        salts := p.salts ++ rs.map UserRec.salt
        ivs := p.ivs ++ rs.map UserRec.iv
        mkeys := p.mkeys ++ rs.map UserRec.mkey
        nUsers := p.nUsers + l.length }) ∧ (i = p.user ∨ (p.nUsers ≤ i ∧ i < p.nUsers + l.length)) := by
  induction l generalizing p with
  | nil => exact ⟨[], p.user, .nil, by simp [paramLoop], .inl rfl⟩
  | cons x l ih =>
    obtain ⟨uuid, nm⟩ := x
    obtain ⟨r, hr⟩ := hl _ List.mem_cons_self
    obtain ⟨e, he, hh⟩ := hr.entry
    obtain ⟨rs, i, h1, h2, h3⟩ := ih { p with
                user := if c.user = splitUsername nm then p.nUsers else p.user
                keys := p.keys ++ [if c.user = splitUsername nm then c.key else []]
                users := p.users ++ [P.sha256 (splitUsername nm)]
                salts := p.salts ++ [r.salt]
                ivs := p.ivs ++ [r.iv]
                mkeys := p.mkeys ++ [r.mkey]
                nUsers := p.nUsers + 1 } (fun y hy => hl y (List.mem_cons_of_mem _ hy))
    refine ⟨r :: rs, i, .cons hr h1, ?_, ?_⟩
    · have e1 : hexDecode (val e keySalt) = some r.salt := hh.salt_eq
      have e2 : hexDecode (val e keyIV) = some r.iv := hh.iv_eq
      have e3 : hexDecode (val e keyMKey) = some r.mkey := hh.mkey_eq
      have e4 : splitUsername nm ≠ [] := hr.user
      have e5 : r.hash = P.sha256 (splitUsername nm) := hr.hash
      simp only [paramLoop, e4, if_false, mustFind_fresh hf he, e1, e2, e3, h2]
      have e6 : p.nUsers + 1 + (l.length : Int) = p.nUsers + ((l.length : Int) + 1) := by omega
      simp [e5, e6]
    · simp only [List.length_cons] at h3 ⊢
      rcases h3 with h3 | h3
      · split at h3
        · right; omega
        · left; exact h3
      · right; push_cast; omega

theorem forall2_length {α β : Type} {R : α → β → Prop} {l : List α} {m : List β} (h : All2 R l m) :
    l.length = m.length := by
  induction h with
  | nil => rfl
  | cons _ _ ih => simp [ih]

theorem forall2_get {α β : Type} {R : α → β → Prop} {l : List α} {m : List β} (h : All2 R l m) {i : Nat} {a : α}
    (ha : l[i]? = some a) : ∃ b, m[i]? = some b ∧ R a b := by
  induction h generalizing i with
  | nil => simp at ha
  | cons hab _ ih =>
    cases i with
    | zero => simp at ha; subst ha; exact ⟨_, rfl, hab⟩
    | succ i => simpa using ih (by simpa using ha)

theorem forall2_mem {α β : Type} {R : α → β → Prop} {l : List α} {m : List β} (h : All2 R l m) {b : β}
    (hb : b ∈ m) : ∃ a ∈ l, R a b := by
  induction h with
  | nil => simp at hb
  | cons hab _ ih =>
    rcases List.mem_cons.1 hb with rfl | hb
    · exact ⟨_, List.mem_cons_self, hab⟩
    · obtain ⟨a, h1, h2⟩ := ih hb
      exact ⟨a, List.mem_cons_of_mem _ h1, h2⟩

theorem visible_unique {s : DB} {u : Str} {e f : Str → Option Str} (h1 : Blob.Spec.Visible s u e)
    (h2 : Blob.Spec.Visible s u f) : e = f := by
  obtain ⟨st, a, b⟩ := h1
  obtain ⟨st', c, d⟩ := h2
  rw [a] at c; cases c; rw [b] at d; cases d; rfl

/-- Parameters built from complete user entries: they are valid, and every account is in the header. -/
theorem makeParams_multi (P : Prims) (hP : Crypt.Spec.Lawful P) {ord : Order} (hord : ∀ m, (ord m).Perm m)
    {ord' : Results → Results} (hord' : ∀ m, (ord' m).Perm m) {c : Creds} {s : DB} (hg : Good s) (hc : MultiCreds c)
    (hw : Spec.WfUsers P s) :
    ∃ p n, makeParams P ord ord' c s = (s.updateSnapshot.1, .ok p) ∧ WfMulti p n ∧ n ≤ 9999 ∧
      p.ivm = some c.ivm ∧ p.master = some c.master ∧
      ∀ user salt key, Account P s c.master user salt key →
        ∃ (i : Nat) (iv mkey : Str), p.users[i]? = some (P.sha256 user) ∧ (∀ j < i, p.users[j]? ≠ some (P.sha256 user)) ∧
          p.salts[i]? = some salt ∧ p.ivs[i]? = some iv ∧ p.mkeys[i]? = some mkey ∧
          encryptMasterKey P 1 key c.master iv = .ok (mkey, iv) := by
  obtain ⟨us, h1, hf, hlog, hnd, hus⟩ := users_spec hord hg
  generalize hs' : s.updateSnapshot.1 = s' at h1 hf hlog
  have hmem : ∀ uuid n, (uuid, n) ∈ ord' us ↔ Blob.Spec.Named s uuid n ∧ hasPrefix n userPrefix = true := by
    intro uuid n
    rw [(hord' us).mem_iff, GoMap.mem_iff_get? hnd, hus]
  have huser : ∀ uuid n, (uuid, n) ∈ ord' us → ∃ user, n = userPrefix ++ user ∧ IsUser s uuid user := by
    intro uuid n h
    obtain ⟨a1, a2⟩ := (hmem _ _).1 h
    obtain ⟨user, rfl⟩ := (hasPrefix_iff _ _).1 a2
    exact ⟨user, rfl, a1⟩
  have hrec : ∀ x ∈ ord' us, ∃ r, RecOf P s' x r := by
    rintro ⟨uuid, n⟩ hx
    obtain ⟨user, rfl, hu⟩ := huser _ _ hx
    obtain ⟨e, he, hn⟩ := hu
    obtain ⟨hne, salt, iv, mk, hh⟩ := hw.complete uuid e user he hn
    obtain ⟨en, g1, rfl⟩ := (visible_fresh hf uuid e).1 ((visible_log hlog _ _).2 he)
    exact ⟨⟨P.sha256 user, salt, iv, mk⟩, by simpa [splitUsername_prefix] using hne,
      by simp [splitUsername_prefix], en, g1, hh⟩
  obtain ⟨rs, i, hall, hloop, hi⟩ := paramLoop_ok P c (ord' us) s' {} hf hrec
  have hlen := forall2_length hall
  have hm0 : c.master ≠ [] := by intro h; have := hc.master; rw [h] at this; simp at this
  have hi0 : c.ivm ≠ [] := by intro h; have := hc.ivm; rw [h] at this; simp at this
  have hkeys : ((ord' us).map Prod.fst).Nodup := ((hord' us).map Prod.fst).nodup_iff.2 hnd
  have hpos : 0 < (ord' us).length := by
    obtain ⟨uuid, user, hu⟩ := hw.exists_user
    have := (hmem uuid (userPrefix ++ user)).2 ⟨hu, (hasPrefix_iff _ _).2 ⟨_, rfl⟩⟩
    exact List.length_pos_of_mem this
  have hfew : (ord' us).length ≤ 9999 := by
    have := hw.few ((ord' us).map Prod.fst) hkeys (by
      intro uuid hu
      obtain ⟨⟨uuid', n⟩, h2, rfl⟩ := List.mem_map.1 hu
      obtain ⟨user, -, h3⟩ := huser _ _ h2
      exact ⟨user, h3⟩)
    simpa using this
  have hsz : ∀ r ∈ rs, ∃ x ∈ ord' us, RecOf P s' x r := fun r hr => forall2_mem hall hr
  refine ⟨_, (ord' us).length, by
    unfold makeParams
    rw [if_neg hm0, h1]
    simp only [hloop]
    rfl, ⟨?_, hpos, ⟨?_, ?_, ?_, ?_, ?_, ?_, ?_, ?_⟩, ?_, ?_, ?_, ?_, ?_⟩, hfew, ?_, ?_, ?_⟩
  · simp
  · simp [hlen]
  · simp [hlen]
  · simp [hlen]
  · simp [hlen]
  · intro x hx
    simp only [List.nil_append, List.mem_map] at hx
    obtain ⟨r, hr, rfl⟩ := hx
    obtain ⟨y, -, hy⟩ := hsz r hr
    rw [hy.hash]; exact hP.sha256_length _
  · intro x hx
    simp only [List.nil_append, List.mem_map] at hx
    obtain ⟨r, hr, rfl⟩ := hx
    obtain ⟨y, -, hy⟩ := hsz r hr
    obtain ⟨_, _, hh⟩ := hy.entry
    exact hh.salt_length
  · intro x hx
    simp only [List.nil_append, List.mem_map] at hx
    obtain ⟨r, hr, rfl⟩ := hx
    obtain ⟨y, -, hy⟩ := hsz r hr
    obtain ⟨_, _, hh⟩ := hy.entry
    exact hh.iv_length
  · intro x hx
    simp only [List.nil_append, List.mem_map] at hx
    obtain ⟨r, hr, rfl⟩ := hx
    obtain ⟨y, -, hy⟩ := hsz r hr
    obtain ⟨_, _, hh⟩ := hy.entry
    exact hh.mkey_length
  · simp
  · intro k hk
    simp only [List.nil_append, List.mem_map] at hk
    obtain ⟨x, -, rfl⟩ := hk
    split
    · exact .inr hc.key
    · exact .inl rfl
  · simp only
    rcases hi with hi | hi
    · have : i = 0 := hi
      omega
    · have : (0 : Int) ≤ i ∧ i < 0 + (ord' us).length := hi
      omega
  · intro iv h
    simp [orNil, hi0] at h
    rw [← h]; exact hc.ivm
  · intro k h
    simp [orNil, hm0] at h
    rw [← h]; exact hc.master
  · simp [orNil, hi0]
  · simp [orNil, hm0]
  · rintro user salt key ⟨hune, uuid, e, iv, mk, hv, hn, hh, henc⟩
    have hx := (hmem uuid (userPrefix ++ user)).2 ⟨⟨e, hv, hn⟩, (hasPrefix_iff _ _).2 ⟨_, rfl⟩⟩
    obtain ⟨k, hk⟩ := List.getElem?_of_mem hx
    obtain ⟨r, hr, hrec'⟩ := forall2_get hall hk
    obtain ⟨en, g1, g2⟩ := hrec'.entry
    have heq : (fun k => en.get? k) = e :=
      visible_unique ((visible_fresh hf uuid _).2 ⟨en, g1, rfl⟩) ((visible_log hlog _ _).2 hv)
    rw [heq] at g2
    have q1 : r.salt = salt := by
      have := g2.salt_eq; rw [hh.salt_eq] at this; exact (Option.some.inj this).symm
    have q2 : r.iv = iv := by
      have := g2.iv_eq; rw [hh.iv_eq] at this; exact (Option.some.inj this).symm
    have q3 : r.mkey = mk := by
      have := g2.mkey_eq; rw [hh.mkey_eq] at this; exact (Option.some.inj this).symm
    have q4 : r.hash = P.sha256 user := by rw [hrec'.hash, splitUsername_prefix]
    refine ⟨k, iv, mk, ?_, ?_, ?_, ?_, ?_, henc⟩
    · simp [hr, q4]
    · intro j hj hjs
      simp only [List.nil_append, List.getElem?_map, Option.map_eq_some_iff] at hjs
      obtain ⟨r', hr', hh'⟩ := hjs
      have hjl : j < (ord' us).length := by
        rw [hlen]; exact (List.getElem?_eq_some_iff.1 hr').1
      have hj' : (ord' us)[j]? = some (ord' us)[j] := List.getElem?_eq_getElem hjl
      obtain ⟨r'', hr'', hrec''⟩ := forall2_get hall hj'
      rw [hr'] at hr''; cases hr''
      obtain ⟨user', hu1, hu2⟩ := huser (ord' us)[j].1 (ord' us)[j].2 (List.getElem_mem hjl)
      have hsha : P.sha256 user' = P.sha256 user := by
        rw [← hh', hrec''.hash, hu1, splitUsername_prefix]
      have huu := hw.distinct _ _ _ _ hu2 ⟨e, hv, hn⟩ hsha
      have hkl : k < (ord' us).length := (List.getElem?_eq_some_iff.1 hk).1
      have hk2 : (ord' us)[k] = (uuid, userPrefix ++ user) := (List.getElem?_eq_some_iff.1 hk).2
      have hjm : j < ((ord' us).map Prod.fst).length := by simpa using hjl
      have hkm : k < ((ord' us).map Prod.fst).length := by simpa using hkl
      exact List.pairwise_iff_getElem.1 hkeys j k hjm hkm hj (by simp [huu, hk2])
    · simp [hr, q1]
    · simp [hr, q2]
    · simp [hr, q3]

end Verif.App
