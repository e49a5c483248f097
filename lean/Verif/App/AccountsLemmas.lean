import Verif.App.AccountsSpec
import Verif.App.SessionProps
/-!
# Helper lemmas about the account commands
-/
set_option linter.unusedSimpArgs false
namespace Verif.App
open Verif Verif.Txlogs Verif.Blob Verif.Crypt Verif.App.Spec

theorem meaning_other {ops : List Tx} {u w : Str} (hw : w ≠ u) (h : ∀ tx ∈ ops, tx.uuid = u)
    {st st' : Txlogs.Spec.State} (hm : Txlogs.Spec.meaning st ops = some st') : st' w = st w := by
  induction ops generalizing st with
  | nil => cases hm; rfl
  | cons tx ops ih =>
    simp only [Txlogs.Spec.meaning] at hm
    cases ha : Txlogs.Spec.apply st tx with
    | none => rw [ha] at hm; cases hm
    | some st1 =>
      rw [ha] at hm
      rw [ih (fun t ht => h t (List.mem_cons_of_mem _ ht)) hm]
      have hu : tx.uuid = u := h tx List.mem_cons_self
      unfold Txlogs.Spec.apply at ha
      split at ha <;> (try split at ha) <;> cases ha <;> simp [Txlogs.Spec.upd, hu, hw]

/-- operations on one entry do not change what is visible of the others -/
theorem visible_other {s s' : DB} {ops : List Tx} {u w : Str} (hw : w ≠ u) (hl : s'.log = s.log ++ ops)
    (h : ∀ tx ∈ ops, tx.uuid = u) (hg : Good s') (f : Str → Option Str) :
    Blob.Spec.Visible s' w f ↔ Blob.Spec.Visible s w f := by
  obtain ⟨st', hm', -⟩ := hg.named
  rw [hl, meaning_append] at hm'
  cases hm : Txlogs.Spec.meaning Txlogs.Spec.empty s.log with
  | none => rw [hm] at hm'; cases hm'
  | some st =>
    rw [hm] at hm'
    have h1 := meaning_other hw h hm'
    unfold Blob.Spec.Visible
    rw [hl, meaning_append, hm]
    constructor
    · rintro ⟨st2, a, b⟩
      have : st2 = st' := by
        have hm'' := hm'
        simp only [Option.bind_some] at hm'' a
        rw [hm''] at a; exact (Option.some.inj a).symm
      subst this
      exact ⟨st, rfl, by rw [← h1]; exact b⟩
    · rintro ⟨st2, a, b⟩
      cases a
      exact ⟨st', hm', by rw [h1]; exact b⟩

theorem findNameLoop_spec (nm : Str) (l : List (Str × Entry)) (h : ∀ p ∈ l, (name p.2).isSome) :
    (∃ u e, findNameLoop nm l = some (some (u, e)) ∧ (u, e) ∈ l ∧ name e = some nm) ∨
    (findNameLoop nm l = some none ∧ ∀ p ∈ l, name p.2 ≠ some nm) := by
  induction l with
  | nil => exact .inr ⟨rfl, by simp⟩
  | cons p l ih =>
    obtain ⟨u, e⟩ := p
    have h1 := h (u, e) List.mem_cons_self
    obtain ⟨n, hn⟩ := Option.isSome_iff_exists.1 h1
    simp only [] at hn
    simp only [findNameLoop, hn]
    by_cases hnm : n = nm
    · subst hnm
      exact .inl ⟨u, e, by simp, List.mem_cons_self, hn⟩
    · rw [if_neg hnm]
      rcases ih (fun p hp => h p (List.mem_cons_of_mem _ hp)) with ⟨u', e', a, b, c⟩ | ⟨a, b⟩
      · exact .inl ⟨u', e', a, List.mem_cons_of_mem _ b, c⟩
      · refine .inr ⟨a, ?_⟩
        intro p hp
        rcases List.mem_cons.1 hp with rfl | hp
        · rw [hn]; simpa using hnm
        · exact b p hp

/-- `FindByName` in a readable store finds an entry of that name if there is one -/
theorem findByName_spec {ord : Order} (hord : ∀ m, (ord m).Perm m) {s : DB} (h : Good s) (nm : Str) :
    (∃ u e, findByName ord s nm = (s.updateSnapshot.1, .ok (some (u, e))) ∧
      Blob.Spec.Visible s u (fun k => e.get? k) ∧ e.get? keyName = some nm) ∨
    (findByName ord s nm = (s.updateSnapshot.1, .ok none) ∧ ∀ u, ¬ Blob.Spec.Named s u nm) := by
  obtain ⟨-, hf, hg, hl⟩ := good_withSnapshot h (fun s => ((s, .panic) : Out Str))
  unfold findByName
  rw [(good_withSnapshot h _).1]
  have hn := good_names hg hf (hord s.updateSnapshot.1.snapshot)
  rcases findNameLoop_spec nm _ hn with ⟨u, e, a, b, c⟩ | ⟨a, b⟩
  · left
    rw [a]
    have := (mem_order hf.nodup (hord _) u e).1 b
    exact ⟨u, e, rfl, (visible_log hl _ _).1 ((visible_fresh hf u _).2 ⟨e, this, rfl⟩), c⟩
  · right
    rw [a]
    refine ⟨rfl, ?_⟩
    intro u hu
    obtain ⟨e, e1, e2⟩ := (named_fresh hf u nm).1 ((named_log hl _ _).2 hu)
    exact b (u, e) ((mem_order hf.nodup (hord _) u e).2 e1) e2

/-- `MustFindUser` of a user there is exactly one entry for -/
theorem mustFindUser_spec {ord : Order} (hord : ∀ m, (ord m).Perm m) {s : DB} (h : Good s) {user uuid : Str}
    (hu : IsUser s uuid user) (huniq : ∀ v, IsUser s v user → v = uuid) (hne : uuid ≠ []) :
    ∃ e, mustFindUser ord s user = (s.updateSnapshot.1, .ok (uuid, e)) := by
  unfold mustFindUser findUser
  rcases findByName_spec hord h (userPrefix ++ user) with ⟨v, e, a, b, c⟩ | ⟨a, b⟩
  · rw [a]
    have : v = uuid := huniq v ⟨_, b, c⟩
    subst this
    exact ⟨e, by simp [hne]⟩
  · exact absurd hu (b uuid)

/-- `MustFindUser` of a user there is no entry for panics -/
theorem mustFindUser_none {ord : Order} (hord : ∀ m, (ord m).Perm m) {s : DB} (h : Good s) {user : Str}
    (hu : ∀ uuid, ¬ IsUser s uuid user) : mustFindUser ord s user = (s.updateSnapshot.1, .panic) := by
  unfold mustFindUser findUser
  rcases findByName_spec hord h (userPrefix ++ user) with ⟨v, e, a, b, c⟩ | ⟨a, b⟩
  · exact absurd ⟨_, b, c⟩ (hu v)
  · rw [a]

theorem wrap_ok (P : Prims) (hP : Crypt.Spec.Lawful P) {key master iv : Str} (hk : key.length = 80)
    (hm : master.length = 80) (hi : iv.length = 40) :
    ∃ mkey, encryptMasterKey P 1 key master iv = .ok (mkey, iv) ∧ mkey.length = 80 := by
  obtain ⟨z1, z2, -⟩ := sizes
  obtain ⟨ls, h1, h2, h3, h4⟩ := suite_layers key iv hk hi
  have hb : ∀ l ∈ ls, master.length % l.1.blockSize = 0 := by
    intro l hl
    have : l.1 ∈ suite := by rw [← h3]; exact List.mem_map_of_mem hl
    rw [hm]
    have h5 : ∀ a ∈ suite, 80 % a.blockSize = 0 := by decide
    exact h5 _ this
  obtain ⟨ct, c1, -, c3⟩ := decRaw_encRaw P hP ls h2 master hb
  refine ⟨ct, ?_, by omega⟩
  unfold encryptMasterKey
  rw [if_neg (by simp), if_neg (by omega), if_neg (by omega), h1]
  simp [c1]

/-- what `setRecord` does to the store -/
theorem setRecord_spec {now : Nat → Int} {s : DB} {uuid salt iv mkey : Str} {e : Str → Option Str} (hg : Good s)
    (he : Blob.Spec.Visible s uuid e) :
    Good (setRecord now s uuid salt iv mkey) ∧ (setRecord now s uuid salt iv mkey).txPoint = s.txPoint ∧
    (∃ e', Blob.Spec.Visible (setRecord now s uuid salt iv mkey) uuid e' ∧
      e' keySalt = some (hexEncode salt) ∧ e' keyIV = some (hexEncode iv) ∧ e' keyMKey = some (hexEncode mkey) ∧
      ∀ k, k ≠ keySalt → k ≠ keyIV → k ≠ keyMKey → e' k = e k) ∧
    ∀ w f, w ≠ uuid → (Blob.Spec.Visible (setRecord now s uuid salt iv mkey) w f ↔ Blob.Spec.Visible s w f) := by
  have a1 := good_setKey (now 0) uuid keySalt (hexEncode salt) hg ⟨e, he⟩
  have a2 := good_setKey (now 1) uuid keyIV (hexEncode iv) a1.1 a1.2
  have a3 := good_setKey (now 2) uuid keyMKey (hexEncode mkey) a2.1 a2.2
  obtain ⟨b1, c1⟩ := visible_setKey (now 0) uuid keySalt (hexEncode salt) e he
  obtain ⟨b2, c2⟩ := visible_setKey (now 1) uuid keyIV (hexEncode iv) _ b1
  obtain ⟨b3, c3⟩ := visible_setKey (now 2) uuid keyMKey (hexEncode mkey) _ b2
  have n1 : keySalt ≠ keyIV := by decide
  have n2 : keySalt ≠ keyMKey := by decide
  have n3 : keyIV ≠ keyMKey := by decide
  refine ⟨a3.1, rfl, ⟨_, b3, ?_, ?_, ?_, ?_⟩, ?_⟩
  · simp [Txlogs.Spec.upd, n1, n2, n1.symm, n2.symm]
  · simp [Txlogs.Spec.upd, n3, n3.symm]
  · simp [Txlogs.Spec.upd]
  · intro k k1 k2 k3
    simp [Txlogs.Spec.upd, k1, k2, k3]
  · intro w f hw
    exact (c3 w f hw).trans ((c2 w f hw).trans (c1 w f hw))

theorem named_of_visible {s s' : DB} {uuid : Str} {e e' : Str → Option Str} (he : Blob.Spec.Visible s uuid e)
    (he' : Blob.Spec.Visible s' uuid e') (hn : e' keyName = e keyName)
    (ho : ∀ w f, w ≠ uuid → (Blob.Spec.Visible s' w f ↔ Blob.Spec.Visible s w f)) (w n : Str) :
    Blob.Spec.Named s' w n ↔ Blob.Spec.Named s w n := by
  unfold Blob.Spec.Named
  by_cases hw : w = uuid
  · subst hw
    constructor
    · rintro ⟨f, a, b⟩
      rw [visible_unique a he'] at b
      exact ⟨e, he, by rw [← hn]; exact b⟩
    · rintro ⟨f, a, b⟩
      rw [visible_unique a he] at b
      exact ⟨e', he', by rw [hn]; exact b⟩
  · constructor
    · rintro ⟨f, a, b⟩; exact ⟨f, (ho w f hw).1 a, b⟩
    · rintro ⟨f, a, b⟩; exact ⟨f, (ho w f hw).2 a, b⟩

/-- storing the record of a user -/
theorem setRecord_users {P : Prims} {now : Nat → Int} {s : DB} {uuid user salt iv mkey key master : Str} (hg : Good s)
    (hu : IsUser s uuid user) (hne : user ≠ []) (hs : salt.length = 32) (hi : iv.length = 40) (hm : mkey.length = 80)
    (hw : encryptMasterKey P 1 key master iv = .ok (mkey, iv)) :
    Good (setRecord now s uuid salt iv mkey) ∧ (setRecord now s uuid salt iv mkey).txPoint = s.txPoint ∧
    (∀ w n, Blob.Spec.Named (setRecord now s uuid salt iv mkey) w n ↔ Blob.Spec.Named s w n) ∧
    Account P (setRecord now s uuid salt iv mkey) master user salt key ∧
    (∀ m user' salt' key', user' ≠ user → (Account P (setRecord now s uuid salt iv mkey) m user' salt' key' ↔
      Account P s m user' salt' key')) ∧
    ((∀ w e user', w ≠ uuid → Blob.Spec.Visible s w e → e keyName = some (userPrefix ++ user') →
        user' ≠ [] ∧ ∃ salt iv mkey, Holds e salt iv mkey) →
      (∀ l : List Str, l.Nodup → (∀ v ∈ l, ∃ user', IsUser s v user') → l.length ≤ 9999) →
      (∀ v v' a b, IsUser s v a → IsUser s v' b → P.sha256 a = P.sha256 b → v = v') →
      Spec.WfUsers P (setRecord now s uuid salt iv mkey)) := by
  obtain ⟨e, he, hn⟩ := hu
  obtain ⟨g1, g2, ⟨e', v1, v2, v3, v4, v5⟩, g4⟩ :=
    setRecord_spec (now := now) (salt := salt) (iv := iv) (mkey := mkey) hg he
  have hn' : e' keyName = e keyName := v5 _ (by decide) (by decide) (by decide)
  have hnamed := named_of_visible he v1 hn' g4
  have hholds : Holds e' salt iv mkey :=
    ⟨by simp [v2, hexDecode_hexEncode], by simp [v3, hexDecode_hexEncode], by simp [v4, hexDecode_hexEncode], hs, hi, hm⟩
  have hname : ∀ user', e' keyName = some (userPrefix ++ user') → user' = user := by
    intro user' h
    rw [hn', hn] at h
    simpa using h.symm
  refine ⟨g1, g2, hnamed, ⟨hne, uuid, e', iv, mkey, v1, by rw [hn', hn], hholds, hw⟩, ?_, ?_⟩
  · intro m user' salt' key' hd
    unfold Account
    refine and_congr Iff.rfl ⟨?_, ?_⟩
    · rintro ⟨w, f, iv', mk', a, b, c, d⟩
      by_cases hwu : w = uuid
      · subst hwu
        rw [visible_unique a v1] at b
        exact absurd (hname _ b) hd
      · exact ⟨w, f, iv', mk', (g4 w f hwu).1 a, b, c, d⟩
    · rintro ⟨w, f, iv', mk', a, b, c, d⟩
      by_cases hwu : w = uuid
      · subst hwu
        rw [visible_unique a he, hn] at b
        exact absurd (by simpa using b.symm) hd
      · exact ⟨w, f, iv', mk', (g4 w f hwu).2 a, b, c, d⟩
  · intro hc hf hd
    refine ⟨⟨uuid, user, (hnamed _ _).2 ⟨e, he, hn⟩⟩, ?_, ?_, ?_⟩
    · intro l hl h
      exact hf l hl (fun v hv => by
        obtain ⟨user', h'⟩ := h v hv
        exact ⟨user', (hnamed _ _).1 h'⟩)
    · intro w f user' a b
      by_cases hwu : w = uuid
      · subst hwu
        have hfe := visible_unique a v1
        rw [hfe] at b ⊢
        exact ⟨by rw [hname _ b]; exact hne, salt, iv, mkey, hholds⟩
      · exact hc w f user' hwu ((g4 w f hwu).1 a) b
    · intro v v' a b h1 h2 h3
      exact hd v v' a b ((hnamed _ _).1 h1) ((hnamed _ _).1 h2) h3

/-- `NewUser` in a readable store with a fresh uuid -/
theorem newUser_spec {ord : Order} (hord : ∀ m, (ord m).Perm m) (now : Nat → Int) {s : DB} (hg : Good s) {uuid user : Str}
    (hfresh : ¬ Exists s uuid) :
    (newUser ord now uuid s user = (s.updateSnapshot.1, .err .nameNotUnique) ∧ ∃ v, IsUser s v user) ∨
    (∃ s', newUser ord now uuid s user = (s', .ok uuid) ∧ Good s' ∧ s'.txPoint = s.txPoint ∧
      (∀ v, ¬ IsUser s v user) ∧ IsUser s' uuid user ∧
      (∀ w f, w ≠ uuid → (Blob.Spec.Visible s' w f ↔ Blob.Spec.Visible s w f)) ∧
      ∀ w n, Blob.Spec.Named s' w n ↔ Blob.Spec.Named s w n ∨ (w = uuid ∧ n = userPrefix ++ user)) := by
  have htx : s.updateSnapshot.1.txPoint = s.txPoint := by
    unfold DB.updateSnapshot; split <;> rfl
  unfold newUser
  have hlog : ∀ r, new ord now uuid s (userPrefix ++ user) = r → r.1.txPoint = s.txPoint ∧
      ((∃ e, r.2 = .err e) → r.1 = s.updateSnapshot.1) ∧
      (r.2 = .ok uuid → ∃ ops, r.1.log = s.log ++ ops ∧ ∀ tx ∈ ops, tx.uuid = uuid) := by
    rintro r rfl
    unfold new
    rw [(good_withSnapshot hg _).1]
    split
    · exact ⟨htx, fun _ => rfl, by intro h; cases h⟩
    · exact ⟨htx, fun _ => rfl, by intro h; cases h⟩
    · refine ⟨htx, (by rintro ⟨e, h⟩; cases h), fun _ => ?_⟩
      simp only [touchUpdated, DB.setKey, DB.appendLog, DB.add, updateSnapshot_log, List.append_assoc]
      refine ⟨_, rfl, ?_⟩
      simp
  rcases good_newOp ord hord now uuid (userPrefix ++ user) hg hfresh with ⟨s', h1, -, -, h4⟩ | ⟨s', h1, h2, h3, h4⟩
  · obtain ⟨-, h, -⟩ := hlog _ h1
    have := h ⟨_, rfl⟩
    simp only at this
    subst this
    exact .inl ⟨h1, h4⟩
  · obtain ⟨ht, -, h⟩ := hlog _ h1
    obtain ⟨ops, ho, hops⟩ := h rfl
    have hvis : ∀ w f, w ≠ uuid → (Blob.Spec.Visible s' w f ↔ Blob.Spec.Visible s w f) :=
      fun w f hw => visible_other hw ho hops h2 f
    refine .inr ⟨s', h1, h2, ht, h4, h3, hvis, ?_⟩
    intro w n
    by_cases hw : w = uuid
    · subst hw
      constructor
      · rintro ⟨f, a, b⟩
        obtain ⟨f', a', b'⟩ := h3
        rw [visible_unique a a', b'] at b
        exact .inr ⟨rfl, by simpa using b.symm⟩
      · rintro (⟨f, a, -⟩ | ⟨-, rfl⟩)
        · exact absurd ⟨f, a⟩ hfresh
        · exact h3
    · constructor
      · rintro ⟨f, a, b⟩; exact .inl ⟨f, (hvis w f hw).1 a, b⟩
      · rintro (⟨f, a, b⟩ | ⟨h, -⟩)
        · exact ⟨f, (hvis w f hw).2 a, b⟩
        · exact absurd h hw

end Verif.App
