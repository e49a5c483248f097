import Verif.App.AccountsLemmas
import Verif.App.PassGenProps
/-!
# Properties of the account commands: C51, C52, C53, C62
-/
set_option linter.unusedSimpArgs false
namespace Verif.App
open Verif Verif.Txlogs Verif.Blob Verif.Crypt Verif.App.Spec

theorem update_txPoint (s : DB) : s.updateSnapshot.1.txPoint = s.txPoint := by
  unfold DB.updateSnapshot; split <;> rfl

theorem account_log {P : Prims} {s s' : DB} (h : s'.log = s.log) (m user salt key : Str) :
    Account P s' m user salt key ↔ Account P s m user salt key := by
  unfold Account Blob.Spec.Visible; rw [h]

/-- storing a new record for a user keeps a multi-user session in order -/
theorem setRecord_session (P : Prims) {now : Nat → Int} {u : Session} (hu : MultiSession P u) {s1 : DB} (hgu : Good s1)
    (hlog : s1.log = u.store.log) (htx : s1.txPoint = u.store.txPoint) {uuid user key salt iv mkey : Str}
    (hs : salt.length = 32) (hi : iv.length = 40) (hml : mkey.length = 80) (hv : IsUser u.store uuid user)
    (hw : encryptMasterKey P 1 key u.creds.master iv = .ok (mkey, iv)) :
    MultiSession P { u with store := setRecord now s1 uuid salt iv mkey } ∧
      Account P (setRecord now s1 uuid salt iv mkey) u.creds.master user salt key ∧
      (∀ m user' salt' key', user' ≠ user → (Account P (setRecord now s1 uuid salt iv mkey) m user' salt' key' ↔
        Account P u.store m user' salt' key')) ∧
      ∀ w n, Blob.Spec.Named (setRecord now s1 uuid salt iv mkey) w n ↔ Blob.Spec.Named u.store w n := by
  have hnm : ∀ w n, Blob.Spec.Named s1 w n ↔ Blob.Spec.Named u.store w n := fun w n => named_log hlog w n
  have hne : user ≠ [] := by
    obtain ⟨f, a, b⟩ := hv
    exact (hu.users.complete _ _ _ a b).1
  obtain ⟨r1, r2, r3, r4, r5, r6⟩ := setRecord_users (now := now) (s := s1) (P := P) hgu ((hnm _ _).2 hv) hne hs hi hml hw
  refine ⟨⟨hu.writable, r1, r2.trans (htx.trans hu.idle), hu.creds, ?_, ?_, ?_⟩, r4, ?_, fun w n => (r3 w n).trans (hnm w n)⟩
  · refine r6 ?_ ?_ ?_
    · intro w f user' _ a b
      exact hu.users.complete w f user' ((visible_log hlog _ _).1 a) b
    · intro l hl h
      exact hu.users.few l hl (fun v hv => by
        obtain ⟨x, hx⟩ := h v hv
        exact ⟨x, (hnm _ _).1 hx⟩)
    · intro v v' a b h1 h2 h3
      exact hu.users.distinct v v' a b ((hnm _ _).1 h1) ((hnm _ _).1 h2) h3
  · intro v user' h
    exact hu.uuids v user' ((hnm _ _).1 ((r3 _ _).1 h))
  · obtain ⟨v, h⟩ := hu.me
    exact ⟨v, (r3 _ _).2 ((hnm _ _).2 h)⟩
  · intro m user' salt' key' h
    exact (r5 m user' salt' key' h).trans (account_log hlog _ _ _ _)

/-- storing a new record for a user of a multi-user session (shared by `passwd` and `rekey`) -/
theorem storeUser_spec (P : Prims) (hP : Crypt.Spec.Lawful P) {ord : Order} (hord : ∀ m, (ord m).Perm m) {d : Draw}
    (hd : DrawOk d) {u : Session} (hu : MultiSession P u) {user key salt : Str} (hk : key.length = 80)
    (hs : salt.length = 32) (hex : ∃ v, IsUser u.store v user) :
    ∃ s', storeUser P ord d u user key salt = ({ u with store := s' }, .ok ()) ∧ MultiSession P { u with store := s' } ∧
      Account P s' u.creds.master user salt key ∧
      ∀ m user' salt' key', user' ≠ user → (Account P s' m user' salt' key' ↔ Account P u.store m user' salt' key') := by
  obtain ⟨uuid, hv⟩ := hex
  have huniq : ∀ v, IsUser u.store v user → v = uuid := fun v h => hu.users.distinct v uuid user user h hv rfl
  obtain ⟨e, hf⟩ := mustFindUser_spec hord hu.good hv huniq (hu.uuids _ _ hv)
  obtain ⟨mkey, hw, hml⟩ := wrap_ok P hP hk hu.creds.master hd.iv_length
  obtain ⟨r1, r2, r3, -⟩ := setRecord_session P (now := d.now) hu (good_update hu.good) (updateSnapshot_log u.store)
    (update_txPoint u.store) hs hd.iv_length hml hv hw
  exact ⟨_, by simp only [storeUser, hf, hw], r1, r2, r3⟩

/-- new credentials of the right size do not matter to the invariant -/
theorem multi_creds {P : Prims} {u : Session} (hu : MultiSession P u) {c : Creds} (hm : c.master = u.creds.master)
    (hi : c.ivm = u.creds.ivm) (hun : c.user = u.creds.user) (hk : c.key.length = 80) :
    MultiSession P { u with creds := c } :=
  ⟨hu.writable, hu.good, hu.idle, ⟨by rw [hm]; exact hu.creds.master, by rw [hi]; exact hu.creds.ivm, hk⟩, hu.users, hu.uuids,
    by obtain ⟨v, h⟩ := hu.me; exact ⟨v, by simpa [hun] using h⟩⟩

theorem master_ne {c : Creds} (h : MultiCreds c) : c.master ≠ [] := by
  intro h'; have := h.master; rw [h'] at this; simp at this

/-- what a stored record means for the table of passwords -/
theorem holders_upd {P : Prims} {u u' : Session} {t : Passwords} (ht : Holders P u t) {user pass salt : Str} (hp : pass ≠ [])
    (hm : u'.creds.master = u.creds.master) (ha : Account P u'.store u.creds.master user salt (P.kdf pass salt))
    (ho : ∀ m user' salt' key', user' ≠ user → (Account P u'.store m user' salt' key' ↔ Account P u.store m user' salt' key')) :
    Holders P u' (Txlogs.Spec.upd t user (some pass)) := by
  intro user' pass' h
  simp only [Txlogs.Spec.upd] at h
  split at h
  · rename_i he
    cases h
    rw [he, hm]
    exact ⟨salt, hp, ha⟩
  · rename_i he
    obtain ⟨salt', h1, h2⟩ := ht user' pass' h
    rw [hm]
    exact ⟨salt', h1, (ho _ _ _ _ he).2 h2⟩

/-- `passwd` in a multi-user file: whatever user is named, it is the record of the current user that changes. -/
theorem passwd_multi (P : Prims) (hP : Crypt.Spec.Lawful P) {ord : Order} (hord : ∀ m, (ord m).Perm m) {d : Draw}
    (hd : DrawOk d) {u : Session} (hu : MultiSession P u) (user : Str) {typed : Str}
    (hpw : getPassword d.ent d.inp = .ok typed) (hne : typed ≠ []) :
    ∃ u', passwd P ord d u user = (u', .ok ()) ∧ MultiSession P u' ∧ u'.creds.master = u.creds.master ∧
      Account P u'.store u.creds.master u.creds.user d.salt (P.kdf typed d.salt) ∧
      ∀ m user' salt' key', user' ≠ u.creds.user →
        (Account P u'.store m user' salt' key' ↔ Account P u.store m user' salt' key') := by
  have hk := hP.kdf_length typed d.salt
  have hdk : deriveKey P 1 typed d.salt = .ok (P.kdf typed d.salt, d.salt) := rfl
  have hmn := master_ne hu.creds
  unfold passwd
  simp only [hpw, hne, if_false, hdk]
  split
  · obtain ⟨s', h1, h2, h3, h4⟩ := storeUser_spec P hP hord hd
      (multi_creds hu (c := { u.creds with pass := typed, key := P.kdf typed d.salt, salt := d.salt }) rfl rfl rfl hk)
      hk hd.salt_length hu.me
    simp only [hmn, if_false]
    exact ⟨_, h1, h2, rfl, h3, h4⟩
  · obtain ⟨s', h1, h2, h3, h4⟩ := storeUser_spec P hP hord hd hu hk hd.salt_length hu.me
    exact ⟨_, h1, h2, rfl, h3, h4⟩

/-- `rekey` in a multi-user file -/
theorem rekey_multi (P : Prims) (hP : Crypt.Spec.Lawful P) {ord : Order} (hord : ∀ m, (ord m).Perm m) {d : Draw}
    (hd : DrawOk d) {u : Session} (hu : MultiSession P u) (user pass : Str) (hne : pass ≠ [])
    (hpw : if user = [] then u.creds.pass = pass
      else getPassword d.ent d.inp = .ok pass ∧ ∃ v, IsUser u.store v user) :
    ∃ u', rekey P ord d u user = (u', .ok ()) ∧ MultiSession P u' ∧ u'.creds.master = u.creds.master ∧
      Account P u'.store u.creds.master (if user = [] then u.creds.user else user) d.salt (P.kdf pass d.salt) ∧
      ∀ m user' salt' key', user' ≠ (if user = [] then u.creds.user else user) →
        (Account P u'.store m user' salt' key' ↔ Account P u.store m user' salt' key') := by
  have hk := hP.kdf_length pass d.salt
  have hdk : deriveKey P 1 pass d.salt = .ok (P.kdf pass d.salt, d.salt) := rfl
  have hmn := master_ne hu.creds
  unfold rekey
  by_cases hus : user = []
  · subst hus
    simp only [eq_self, if_true] at hpw ⊢
    subst hpw
    simp only [hne, if_false, hdk, hmn]
    obtain ⟨s', h1, h2, h3, h4⟩ := storeUser_spec P hP hord hd
      (multi_creds hu (c := { u.creds with key := P.kdf u.creds.pass d.salt, salt := d.salt }) rfl rfl rfl hk)
      hk hd.salt_length hu.me
    exact ⟨_, h1, h2, rfl, h3, h4⟩
  · simp only [hus, if_false] at hpw ⊢
    obtain ⟨hpw, hex⟩ := hpw
    simp only [hpw, hne, if_false, hdk, hmn]
    obtain ⟨s', h1, h2, h3, h4⟩ := storeUser_spec P hP hord hd hu hk hd.salt_length hex
    exact ⟨_, h1, h2, rfl, h3, h4⟩

/-- the part of `adduser` after the new user's key is known -/
theorem finishUser_spec (P : Prims) (hP : Crypt.Spec.Lawful P) {ord : Order} (hord : ∀ m, (ord m).Perm m) {d : Draw}
    (hd : DrawOk d) {u : Session} {user : Str} (hg : Good u.store) (hn : NewOk P u.store d.uuid user)
    (hfree : ∀ v, ¬ IsUser u.store v user)
    (hcomplete : ∀ uuid e user, Blob.Spec.Visible u.store uuid e → e keyName = some (userPrefix ++ user) →
      user ≠ [] ∧ ∃ salt iv mkey, Holds e salt iv mkey)
    (hdist : ∀ uuid uuid' user user', IsUser u.store uuid user → IsUser u.store uuid' user' →
      P.sha256 user = P.sha256 user' → uuid = uuid') :
    ∃ s1, newUser ord d.now d.uuid u.store user = (s1, .ok d.uuid) ∧
      ∀ (c : Creds) (key salt : Str), c.master.length = 80 → key.length = 80 → salt.length = 32 →
      ∃ s', finishUser P d { u with store := s1, creds := c } d.uuid key salt =
          ({ u with store := s', creds := c }, .ok ()) ∧ Good s' ∧ s'.txPoint = u.store.txPoint ∧ Spec.WfUsers P s' ∧
        (∀ w n, Blob.Spec.Named s' w n ↔ Blob.Spec.Named u.store w n ∨ (w = d.uuid ∧ n = userPrefix ++ user)) ∧
        Account P s' c.master user salt key ∧
        ∀ m user' salt' key', user' ≠ user → (Account P s' m user' salt' key' ↔ Account P u.store m user' salt' key') := by
  rcases newUser_spec hord d.now hg (user := user) hn.fresh with ⟨-, v, hv⟩ | ⟨s1, h1, h2, h3, h4, h5, h6, h7⟩
  · exact absurd hv (hfree v)
  refine ⟨s1, h1, ?_⟩
  intro c key salt hm hk hs
  obtain ⟨mkey, hw, hml⟩ := wrap_ok P hP hk hm hd.iv_length
  obtain ⟨r1, r2, r3, r4, r5, r6⟩ := setRecord_users (now := fun i => d.now (i + 4)) (s := s1) (P := P) h2 h5 hn.user_ne hs
    hd.iv_length hml hw
  refine ⟨setRecord (fun i => d.now (i + 4)) s1 d.uuid salt d.iv mkey, by simp only [finishUser, hw], r1, r2.trans h3,
    r6 ?_ ?_ ?_, fun w n => (r3 w n).trans (h7 w n), r4, ?_⟩
  · intro w f user' hwu a b
    exact hcomplete w f user' ((h6 w f hwu).1 a) b
  · intro l hl h
    have hl' := hn.room (l.filter (fun v => v ≠ d.uuid)) (hl.filter _) (by
      intro v hv
      obtain ⟨hv1, hv2⟩ := List.mem_filter.1 hv
      obtain ⟨user', hu'⟩ := h v hv1
      rcases (h7 _ _).1 hu' with h' | ⟨h', -⟩
      · exact ⟨user', h'⟩
      · simp [h'] at hv2)
    have := nodup_subset_length l (d.uuid :: l.filter (fun v => v ≠ d.uuid)) hl (by
      intro x hx
      by_cases hxu : x = d.uuid
      · simp [hxu]
      · exact List.mem_cons_of_mem _ (List.mem_filter.2 ⟨hx, by simpa using hxu⟩))
    simp only [List.length_cons] at this
    omega
  · intro v v' a b ha hb hab
    rcases (h7 _ _).1 ha with ha | ⟨rfl, ha2⟩ <;> rcases (h7 _ _).1 hb with hb | ⟨rfl, hb2⟩
    · exact hdist _ _ _ _ ha hb hab
    · have hb' : b = user := by simpa using hb2
      subst hb'
      have := hn.hash v a ha hab
      subst this
      exact absurd ha (hfree v)
    · have ha' : a = user := by simpa using ha2
      subst ha'
      have := hn.hash v' b hb hab.symm
      subst this
      exact absurd hb (hfree v')
    · rfl
  · intro m user' salt' key' hne
    refine (r5 m user' salt' key' hne).trans ?_
    unfold Account
    refine and_congr Iff.rfl ⟨?_, ?_⟩
    · rintro ⟨w, f, iv', mk', a, b, c', e⟩
      by_cases hwu : w = d.uuid
      · subst hwu
        obtain ⟨g, g1, g2⟩ := h5
        rw [visible_unique a g1, g2] at b
        exact absurd (by simpa using b.symm) hne
      · exact ⟨w, f, iv', mk', (h6 w f hwu).1 a, b, c', e⟩
    · rintro ⟨w, f, iv', mk', a, b, c', e⟩
      by_cases hwu : w = d.uuid
      · subst hwu; exact absurd ⟨f, a⟩ hn.fresh
      · exact ⟨w, f, iv', mk', (h6 w f hwu).2 a, b, c', e⟩

/-- `adduser` in a multi-user file -/
theorem adduser_multi (P : Prims) (hP : Crypt.Spec.Lawful P) {ord : Order} (hord : ∀ m, (ord m).Perm m) {d : Draw}
    (hd : DrawOk d) {u : Session} (hu : MultiSession P u) {user typed : Str}
    (hpw : getPassword d.ent d.inp = .ok typed) (hn : NewOk P u.store d.uuid user) (hfree : ∀ v, ¬ IsUser u.store v user) :
    ∃ u', adduser P ord d u user = (u', .ok ()) ∧ MultiSession P u' ∧ u'.creds = u.creds ∧
      Account P u'.store u.creds.master user d.salt (P.kdf typed d.salt) ∧
      ∀ m user' salt' key', user' ≠ user →
        (Account P u'.store m user' salt' key' ↔ Account P u.store m user' salt' key') := by
  obtain ⟨s1, h1, h2⟩ := finishUser_spec P hP hord hd hu.good hn hfree hu.users.complete hu.users.distinct
  obtain ⟨s', g1, g2, g3, g4, g5, g6, g7⟩ := h2 u.creds (P.kdf typed d.salt) d.salt hu.creds.master (hP.kdf_length _ _)
    hd.salt_length
  have hmn := master_ne hu.creds
  have hdk : deriveKey P 1 typed d.salt = .ok (P.kdf typed d.salt, d.salt) := rfl
  refine ⟨{ u with store := s' }, ?_, ⟨hu.writable, g2, g3.trans hu.idle, hu.creds, g4, ?_, ?_⟩, rfl, g6, g7⟩
  · simp only [adduser, h1, hmn, if_false, hpw, hdk]
    exact g1
  · intro v user' h
    rcases (g5 _ _).1 h with h | ⟨rfl, -⟩
    · exact hu.uuids v user' h
    · exact hn.uuid_ne
  · obtain ⟨v, h⟩ := hu.me
    exact ⟨v, (g5 _ _).2 (.inl h)⟩

/-- `adduser` with a name that is taken changes nothing. -/
theorem adduser_taken (P : Prims) {ord : Order} (hord : ∀ m, (ord m).Perm m) {d : Draw} {u : Session} (hg : Good u.store)
    {user : Str} (hfresh : ¬ Exists u.store d.uuid) (h : ∃ v, IsUser u.store v user) :
    adduser P ord d u user = ({ u with store := u.store.updateSnapshot.1 }, .ok ()) := by
  obtain ⟨v, hv⟩ := h
  rcases newUser_spec hord d.now hg (user := user) hfresh with ⟨h1, -⟩ | ⟨s1, -, -, -, h4, -⟩
  · simp only [adduser, h1]
  · exact absurd hv (h4 v)

/-- One account command in a multi-user file keeps everything in order and changes the table of passwords as described. -/
theorem C51_step (P : Prims) (hP : Crypt.Spec.Lawful P) {ord : Order} (hord : ∀ m, (ord m).Perm m) {d : Draw}
    (hd : DrawOk d) {u : Session} (hu : MultiSession P u) {t : Passwords} (ht : Holders P u t) {typed : Str} {a : Acc}
    (ha : CanRun P d u typed a) :
    ∃ u', run P ord d u a = (u', .ok ()) ∧ MultiSession P u' ∧
      Holders P u' (effect u.creds.user u.creds.pass typed t a) := by
  cases a with
  | passwd user =>
    obtain ⟨hpw, hne⟩ := ha
    obtain ⟨u', h1, h2, h3, h4, h5⟩ := passwd_multi P hP hord hd hu user hpw hne
    exact ⟨u', h1, h2, holders_upd ht hne h3 h4 h5⟩
  | adduser user =>
    obtain ⟨hpw, hne, hn, hfree⟩ := ha
    obtain ⟨u', h1, h2, h3, h4, h5⟩ := adduser_multi P hP hord hd hu hpw hn hfree
    exact ⟨u', h1, h2, holders_upd ht hne (by rw [h3]) h4 h5⟩
  | rekey user =>
    by_cases hus : user = []
    · subst hus
      have ha' : u.creds.pass ≠ [] := ha
      obtain ⟨u', h1, h2, h3, h4, h5⟩ := rekey_multi P hP hord hd hu [] u.creds.pass ha' rfl
      exact ⟨u', h1, h2, holders_upd ht ha' h3 h4 h5⟩
    · simp only [CanRun, hus, if_false] at ha
      obtain ⟨hpw, hne, hex⟩ := ha
      obtain ⟨u', h1, h2, h3, h4, h5⟩ := rekey_multi P hP hord hd hu user typed hne (by simp only [hus, if_false]; exact ⟨hpw, hex⟩)
      simp only [hus, if_false] at h4 h5
      simp only [effect, hus, if_false]
      exact ⟨u', h1, h2, holders_upd ht hne h3 h4 h5⟩

theorem runs_inv (P : Prims) (hP : Crypt.Spec.Lawful P) {ord : Order} (hord : ∀ m, (ord m).Perm m) {u u' : Session}
    {t t' : Passwords} (h : Runs P ord u t u' t') (hu : MultiSession P u) (ht : Holders P u t) :
    MultiSession P u' ∧ Holders P u' t' := by
  induction h with
  | refl => exact ⟨hu, ht⟩
  | step d typed a _ hd hc hr ih =>
    obtain ⟨h1, h2⟩ := ih
    obtain ⟨v, g1, g2, g3⟩ := C51_step P hP hord hd h1 h2 hc
    rw [hr] at g1
    cases g1
    exact ⟨g2, g3⟩

/-- C51 (multi-user file): after any sequence of `passwd`, `adduser` and `rekey`, each with a non-empty password, the file can be
saved, and everybody who could open the file at the start, or was given a password since, can open it with the last password
given to them, and sees the same store. -/
theorem C51_sequence_partial (P : Prims) (hP : Crypt.Spec.Lawful P) (C : Codec) (ord : Order)
    (hord : ∀ m, (ord m).Perm m) (ord' : Results → Results) (hord' : ∀ m, (ord' m).Perm m) (iv : Str) (u u' : Session)
    (t t' : Passwords) (hu : MultiSession P u) (ht : Holders P u t) (h : Runs P ord u t u' t') (hC : Faithful C u'.store) :
    ∃ f s', saveBlob P C ord ord' iv u' = .ok (some f) ∧ SameStore s' u'.store ∧
      ∀ user pass, t' user = some pass → ∃ c, openFile P C none f [some user, some pass] =
        (.ok { creds := c, store := s', readOnly := false, startTx := u'.store.log.length }, []) ∧
        c.user = user ∧ c.master = u'.creds.master := by
  obtain ⟨h1, h2⟩ := runs_inv P hP hord h hu ht
  obtain ⟨f, s', g1, g2, g3⟩ := C51_save_open_multi P hP C ord hord ord' hord' iv u' h1.writable h1.idle h1.good hC h1.creds
    h1.users
  refine ⟨f, s', g1, g2, ?_⟩
  intro user pass hup
  obtain ⟨salt, ho⟩ := h2 user pass hup
  exact ⟨_, g3 user pass salt ho, rfl, rfl⟩

/-- C51 (first user): in a single-user file without user entries, `adduser` makes the file a multi-user file that the new user
opens with the password the file had. -/
theorem C51_first_user (P : Prims) (hP : Crypt.Spec.Lawful P) {ord : Order} (hord : ∀ m, (ord m).Perm m) {d : Draw}
    (hd : DrawOk d) {u : Session} {pass : Str} (hu : SingleSession P u pass) {user : Str} (hn : NewOk P u.store d.uuid user)
    (hnone : ∀ v user', ¬ IsUser u.store v user') :
    ∃ u', adduser P ord d u user = (u', .ok ()) ∧ MultiSession P u' ∧ u'.creds.user = user ∧
      Holders P u' (Txlogs.Spec.upd (fun _ => none) user (some pass)) := by
  have hkl : u.creds.key.length = 80 := hu.creds.key
  obtain ⟨s1, h1, h2⟩ := finishUser_spec P hP hord hd hu.good hn (hnone · _) (fun v e x a b => absurd ⟨e, a, b⟩ (hnone v x))
    (fun v v' a b ha _ _ => absurd ha (hnone v a))
  obtain ⟨s', g1, g2, g3, g4, g5, g6, g7⟩ := h2 { u.creds with master := d.master, ivm := d.ivm, user := user } u.creds.key
    u.creds.salt hd.master_length hkl hu.creds.salt
  refine ⟨{ u with store := s', creds := { u.creds with master := d.master, ivm := d.ivm, user := user } }, ?_,
    ⟨hu.writable, g2, g3.trans hu.idle, ⟨hd.master_length, hd.ivm_length, hkl⟩, g4, ?_, ?_⟩, rfl, ?_⟩
  · simp only [adduser, h1, hu.creds.master, if_true]
    exact g1
  · intro v user' h
    rcases (g5 _ _).1 h with h | ⟨rfl, -⟩
    · exact absurd h (hnone _ _)
    · exact hn.uuid_ne
  · exact ⟨d.uuid, (g5 _ _).2 (.inr ⟨rfl, rfl⟩)⟩
  · intro user' pass' h
    simp only [Txlogs.Spec.upd] at h
    split at h
    · rename_i he
      cases h
      rw [he]
      exact ⟨u.creds.salt, hu.pass_ne, by rw [← hu.key]; exact g6⟩
    · cases h

/-- C51 (single-user file, `passwd`): the file opens with the new password. -/
theorem C51_passwd_single (P : Prims) (hP : Crypt.Spec.Lawful P) (C : Codec) (ord : Order) (ord' : Results → Results)
    (iv : Str) (hiv : iv.length = 40) (d : Draw) (hd : DrawOk d) (u : Session) (old : Str) (hu : SingleSession P u old)
    (hus : u.creds.user = []) (user typed : Str) (hpw : getPassword d.ent d.inp = .ok typed) (hne : typed ≠ [])
    (hC : Faithful C u.store) :
    ∃ u' f s', passwd P ord d u user = (u', .ok ()) ∧ SingleSession P u' typed ∧ u'.store = u.store ∧
      saveBlob P C ord ord' iv u' = .ok (some f) ∧ SameStore s' u.store ∧
      ∃ c, openFile P C none f [some typed] =
        (.ok { creds := c, store := s', readOnly := false, startTx := u.store.log.length }, []) := by
  have hk := hP.kdf_length typed d.salt
  have hdk : deriveKey P 1 typed d.salt = .ok (P.kdf typed d.salt, d.salt) := rfl
  have hsc : SingleCreds { u.creds with pass := typed, key := P.kdf typed d.salt, salt := d.salt } :=
    ⟨hu.creds.master, hk, hd.salt_length⟩
  have hss : SingleSession P { u with creds := { u.creds with pass := typed, key := P.kdf typed d.salt, salt := d.salt } }
      typed := ⟨hu.writable, hu.good, hu.idle, hsc, hne, rfl⟩
  obtain ⟨f, s', g1, g2, g3⟩ := C51_save_open_single P hP C ord ord' iv hiv
    { u with creds := { u.creds with pass := typed, key := P.kdf typed d.salt, salt := d.salt } } hu.writable hu.idle hC hsc
    typed hne rfl
  refine ⟨_, f, s', ?_, hss, rfl, g1, g2, _, g3⟩
  simp only [passwd, hpw, hne, if_false, hdk, hus, true_or, if_true, hu.creds.master]

/-- C51 (single-user file, `rekey`): the file opens with the password of the session. -/
theorem C51_rekey_single (P : Prims) (hP : Crypt.Spec.Lawful P) (C : Codec) (ord : Order) (ord' : Results → Results)
    (iv : Str) (hiv : iv.length = 40) (d : Draw) (hd : DrawOk d) (u : Session) (hu : SingleSession P u u.creds.pass)
    (hC : Faithful C u.store) :
    ∃ u' f s', rekey P ord d u [] = (u', .ok ()) ∧ SingleSession P u' u.creds.pass ∧ u'.creds.salt = d.salt ∧
      saveBlob P C ord ord' iv u' = .ok (some f) ∧ SameStore s' u.store ∧
      ∃ c, openFile P C none f [some u.creds.pass] =
        (.ok { creds := c, store := s', readOnly := false, startTx := u.store.log.length }, []) := by
  have hne := hu.pass_ne
  have hk := hP.kdf_length u.creds.pass d.salt
  have hdk : deriveKey P 1 u.creds.pass d.salt = .ok (P.kdf u.creds.pass d.salt, d.salt) := rfl
  have hsc : SingleCreds { u.creds with key := P.kdf u.creds.pass d.salt, salt := d.salt } :=
    ⟨hu.creds.master, hk, hd.salt_length⟩
  have hss : SingleSession P { u with creds := { u.creds with key := P.kdf u.creds.pass d.salt, salt := d.salt } }
      u.creds.pass := ⟨hu.writable, hu.good, hu.idle, hsc, hne, rfl⟩
  obtain ⟨f, s', g1, g2, g3⟩ := C51_save_open_single P hP C ord ord' iv hiv
    { u with creds := { u.creds with key := P.kdf u.creds.pass d.salt, salt := d.salt } } hu.writable hu.idle hC hsc _ hne rfl
  refine ⟨_, f, s', ?_, hss, rfl, g1, g2, _, g3⟩
  simp only [rekey, if_true, hne, if_false, hdk, hu.creds.master, eq_self]

end Verif.App

namespace Verif.App
open Verif Verif.Txlogs Verif.Blob Verif.Crypt Verif.App.Spec

/-! ## C53 -/

/-- C53 holds for the current user: `passwd` without a name, or with the name of the current user, makes the new password open
the record of that user and touches no other record. -/
theorem C53_partial (P : Prims) (hP : Crypt.Spec.Lawful P) {ord : Order} (hord : ∀ m, (ord m).Perm m) {d : Draw}
    (hd : DrawOk d) {u : Session} (hu : MultiSession P u) (user : Str) (hme : user = [] ∨ user = u.creds.user) {typed : Str}
    (hpw : getPassword d.ent d.inp = .ok typed) (hne : typed ≠ []) :
    let named := if user = [] then u.creds.user else user
    ∃ u', passwd P ord d u user = (u', .ok ()) ∧ Opens P u'.store u'.creds.master named typed d.salt ∧
      ∀ m user' salt' key', user' ≠ named →
        (Account P u'.store m user' salt' key' ↔ Account P u.store m user' salt' key') := by
  have hn : (if user = [] then u.creds.user else user) = u.creds.user := by
    split
    · rfl
    · rename_i h; exact hme.resolve_left h
  obtain ⟨u', h1, -, h3, h4, h5⟩ := passwd_multi P hP hord hd hu user hpw hne
  simp only [hn]
  exact ⟨u', h1, ⟨hne, by rw [h3]; exact h4⟩, h5⟩

/-- C53 is false for other users: `passwd bob` leaves the record of `bob` (and of everybody else) alone and gives the new
password to the current user. -/
theorem C53_false (P : Prims) (hP : Crypt.Spec.Lawful P) {ord : Order} (hord : ∀ m, (ord m).Perm m) {d : Draw}
    (hd : DrawOk d) {u : Session} (hu : MultiSession P u) (bob : Str) (hbob : bob ≠ u.creds.user) {typed : Str}
    (hpw : getPassword d.ent d.inp = .ok typed) (hne : typed ≠ []) :
    ∃ u', passwd P ord d u bob = (u', .ok ()) ∧
      (∀ m salt key, Account P u'.store m bob salt key ↔ Account P u.store m bob salt key) ∧
      Opens P u'.store u'.creds.master u.creds.user typed d.salt := by
  obtain ⟨u', h1, -, h3, h4, h5⟩ := passwd_multi P hP hord hd hu bob hpw hne
  exact ⟨u', h1, fun m salt key => h5 m bob salt key hbob, hne, by rw [h3]; exact h4⟩

/-- `passwd` without a name in a multi-user file leaves the password, key and salt of the session as they were. -/
theorem passwd_stale (P : Prims) {ord : Order} {d : Draw} {u u' : Session} (hme : u.creds.user ≠ [])
    (h : passwd P ord d u [] = (u', .ok ())) : u'.creds = u.creds := by
  unfold passwd at h
  split at h
  · cases h
  · cases h
  · split at h
    · cases h; rfl
    · split at h
      · cases h
      · cases h
      · simp only [hme, or_self, if_false] at h
        split at h
        · cases h; rfl
        · unfold storeUser at h
          split at h
          · cases h
          · cases h
          · split at h
            · cases h
            · cases h
            · cases h; rfl

/-- C51 is false for `passwd` followed by `rekey` in a multi-user file: the current user's record then opens with the old password
again. -/
theorem C51_passwd_rekey_false (P : Prims) (hP : Crypt.Spec.Lawful P) {ord : Order} (hord : ∀ m, (ord m).Perm m)
    {d d' : Draw} (hd : DrawOk d) (hd' : DrawOk d') {u : Session} (hu : MultiSession P u) {typed : Str}
    (hpw : getPassword d.ent d.inp = .ok typed) (hne : typed ≠ []) (hold : u.creds.pass ≠ []) :
    ∃ u1 u2, passwd P ord d u [] = (u1, .ok ()) ∧ Opens P u1.store u1.creds.master u.creds.user typed d.salt ∧
      rekey P ord d' u1 [] = (u2, .ok ()) ∧ Opens P u2.store u2.creds.master u.creds.user u.creds.pass d'.salt := by
  have hme : u.creds.user ≠ [] := by
    obtain ⟨v, e, a, b⟩ := hu.me
    exact (hu.users.complete _ _ _ a b).1
  obtain ⟨u1, h1, h2, h3, h4, h5⟩ := passwd_multi P hP hord hd hu [] hpw hne
  have hc := passwd_stale P hme h1
  obtain ⟨u2, g1, g2, g3, g4, g5⟩ := rekey_multi P hP hord hd' h2 [] u1.creds.pass (by rw [hc]; exact hold) rfl
  refine ⟨u1, u2, h1, ⟨hne, by rw [h3]; exact h4⟩, g1, hold, ?_⟩
  rw [g3]
  have := g4
  rw [if_pos rfl] at this
  rw [hc] at this ⊢
  exact this

/-- C51 is false for `adduser` with an empty password, which is not refused: the command succeeds, the file can be saved, but the
new user cannot open it with the password they were given. -/
theorem C51_empty_password_false (P : Prims) (hP : Crypt.Spec.Lawful P) (C : Codec) {ord : Order}
    (hord : ∀ m, (ord m).Perm m) (ord' : Results → Results) (hord' : ∀ m, (ord' m).Perm m) (iv : Str)
    {d : Draw} (hd : DrawOk d) {u : Session} (hu : MultiSession P u) {user : Str}
    (hpw : getPassword d.ent d.inp = .ok []) (hn : NewOk P u.store d.uuid user) (hfree : ∀ v, ¬ IsUser u.store v user)
    (hC : Faithful C (adduser P ord d u user).1.store) :
    ∃ u' f, adduser P ord d u user = (u', .ok ()) ∧ saveBlob P C ord ord' iv u' = .ok (some f) ∧
      ∀ h u'', (openFile P C h f [some user, some []]).1 ≠ .ok u'' := by
  obtain ⟨u', h1, h2, -, -, -⟩ := adduser_multi P hP hord hd hu hpw hn hfree
  obtain ⟨f, s', g1, -, -⟩ := C51_save_open_multi P hP C ord hord ord' hord' iv u' h2.writable h2.idle h2.good
    (by rw [h1] at hC; exact hC)
    h2.creds h2.users
  refine ⟨u', f, h1, g1, ?_⟩
  intro h u'' hop
  have key : ∀ user' x, decrypt P user' [] none [] f ≠ .ok x :=
    fun user' x => C48_empty_passphrase P user' none [] f (.inr rfl) x
  unfold openFile at hop
  split at hop
  · cases hop
  · cases hop
  · rename_i multi _
    cases multi with
    | true =>
      simp only [prompt, if_true] at hop
      split at hop
      · cases hop
      · cases hop
      · rename_i hdec
        exact key _ _ hdec
    | false =>
      simp only [prompt, Bool.false_eq_true, if_false] at hop
      -- the first answer would be taken as the password; the saved file is a multi-user file, so this does not arise
      have hmf : isMultiUser f = .ok true := by
        obtain ⟨p, n, hmk, hwf, -⟩ := makeParams_multi P hP hord hord' h2.good h2.creds h2.users
        unfold saveBlob sealFile at g1
        simp only [h2.writable, hmk, Bool.false_eq_true, if_false] at g1
        split at g1
        · rename_i f' hf'
          cases g1
          split at hf'
          · cases hf'
          · split at hf'
            · cases hf'
            · cases hf'
            · rename_i henc
              cases hf'
              rw [C50_isMultiUser P 1 p iv _ _ henc]
              have := hwf.nUsers; have := hwf.pos
              have h0 : p.nUsers ≠ 0 := by omega
              simp [h0]
        · cases g1
        · cases g1
      rename_i hmf'
      rw [hmf] at hmf'
      cases hmf'

/-! ## C52 -/

theorem genPassword_32 (ent : Nat → UInt8) : ∃ pw, genPassword ent 32 {} = .ok pw ∧ pw ≠ [] := by
  have hi : ¬ Impossible 32 {} := by
    unfold Impossible
    simp [Classes.needLen, Classes.all]
  obtain ⟨pw, h1, h2⟩ := (C54_meets_partial ent 32 {} (.inr (by decide))).2 hi
  refine ⟨pw, h1, ?_⟩
  intro h
  have := h2.1
  rw [h] at this
  simp at this

/-- The loop of `rekeyAll`: every listed user gets a record that the printed password opens, around the master key the session had;
records of users that are not listed are not touched. -/
theorem rekeyLoop_spec (P : Prims) (hP : Crypt.Spec.Lawful P) (l : List (Str × Str)) (ds : Nat → Draw)
    (hds : ∀ i, DrawOk (ds i)) (u : Session) (hu : MultiSession P u) (out : List (Str × Str))
    (hl : ∀ x ∈ l, ∃ user, x.2 = userPrefix ++ user ∧ IsUser u.store x.1 user)
    (hnd : (l.map Prod.snd).Nodup) (ho : ∀ x ∈ out, userPrefix ++ x.1 ∉ l.map Prod.snd)
    (hout : ∀ x ∈ out, ∃ salt, Opens P u.store u.creds.master x.1 x.2 salt) :
    ∃ u' out', rekeyLoop P l ds u out = (u', .ok out') ∧ MultiSession P u' ∧ u'.creds.master = u.creds.master ∧
      u'.creds.user = u.creds.user ∧
      (∀ x ∈ out', ∃ salt, Opens P u'.store u.creds.master x.1 x.2 salt) ∧
      (∀ user, userPrefix ++ user ∈ l.map Prod.snd ∨ user ∈ out.map Prod.fst → user ∈ out'.map Prod.fst) ∧
      ∀ m user salt key, userPrefix ++ user ∉ l.map Prod.snd →
        (Account P u'.store m user salt key ↔ Account P u.store m user salt key) := by
  induction l generalizing ds u out with
  | nil =>
    refine ⟨u, out, rfl, hu, rfl, rfl, hout, ?_, fun _ _ _ _ _ => Iff.rfl⟩
    rintro user (h | h)
    · simp at h
    · exact h
  | cons x l ih =>
    obtain ⟨uuid, nm⟩ := x
    obtain ⟨user, hnm, hv⟩ := hl _ List.mem_cons_self
    simp only at hnm hv
    subst hnm
    obtain ⟨pw, hpw, hpne⟩ := genPassword_32 ((ds 0).ent 0)
    have hdk : deriveKey P 1 pw (ds 0).salt = .ok (P.kdf pw (ds 0).salt, (ds 0).salt) := rfl
    have hk := hP.kdf_length pw (ds 0).salt
    let c := if user = u.creds.user then { u.creds with pass := pw, key := P.kdf pw (ds 0).salt, salt := (ds 0).salt }
      else u.creds
    have hc : c.master = u.creds.master ∧ c.ivm = u.creds.ivm ∧ c.user = u.creds.user ∧ c.key.length = 80 := by
      simp only [c]
      split
      · exact ⟨rfl, rfl, rfl, hk⟩
      · exact ⟨rfl, rfl, rfl, hu.creds.key⟩
    have hu1 : MultiSession P { u with creds := c } := multi_creds hu hc.1 hc.2.1 hc.2.2.1 hc.2.2.2
    obtain ⟨mkey, hw, hml⟩ := wrap_ok P hP hk hu1.creds.master (hds 0).iv_length
    obtain ⟨r1, r2, r3, r4⟩ := setRecord_session P (now := (ds 0).now) hu1 hu.good rfl rfl (hds 0).salt_length
      (hds 0).iv_length hml hv hw
    simp only [List.map_cons, List.nodup_cons] at hnd
    have hcm : ({ u with creds := c } : Session).creds.master = u.creds.master := hc.1
    rw [hcm] at r2
    obtain ⟨u', out', g1, g2, g3, g4, g5, g6, g7⟩ := ih (fun i => ds (i + 1)) (fun i => hds (i + 1))
      { u with creds := c, store := setRecord (ds 0).now u.store uuid (ds 0).salt (ds 0).iv mkey } r1 (out ++ [(user, pw)])
      (fun x hx => by
        obtain ⟨y, h1, h2⟩ := hl x (List.mem_cons_of_mem _ hx)
        exact ⟨y, h1, (r4 _ _).2 h2⟩) hnd.2
      (by
        intro x hx
        rcases List.mem_append.1 hx with hx | hx
        · exact fun h => ho x hx (List.mem_cons_of_mem _ h)
        · simp only [List.mem_singleton] at hx
          subst hx
          exact hnd.1)
      (by
        intro x hx
        simp only [hc.1]
        rcases List.mem_append.1 hx with hx | hx
        · obtain ⟨salt, h1, h2⟩ := hout x hx
          refine ⟨salt, h1, (r3 _ _ _ _ ?_).2 h2⟩
          intro h
          exact ho x hx (by simp [h])
        · simp only [List.mem_singleton] at hx
          subst hx
          exact ⟨(ds 0).salt, hpne, r2⟩)
    simp only [hc.1] at g3 g5
    refine ⟨u', out', ?_, g2, g3, g4.trans hc.2.2.1, g5, ?_, ?_⟩
    · rw [← g1]
      simp only [rekeyLoop, splitUsername_prefix, hpw, hdk]
      have hcu : (if user = u.creds.user then
          ({ u with creds := { u.creds with pass := pw, key := P.kdf pw (ds 0).salt, salt := (ds 0).salt } } : Session)
          else u) = { u with creds := c } := by
        simp only [c]; split <;> rfl
      rw [hcu]
      have hw' : encryptMasterKey P 1 (P.kdf pw (ds 0).salt) ({ u with creds := c } : Session).creds.master (ds 0).iv =
        .ok (mkey, (ds 0).iv) := hw
      simp only at hw' ⊢
      rw [hw']
    · rintro y (h | h)
      · rcases List.mem_cons.1 h with h | h
        · have : y = user := by simpa using h
          exact g6 y (.inr (by simp [this]))
        · exact g6 y (.inl h)
      · exact g6 y (.inr (by simp only [List.map_append, List.mem_append]; exact .inl h))
    · intro m y salt key hy
      simp only [List.map_cons, List.mem_cons, not_or] at hy
      refine (g7 m y salt key hy.2).trans (r3 m y salt key ?_)
      intro h
      exact hy.1 (by rw [h])

/-- What remains of C52: `rekeyAll`, when confirmed, succeeds and gives every user a record that the printed password opens --
around the master key the session had before. -/
theorem C52_old_master_partial (P : Prims) (hP : Crypt.Spec.Lawful P) {ord : Order} (hord : ∀ m, (ord m).Perm m)
    {ord' : Results → Results} (hord' : ∀ m, (ord' m).Perm m) {d : Draw} {ds : Nat → Draw} (hd : DrawOk d)
    (hds : ∀ i, DrawOk (ds i)) {u : Session} (hu : MultiSession P u) (hyes : (getYesNo d.inp).1 = some true) :
    ∃ u' out, rekeyAll P ord ord' d ds u = (u', .ok out) ∧ MultiSession P u' ∧ u'.creds.master = d.master ∧
      (∀ uuid user, IsUser u.store uuid user → user ∈ out.map Prod.fst) ∧
      ∀ x ∈ out, ∃ salt, Opens P u'.store u.creds.master x.1 x.2 salt := by
  obtain ⟨us, h1, hf, hlog, hnd, hus⟩ := users_spec hord hu.good
  have hmem : ∀ uuid n, (uuid, n) ∈ ord' us ↔ Blob.Spec.Named u.store uuid n ∧ hasPrefix n userPrefix = true := by
    intro uuid n
    rw [(hord' us).mem_iff, GoMap.mem_iff_get? hnd, hus]
  have hu1 : MultiSession P { u with store := u.store.updateSnapshot.1 } :=
    ⟨hu.writable, good_update hu.good, (update_txPoint _).trans hu.idle, hu.creds,
      ⟨by
        obtain ⟨a, b, h⟩ := hu.users.exists_user
        exact ⟨a, b, (named_log hlog _ _).2 h⟩,
       fun l hl h => hu.users.few l hl (fun v hv => by
        obtain ⟨x, hx⟩ := h v hv
        exact ⟨x, (named_log hlog _ _).1 hx⟩),
       fun a b c h h' => hu.users.complete a b c ((visible_log hlog _ _).1 h) h',
       fun a b c e h h' h'' => hu.users.distinct a b c e ((named_log hlog _ _).1 h) ((named_log hlog _ _).1 h') h''⟩,
      fun a b h => hu.uuids a b ((named_log hlog _ _).1 h), by
        obtain ⟨v, h⟩ := hu.me
        exact ⟨v, (named_log hlog _ _).2 h⟩⟩
  have hnames : ((ord' us).map Prod.snd).Nodup := by
    have hk : ((ord' us).map Prod.fst).Nodup := ((hord' us).map Prod.fst).nodup_iff.2 hnd
    rw [List.Nodup, List.pairwise_map] at hk ⊢
    refine hk.imp_of_mem ?_
    rintro ⟨a, n⟩ ⟨b, n'⟩ ha hb hab heq
    simp only at hab heq
    subst heq
    obtain ⟨ha1, ha2⟩ := (hmem _ _).1 ha
    obtain ⟨hb1, -⟩ := (hmem _ _).1 hb
    obtain ⟨user, rfl⟩ := (hasPrefix_iff _ _).1 ha2
    exact hab (hu.users.distinct a b user user ha1 hb1 rfl)
  obtain ⟨u', out, g1, g2, g3, g4, g5, g6, g7⟩ := rekeyLoop_spec P hP (ord' us) ds hds _ hu1 []
    (by
      rintro ⟨uuid, n⟩ hx
      obtain ⟨a1, a2⟩ := (hmem _ _).1 hx
      obtain ⟨user, rfl⟩ := (hasPrefix_iff _ _).1 a2
      exact ⟨user, rfl, (named_log hlog _ _).2 a1⟩) hnames (by simp) (by simp)
  have hmn := master_ne hu.creds
  refine ⟨{ u' with creds := { u'.creds with master := d.master, ivm := d.ivm } }, out, ?_,
    ⟨g2.writable, g2.good, g2.idle, ⟨hd.master_length, hd.ivm_length, g2.creds.key⟩, g2.users, g2.uuids, g2.me⟩, rfl, ?_, g5⟩
  · unfold rekeyAll
    rw [if_neg hmn]
    cases hyn : getYesNo d.inp with
    | mk a b =>
      rw [hyn] at hyes
      simp only at hyes
      subst hyes
      simp only [h1, g1]
  · intro uuid user h
    exact g6 user (.inl (List.mem_map.2 ⟨(uuid, userPrefix ++ user), (hmem _ _).2 ⟨h, (hasPrefix_iff _ _).2 ⟨_, rfl⟩⟩, rfl⟩))

/-- Without confirmation, and in a single-user file, `rekeyAll` does nothing. -/
theorem C52_refused (P : Prims) (ord : Order) (ord' : Results → Results) (d : Draw) (ds : Nat → Draw) (u : Session)
    (h : u.creds.master = [] ∨ (getYesNo d.inp).1 = some false) : rekeyAll P ord ord' d ds u = (u, .ok []) := by
  unfold rekeyAll
  by_cases hm : u.creds.master = []
  · rw [if_pos hm]
  · rw [if_neg hm]
    have h := h.resolve_left hm
    split <;> rename_i heq <;> rw [heq] at h <;> simp at h

/-! ## C62 -/

theorem two_users {us : Results} (hnd : GoMap.NodupKeys us) {a b n m : Str} (hab : a ≠ b) (ha : us.get? a = some n)
    (hb : us.get? b = some m) : us.length > 1 := by
  have := nodup_subset_length [a, b] (us.map Prod.fst) (by simp [hab]) (by
    intro x hx
    simp only [List.mem_cons, List.not_mem_nil, or_false] at hx
    rcases hx with rfl | rfl
    · exact List.mem_map.2 ⟨_, (GoMap.mem_iff_get? hnd).2 ha, rfl⟩
    · exact List.mem_map.2 ⟨_, (GoMap.mem_iff_get? hnd).2 hb, rfl⟩)
  simp at this
  omega

theorem update_twice {s : DB} (h : Good s) : s.updateSnapshot.1.updateSnapshot.1 = s.updateSnapshot.1 :=
  update_fresh (good_withSnapshot h (fun s => ((s, .panic) : Out Str))).2.1

/-- C62 (first part): a user cannot delete their own entry while there are other users; whatever is typed, nothing changes. -/
theorem C62_self_refused {ord : Order} (hord : ∀ m, (ord m).Perm m) (now : Int) (inp : Input) {u : Session}
    (hg : Good u.store) (hme : u.creds.user ≠ []) {v w user user' : Str} (hvw : v ≠ w) (hv : IsUser u.store v user)
    (hw : IsUser u.store w user') :
    deleteEntry ord now inp u (userPrefix ++ u.creds.user) = ({ u with store := u.store.updateSnapshot.1 }, .ok ()) := by
  obtain ⟨us, h1, hf, hlog, hnd, hus⟩ := users_spec hord (good_update hg)
  rw [update_twice hg] at h1
  have hl := updateSnapshot_log u.store
  have hp : ∀ x, hasPrefix (userPrefix ++ x) userPrefix = true := fun x => (hasPrefix_iff _ _).2 ⟨_, rfl⟩
  have h2 : us.length > 1 := two_users hnd hvw ((hus _ _).2 ⟨(named_log hl _ _).2 hv, hp _⟩)
    ((hus _ _).2 ⟨(named_log hl _ _).2 hw, hp _⟩)
  unfold deleteEntry
  rcases findByName_spec hord hg (userPrefix ++ u.creds.user) with ⟨x, e, a, b, c⟩ | ⟨a, b⟩
  · rw [a]
    simp only [splitUsername_prefix]
    by_cases hx : x = []
    · simp [hx]
    · simp [hx, hme, h1, h2]
  · rw [a]

theorem delete_spec {s : DB} (hg : Good s) (t : Int) {uuid : Str} {e : Str → Option Str} (he : Blob.Spec.Visible s uuid e) :
    Good (s.delete t uuid) ∧ (∀ f, ¬ Blob.Spec.Visible (s.delete t uuid) uuid f) ∧
      ∀ w f, w ≠ uuid → (Blob.Spec.Visible (s.delete t uuid) w f ↔ Blob.Spec.Visible s w f) := by
  have h1 := good_delete t uuid hg ⟨e, he⟩
  refine ⟨h1, ?_, fun w f hw => visible_other hw (ops := [{ time := t, kind := .del, uuid := uuid }]) rfl (by simp) h1 f⟩
  rintro f ⟨st, a, b⟩
  obtain ⟨st0, c, d⟩ := he
  simp only [DB.delete, DB.appendLog, meaning_snoc, c, Option.bind_some, Txlogs.Spec.apply, d] at a
  cases a
  simp [Txlogs.Spec.upd] at b

/-- the rest of `deleteEntry` when it is confirmed and the entry counts as the current user's -/
theorem deleteEntry_self {ord : Order} (hord : ∀ m, (ord m).Perm m) (now : Int) (inp : Input) {u : Session}
    (hg : Good u.store) (hme : u.creds.user ≠ []) {nm uuid : Str} (hs : splitUsername nm = u.creds.user)
    (hn : Blob.Spec.Named u.store uuid nm) (huniq : ∀ v, Blob.Spec.Named u.store v nm → v = uuid) (huu : uuid ≠ [])
    (hone : ∀ v w user user', IsUser u.store v user → IsUser u.store w user' → v = w)
    (hp : (prompt inp).1 = some nm) :
    deleteEntry ord now inp u nm = ({ u with creds := { u.creds with master := [], ivm := [] }
                                             store := u.store.updateSnapshot.1.delete now uuid }, .ok ()) := by
  obtain ⟨us, h1, hf, hlog, hnd, hus⟩ := users_spec hord (good_update hg)
  rw [update_twice hg] at h1
  have hl := updateSnapshot_log u.store
  have h2 : ¬ us.length > 1 := by
    intro hlen
    match us, hlen, hnd, hus with
    | (a, n) :: (b, m) :: rest, _, hnd, hus =>
      have ha := (GoMap.mem_iff_get? hnd (k := a) (v := n)).1 (by simp)
      have hb := (GoMap.mem_iff_get? hnd (k := b) (v := m)).1 (by simp)
      obtain ⟨a1, a2⟩ := (hus _ _).1 ha
      obtain ⟨b1, b2⟩ := (hus _ _).1 hb
      obtain ⟨x, rfl⟩ := (hasPrefix_iff _ _).1 a2
      obtain ⟨y, rfl⟩ := (hasPrefix_iff _ _).1 b2
      have := hone a b x y ((named_log hl _ _).1 a1) ((named_log hl _ _).1 b1)
      subst this
      simp [GoMap.NodupKeys] at hnd
    | [], hlen, _, _ => simp at hlen
    | [_], hlen, _, _ => simp at hlen
  unfold deleteEntry
  rcases findByName_spec hord hg nm with ⟨x, e, a, b, c⟩ | ⟨a, b⟩
  · rw [a]
    have : x = uuid := huniq x ⟨_, b, c⟩
    subst this
    simp only [hs, huu, if_false, hme, ne_eq, not_false_eq_true, and_self, decide_true, if_true, h1, h2, hp, Option.getD_some,
      not_true_eq_false]
  · exact absurd hn (b uuid)

/-- C62 (second part): deleting the last user entry turns the file into a single-user file that the password of the session opens
(given that the session's key belongs to it), in which there are no user entries and all other entries are as before. -/
theorem C62_last_user_partial (P : Prims) (hP : Crypt.Spec.Lawful P) (C : Codec) {ord : Order} (hord : ∀ m, (ord m).Perm m)
    (ord' : Results → Results) (iv : Str) (hiv : iv.length = 40) (now : Int) (inp : Input) {u : Session}
    (hu : MultiSession P u) {uuid pass : Str} (hme : IsUser u.store uuid u.creds.user)
    (hone : ∀ v user, IsUser u.store v user → v = uuid) (hp : (prompt inp).1 = some (userPrefix ++ u.creds.user))
    (hne : pass ≠ []) (hkey : u.creds.key = P.kdf pass u.creds.salt) (hsalt : u.creds.salt.length = 32)
    (hC : Faithful C (u.store.updateSnapshot.1.delete now uuid)) :
    ∃ u' f s', deleteEntry ord now inp u (userPrefix ++ u.creds.user) = (u', .ok ()) ∧ SingleSession P u' pass ∧
      (∀ v user, ¬ IsUser u'.store v user) ∧
      (∀ w e, w ≠ uuid → (Blob.Spec.Visible u'.store w e ↔ Blob.Spec.Visible u.store w e)) ∧
      saveBlob P C ord ord' iv u' = .ok (some f) ∧ SameStore s' u'.store ∧
      ∃ c, openFile P C none f [some pass] =
        (.ok { creds := c, store := s', readOnly := false, startTx := u'.store.log.length }, []) := by
  obtain ⟨e, he, hen⟩ := hme
  have hmn : u.creds.user ≠ [] := (hu.users.complete _ _ _ he hen).1
  have hd := deleteEntry_self hord now inp hu.good hmn (splitUsername_prefix _) ⟨e, he, hen⟩ (fun v h => hone v _ h)
    (hu.uuids _ _ ⟨e, he, hen⟩) (fun v w a b h1 h2 => (hone v a h1).trans (hone w b h2).symm) hp
  have hl := updateSnapshot_log u.store
  obtain ⟨g1, g2, g3⟩ := delete_spec (good_update hu.good) now ((visible_log hl _ _).2 he)
  have hvis : ∀ w f, w ≠ uuid → (Blob.Spec.Visible (u.store.updateSnapshot.1.delete now uuid) w f ↔
      Blob.Spec.Visible u.store w f) := fun w f hw => (g3 w f hw).trans (visible_log hl _ _)
  have hidle : (u.store.updateSnapshot.1.delete now uuid).txPoint = 0 := (update_txPoint _).trans hu.idle
  have hsc : SingleCreds { u.creds with master := [], ivm := [] } := ⟨rfl, hu.creds.key, hsalt⟩
  obtain ⟨f, s', k1, k2, k3⟩ := C51_save_open_single P hP C ord ord' iv hiv
    { u with creds := { u.creds with master := [], ivm := [] }, store := u.store.updateSnapshot.1.delete now uuid }
    hu.writable hidle hC hsc pass hne hkey
  refine ⟨_, f, s', hd, ⟨hu.writable, g1, hidle, hsc, hne, hkey⟩, ?_, hvis, k1, k2, _, k3⟩
  rintro v user ⟨f', a, b⟩
  by_cases hv : v = uuid
  · subst hv; exact g2 _ a
  · exact hv (hone v user ⟨f', (hvis _ _ hv).1 a, b⟩)

/-- C62 (third part): deleting an entry whose name does not split into the current user's name leaves the credentials alone, so the
file stays what it was. -/
theorem C62_other_partial (ord : Order) (now : Int) (inp : Input) (u : Session) (nm : Str)
    (h : splitUsername nm = [] ∨ splitUsername nm ≠ u.creds.user) : (deleteEntry ord now inp u nm).1.creds = u.creds := by
  have hds : (decide (splitUsername nm ≠ [] ∧ splitUsername nm = u.creds.user)) = false := by
    simp only [decide_eq_false_iff_not, not_and]
    intro h1
    exact h.resolve_left h1
  unfold deleteEntry
  split
  · rfl
  · rfl
  · rfl
  · simp only [hds]
    split
    · rfl
    · simp only [Bool.false_eq_true, if_false]
      split <;> rfl

/-- C62 (third part) is false: deleting an entry that is not a user entry but whose name contains `user/` followed by the name of
the only user makes the file a single-user file, although the user entry is still there. -/
theorem C62_false (P : Prims) {ord : Order} (hord : ∀ m, (ord m).Perm m) (now : Int) (inp : Input)
    {u : Session} (hu : MultiSession P u) {x uuid me : Str} (hx : hasPrefix (x ++ userPrefix ++ u.creds.user) userPrefix = false)
    (hsplit : splitUsername (x ++ userPrefix ++ u.creds.user) = u.creds.user)
    (hn : Blob.Spec.Named u.store uuid (x ++ userPrefix ++ u.creds.user))
    (huniq : ∀ v, Blob.Spec.Named u.store v (x ++ userPrefix ++ u.creds.user) → v = uuid) (huu : uuid ≠ [])
    (hme : IsUser u.store me u.creds.user) (hone : ∀ v user, IsUser u.store v user → v = me)
    (hp : (prompt inp).1 = some (x ++ userPrefix ++ u.creds.user)) :
    ∃ u', deleteEntry ord now inp u (x ++ userPrefix ++ u.creds.user) = (u', .ok ()) ∧ u.creds.master ≠ [] ∧
      u'.creds.master = [] ∧ IsUser u'.store me u.creds.user := by
  obtain ⟨e, he, hen⟩ := hme
  have hmn : u.creds.user ≠ [] := (hu.users.complete _ _ _ he hen).1
  have hd := deleteEntry_self hord now inp hu.good hmn hsplit hn huniq huu
    (fun v w a b h1 h2 => (hone v a h1).trans (hone w b h2).symm) hp
  refine ⟨_, hd, master_ne hu.creds, rfl, e, ?_, hen⟩
  have hl := updateSnapshot_log u.store
  obtain ⟨en, hv, hvn⟩ := hn
  obtain ⟨g1, g2, g3⟩ := delete_spec (good_update hu.good) now ((visible_log hl _ _).2 hv)
  refine (g3 me e ?_).2 ((visible_log hl _ _).2 he)
  intro h
  subst h
  have hee := visible_unique he hv
  rw [hee, hvn] at hen
  have : x ++ userPrefix ++ u.creds.user = userPrefix ++ u.creds.user := by simpa using hen
  rw [this] at hx
  rw [(hasPrefix_iff _ _).2 ⟨_, rfl⟩] at hx
  cases hx

/-- After the last user entry was deleted, `passwd` reports success and changes nothing: the user name is still set, so the key is
not updated, and there is no record to update. -/
theorem C51_passwd_after_rm_false (P : Prims) (ord : Order) (d : Draw) (u : Session) (hm : u.creds.master = [])
    (hme : u.creds.user ≠ []) (typed : Str) (hpw : getPassword d.ent d.inp = .ok typed) (hne : typed ≠ []) :
    passwd P ord d u [] = (u, .ok ()) := by
  have hdk : deriveKey P 1 typed d.salt = .ok (P.kdf typed d.salt, d.salt) := rfl
  simp only [passwd, hpw, hne, if_false, hdk, hme, or_self, hm, if_true]

end Verif.App
