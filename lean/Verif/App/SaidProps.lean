import Verif.App.Said
import Verif.App.AccountsDemo
import Verif.App.KeepProps
/-!
# C115: The account commands do what they say

The property: when `passwd` or `rekey` say that the passphrase or the key was updated, the file saved opens for the user named with
the password typed; when they refuse an empty password, it was empty; when `adduser` says that somebody was added with a password,
that person can open the file with it, and when it says that the key was reused, with the passphrase of the file.
-/
set_option linter.unusedSimpArgs false
namespace Verif.App
open Verif Verif.Txlogs Verif.Blob Verif.Crypt Verif.App.Spec
open Verif.Crypt.Spec (toy toy_lawful)

theorem said_passwd_typed {P : Prims} {ord : Order} {d : Draw} {u : Session} {user : Str} (h : saidPasswd P ord d u user = some .passphrase) :
    ∃ typed, getPassword d.ent d.inp = .ok typed ∧ typed ≠ [] := by
  unfold saidPasswd at h
  split at h
  · rename_i hr
    cases hg : getPassword d.ent d.inp with
    | ok p =>
      refine ⟨p, rfl, fun hp => ?_⟩
      subst hp
      rw [hg, if_pos rfl] at h
      cases h
    | err e => simp [passwd, hg] at hr
    | panic => simp [passwd, hg] at hr
  · cases h

theorem said_rekey_typed {P : Prims} {ord : Order} {d : Draw} {u : Session} {user : Str} (h : saidRekey P ord d u user = some .key) :
    ∃ pass, (if user = [] then Res.ok u.creds.pass else getPassword d.ent d.inp) = .ok pass ∧ pass ≠ [] := by
  unfold saidRekey at h
  split at h
  · rename_i hr
    cases hg : (if user = [] then Res.ok u.creds.pass else getPassword d.ent d.inp) with
    | ok p =>
      refine ⟨p, rfl, fun hp => ?_⟩
      subst hp
      rw [hg, if_pos rfl] at h
      cases h
    | err e => simp [rekey, hg] at hr
    | panic => simp [rekey, hg] at hr
  · cases h

/-- `passwd` in a file with users: oneself opens the file with the password typed, whoever was named. -/
theorem C115_passwd_partial (P : Prims) (hP : Crypt.Spec.Lawful P) (C : Codec) (ord : Order) (hord : ∀ m, (ord m).Perm m)
    (ord' : Results → Results) (hord' : ∀ m, (ord' m).Perm m) (iv : Str) (d : Draw) (hd : DrawOk d) (u : Session) (hu : MultiSession P u)
    (user : Str) (hC : Faithful C (passwd P ord d u user).1.store)
    (h : saidPasswd P ord d u user = some .passphrase) :
    ∃ typed u' f s' c, getPassword d.ent d.inp = .ok typed ∧ passwd P ord d u user = (u', .ok ()) ∧
      saveBlob P C ord ord' iv u' = .ok (some f) ∧ SameStore s' u'.store ∧ openFile P C none f [some u.creds.user, some typed] =
        (.ok { creds := c, store := s', readOnly := false, startTx := u'.store.log.length }, []) := by
  obtain ⟨typed, hpw, hne⟩ := said_passwd_typed h
  obtain ⟨u', h1, h2, h3, h4, h5⟩ := passwd_multi P hP hord hd hu user hpw hne
  obtain ⟨f, s', g1, g2, g3⟩ := C51_save_open_multi P hP C ord hord ord' hord' iv u' h2.writable h2.idle h2.good
    (by rw [h1] at hC; exact hC) h2.creds h2.users
  exact ⟨typed, u', f, s', _, hpw, h1, g1, g2, g3 u.creds.user typed d.salt ⟨hne, by rw [h3]; exact h4⟩⟩

/-- `passwd` says so for another user as well, whose record stays as it was: it is one's own passphrase that changed. -/
theorem C115_passwd_false (P : Prims) (hP : Crypt.Spec.Lawful P) {ord : Order} (hord : ∀ m, (ord m).Perm m) {d : Draw}
    (hd : DrawOk d) {u : Session} (hu : MultiSession P u) (bob : Str) (hbob : bob ≠ u.creds.user) {typed : Str}
    (hpw : getPassword d.ent d.inp = .ok typed) (hne : typed ≠ []) :
    saidPasswd P ord d u bob = some .passphrase ∧
      (∀ m salt key, Account P (passwd P ord d u bob).1.store m bob salt key ↔ Account P u.store m bob salt key) ∧
      Opens P (passwd P ord d u bob).1.store (passwd P ord d u bob).1.creds.master u.creds.user typed d.salt := by
  obtain ⟨u', h1, h2, h3⟩ := C53_false P hP hord hd hu bob hbob hpw hne
  rw [h1]
  refine ⟨?_, h2, h3⟩
  unfold saidPasswd
  rw [h1, hpw]
  simp [hne]

/-- `rekey` in a file with users: the user named, or oneself, opens the file with the password typed, or with one's own. -/
theorem C115_rekey (P : Prims) (hP : Crypt.Spec.Lawful P) (C : Codec) (ord : Order) (hord : ∀ m, (ord m).Perm m)
    (ord' : Results → Results) (hord' : ∀ m, (ord' m).Perm m) (iv : Str) (d : Draw) (hd : DrawOk d) (u : Session) (hu : MultiSession P u)
    (user : Str) (hex : user ≠ [] → ∃ v, IsUser u.store v user) (hC : Faithful C (rekey P ord d u user).1.store)
    (h : saidRekey P ord d u user = some .key) :
    ∃ pass u' f s' c, (if user = [] then Res.ok u.creds.pass else getPassword d.ent d.inp) = .ok pass ∧ rekey P ord d u user = (u', .ok ()) ∧
      saveBlob P C ord ord' iv u' = .ok (some f) ∧ SameStore s' u'.store ∧
      openFile P C none f [some (if user = [] then u.creds.user else user), some pass] =
        (.ok { creds := c, store := s', readOnly := false, startTx := u'.store.log.length }, []) := by
  obtain ⟨pass, hpw, hne⟩ := said_rekey_typed h
  obtain ⟨u', h1, h2, h3, h4, h5⟩ := rekey_multi P hP hord hd hu user pass hne (by
    by_cases hus : user = []
    · rw [if_pos hus] at hpw ⊢
      cases hpw
      rfl
    · rw [if_neg hus] at hpw ⊢
      exact ⟨hpw, hex hus⟩)
  obtain ⟨f, s', g1, g2, g3⟩ := C51_save_open_multi P hP C ord hord ord' hord' iv u' h2.writable h2.idle h2.good
    (by rw [h1] at hC; exact hC) h2.creds h2.users
  exact ⟨pass, u', f, s', _, hpw, h1, g1, g2, g3 _ pass d.salt ⟨hne, by rw [h3]; exact h4⟩⟩

/-- In a file without users `rekey` with a name asks for a new password, says that the file will be encrypted with it, and does nothing: the
file saved is the one that would have been saved without, and opens with the old passphrase. -/
theorem C115_rekey_false (P : Prims) (ord : Order) (d : Draw) (u : Session) (hm : u.creds.master = []) (user typed : Str) (hus : user ≠ [])
    (hpw : getPassword d.ent d.inp = .ok typed) (hne : typed ≠ []) :
    saidRekey P ord d u user = some .key ∧ rekey P ord d u user = (u, .ok ()) := by
  have hdk : deriveKey P 1 typed d.salt = .ok (P.kdf typed d.salt, d.salt) := rfl
  have h : rekey P ord d u user = (u, .ok ()) := by simp only [rekey, hus, if_false, hpw, hne, hdk, hm, if_true]
  refine ⟨?_, h⟩
  unfold saidRekey
  rw [h]
  simp [hus, hpw, hne]

/-- In a file that was made in this session `rekey` refuses the passphrase as empty, though no file is made with an empty one. -/
theorem C115_created_false (P : Prims) (history : Option Int) (salt : Str) (inp rest : Input) (u : Session)
    (h : createFile P history salt inp = (.ok u, rest)) (ord : Order) (d : Draw) :
    saidRekey P ord d u [] = some .refused ∧ rekey P ord d u [] = (u, .ok ()) ∧
    ∃ pass, pass ≠ [] ∧ inp = some pass :: some pass :: rest := by
  obtain ⟨pass, hp, hi, rfl⟩ := (C51_create P history salt inp rest u).1 h
  exact ⟨rfl, rfl, pass, hp, hi⟩

/-- `rekey` without a name in a file without users that was opened: a new key for the old passphrase. -/
theorem C115_rekey_single (P : Prims) (hP : Crypt.Spec.Lawful P) (C : Codec) (ord : Order) (ord' : Results → Results)
    (iv : Str) (hiv : iv.length = 40) (d : Draw) (hd : DrawOk d) (u : Session) (hu : SingleSession P u u.creds.pass)
    (hC : Faithful C u.store) :
    saidRekey P ord d u [] = some .key ∧ ∃ u' f s' c, rekey P ord d u [] = (u', .ok ()) ∧ u'.creds.salt = d.salt ∧
      saveBlob P C ord ord' iv u' = .ok (some f) ∧ SameStore s' u.store ∧ openFile P C none f [some u.creds.pass] =
        (.ok { creds := c, store := s', readOnly := false, startTx := u.store.log.length }, []) := by
  obtain ⟨u', f, s', h1, h2, h3, h4, h5, c, h6⟩ := C51_rekey_single P hP C ord ord' iv hiv d hd u hu hC
  refine ⟨?_, u', f, s', c, h1, h3, h4, h5, h6⟩
  unfold saidRekey
  rw [h1]
  simp [hu.pass_ne]

/-- `adduser` in a file with users: who was added with a password opens the file with it. -/
theorem C115_added (P : Prims) (hP : Crypt.Spec.Lawful P) (C : Codec) (ord : Order) (hord : ∀ m, (ord m).Perm m)
    (ord' : Results → Results) (hord' : ∀ m, (ord' m).Perm m) (iv : Str) (d : Draw) (hd : DrawOk d) (u : Session) (hu : MultiSession P u)
    (user name pass : Str) (hn : NewOk P u.store d.uuid user) (hC : Faithful C (adduser P ord d u user).1.store)
    (h : saidAdd P ord d u user = some (.added name pass)) :
    name = user ∧ ∃ u' f s' c, adduser P ord d u user = (u', .ok ()) ∧
      saveBlob P C ord ord' iv u' = .ok (some f) ∧ SameStore s' u'.store ∧ openFile P C none f [some user, some pass] =
        (.ok { creds := c, store := s', readOnly := false, startTx := u'.store.log.length }, []) := by
  have hfree : ∀ v, ¬ IsUser u.store v user := by
    intro v hv
    rcases newUser_spec hord d.now hu.good (user := user) hn.fresh with ⟨h1, -⟩ | ⟨s1, -, -, -, h4, -⟩
    · unfold saidAdd at h
      rw [h1] at h
      simp only at h
      split at h <;> simp at h
    · exact h4 v hv
  have hmn := master_ne hu.creds
  have ht : name = user ∧ getPassword d.ent d.inp = .ok pass ∧ pass ≠ [] := by
    unfold saidAdd at h
    rw [if_neg hmn] at h
    split at h
    · split at h
      · simp at h
      · split at h
        · rename_i p hp
          split at h
          · cases h
          · rename_i hne
            cases h
            exact ⟨rfl, hp, hne⟩
        · cases h
    · cases h
  obtain ⟨rfl, hpw, hne⟩ := ht
  obtain ⟨u', h1, h2, h3, h4, h5⟩ := adduser_multi P hP hord hd hu hpw hn hfree
  obtain ⟨f, s', g1, g2, g3⟩ := C51_save_open_multi P hP C ord hord ord' hord' iv u' h2.writable h2.idle h2.good
    (by rw [h1] at hC; exact hC) h2.creds h2.users
  exact ⟨rfl, u', f, s', _, h1, g1, g2, g3 name pass d.salt ⟨hne, by rw [h3]; exact h4⟩⟩

/-- The first user: the key is reused, as it says. -/
theorem C115_reused (P : Prims) (hP : Crypt.Spec.Lawful P) (C : Codec) (ord : Order) (hord : ∀ m, (ord m).Perm m)
    (ord' : Results → Results) (hord' : ∀ m, (ord' m).Perm m) (iv : Str) (d : Draw) (hd : DrawOk d) (u : Session) (pass : Str)
    (hu : SingleSession P u pass) (user : Str) (hn : NewOk P u.store d.uuid user) (hnone : ∀ v user', ¬ IsUser u.store v user')
    (hC : Faithful C (adduser P ord d u user).1.store) :
    saidAdd P ord d u user = some (.reused user) ∧ ∃ u' f s' c, adduser P ord d u user = (u', .ok ()) ∧
      saveBlob P C ord ord' iv u' = .ok (some f) ∧ SameStore s' u'.store ∧ openFile P C none f [some user, some pass] =
        (.ok { creds := c, store := s', readOnly := false, startTx := u'.store.log.length }, []) := by
  obtain ⟨u', h1, h2, h3, h4⟩ := C51_first_user P hP hord hd hu hn hnone
  obtain ⟨f, s', g1, g2, g3⟩ := C51_save_open_multi P hP C ord hord ord' hord' iv u' h2.writable h2.idle h2.good
    (by rw [h1] at hC; exact hC) h2.creds h2.users
  obtain ⟨salt, ho⟩ := h4 user pass (by simp [Txlogs.Spec.upd])
  refine ⟨?_, u', f, s', _, h1, g1, g2, g3 user pass salt ho⟩
  unfold saidAdd
  rw [h1]
  rcases newUser_spec hord d.now hu.good (user := user) hn.fresh with ⟨hx, v, hv⟩ | ⟨s1, hx, -⟩
  · exact absurd hv (hnone v user)
  · simp [hx, hu.creds.master]

/-- In a file with users `adduser` with an empty password says that one's key was reused. It was not, and the new user cannot open the
file with the empty passphrase, nor is it accepted anywhere. -/
theorem C115_reused_false (P : Prims) (hP : Crypt.Spec.Lawful P) (C : Codec) {ord : Order}
    (hord : ∀ m, (ord m).Perm m) (ord' : Results → Results) (hord' : ∀ m, (ord' m).Perm m) (iv : Str)
    {d : Draw} (hd : DrawOk d) {u : Session} (hu : MultiSession P u) {user : Str}
    (hpw : getPassword d.ent d.inp = .ok []) (hn : NewOk P u.store d.uuid user) (hfree : ∀ v, ¬ IsUser u.store v user)
    (hC : Faithful C (adduser P ord d u user).1.store) :
    saidAdd P ord d u user = some (.reused user) ∧
    Account P (adduser P ord d u user).1.store u.creds.master user d.salt (P.kdf [] d.salt) ∧
    ∃ f, saveBlob P C ord ord' iv (adduser P ord d u user).1 = .ok (some f) ∧
      ∀ h u'', (openFile P C h f [some user, some []]).1 ≠ .ok u'' := by
  obtain ⟨u1, h1, h2, h3, h4, -⟩ := adduser_multi P hP hord hd hu hpw hn hfree
  obtain ⟨u', f, g1, g2, g3⟩ := C51_empty_password_false P hP C hord ord' hord' iv hd hu hpw hn hfree hC
  refine ⟨?_, by rw [h1]; exact h4, f, by rw [g1]; exact g2, g3⟩
  unfold saidAdd
  rw [h1]
  rcases newUser_spec hord d.now hu.good (user := user) hn.fresh with ⟨hx, v, hv⟩ | ⟨s1, hx, -⟩
  · exact absurd hv (hfree v)
  · simp [hx, master_ne hu.creds, hpw]

/-! ## Non-vacuity -/

section
open Demo

example : saidPasswd toy id d0 u1 [] = some .passphrase := by decide +kernel
example : saidRekey toy id d0 u1 [97] = some .key := by decide +kernel
example : saidAdd toy id dBob u1 [98] = some (.added [98] [7]) := by decide +kernel
example : saidAdd toy id d0 u0 [97] = some (.reused [97]) := by decide +kernel
example : saidAdd toy id dBob u1 [97] = some .taken := by decide +kernel

example : saidPasswd toy id d0 u1 [98] = some .passphrase :=
  (C115_passwd_false toy toy_lawful perm_id d0_ok u1_multi.1 [98] (by decide +kernel) d0_pw (by decide)).1

-- a file without users and a passphrase that is not changed
example : saidRekey toy id d0 u0 (b! "me") = some .key ∧ rekey toy id d0 u0 (b! "me") = (u0, .ok ()) :=
  C115_rekey_false toy id d0 u0 rfl (b! "me") [7] (by decide) d0_pw (by decide)

example : saidRekey toy id d0 { creds := { key := toy.kdf [1] [2], salt := [2] } } [] = some .refused :=
  (C115_created_false toy none [2] [some [1], some [1]] [] _ (by decide +kernel) id d0).1

example : saidRekey toy id d0 u0 [] = some .key :=
  (C115_rekey_single toy toy_lawful (codec u0.store) id id _ iv40 d0 d0_ok u0 u0_single (codec_faithful good_new rfl)).1

example : saidAdd toy id d0 u0 [97] = some (.reused [97]) :=
  (C115_reused toy toy_lawful (codec u1.store) id perm_id id perm_id' (List.replicate 40 4) d0 d0_ok u0 [1] u0_single [97] u0_new u0_none
    (codec_faithful u1_multi.1.good u1_multi.1.idle)).1

end

end Verif.App
