import Verif.App.EditProps
import Verif.App.AccountsProps
import Verif.App.MetaLemmas
import Verif.App.RevokeProps
import Verif.App.OutsideProps
import Verif.App.RecallLemmas
import Verif.App.ImportedUsersProps
/-!
# C126 Accounts can be renamed
-/
namespace Verif.App
open Verif Verif.Txlogs Verif.Blob Verif.Crypt Spec
open Verif.Crypt.Spec (toy toy_lawful)

theorem renamed_visible {uuid dst : Str} {t : Int} {e : Str → Option Str} {u u' : Session}
    (h : KeyNow uuid keyName (some dst) t e u u') (w : Str) (f : Str → Option Str) :
    Blob.Spec.Visible u'.store w f ↔ (w = uuid ∧ f = Txlogs.Spec.upd (Txlogs.Spec.upd e keyUpdated (some (fmtInt t))) keyName (some dst)) ∨
      (w ≠ uuid ∧ Blob.Spec.Visible u.store w f) := by
  by_cases hw : w = uuid
  · subst hw
    simp only [true_and, ne_eq, not_true, false_and, or_false]
    exact ⟨fun h' => visible_unique h' h.entry, fun h' => h' ▸ h.entry⟩
  · simp only [hw, false_and, ne_eq, not_false_eq_true, true_and, false_or]
    exact h.others w f hw

theorem renamed_holds (e : Str → Option Str) (x y : Option Str) (salt iv mkey : Str) :
    Holds (Txlogs.Spec.upd (Txlogs.Spec.upd e keyUpdated x) keyName y) salt iv mkey ↔ Holds e salt iv mkey := by
  have h : ∀ k, k ≠ keyName → k ≠ keyUpdated → Txlogs.Spec.upd (Txlogs.Spec.upd e keyUpdated x) keyName y k = e k := by
    intro k h1 h2; simp [Txlogs.Spec.upd, h1, h2]
  have h1 := h keySalt (by decide) (by decide)
  have h2 := h keyIV (by decide) (by decide)
  have h3 := h keyMKey (by decide) (by decide)
  constructor <;> rintro ⟨a, b, c, d, g, i⟩ <;> refine ⟨?_, ?_, ?_, d, g, i⟩ <;> simp_all

theorem renamed_named {uuid dst : Str} {t : Int} {e : Str → Option Str} {u u' : Session}
    (h : KeyNow uuid keyName (some dst) t e u u') (w n : Str) :
    Blob.Spec.Named u'.store w n ↔ (w = uuid ∧ n = dst) ∨ (w ≠ uuid ∧ Blob.Spec.Named u.store w n) := by
  constructor
  · rintro ⟨f, h1, h2⟩
    rcases (renamed_visible h w f).1 h1 with ⟨rfl, rfl⟩ | ⟨h3, h4⟩
    · simp only [Txlogs.Spec.upd, if_true, Option.some.injEq] at h2
      exact .inl ⟨rfl, h2.symm⟩
    · exact .inr ⟨h3, f, h4, h2⟩
  · rintro (⟨rfl, rfl⟩ | ⟨h3, f, h4, h2⟩)
    · exact ⟨_, h.entry, by simp [Txlogs.Spec.upd]⟩
    · exact ⟨f, (renamed_visible h w f).2 (.inr ⟨h3, h4⟩), h2⟩

theorem prefix_inj {a b : Str} (h : userPrefix ++ a = userPrefix ++ b) : a = b := List.append_cancel_left h

/-- `mv` succeeds and gives the entry its new name, if nobody has it. -/
theorem renamed (v : Env) (u : Session) (src dst uuid : Str) (e : Str → Option Str) (hv : EnvOk v u.store) (h : WellFormed u.store)
    (he : Blob.Spec.Visible u.store uuid e) (hn : e keyName = some src) (hd : ValidUtf8 dst) (hfree : ∀ w, ¬ Blob.Spec.Named u.store w dst) :
    ∃ u', renameCmd v u src dst = (u', .ok ()) ∧ KeyNow uuid keyName (some dst) (v.d.now 0) e u u' ∧ WellFormed u'.store ∧
      u'.store.txPoint = u.store.txPoint ∧ u'.readOnly = u.readOnly ∧ u'.creds = u.creds := by
  obtain ⟨h1, h2, -⟩ := C79_mv v u src dst uuid e hv h he hn
  obtain ⟨-, h3⟩ := fine_renameCmd (p := True) (L := fun _ => True) hv h src dst hd trivial
  have h4 := meta_renameCmd v u src dst
  cases hx : renameCmd v u src dst with
  | mk u' o =>
    rw [hx] at h1 h2 h3 h4
    replace h1 : o = .ok () := h1
    subst h1
    obtain ⟨h5, h6⟩ := h3 (by simp)
    exact ⟨u', rfl, h2 hfree, h5, h6.1, h4.readOnly, (h2 hfree).creds⟩

/-- C126: Renaming the entry of a user renames the account: the new name has what the old one had, the old name has nothing, and
nobody else's account is touched. -/
theorem C126_accounts (P : Prims) (v : Env) (u : Session) (old new uuid : Str) (hv : EnvOk v u.store) (h : WellFormed u.store)
    (hold : IsUser u.store uuid old) (ho : old ≠ []) (hne : new ≠ []) (hutf : ValidUtf8 (userPrefix ++ new))
    (hfree : ∀ w, ¬ IsUser u.store w new) :
    ∃ u', renameCmd v u (userPrefix ++ old) (userPrefix ++ new) = (u', .ok ()) ∧ u'.creds = u.creds ∧ WellFormed u'.store ∧
      ∀ m user salt key, Account P u'.store m user salt key ↔
        (user = new ∧ Account P u.store m old salt key) ∨ (user ≠ new ∧ user ≠ old ∧ Account P u.store m user salt key) := by
  obtain ⟨e, he, hn⟩ := hold
  obtain ⟨u', h1, h2, h3, -, -, h4⟩ := renamed v u _ _ uuid e hv h he hn hutf hfree
  refine ⟨u', h1, h4, h3, fun m user salt key => ?_⟩
  constructor
  · rintro ⟨hu, w, f, iv, mkey, g1, g2, g3, g4⟩
    rcases (renamed_visible h2 w f).1 g1 with ⟨rfl, rfl⟩ | ⟨g5, g6⟩
    · simp only [Txlogs.Spec.upd, if_true, Option.some.injEq] at g2
      exact .inl ⟨(prefix_inj g2).symm, ho, w, e, iv, mkey, he, hn, (renamed_holds ..).1 g3, g4⟩
    · refine .inr ⟨?_, ?_, hu, w, f, iv, mkey, g6, g2, g3, g4⟩
      · rintro rfl
        exact hfree w ⟨f, g6, g2⟩
      · rintro rfl
        exact g5 (h.unique w uuid _ ⟨f, g6, g2⟩ ⟨e, he, hn⟩)
  · rintro (⟨rfl, -, w, f, iv, mkey, g1, g2, g3, g4⟩ | ⟨h5, h6, hu, w, f, iv, mkey, g1, g2, g3, g4⟩)
    · have hw := h.unique w uuid _ ⟨f, g1, g2⟩ ⟨e, he, hn⟩
      subst hw
      have := visible_unique g1 he
      subst this
      exact ⟨hne, w, _, iv, mkey, h2.entry, by simp [Txlogs.Spec.upd], (renamed_holds ..).2 g3, g4⟩
    · refine ⟨hu, w, f, iv, mkey, (renamed_visible h2 w f).2 (.inr ⟨?_, g1⟩), g2, g3, g4⟩
      rintro rfl
      have := visible_unique g1 he
      subst this
      exact h6 (prefix_inj (Option.some.inj (g2.symm.trans hn)))

/-- The user entries are still in order after that. -/
theorem renamed_users (P : Prims) {t : Int} {u u' : Session} {old new uuid : Str} {e : Str → Option Str} (hw : WfUsers P u.store)
    (he : Blob.Spec.Visible u.store uuid e) (hn : e keyName = some (userPrefix ++ old)) (hne : new ≠ [])
    (h : KeyNow uuid keyName (some (userPrefix ++ new)) t e u u')
    (hsha : ∀ w user, IsUser u.store w user → P.sha256 user = P.sha256 new → w = uuid) : WfUsers P u'.store := by
  have hiff : ∀ w user, IsUser u'.store w user ↔ (w = uuid ∧ user = new) ∨ (w ≠ uuid ∧ IsUser u.store w user) := by
    intro w user
    unfold IsUser
    rw [renamed_named h]
    constructor
    · rintro (⟨a, b⟩ | b)
      · exact .inl ⟨a, prefix_inj b⟩
      · exact .inr b
    · rintro (⟨a, b⟩ | b)
      · exact .inl ⟨a, by rw [b]⟩
      · exact .inr b
  refine ⟨⟨uuid, new, (hiff _ _).2 (.inl ⟨rfl, rfl⟩)⟩, fun l hl hh => hw.few l hl fun w hm => ?_, fun w f user g1 g2 => ?_,
    fun w w' user user' g1 g2 g3 => ?_⟩
  · obtain ⟨user, hu⟩ := hh w hm
    rcases (hiff _ _).1 hu with ⟨rfl, -⟩ | ⟨-, hu⟩
    · exact ⟨old, e, he, hn⟩
    · exact ⟨user, hu⟩
  · rcases (renamed_visible h w f).1 g1 with ⟨rfl, rfl⟩ | ⟨g5, g6⟩
    · simp only [Txlogs.Spec.upd, if_true, Option.some.injEq] at g2
      obtain ⟨-, salt, iv, mkey, g3⟩ := hw.complete w e old he hn
      exact ⟨by rw [← prefix_inj g2]; exact hne, salt, iv, mkey, (renamed_holds ..).2 g3⟩
    · exact hw.complete w f user g6 g2
  · rcases (hiff _ _).1 g1 with ⟨rfl, rfl⟩ | ⟨n1, u1⟩ <;> rcases (hiff _ _).1 g2 with ⟨rfl, rfl⟩ | ⟨n2, u2⟩
    · rfl
    · exact (hsha w' user' u2 g3.symm).symm
    · exact hsha w user u1 g3
    · exact hw.distinct w w' user user' u1 u2 g3

/-- C126: After that the file can be saved, the user opens it under the new name with the password they had, and everybody else
opens it as before. -/
theorem C126_opens_partial (P : Prims) (hP : Crypt.Spec.Lawful P) (C : Codec) (ord : Order) (hord : ∀ m, (ord m).Perm m)
    (ord' : Results → Results) (hord' : ∀ m, (ord' m).Perm m) (iv : Str) (v : Env) (u : Session) (old new uuid : Str)
    (hv : EnvOk v u.store) (h : WellFormed u.store) (hro : u.readOnly = false) (htx : u.store.txPoint = 0) (hc : MultiCreds u.creds)
    (hw : WfUsers P u.store) (hold : IsUser u.store uuid old) (hne : new ≠ []) (hutf : ValidUtf8 (userPrefix ++ new))
    (hsha : ∀ w user, IsUser u.store w user → P.sha256 user ≠ P.sha256 new)
    (hC : Faithful C (renameCmd v u (userPrefix ++ old) (userPrefix ++ new)).1.store) :
    ∃ u' f s', renameCmd v u (userPrefix ++ old) (userPrefix ++ new) = (u', .ok ()) ∧ saveBlob P C ord ord' iv u' = .ok (some f) ∧
      App.Spec.SameStore s' u'.store ∧
      ∀ user pass salt, Opens P u.store u.creds.master user pass salt →
        openFile P C none f [some (if user = old then new else user), some pass] =
          (.ok { creds := { user := if user = old then new else user, pass := pass, key := P.kdf pass salt, salt := salt
                            master := u.creds.master, ivm := u.creds.ivm }
                 store := s', readOnly := false, startTx := u'.store.log.length }, []) := by
  obtain ⟨e, he, hn⟩ := hold
  have ho := (hw.complete _ _ _ he hn).1
  have hfree : ∀ w, ¬ IsUser u.store w new := fun w hh => hsha w new hh rfl
  obtain ⟨u', h1, h2, h3, h4, h5, h6⟩ := renamed v u _ _ uuid e hv h he hn hutf hfree
  obtain ⟨u'', h1', -, -, hacc⟩ := C126_accounts P v u old new uuid hv h ⟨e, he, hn⟩ ho hne hutf hfree
  rw [h1] at h1'
  cases h1'
  have hw' := renamed_users P hw he hn hne h2 fun w user a b => absurd b (hsha w user a)
  obtain ⟨f, s', g1, g2, g3⟩ := C51_save_open_multi P hP C ord hord ord' hord' iv u' (by rw [h5, hro]) (by rw [h4, htx]) h3.good
    (by rw [h1] at hC; exact hC) (by rw [h6]; exact hc) hw'
  refine ⟨u', f, s', h1, g1, g2, fun user pass salt hop => ?_⟩
  rw [← h6]
  refine g3 _ _ _ ⟨hop.1, (hacc _ _ _ _).2 ?_⟩
  rw [h6]
  by_cases hu : user = old
  · rw [if_pos hu]; subst hu; exact .inl ⟨rfl, hop.2⟩
  · rw [if_neg hu]
    refine .inr ⟨?_, hu, hop.2⟩
    rintro rfl
    obtain ⟨-, w, f, _, _, a, b, -⟩ := hop.2
    exact hfree w ⟨f, a, b⟩

/-- C126: A name without the prefix takes the account away, and no other one. -/
theorem C126_taken (P : Prims) (v : Env) (u : Session) (old dst uuid : Str) (hv : EnvOk v u.store) (h : WellFormed u.store)
    (hold : IsUser u.store uuid old) (hutf : ValidUtf8 dst) (hp : hasPrefix dst userPrefix = false)
    (hfree : ∀ w, ¬ Blob.Spec.Named u.store w dst) :
    ∃ u', renameCmd v u (userPrefix ++ old) dst = (u', .ok ()) ∧ u'.creds = u.creds ∧ WellFormed u'.store ∧
      (∀ w user, IsUser u'.store w user ↔ user ≠ old ∧ IsUser u.store w user) ∧
      ∀ m user salt key, Account P u'.store m user salt key ↔ user ≠ old ∧ Account P u.store m user salt key := by
  obtain ⟨e, he, hn⟩ := hold
  obtain ⟨u', h1, h2, h3, -, -, h4⟩ := renamed v u _ _ uuid e hv h he hn hutf hfree
  have hdst : ∀ user, userPrefix ++ user ≠ dst := by
    rintro user rfl
    rw [(hasPrefix_iff _ _).2 ⟨_, rfl⟩] at hp
    cases hp
  refine ⟨u', h1, h4, h3, fun w user => ?_, fun m user salt key => ?_⟩
  · unfold IsUser
    rw [renamed_named h2]
    constructor
    · rintro (⟨a, b⟩ | ⟨a, b⟩)
      · exact absurd b (hdst user)
      · refine ⟨?_, b⟩
        rintro rfl
        exact a (h.unique w uuid _ b ⟨e, he, hn⟩)
    · rintro ⟨a, f, b, c⟩
      refine .inr ⟨?_, f, b, c⟩
      rintro rfl
      have := visible_unique b he
      subst this
      exact a (prefix_inj (Option.some.inj (c.symm.trans hn)))
  · constructor
    · rintro ⟨hu, w, f, iv, mkey, g1, g2, g3, g4⟩
      rcases (renamed_visible h2 w f).1 g1 with ⟨rfl, rfl⟩ | ⟨g5, g6⟩
      · simp only [Txlogs.Spec.upd, if_true, Option.some.injEq] at g2
        exact absurd g2.symm (hdst user)
      · refine ⟨?_, hu, w, f, iv, mkey, g6, g2, g3, g4⟩
        rintro rfl
        exact g5 (h.unique w uuid _ ⟨f, g6, g2⟩ ⟨e, he, hn⟩)
    · rintro ⟨h6, hu, w, f, iv, mkey, g1, g2, g3, g4⟩
      refine ⟨hu, w, f, iv, mkey, (renamed_visible h2 w f).2 (.inr ⟨?_, g1⟩), g2, g3, g4⟩
      rintro rfl
      have := visible_unique g1 he
      subst this
      exact h6 (prefix_inj (Option.some.inj (g2.symm.trans hn)))

/-- C126: A file with a master key but without users cannot be saved. -/
theorem C126_nobody (P : Prims) (C : Codec) (ord : Order) (hord : ∀ m, (ord m).Perm m) (ord' : Results → Results)
    (hord' : ∀ m, (ord' m).Perm m) (iv : Str) (u : Session) (hro : u.readOnly = false) (hg : Good u.store) (hm : u.creds.master ≠ [])
    (hno : ∀ w user, ¬ IsUser u.store w user) (x : Option Str) : saveBlob P C ord ord' iv u ≠ .ok x := by
  intro hs
  have hx : ∃ f, x = some f := by
    cases x with
    | some f => exact ⟨f, rfl⟩
    | none =>
      unfold saveBlob at hs
      rw [hro, if_neg (by simp)] at hs
      split at hs <;> cases hs
  obtain ⟨f, rfl⟩ := hx
  obtain ⟨-, -, p, h1, h2⟩ := saved_parts hs
  obtain ⟨us, h3, -, -, -, h4⟩ := users_spec hord hg
  have hus : us = [] := by
    cases us with
    | nil => rfl
    | cons a l =>
      have := (h4 a.1 a.2).1 (by simp [GoMap.get?])
      obtain ⟨t, ht⟩ := (hasPrefix_iff _ _).1 this.2
      exact absurd (show IsUser _ _ _ from (by rw [ht] at this; exact this.1)) (hno a.1 t)
  subst hus
  unfold makeParams at h1
  rw [if_neg hm, h3] at h1
  dsimp only at h1
  rw [(hord' []).eq_nil] at h1
  simp only [paramLoop, Res.ok.injEq] at h1
  subst h1
  simp [encrypt, Params.validate] at h2

/-- C126: Once the entry of the user who is logged in is gone, "passwd" crashes the program, and so does "rekey". -/
theorem C126_crash (P : Prims) (ord : Order) (hord : ∀ m, (ord m).Perm m) (d : Draw) (u : Session) (hg : Good u.store)
    (hm : u.creds.master ≠ []) (hno : ∀ w, ¬ IsUser u.store w u.creds.user) :
    (∀ user pass, getPassword d.ent d.inp = .ok pass → pass ≠ [] → (passwd P ord d u user).2 = .panic) ∧
      (u.creds.pass ≠ [] → (rekey P ord d u []).2 = .panic) := by
  have hk : ∀ (u1 : Session) (key salt : Str), u1.store = u.store → (storeUser P ord d u1 u.creds.user key salt).2 = .panic := by
    intro u1 key salt h1
    unfold storeUser
    rw [h1, mustFindUser_none hord hg hno]
  constructor
  · intro user pass h1 h2
    unfold passwd
    rw [h1]
    simp only [h2, if_false, deriveKey, ne_eq, not_true]
    by_cases hu : u.creds.user = [] ∨ u.creds.user = user
    · rw [if_pos hu]
      dsimp only
      rw [if_neg hm]
      exact hk _ _ _ rfl
    · rw [if_neg hu, if_neg hm]
      exact hk _ _ _ rfl
  · intro h2
    unfold rekey
    simp only [if_true, h2, if_false, deriveKey, ne_eq, not_true, hm]
    exact hk _ _ _ rfl

/-- C126: Whoever renames their own entry and changes their password afterwards crashes the program: it still knows them by the
old name. -/
theorem C126_self (P : Prims) (v : Env) (d : Draw) (u : Session) (new : Str) (hv : EnvOk v u.store) (h : WellFormed u.store)
    (hm : u.creds.master ≠ []) (hme : ∃ uuid, IsUser u.store uuid u.creds.user)
    (hutf : ValidUtf8 (userPrefix ++ new)) (hfree : ∀ w, ¬ IsUser u.store w new) :
    ∃ u', renameCmd v u (userPrefix ++ u.creds.user) (userPrefix ++ new) = (u', .ok ()) ∧
      (∀ user pass, getPassword d.ent d.inp = .ok pass → pass ≠ [] → (passwd P v.ord d u' user).2 = .panic) ∧
      (u.creds.pass ≠ [] → (rekey P v.ord d u' []).2 = .panic) := by
  obtain ⟨uuid, e, he, hn⟩ := hme
  obtain ⟨u', h1, h2, h3, -, -, h4⟩ := renamed v u _ _ uuid e hv h he hn hutf hfree
  have hno : ∀ w, ¬ IsUser u'.store w u'.creds.user := by
    intro w hh
    rw [h4] at hh
    rcases (renamed_named h2 _ _).1 hh with ⟨-, b⟩ | ⟨a, b⟩
    · exact hfree uuid ⟨e, he, by rw [hn, b]⟩
    · exact a (h.unique w uuid _ b ⟨e, he, hn⟩)
  have := C126_crash P v.ord hv.ord d u' h3.good (by rw [h4]; exact hm) hno
  rw [h4] at this
  exact ⟨u', h1, this⟩

/-- C126: The only user who renames their entry and then removes it, which "rm" would treat as leaving the file to a single
password, is left with a file that cannot be saved. -/
theorem C126_stuck (P : Prims) (C : Codec) (v v' : Env) (t : Int) (iv : Str) (u u' : Session) (new uuid : Str)
    (hv : EnvOk v u.store) (h : WellFormed u.store) (hro : u.readOnly = false) (hm : u.creds.master ≠ []) (hme : IsUser u.store uuid u.creds.user)
    (hone : ∀ w user, IsUser u.store w user → w = uuid) (hother : new ≠ u.creds.user)
    (hutf : ValidUtf8 (userPrefix ++ new))
    (hr : renameCmd v u (userPrefix ++ u.creds.user) (userPrefix ++ new) = (u', .ok ())) (hv' : EnvOk v' u'.store)
    (hi : v'.d.inp.head? = some (some (userPrefix ++ new))) :
    ∃ u'', deleteEntry v'.ord t v'.d.inp u' (userPrefix ++ new) = (u'', .ok ()) ∧ ∀ x, saveBlob P C v'.ord v'.ord' iv u'' ≠ .ok x := by
  obtain ⟨e, he, hn⟩ := hme
  have hfree : ∀ w, ¬ IsUser u.store w new := by
    rintro w ⟨f, a, b⟩
    have := hone w new ⟨f, a, b⟩
    subst this
    have := visible_unique a he
    subst this
    exact hother (prefix_inj (Option.some.inj (b.symm.trans hn)))
  obtain ⟨u1, h1, h2, h3, -, h5, h4⟩ := renamed v u _ _ uuid e hv h he hn hutf hfree
  rw [hr] at h1
  cases h1
  obtain ⟨g1, g2, g3, -⟩ := C79_rm v' u' (userPrefix ++ new) uuid t hv' h3 ((renamed_named h2 _ _).2 (.inl ⟨rfl, rfl⟩))
    (.inr (by rw [splitUsername_prefix, h4]; exact hother))
  obtain ⟨g4, g5⟩ := g3 hi
  obtain ⟨-, g6⟩ := fine_deleteEntry (p := True) (L := fun _ => True) hv' h3 t v'.d.inp (userPrefix ++ new) trivial
  have g7 := deleteEntry_ro v'.ord t v'.d.inp u' (userPrefix ++ new)
  cases hx : deleteEntry v'.ord t v'.d.inp u' (userPrefix ++ new) with
  | mk u'' o =>
    rw [hx] at g1 g2 g4 g5 g6 g7
    replace g1 : o = .ok () := g1
    subst g1
    refine ⟨u'', rfl, C126_nobody P C _ hv'.ord _ hv'.ord' iv u'' (by rw [← hro, ← h5]; exact g7) (g6 (by simp)).1.good
      (by rw [show u''.creds = u'.creds from g2, h4]; exact hm) ?_⟩
    rintro w user ⟨f, a, b⟩
    by_cases hw : w = uuid
    · subst hw
      exact g4 ⟨f, a⟩
    · have := (g5 w f hw).1 a
      rcases (renamed_visible h2 w f).1 this with ⟨c, -⟩ | ⟨c, d⟩
      · exact hw c
      · exact hw (hone w user ⟨f, d, b⟩)

namespace RenamedDemo
open ImportedDemo (uA uA_multi uA_sound uA_clean tA)
open Demo (perm_id perm_id')

def v : Env := { d := { Demo.d0 with uuid := [7], now := fun i => 30 + i }, ord := id, ord' := id }

/-- "mv user/a user/b" -/
def u1 : Session := (renameCmd v uA (b! "user/a") (b! "user/b")).1

def v' : Env := { v with d := { v.d with uuid := [6], inp := [some (b! "user/b")] } }

theorem named_iff (w n : Str) : Blob.Spec.Named uA.store w n ↔ w = [9] ∧ n = b! "user/a" := by
  rw [Demo.named_concrete uA_multi.1.good]
  have h : (uA.store.updateSnapshot.1.snapshot.all fun p => p.1 == [9] && name p.2 == some (b! "user/a")) = true := by decide +kernel
  have h' : (uA.store.updateSnapshot.1.snapshot.get? [9]).bind name = some (b! "user/a") := by decide +kernel
  constructor
  · rintro ⟨en, h1, h2⟩
    have := List.all_eq_true.1 h _ (GoMap.mem_of_get? h1)
    simp only [Bool.and_eq_true, beq_iff_eq] at this
    exact ⟨this.1, Option.some.inj (h2.symm.trans this.2)⟩
  · rintro ⟨rfl, rfl⟩
    cases hx : uA.store.updateSnapshot.1.snapshot.get? [9] with
    | none => rw [hx] at h'; cases h'
    | some en => rw [hx] at h'; exact ⟨en, rfl, h'⟩

theorem user_iff (w user : Str) : IsUser uA.store w user ↔ w = [9] ∧ user = [97] := by
  unfold IsUser
  rw [named_iff]
  constructor
  · rintro ⟨a, b⟩; exact ⟨a, prefix_inj (b := [97]) b⟩
  · rintro ⟨a, b⟩; subst b; exact ⟨a, rfl⟩

theorem env : EnvOk v uA.store :=
  ⟨perm_id, perm_id', by decide, Demo.fresh_concrete uA_multi.1.good (by decide +kernel)⟩

theorem me : uA.creds.user = [97] := by decide +kernel

theorem u1_eq : renameCmd v uA (userPrefix ++ [97]) (userPrefix ++ [98]) = (u1, .ok ()) := by
  obtain ⟨u', h1, -⟩ := C126_accounts toy v uA [97] [98] [9] env uA_sound.wf ((user_iff _ _).2 ⟨rfl, rfl⟩) (by decide) (by decide)
    (valid_ascii _ (by decide)) fun w hw => by have := ((user_iff _ _).1 hw).2; revert this; decide
  have : u' = u1 := by
    have h2 : renameCmd v uA (b! "user/a") (b! "user/b") = (u', .ok ()) := h1
    rw [u1, h2]
  rw [h1, this]

theorem u1_wf : WellFormed u1.store := by
  obtain ⟨u', h1, -, h2, -⟩ := C126_accounts toy v uA [97] [98] [9] env uA_sound.wf ((user_iff _ _).2 ⟨rfl, rfl⟩) (by decide) (by decide)
    (valid_ascii _ (by decide)) fun w hw => by have := ((user_iff _ _).1 hw).2; revert this; decide
  rw [u1_eq] at h1
  cases h1
  exact h2

theorem u1_clean : CleanLog u1.store := by
  have h : (u1.store.log.all fun t => Demo.asciiTx { t with time := 0 } && decide (0 ≤ t.time ∧ t.time ≤ 100)) = true := by decide +kernel
  intro t ht
  have := List.all_eq_true.1 h t ht
  simp only [Demo.asciiTx, Bool.and_eq_true, beq_iff_eq, decide_eq_true_eq] at this
  obtain ⟨⟨⟨⟨⟨k, a⟩, b⟩, c⟩, -⟩, d⟩ := this
  refine ⟨⟨Demo.kind_ok k, valid_ascii _ (Demo.kind_ascii k), valid_ascii _ a, valid_ascii _ b, valid_ascii _ c⟩, ?_⟩
  unfold FitsInt64; omega

theorem env' : EnvOk v' u1.store :=
  ⟨perm_id, perm_id', by decide, Demo.fresh_concrete u1_wf.good (by decide +kernel)⟩

/-- "mv user/a user/b" in a file of one user: they open it as `b`, with the password they had -/
example : ∃ f s', saveBlob toy Json.Spec.codec id id (List.replicate 40 4) u1 = .ok (some f) ∧ ∃ slt,
    openFile toy Json.Spec.codec none f [some [98], some [1]] =
      (.ok { creds := { user := [98], pass := [1], key := toy.kdf [1] slt, salt := slt, master := uA.creds.master, ivm := uA.creds.ivm }
             store := s', readOnly := false, startTx := u1.store.log.length }, []) := by
  obtain ⟨u', f, s', h1, h2, -, h4⟩ := C126_opens_partial toy toy_lawful Json.Spec.codec id perm_id id perm_id' (List.replicate 40 4) v uA
    [97] [98] [9] env uA_sound.wf uA_multi.1.writable uA_multi.1.idle uA_multi.1.creds uA_multi.1.users ((user_iff _ _).2 ⟨rfl, rfl⟩) (by decide)
    (valid_ascii _ (by decide)) (fun w user hu => by obtain ⟨-, rfl⟩ := (user_iff _ _).1 hu; decide +kernel)
    (by rw [u1_eq]; exact C77_saved _ u1_wf u1_clean (by unfold Counted; decide +kernel))
  rw [u1_eq] at h1
  cases h1
  obtain ⟨slt, hop⟩ := uA_multi.2 [97] [1] (by decide)
  exact ⟨f, s', h2, slt, h4 [97] [1] slt hop⟩

/-- "mv user/a a" takes the account away -/
example : ∃ u', renameCmd v uA (b! "user/a") (b! "a") = (u', .ok ()) ∧ ∀ w user, ¬ IsUser u'.store w user := by
  obtain ⟨u', h1, -, -, h2, -⟩ := C126_taken toy v uA [97] (b! "a") [9] env uA_sound.wf ((user_iff _ _).2 ⟨rfl, rfl⟩)
    (valid_ascii _ (by decide)) (by decide) fun w hw => by have := ((named_iff _ _).1 hw).2; revert this; decide
  refine ⟨u', h1, fun w user hu => ?_⟩
  obtain ⟨h3, h4⟩ := (h2 w user).1 hu
  exact h3 ((user_iff _ _).1 h4).2

end RenamedDemo

open RenamedDemo in
/-- C126 is false of one's own entry: the password cannot be changed afterwards in the same run, the program crashes. -/
theorem C126_self_false : ¬ ∀ (P : Prims) (v : Env) (d : Draw) (u u' : Session) (new : Str), Crypt.Spec.Lawful P → MultiSession P u →
    WellFormed u.store → EnvOk v u.store → renameCmd v u (userPrefix ++ u.creds.user) (userPrefix ++ new) = (u', .ok ()) →
    (passwd P v.ord d u' new).2 ≠ .panic := by
  intro h
  refine h toy v { Demo.d0 with uuid := [7] } ImportedDemo.uA u1 [98] toy_lawful ImportedDemo.uA_multi.1 ImportedDemo.uA_sound.wf env
    (by rw [me]; exact u1_eq) ?_
  obtain ⟨u', h1, h2, -⟩ := C126_self toy v { Demo.d0 with uuid := [7] } ImportedDemo.uA [98] env ImportedDemo.uA_sound.wf (by decide +kernel)
    ⟨[9], by rw [me]; exact (user_iff _ _).2 ⟨rfl, rfl⟩⟩ (valid_ascii _ (by decide))
    fun w hw => by have := ((user_iff _ _).1 hw).2; revert this; decide
  rw [me, u1_eq] at h1
  cases h1
  exact h2 _ [7] (by decide +kernel) (by decide)

open RenamedDemo in
/-- C126 is false of the last account: after `mv` and `rm` nothing of this run can be saved. -/
theorem C126_stuck_false : ¬ ∀ (P : Prims) (C : Codec) (v v' : Env) (t : Int) (iv : Str) (u u' u'' : Session) (new : Str), Crypt.Spec.Lawful P →
    MultiSession P u → WellFormed u.store → EnvOk v u.store → EnvOk v' u'.store → iv.length = 40 →
    renameCmd v u (userPrefix ++ u.creds.user) (userPrefix ++ new) = (u', .ok ()) →
    deleteEntry v'.ord t v'.d.inp u' (userPrefix ++ new) = (u'', .ok ()) →
    ∃ f, saveBlob P C v'.ord v'.ord' iv u'' = .ok (some f) := by
  intro h
  obtain ⟨u'', h1, h2⟩ := C126_stuck toy Json.Spec.codec v v' 50 (List.replicate 40 4) ImportedDemo.uA u1 [98] [9] env ImportedDemo.uA_sound.wf
    ImportedDemo.uA_multi.1.writable (by decide +kernel) (by rw [me]; exact (user_iff _ _).2 ⟨rfl, rfl⟩)
    (fun w user hw => ((user_iff _ _).1 hw).1) (by rw [me]; decide) (valid_ascii _ (by decide)) (by rw [me]; exact u1_eq) env' rfl
  obtain ⟨f, hf⟩ := h toy Json.Spec.codec v v' 50 (List.replicate 40 4) ImportedDemo.uA u1 u'' [98] toy_lawful ImportedDemo.uA_multi.1
    ImportedDemo.uA_sound.wf env env' (by decide) (by rw [me]; exact u1_eq) h1
  exact h2 _ hf

end Verif.App
