import Verif.App.SharedSpec
import Verif.App.OwnLemmas
import Verif.App.AccountsProps
/-!
# User entries are left to the account commands
-/
set_option linter.unusedSimpArgs false
namespace Verif.App
open Verif Verif.Txlogs Verif.Blob Verif.Crypt Verif.App.Spec

/-- what makes an entry a user entry: its name and its record -/
def userPart (st : Txlogs.Spec.State) (w : Str) : Option (Str × Option Str × Option Str × Option Str) :=
  match st w with
  | none => none
  | some e =>
    match e keyName with
    | none => none
    | some n => if hasPrefix n userPrefix then some (n, e keySalt, e keyIV, e keyMKey) else none

/-- an operation that touches no user entry of the state, and makes no new one -/
def KeepsUsers (st : Txlogs.Spec.State) (t : Tx) : Prop :=
  match t.kind with
  | .add => True
  | .setk => t.key ∉ [keySalt, keyIV, keyMKey] ∧ (t.key = keyName → hasPrefix t.value userPrefix = false ∧ userPart st t.uuid = none)
  | .delk => t.key ∉ [keyName, keySalt, keyIV, keyMKey]
  | .del => userPart st t.uuid = none
  | .other _ => True

theorem userPart_entry {e e' : Str → Option Str} {st st' : Txlogs.Spec.State} {w : Str} (h : st w = some e) (h' : st' w = some e')
    (hk : ∀ k ∈ [keyName, keySalt, keyIV, keyMKey], e' k = e k) : userPart st' w = userPart st w := by
  unfold userPart
  rw [h, h']
  simp only
  rw [hk keyName (by simp), hk keySalt (by simp), hk keyIV (by simp), hk keyMKey (by simp)]

theorem keeps_apply {st0 st st' : Txlogs.Spec.State} {t : Tx} (hp : userPart st = userPart st0) (ht : KeepsUsers st0 t)
    (h : Txlogs.Spec.apply st t = some st') : userPart st' = userPart st0 := by
  rw [← hp]
  unfold KeepsUsers at ht
  unfold Txlogs.Spec.apply at h
  funext w
  cases hk : t.kind with
  | add =>
    rw [hk] at h
    cases he : st t.uuid with
    | some e => rw [he] at h; cases h
    | none =>
      rw [he] at h
      cases h
      by_cases hw : w = t.uuid
      · subst hw
        simp only [userPart, Txlogs.Spec.upd, if_true, he]
      · simp only [userPart, Txlogs.Spec.upd, hw, if_false]
  | del =>
    rw [hk] at h ht
    simp only at ht
    cases he : st t.uuid with
    | none => rw [he] at h; cases h
    | some e =>
      rw [he] at h
      cases h
      by_cases hw : w = t.uuid
      · subst hw
        rw [hp, ht]
        simp only [userPart, Txlogs.Spec.upd, if_true]
      · simp only [userPart, Txlogs.Spec.upd, hw, if_false]
  | setk =>
    rw [hk] at h ht
    simp only at ht
    cases he : st t.uuid with
    | none => rw [he] at h; cases h
    | some e =>
      rw [he] at h
      cases h
      by_cases hw : w = t.uuid
      · subst hw
        by_cases hn : t.key = keyName
        · obtain ⟨h1, h2⟩ := ht.2 hn
          rw [hp, h2]
          simp only [userPart, Txlogs.Spec.upd, if_true, hn, h1, Bool.false_eq_true, if_false]
        · refine userPart_entry (e := e) he (by simp only [Txlogs.Spec.upd, if_true]; rfl) ?_
          intro k hk
          have : k ≠ t.key := by
            rintro rfl
            simp only [List.mem_cons, List.not_mem_nil, or_false] at hk ht
            rcases hk with hk | hk
            · exact hn hk
            · exact ht.1 hk
          simp only [Txlogs.Spec.upd, this, if_false]
      · simp only [userPart, Txlogs.Spec.upd, hw, if_false]
  | delk =>
    rw [hk] at h ht
    simp only at ht
    cases he : st t.uuid with
    | none => rw [he] at h; cases h
    | some e =>
      rw [he] at h
      cases h
      by_cases hw : w = t.uuid
      · subst hw
        refine userPart_entry (e := e) he (by simp only [Txlogs.Spec.upd, if_true]; rfl) ?_
        intro k hk
        have : k ≠ t.key := by rintro rfl; exact ht hk
        simp only [Txlogs.Spec.upd, this, if_false]
      · simp only [userPart, Txlogs.Spec.upd, hw, if_false]
  | other k =>
    rw [hk] at h
    simp only [Option.some.injEq] at h
    subst h; rfl

theorem keeps_meaning {st0 st st' : Txlogs.Spec.State} {l : List Tx} (hp : userPart st = userPart st0)
    (ht : ∀ t ∈ l, KeepsUsers st0 t) (h : Txlogs.Spec.meaning st l = some st') : userPart st' = userPart st0 := by
  induction l generalizing st with
  | nil => cases h; exact hp
  | cons t l ih =>
    simp only [Txlogs.Spec.meaning] at h
    cases h1 : Txlogs.Spec.apply st t with
    | none => rw [h1] at h; cases h
    | some st1 =>
      rw [h1] at h
      exact ih (keeps_apply hp (ht t (by simp)) h1) (fun t' h' => ht t' (by simp [h'])) h

/-- Both stores can be read and have the same user entries. -/
def SameUsers (s s' : DB) : Prop :=
  ∃ st st', Txlogs.Spec.meaning Txlogs.Spec.empty s.log = some st ∧ Txlogs.Spec.meaning Txlogs.Spec.empty s'.log = some st' ∧
    userPart st' = userPart st

theorem SameUsers.symm {s s' : DB} (h : SameUsers s s') : SameUsers s' s := by
  obtain ⟨st, st', h1, h2, h3⟩ := h
  exact ⟨st', st, h2, h1, h3.symm⟩

/-- Only operations that touch no user entry were added. -/
theorem sameUsers_adds {s s' : DB} (h : Good s) (h' : Good s')
    {F : Str} (ha : Adds (fun t => ∀ st, Txlogs.Spec.meaning Txlogs.Spec.empty s.log = some st → KeepsUsers st t) F s s') : SameUsers s s' := by
  obtain ⟨l, h1, h2, -⟩ := ha
  obtain ⟨st, hs, -⟩ := h.named
  obtain ⟨st', hs', -⟩ := h'.named
  refine ⟨st, st', hs, hs', ?_⟩
  rw [h1, meaning_append, hs] at hs'
  exact keeps_meaning rfl (fun t ht => h2 t ht st hs) hs'

theorem SameUsers.entry {s s' : DB} (h : SameUsers s s') {w n : Str} {e : Str → Option Str} (hv : Blob.Spec.Visible s w e)
    (hn : e keyName = some n) (hp : hasPrefix n userPrefix = true) :
    ∃ e', Blob.Spec.Visible s' w e' ∧ e' keyName = some n ∧ e' keySalt = e keySalt ∧ e' keyIV = e keyIV ∧ e' keyMKey = e keyMKey := by
  obtain ⟨st, st', h1, h2, h3⟩ := h
  obtain ⟨st1, g1, g2⟩ := hv
  rw [h1] at g1; cases g1
  have h4 : userPart st w = some (n, e keySalt, e keyIV, e keyMKey) := by
    unfold userPart; rw [g2]; simp only [hn, hp, if_true]
  rw [← h3] at h4
  unfold userPart at h4
  cases h5 : st' w with
  | none => rw [h5] at h4; cases h4
  | some e' =>
    rw [h5] at h4
    simp only at h4
    cases h6 : e' keyName with
    | none => rw [h6] at h4; cases h4
    | some n' =>
      rw [h6] at h4
      simp only at h4
      split at h4
      · simp only [Option.some.injEq, Prod.mk.injEq] at h4
        obtain ⟨rfl, a, b, c⟩ := h4
        exact ⟨e', ⟨st', h2, h5⟩, h6, a, b, c⟩
      · cases h4

theorem user_prefix (user : Str) : hasPrefix (userPrefix ++ user) userPrefix = true := (hasPrefix_iff _ _).2 ⟨_, rfl⟩

theorem SameUsers.isUser {s s' : DB} (h : SameUsers s s') {w user : Str} (hu : IsUser s w user) : IsUser s' w user := by
  obtain ⟨e, h1, h2⟩ := hu
  obtain ⟨e', g1, g2, -⟩ := h.entry h1 h2 (user_prefix _)
  exact ⟨e', g1, g2⟩

theorem SameUsers.holds {e e' : Str → Option Str} {salt iv mkey : Str} (h1 : e' keySalt = e keySalt) (h2 : e' keyIV = e keyIV)
    (h3 : e' keyMKey = e keyMKey) (h : Holds e salt iv mkey) : Holds e' salt iv mkey :=
  ⟨by rw [h1]; exact h.salt_eq, by rw [h2]; exact h.iv_eq, by rw [h3]; exact h.mkey_eq, h.salt_length, h.iv_length, h.mkey_length⟩

theorem SameUsers.account {P : Prims} {s s' : DB} (h : SameUsers s s') {m user salt key : Str} (ha : Account P s m user salt key) :
    Account P s' m user salt key := by
  obtain ⟨hu, w, e, iv, mkey, a, b, c, d⟩ := ha
  obtain ⟨e', g1, g2, g3, g4, g5⟩ := h.entry a b (user_prefix _)
  exact ⟨hu, w, e', iv, mkey, g1, g2, SameUsers.holds g3 g4 g5 c, d⟩

theorem SameUsers.wf {P : Prims} {s s' : DB} (h : SameUsers s s') (hw : Spec.WfUsers P s) : Spec.WfUsers P s' := by
  have hs := h.symm
  refine ⟨?_, ?_, ?_, ?_⟩
  · obtain ⟨a, b, c⟩ := hw.exists_user
    exact ⟨a, b, h.isUser c⟩
  · intro l hl hm
    exact hw.few l hl (fun a ha => (hm a ha).elim fun b hb => ⟨b, hs.isUser hb⟩)
  · intro w e user hv hn
    obtain ⟨e0, g1, g2, g3, g4, g5⟩ := hs.entry hv hn (user_prefix _)
    obtain ⟨k1, a, b, c, k2⟩ := hw.complete w e0 user g1 g2
    exact ⟨k1, a, b, c, SameUsers.holds g3.symm g4.symm g5.symm k2⟩
  · intro a b x y ha hb
    exact hw.distinct a b x y (hs.isUser ha) (hs.isUser hb)

theorem multi_same {P : Prims} {u u' : Session} (h : MultiSession P u) (hm : Meta u u') (hg : Good u'.store)
    (h0 : u'.store.txPoint = 0) (hs : SameUsers u.store u'.store) : MultiSession P u' := by
  refine ⟨hm.readOnly.trans h.writable, hg, h0, by rw [hm.creds]; exact h.creds, hs.wf h.users, ?_, ?_⟩
  · intro w user hu; exact h.uuids w user (hs.symm.isUser hu)
  · obtain ⟨w, hw⟩ := h.me
    rw [hm.creds]; exact ⟨w, hs.isUser hw⟩

theorem holders_same {P : Prims} {u u' : Session} {t : Passwords} (h : Holders P u t) (hc : u'.creds = u.creds)
    (hs : SameUsers u.store u'.store) : Holders P u' t := by
  intro user pass ht
  obtain ⟨salt, a, b⟩ := h user pass ht
  exact ⟨salt, a, by rw [hc]; exact hs.account b⟩

/-! ## One line -/

theorem part_none {s : DB} {st : Txlogs.Spec.State} {w : Str} (hm : Txlogs.Spec.meaning Txlogs.Spec.empty s.log = some st)
    (h : ∀ n, Blob.Spec.Named s w n → hasPrefix n userPrefix = false) : userPart st w = none := by
  unfold userPart
  cases he : st w with
  | none => rfl
  | some e =>
    simp only
    cases hn : e keyName with
    | none => rfl
    | some n =>
      simp only [h n ⟨e, ⟨st, hm, he⟩, hn⟩, Bool.false_eq_true, if_false]

theorem named_eq {s : DB} {w n m : Str} (h1 : Blob.Spec.Named s w n) (h2 : Blob.Spec.Named s w m) : n = m := by
  obtain ⟨e, a, b⟩ := h1
  obtain ⟨f, c, d⟩ := h2
  rw [visible_unique a c, d] at b
  exact (Option.some.inj b).symm

/-- the keys commands other than the account commands may write -/
def PlainKey (k : Str) : Prop := k ∉ [keyName, keySalt, keyIV, keyMKey]

theorem plain_set {k : Str} (h : protectedKeys.any (fun p => equalFold k p) = false) : PlainKey k := by
  intro hk
  simp only [List.mem_cons, List.not_mem_nil, or_false] at hk
  rcases hk with rfl | rfl | rfl | rfl <;> exact absurd h (by decide)

/-- the operations of a line that is not an account command -/
def OffUsers (s : DB) (t : Tx) : Prop := ∀ st, Txlogs.Spec.meaning Txlogs.Spec.empty s.log = some st → KeepsUsers st t

theorem kept_put {s : DB} {t : Int} {w k x : Str} (hk : PlainKey k) : OffUsers s ⟨t, .setk, w, k, x⟩ := by
  intro st _
  refine ⟨fun h => hk (by simp only [List.mem_cons, List.not_mem_nil, or_false] at h ⊢; exact .inr h), fun h => ?_⟩
  exact absurd (show k ∈ [keyName, keySalt, keyIV, keyMKey] by simp only at h; simp [h]) hk

theorem kept_name {s : DB} {t : Int} {w x : Str} (hx : hasPrefix x userPrefix = false)
    (hw : ∀ n, Blob.Spec.Named s w n → hasPrefix n userPrefix = false) : OffUsers s ⟨t, .setk, w, keyName, x⟩ := by
  intro st hm
  exact ⟨by show keyName ∉ _; decide, fun _ => ⟨hx, part_none hm hw⟩⟩

theorem kept_del {s : DB} {t : Int} {w : Str} (hw : ∀ n, Blob.Spec.Named s w n → hasPrefix n userPrefix = false) :
    OffUsers s ⟨t, .del, w, [], []⟩ := fun _ hm => part_none hm hw

theorem shared_rules {P : Prims} {v : Env} {r : Repl} {cmd : Str} {args : List Str} (hv : EnvOk v r.u.store)
    (h : SharedLine P v r cmd args) (h1 : cmd ≠ b! "passwd") (h2 : cmd ≠ b! "adduser") (h3 : cmd ≠ b! "rekey") :
    LineRules v r cmd args (fun _ => True) PlainKey (OffUsers r.u.store) := by
  have hfresh : ∀ n, Blob.Spec.Named r.u.store v.d.uuid n → hasPrefix n userPrefix = false :=
    fun n hn => absurd (exists_of_named hn) hv.fresh
  exact
    { rules :=
        { put := fun i w k x _ hk _ => kept_put hk
          cut := fun i w k _ hk => fun _ _ => hk
          add := fun i => fun _ _ => trivial
          touch := fun i w _ _ => kept_put (by unfold PlainKey; decide)
          keys := by
            intro k hk
            simp only [List.mem_cons, List.not_mem_nil, or_false] at hk
            rcases hk with rfl | rfl | rfl | rfl | rfl | rfl | rfl | rfl | rfl <;> (unfold PlainKey; decide)
          ascii := fun _ _ => trivial
          inp := fun _ _ => trivial
          join := fun _ _ _ _ => trivial
          split := fun _ _ _ _ => trivial
          old := fun _ _ _ _ _ _ => trivial
          otp := fun _ _ _ _ => trivial
          editor := fun _ _ _ _ => trivial
          fileUrl := fun _ _ _ _ => trivial
          scpUrl := fun _ _ _ _ _ _ _ _ _ _ => trivial
          keypair := fun _ _ _ => ⟨trivial, trivial⟩ }
      value := fun _ _ _ _ _ => trivial
      setKey := fun _ _ _ _ _ hp => plain_set hp
      editKey := fun _ _ _ _ _ hp => plain_set hp
      cutKey := by
        intro hc q k l hq hn _ hk
        have := h.cut hc q k l hq
        simp only [List.mem_cons, List.not_mem_nil, or_false] at hk this
        exact hk.elim hn this
      addName := fun hc nm l ha i => kept_name (h.add hc nm l ha) hfresh
      syncName := by
        intro hc kind l ha hk j
        refine kept_name ?_ hfresh
        have hl : ∀ x : Str, hasPrefix (syncPrefix ++ x) userPrefix = false := by
          intro x
          have h1 : syncPrefix = 115 :: b! "ync/" := by decide
          have h2 : userPrefix = 117 :: b! "ser/" := by decide
          rw [h1, h2]; rfl
        rw [List.append_assoc]
        exact hl _
      mvName := fun hc src dst l ha w hw => kept_name (h.mv hc src dst l ha).2
        (fun n hn => named_eq hw hn ▸ (h.mv hc src dst l ha).1)
      del := fun hc nm l ha w hw => kept_del (fun n hn => named_eq hw hn ▸ (h.rm hc nm l ha).1)
      record := fun hc => by rcases hc with hc | hc | hc <;> contradiction
      userName := fun hc => absurd hc h2
      records := fun hc => absurd hc h.noRekeyAll }

theorem sameUsers_log {s s' : DB} (h : Good s) (hl : s'.log = s.log) : SameUsers s s' := by
  obtain ⟨st, h1, -⟩ := h.named
  exact ⟨st, st, h1, by rw [hl]; exact h1, rfl⟩

/-- the session and the table after a line -/
def SharedAfter (P : Prims) (u : Session) (t : Passwords) : Prop := MultiSession P u ∧ Holders P u t

theorem after_update {P : Prims} {u : Session} {t : Passwords} (h : SharedAfter P u t) :
    SharedAfter P { u with store := u.store.updateSnapshot.1 } t := by
  have hs : SameUsers u.store u.store.updateSnapshot.1 := sameUsers_log h.1.good (updateSnapshot_log _)
  exact ⟨multi_same h.1 (Meta.of_store _ _) (good_update h.1.good) ((update_txPoint _).trans h.1.idle) hs,
    holders_same h.2 rfl hs⟩

theorem typed_ok {v : Env} {p : Str} (h : getPassword v.d.ent v.d.inp = .ok p) (hp : p ≠ []) : typedPass v = some p := by
  unfold typedPass; rw [h]; simp only [hp, if_false]

theorem typed_nil {v : Env} (h : getPassword v.d.ent v.d.inp = .ok []) : typedPass v = none := by
  unfold typedPass; rw [h]; simp only [if_true]

theorem back_ok {r : Repl} {x : Session × Res AppErr Unit} {b : Bool} (h : (back r x).2 = .ok b) : x.2 = .ok () := by
  obtain ⟨u, o⟩ := x
  cases o with
  | ok a => rfl
  | err e => cases h
  | panic => cases h

theorem back_fst (r : Repl) (x : Session × Res AppErr Unit) : (back r x).1.u = x.1 := by
  obtain ⟨u, o⟩ := x; cases o <;> rfl

theorem shared_passwd {P : Prims} (hP : Crypt.Spec.Lawful P) {v : Env} {u : Session} {t : Passwords} (hord : ∀ m, (v.ord m).Perm m)
    (hd : DrawOk v.d) (h : SharedAfter P u t) (user : Str) (ho : (passwd P v.ord v.d u user).2 = .ok ()) :
    SharedAfter P (passwd P v.ord v.d u user).1
      (match typedPass v with
      | some p => Txlogs.Spec.upd t u.creds.user (some p)
      | none => t) := by
  cases hg : getPassword v.d.ent v.d.inp with
  | panic => unfold passwd at ho; rw [hg] at ho; cases ho
  | err e => unfold passwd at ho; rw [hg] at ho; cases ho
  | ok p =>
    by_cases hp : p = []
    · subst hp
      rw [typed_nil hg]
      unfold passwd
      rw [hg]
      simp only [if_true]
      exact h
    · rw [typed_ok hg hp]
      obtain ⟨u', h1, h2, h3, h4, h5⟩ := passwd_multi P hP hord hd h.1 user hg hp
      rw [h1]
      exact ⟨h2, holders_upd h.2 hp h3 h4 h5⟩

theorem mustFind_none {ord : Order} (hord : ∀ m, (ord m).Perm m) {s : DB} (h : Good s) {user : Str}
    (hn : ∀ w, ¬ IsUser s w user) : (mustFindUser ord s user).2 = .panic := by
  unfold mustFindUser findUser
  rcases findByName_spec hord h (userPrefix ++ user) with ⟨w, e, a, b, c⟩ | ⟨a, -⟩
  · exact absurd ⟨_, b, c⟩ (hn w)
  · rw [a]

theorem shared_rekey {P : Prims} (hP : Crypt.Spec.Lawful P) {v : Env} {u : Session} {t : Passwords} (hord : ∀ m, (v.ord m).Perm m)
    (hd : DrawOk v.d) (h : SharedAfter P u t) (user : Str) (ho : (rekey P v.ord v.d u user).2 = .ok ()) :
    SharedAfter P (rekey P v.ord v.d u user).1
      (if user = [] then
        if u.creds.pass = [] then t else Txlogs.Spec.upd t u.creds.user (some u.creds.pass)
      else
        match typedPass v with
        | some p => Txlogs.Spec.upd t user (some p)
        | none => t) := by
  by_cases hu : user = []
  · rw [if_pos hu]
    by_cases hp : u.creds.pass = []
    · rw [if_pos hp]
      unfold rekey
      simp only [hu, if_true, hp]
      exact h
    · rw [if_neg hp]
      obtain ⟨u', h1, h2, h3, h4, h5⟩ := rekey_multi P hP hord hd h.1 user u.creds.pass hp (by rw [if_pos hu])
      rw [if_pos hu] at h4
      simp only [if_pos hu] at h5
      rw [h1]
      exact ⟨h2, holders_upd h.2 hp h3 h4 h5⟩
  · rw [if_neg hu]
    cases hg : getPassword v.d.ent v.d.inp with
    | panic => unfold rekey at ho; simp only [hu, if_false, hg] at ho; cases ho
    | err e => unfold rekey at ho; simp only [hu, if_false, hg] at ho; cases ho
    | ok p =>
      by_cases hp : p = []
      · subst hp
        rw [typed_nil hg]
        unfold rekey
        simp only [hu, if_false, hg, if_true]
        exact h
      · rw [typed_ok hg hp]
        by_cases hx : ∃ w, IsUser u.store w user
        · obtain ⟨u', h1, h2, h3, h4, h5⟩ := rekey_multi P hP hord hd h.1 user p hp (by rw [if_neg hu]; exact ⟨hg, hx⟩)
          rw [if_neg hu] at h4
          simp only [if_neg hu] at h5
          rw [h1]
          exact ⟨h2, holders_upd h.2 hp h3 h4 h5⟩
        · exfalso
          have hm := mustFind_none hord h.1.good (fun w hw => hx ⟨w, hw⟩)
          unfold rekey at ho
          have hdk : deriveKey P 1 p v.d.salt = .ok (P.kdf p v.d.salt, v.d.salt) := rfl
          simp only [hu, if_false, hg, hp, hdk, master_ne h.1.creds] at ho
          unfold storeUser at ho
          cases hmf : mustFindUser v.ord u.store user with
          | mk s o =>
            rw [hmf] at hm ho
            simp only at hm
            subst hm
            cases ho

theorem shared_adduser {P : Prims} (hP : Crypt.Spec.Lawful P) {v : Env} {u : Session} {t : Passwords} (hord : ∀ m, (v.ord m).Perm m)
    (hfresh : ¬ Blob.Exists u.store v.d.uuid) (hd : DrawOk v.d) (h : SharedAfter P u t) (user : Str)
    (hn : (∃ w, IsUser u.store w user) ∨ (NewOk P u.store v.d.uuid user ∧ getPassword v.d.ent v.d.inp ≠ .ok []))
    (ho : (adduser P v.ord v.d u user).2 = .ok ()) (t' : Passwords)
    (ht1 : (∃ w, IsUser u.store w user) → t' = t)
    (ht2 : (¬ ∃ w, IsUser u.store w user) → ∀ p, typedPass v = some p → t' = Txlogs.Spec.upd t user (some p)) :
    SharedAfter P (adduser P v.ord v.d u user).1 t' := by
  by_cases hx : ∃ w, IsUser u.store w user
  · rw [ht1 hx]
    rcases newUser_spec hord v.d.now h.1.good (user := user) hfresh with ⟨a, -⟩ | ⟨s', -, -, -, b, -⟩
    · unfold adduser
      rw [a]
      exact after_update h
    · exact absurd hx (fun ⟨w, hw⟩ => b w hw)
  · obtain ⟨hn1, hn2⟩ := hn.resolve_left hx
    cases hg : getPassword v.d.ent v.d.inp with
    | ok p =>
      have hp : p ≠ [] := by rintro rfl; exact hn2 hg
      rw [ht2 hx p (typed_ok hg hp)]
      obtain ⟨u', h1, h2, h3, h4, h5⟩ := adduser_multi P hP hord hd h.1 hg hn1 (fun w hw => hx ⟨w, hw⟩)
      rw [h1]
      exact ⟨h2, holders_upd h.2 hp (by rw [h3]) h4 h5⟩
    | panic =>
      exfalso
      rcases newUser_spec hord v.d.now h.1.good (user := user) hfresh with ⟨-, a⟩ | ⟨s', a, -⟩
      · exact hx a
      · unfold adduser at ho
        simp only [a, master_ne h.1.creds, if_false, hg] at ho
        cases ho
    | err e =>
      exfalso
      rcases newUser_spec hord v.d.now h.1.good (user := user) hfresh with ⟨-, a⟩ | ⟨s', a, -⟩
      · exact hx a
      · unfold adduser at ho
        simp only [a, master_ne h.1.creds, if_false, hg] at ho
        cases ho

/-- One line in a file with users. -/
theorem shared_line {P : Prims} (hP : Crypt.Spec.Lawful P) {C : Codec} {v : Env} {line : Str} {r : Repl} {t : Passwords} {b : Bool}
    (h : SharedAfter P r.u t) (hw : WellFormed r.u.store) (hl : SharedTurn P v line r) (ho : (runLine P C v line r).2 = .ok b) :
    SharedAfter P (runLine P C v line r).1.u (tableAfter v line r t) := by
  have hwf := C67_line_partial P C v line r h.1.idle hw hl.turn.legal (by rw [ho]; simp)
  have hadds := fun V K Q => addsR_line (P := P) (C := C) (v := v) (V := V) (K := K) (Q := Q) h.1.idle hl.turn.legal.env hw line
    hl.turn.legal.utf8 hl.turn.legal.noSync
  have hord := hl.turn.legal.env.ord
  unfold tableAfter
  cases hpl : parseLine line with
  | none =>
    unfold runLine
    rw [hpl]
    exact h
  | some p =>
    obtain ⟨cmd, args⟩ := p
    have hline := hl.line cmd args hpl
    dsimp only
    have hadds : (cmd ≠ b! "passwd") → (cmd ≠ b! "adduser") → (cmd ≠ b! "rekey") →
        Adds (OffUsers r.u.store) v.d.uuid r.u.store (runLine P C v line r).1.u.store := by
      intro h1 h2 h3
      refine hadds (fun _ => True) PlainKey _ (fun _ cmd' args' hpl' _ => ?_) (by rw [ho]; simp)
      rw [hpl] at hpl'
      cases hpl'
      exact shared_rules hl.turn.legal.env hline h1 h2 h3
    unfold runLine at ho hwf hadds ⊢
    simp only [hpl] at ho hwf hadds ⊢
    cases hro : readOnlyFlag cmd with
    | none =>
      dsimp only
      rw [if_neg (by rintro rfl; exact absurd hro (by decide)), if_neg (by rintro rfl; exact absurd hro (by decide)),
        if_neg (by rintro rfl; exact absurd hro (by decide))]
      exact h
    | some b =>
      cases b with
      | true =>
        dsimp only
        rw [if_neg (by rintro rfl; exact absurd hro (by decide)), if_neg (by rintro rfl; exact absurd hro (by decide)),
          if_neg (by rintro rfl; exact absurd hro (by decide))]
        simp only [hro] at hwf
        have hs := (execRead_same v cmd args r).1
        have hsu := sameUsers_log h.1.good hs.log
        exact ⟨multi_same h.1 ⟨hs.creds, hs.readOnly, hs.startTx⟩ hwf.1.good hwf.2 hsu, holders_same h.2 hs.creds hsu⟩
      | false =>
        simp only [hro, h.1.writable, Bool.false_eq_true, if_false] at ho hwf hadds ⊢
        by_cases h1 : cmd = b! "passwd"
        · rw [if_pos h1]
          subst h1
          have he : execWrite P C v (b! "passwd") args r = back r (passwd P v.ord v.d r.u (args.head?.getD [])) := rfl
          rw [he] at ho ⊢
          rw [back_fst]
          exact shared_passwd hP hord hl.draw h _ (back_ok ho)
        rw [if_neg h1]
        by_cases h2 : cmd = b! "adduser"
        · rw [if_pos h2]
          subst h2
          cases args with
          | nil => exact h
          | cons nm l =>
            have he : execWrite P C v (b! "adduser") (nm :: l) r = back r (adduser P v.ord v.d r.u nm) := rfl
            rw [he] at ho ⊢
            rw [back_fst]
            refine shared_adduser hP hord hl.turn.legal.env.fresh hl.draw h nm (hline.adduser rfl nm l rfl) (back_ok ho) _ ?_ ?_
            · intro hx
              cases typedPass v with
              | none => rfl
              | some p => dsimp only; rw [if_pos hx]
            · intro hx p hp
              rw [hp]
              dsimp only; rw [if_neg hx]
        rw [if_neg h2]
        by_cases h3 : cmd = b! "rekey"
        · rw [if_pos h3]
          subst h3
          have he : execWrite P C v (b! "rekey") args r = back r (rekey P v.ord v.d r.u (args.head?.getD [])) := rfl
          rw [he] at ho ⊢
          rw [back_fst]
          exact shared_rekey hP hord hl.draw h _ (back_ok ho)
        rw [if_neg h3]
        have hm := meta_write (P := P) (C := C) (v := v) (r := r) cmd args h1 h2 h3 hline.noRekeyAll
          (by rintro rfl; exact hl.turn.legal.noSync _ hpl) (fun hc nm l ha => (hline.rm hc nm l ha).2)
        have hsu := sameUsers_adds h.1.good hwf.1.good (hadds h1 h2 h3)
        exact ⟨multi_same h.1 hm hwf.1.good hwf.2 hsu, holders_same h.2 hm.creds hsu⟩

end Verif.App
