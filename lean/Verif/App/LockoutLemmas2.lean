import Verif.App.LockoutLemmas
import Verif.App.HistoryProps
/-!
# One line and the records of users
-/
set_option linter.unusedSimpArgs false
namespace Verif.App
open Verif Verif.Txlogs Verif.Blob Verif.Crypt Verif.App.Spec

/-- an operation that has nothing to do with users -/
def KeyOp (t : Tx) : Prop :=
  (t.kind = .setk ∨ t.kind = .delk → t.key ∉ recordKeys) ∧
    (t.kind = .setk → t.key = keyName → hasPrefix t.value userPrefix = false)

theorem keyring_quiet {P : Prims} {M : Str} {l txs : List Tx} {rs : List Rec} (h : Keyring P M l rs) (ht : ∀ t ∈ txs, KeyOp t) :
    Keyring P M (l ++ txs) rs := by
  refine ⟨h.unlocks, fun r hr t ht => List.mem_append.2 (.inl (h.written r hr t ht)), ?_, h.apart, ?_, ?_⟩
  · intro t hm hk hkey
    rcases List.mem_append.1 hm with hm | hm
    · exact h.only t hm hk hkey
    · exact absurd hkey ((ht t hm).1 hk)
  · rintro uuid ⟨t, hm, a, b, c, d⟩
    rcases List.mem_append.1 hm with hm | hm
    · exact h.each uuid ⟨t, hm, a, b, c, d⟩
    · rw [(ht t hm).2 a c] at d; cases d
  · intro t hm a b
    rcases List.mem_append.1 hm with hm | hm
    · exact h.names t hm a b
    · intro h0
      have := (ht t hm).2 a b
      rw [h0] at this
      exact absurd this (by decide)

theorem keyring_set {P : Prims} {M : Str} {l mid : List Tx} {rs : List Rec} {r : Rec} (h : Keyring P M l rs) (hr : Unlocks P M r)
    (hlate : ∀ t ∈ l, t.time < r.t0) (ht : ∀ t ∈ mid, (t.kind = .setk ∨ t.kind = .delk → t.key ∉ recordKeys) ∧
      (t.kind = .setk → t.key = keyName → t.value ≠ userPrefix ∧ t.uuid = r.uuid)) :
    Keyring P M (l ++ mid ++ r.ops) (rs ++ [r]) := by
  have hrk : ∀ k ∈ recordKeys, k ≠ keyName := by decide
  have hops : ∀ t ∈ r.ops, t.key ≠ keyName := by
    intro t h
    exact hrk _ (by rcases ops_cases h with rfl | rfl | rfl <;> simp [recordKeys])
  have hold : ∀ r' ∈ rs, r'.t2 < r.t0 := fun r' h' => hlate _ (h.written r' h' ⟨r'.t2, .setk, r'.uuid, keyMKey, hexEncode r'.mkey⟩ (by simp [Rec.ops]))
  refine ⟨?_, ?_, ?_, ?_, ?_, ?_⟩
  · intro r' h'
    rcases List.mem_append.1 h' with h' | h'
    · exact h.unlocks r' h'
    · rw [List.mem_singleton.1 h']; exact hr
  · intro r' h' t h1
    rcases List.mem_append.1 h' with h' | h'
    · simp [h.written r' h' t h1]
    · rw [List.mem_singleton.1 h'] at h1; simp [h1]
  · intro t hm hk hkey
    simp only [List.mem_append] at hm
    rcases hm with (hm | hm) | hm
    · obtain ⟨r', a, b⟩ := h.only t hm hk hkey
      exact ⟨r', by simp [a], b⟩
    · exact absurd hkey ((ht t hm).1 hk)
    · exact ⟨r, by simp, hm⟩
  · intro a ha b hb hu
    rcases List.mem_append.1 ha with ha | ha <;> rcases List.mem_append.1 hb with hb | hb
    · exact h.apart a ha b hb hu
    · rw [List.mem_singleton.1 hb]; exact .inr (.inl (hold a ha))
    · rw [List.mem_singleton.1 ha]; exact .inr (.inr (hold b hb))
    · rw [List.mem_singleton.1 ha, List.mem_singleton.1 hb]; exact .inl rfl
  · rintro uuid ⟨t, hm, a, b, c, d⟩
    simp only [List.mem_append] at hm
    rcases hm with (hm | hm) | hm
    · obtain ⟨r', h1, h2⟩ := h.each uuid ⟨t, hm, a, b, c, d⟩
      exact ⟨r', by simp [h1], h2⟩
    · exact ⟨r, by simp, by rw [← b]; exact (((ht t hm).2 a c).2).symm⟩
    · exact absurd c (hops t hm)
  · intro t hm a b
    simp only [List.mem_append] at hm
    rcases hm with (hm | hm) | hm
    · exact h.names t hm a b
    · exact ((ht t hm).2 a b).1
    · exact absurd b (hops t hm)

/-! ## The account commands -/

theorem setRecord_log (now : Nat → Int) (s : DB) (uuid pass salt iv mkey : Str) :
    (setRecord now s uuid salt iv mkey).log = s.log ++ Rec.ops ⟨uuid, pass, salt, iv, mkey, now 0, now 1, now 2⟩ := by
  simp only [setRecord, DB.setKey, DB.appendLog, Rec.ops, List.append_assoc, List.cons_append, List.nil_append]

/-- what an account command does to the log; the password that is set is one of `G` -/
def Sets (P : Prims) (G : Str → Prop) (u u' : Session) (log : List Tx) : Prop :=
  u'.creds.master = u.creds.master ∧ MultiCreds u'.creds ∧
    (u'.store.log = log ∨ ∃ mid r, u'.store.log = log ++ mid ++ Rec.ops r ∧ Unlocks P u.creds.master r ∧ G r.pass ∧
      (∀ t ∈ log, t.time < r.t0) ∧ ∀ t ∈ mid, (t.kind = .setk ∨ t.kind = .delk → t.key ∉ recordKeys) ∧
      (t.kind = .setk → t.key = keyName → t.value ≠ userPrefix ∧ t.uuid = r.uuid))

theorem sets_storeUser {P : Prims} (hP : Crypt.Spec.Lawful P) {ord : Order} (hord : ∀ m, (ord m).Perm m) {d : Draw} (hd : DrawOk d)
    {u : Session} (hw : WellFormed u.store) (hc : MultiCreds u.creds) (htick : ∀ i j, i < j → d.now i < d.now j)
    (hlate : ∀ t ∈ u.store.log, t.time < d.now 0) {user pass : Str} (hp : pass ≠ []) {G : Str → Prop} (hG : G pass)
    (ho : (storeUser P ord d u user (P.kdf pass d.salt) d.salt).2 = .ok ()) :
    Sets P G u (storeUser P ord d u user (P.kdf pass d.salt) d.salt).1 u.store.log := by
  unfold storeUser at ho ⊢
  by_cases hex : ∃ uuid, IsUser u.store uuid user
  · obtain ⟨uuid, hu⟩ := hex
    obtain ⟨e, h1⟩ := mustFindUser_spec hord hw.good hu (fun w hx => hw.unique _ _ _ hx hu) (hw.uuids _ _ hu)
    obtain ⟨mkey, h2, h3⟩ := wrap_ok P hP (hP.kdf_length pass d.salt) hc.master hd.iv_length
    simp only [h1, h2]
    refine ⟨rfl, hc, .inr ⟨[], ⟨uuid, pass, d.salt, d.iv, mkey, d.now 0, d.now 1, d.now 2⟩, ?_, ?_, hG, hlate, by simp⟩⟩
    · rw [setRecord_log d.now _ _ pass]
      simp only [updateSnapshot_log, List.append_nil]
    · exact ⟨hp, hd.salt_length, hd.iv_length, h3, h2, htick 0 1 (by decide), htick 1 2 (by decide)⟩
  · rw [mustFindUser_none hord hw.good (fun uuid hu => hex ⟨uuid, hu⟩)] at ho
    cases ho

theorem sets_passwd {P : Prims} (hP : Crypt.Spec.Lawful P) {ord : Order} (hord : ∀ m, (ord m).Perm m) {d : Draw} (hd : DrawOk d)
    {u : Session} (hw : WellFormed u.store) (hc : MultiCreds u.creds) (htick : ∀ i j, i < j → d.now i < d.now j)
    (hlate : ∀ t ∈ u.store.log, t.time < d.now 0) {user : Str} (ho : (passwd P ord d u user).2 = .ok ()) :
    Sets P (fun p => getPassword d.ent d.inp = .ok p) u (passwd P ord d u user).1 u.store.log := by
  have hnm : u.creds.master ≠ [] := master_ne hc
  generalize hG : (fun p => getPassword d.ent d.inp = .ok p) = G
  cases hg : getPassword d.ent d.inp with
  | panic => unfold passwd at ho; rw [hg] at ho; cases ho
  | err e => unfold passwd at ho; rw [hg] at ho; cases ho
  | ok p =>
    have hGp : G p := by rw [← hG]; exact hg
    unfold passwd at ho ⊢
    rw [hg] at ho ⊢
    simp only at ho ⊢
    by_cases hp : p = []
    · rw [if_pos hp]; exact ⟨rfl, hc, .inl rfl⟩
    · rw [if_neg hp] at ho ⊢
      have hdk : deriveKey P 1 p d.salt = .ok (P.kdf p d.salt, d.salt) := rfl
      simp only [hdk] at ho ⊢
      by_cases hx : u.creds.user = [] ∨ u.creds.user = user
      · simp only [if_pos hx, hnm, if_false] at ho ⊢
        exact sets_storeUser hP hord (u := { u with creds := { u.creds with pass := p, key := P.kdf p d.salt, salt := d.salt } }) hd hw
          ⟨hc.master, hc.ivm, hP.kdf_length _ _⟩ htick hlate hp hGp ho
      · simp only [if_neg hx, hnm, if_false] at ho ⊢
        exact sets_storeUser hP hord hd hw hc htick hlate hp hGp ho

theorem sets_rekey {P : Prims} (hP : Crypt.Spec.Lawful P) {ord : Order} (hord : ∀ m, (ord m).Perm m) {d : Draw} (hd : DrawOk d)
    {u : Session} (hw : WellFormed u.store) (hc : MultiCreds u.creds) (htick : ∀ i j, i < j → d.now i < d.now j)
    (hlate : ∀ t ∈ u.store.log, t.time < d.now 0) {user : Str} (ho : (rekey P ord d u user).2 = .ok ()) :
    Sets P (fun p => if user = [] then p = u.creds.pass else getPassword d.ent d.inp = .ok p) u (rekey P ord d u user).1 u.store.log := by
  have hnm : u.creds.master ≠ [] := master_ne hc
  generalize hG : (fun p => if user = [] then p = u.creds.pass else getPassword d.ent d.inp = .ok p) = G
  unfold rekey at ho ⊢
  generalize hpp : (if user = [] then Res.ok u.creds.pass else getPassword d.ent d.inp : Res Unit Str) = pp at ho ⊢
  cases pp with
  | panic => cases ho
  | err e => cases ho
  | ok p =>
    have hGp : G p := by
      rw [← hG]
      by_cases hx : user = []
      · rw [if_pos hx] at hpp
        simp only [if_pos hx]
        injection hpp with hpp
        exact hpp.symm
      · rw [if_neg hx] at hpp
        simp only [if_neg hx]
        exact hpp
    simp only at ho ⊢
    by_cases hp : p = []
    · rw [if_pos hp]; exact ⟨rfl, hc, .inl rfl⟩
    · rw [if_neg hp] at ho ⊢
      have hdk : deriveKey P 1 p d.salt = .ok (P.kdf p d.salt, d.salt) := rfl
      simp only [hdk] at ho ⊢
      by_cases hx : user = []
      · simp only [if_pos hx, hnm, if_false] at ho ⊢
        exact sets_storeUser hP hord (u := { u with creds := { u.creds with pass := p, key := P.kdf p d.salt, salt := d.salt } }) hd hw
          ⟨hc.master, hc.ivm, hP.kdf_length _ _⟩ htick hlate hp hGp ho
      · simp only [if_neg hx, hnm, if_false] at ho ⊢
        exact sets_storeUser hP hord hd hw hc htick hlate hp hGp ho

theorem newUser_log {ord : Order} {now : Nat → Int} {s s' : DB} {uuid user : Str} (hg : Good s)
    (h : newUser ord now uuid s user = (s', .ok uuid)) :
    s'.log = s.log ++ [⟨now 0, .add, uuid, [], []⟩, ⟨now 2, .setk, uuid, keyUpdated, fmtInt (now 1)⟩,
      ⟨now 3, .setk, uuid, keyName, userPrefix ++ user⟩] := by
  unfold newUser new at h
  rw [(good_withSnapshot hg _).1] at h
  split at h
  · cases h
  · cases h
  · simp only [Prod.mk.injEq, and_true] at h
    subst h
    simp [touchUpdated, DB.setKey, DB.appendLog, DB.add, updateSnapshot_log, List.append_assoc]

theorem sets_adduser {P : Prims} (hP : Crypt.Spec.Lawful P) {ord : Order} (hord : ∀ m, (ord m).Perm m) {d : Draw} (hd : DrawOk d)
    {u : Session} (hw : WellFormed u.store) (hc : MultiCreds u.creds) (htick : ∀ i j, i < j → d.now i < d.now j)
    (hlate : ∀ t ∈ u.store.log, t.time < d.now 0) (hfresh : ¬ Blob.Exists u.store d.uuid) {user : Str} (hne : user ≠ [])
    (hpw : getPassword d.ent d.inp ≠ .ok []) (ho : (adduser P ord d u user).2 = .ok ()) :
    Sets P (fun p => getPassword d.ent d.inp = .ok p) u (adduser P ord d u user).1 u.store.log := by
  generalize hG : (fun p => getPassword d.ent d.inp = .ok p) = G
  have hnm : u.creds.master ≠ [] := master_ne hc
  rcases newUser_spec hord d.now hw.good (user := user) hfresh with ⟨a, -⟩ | ⟨s', a, -, -, -, -⟩
  · unfold adduser
    rw [a]
    exact ⟨rfl, hc, .inl (updateSnapshot_log _)⟩
  · have hlog := newUser_log hw.good a
    unfold adduser at ho ⊢
    rw [a] at ho ⊢
    simp only [hnm, if_false] at ho ⊢
    cases hg : getPassword d.ent d.inp with
    | panic => rw [hg] at ho; cases ho
    | err e => rw [hg] at ho; cases ho
    | ok p =>
      have hp : p ≠ [] := by rintro rfl; exact hpw hg
      have hdk : deriveKey P 1 p d.salt = .ok (P.kdf p d.salt, d.salt) := rfl
      obtain ⟨mkey, h2, h3⟩ := wrap_ok P hP (hP.kdf_length p d.salt) hc.master hd.iv_length
      simp only [hdk, finishUser, h2]
      refine ⟨rfl, hc, .inr ⟨[⟨d.now 0, .add, d.uuid, [], []⟩, ⟨d.now 2, .setk, d.uuid, keyUpdated, fmtInt (d.now 1)⟩,
        ⟨d.now 3, .setk, d.uuid, keyName, userPrefix ++ user⟩], ⟨d.uuid, p, d.salt, d.iv, mkey, d.now 4, d.now 5, d.now 6⟩, ?_, ?_, by rw [← hG]; exact hg, ?_, ?_⟩⟩
      · rw [setRecord_log (fun i => d.now (i + 4)) _ _ p, hlog]
      · exact ⟨hp, hd.salt_length, hd.iv_length, h3, h2, htick 4 5 (by decide), htick 5 6 (by decide)⟩
      · intro t ht
        have h1 := hlate t ht
        have h4 := htick 0 4 (by decide)
        exact Int.lt_trans h1 h4
      · intro t ht
        simp only [List.mem_cons, List.not_mem_nil, or_false] at ht
        have hk : keyUpdated ∉ recordKeys ∧ keyName ∉ recordKeys ∧ keyUpdated ≠ keyName := by decide
        rcases ht with rfl | rfl | rfl
        · exact ⟨(by rintro (h | h) <;> cases h), fun h => by cases h⟩
        · exact ⟨fun _ => hk.1, fun _ h => absurd h hk.2.2⟩
        · refine ⟨fun _ => hk.2.1, fun _ _ => ⟨?_, rfl⟩⟩
          intro h
          exact hne (List.append_right_eq_self.1 h)

/-! ## Other lines -/

theorem keyOp_put {i : Int} {w k x : Str} (hk : PlainKey k) : KeyOp ⟨i, .setk, w, k, x⟩ := by
  refine ⟨fun _ h => hk ?_, fun _ h => absurd (show k ∈ [keyName, keySalt, keyIV, keyMKey] by simp only at h; simp [h]) hk⟩
  simp only [recordKeys, List.mem_cons, List.not_mem_nil, or_false] at h ⊢
  exact .inr h

theorem keyOp_name {i : Int} {w x : Str} (hx : hasPrefix x userPrefix = false) : KeyOp ⟨i, .setk, w, keyName, x⟩ :=
  ⟨fun _ => by show keyName ∉ recordKeys; decide, fun _ _ => hx⟩

theorem key_rules {v : Env} {r : Repl} {cmd : Str} {args : List Str}
    (h : KeyLine v r cmd args) (h1 : cmd ≠ b! "passwd") (h2 : cmd ≠ b! "adduser") (h3 : cmd ≠ b! "rekey") :
    LineRules v r cmd args (fun _ => True) PlainKey KeyOp :=
    { rules :=
        { put := fun i w k x _ hk _ => keyOp_put hk
          cut := by
            intro i w k _ hk
            refine ⟨fun _ h => hk ?_, fun h => by cases h⟩
            simp only [recordKeys, List.mem_cons, List.not_mem_nil, or_false] at h ⊢
            exact .inr h
          add := fun i => ⟨(by rintro (h | h) <;> cases h), fun h => by cases h⟩
          touch := fun i w _ _ => keyOp_put (by unfold PlainKey; decide)
          keys := by
            intro k hk
            simp only [List.mem_cons, List.not_mem_nil, or_false] at hk
            rcases hk with rfl | rfl | rfl | rfl | rfl | rfl | rfl | rfl | rfl <;> (unfold PlainKey; decide)
          ascii := fun _ _ => trivial
          inp := fun _ _ => trivial
          join := fun _ _ _ _ => trivial
          split := fun _ _ _ _ => trivial
          old := fun _ _ _ _ _ _ => trivial
          otp := fun _ _ _ _ => trivial
          editor := fun _ _ _ _ => trivial
          fileUrl := fun _ _ _ _ => trivial
          scpUrl := fun _ _ _ _ _ _ _ _ _ _ => trivial
          keypair := fun _ _ _ => ⟨trivial, trivial⟩ }
      value := fun _ _ _ _ _ => trivial
      setKey := fun _ _ _ _ _ hp => plain_set hp
      editKey := fun _ _ _ _ _ hp => plain_set hp
      cutKey := by
        intro hc q k l hq hn _ hk
        have := h.cut hc q k l hq
        simp only [recordKeys, List.mem_cons, List.not_mem_nil, or_false] at hk this
        exact hk.elim hn this
      addName := fun hc nm l ha i => keyOp_name (h.add hc nm l ha)
      syncName := by
        intro hc kind l ha hk j
        refine keyOp_name ?_
        have hl : ∀ x : Str, hasPrefix (syncPrefix ++ x) userPrefix = false := by
          intro x
          have h1 : syncPrefix = 115 :: b! "ync/" := by decide
          have h2 : userPrefix = 117 :: b! "ser/" := by decide
          rw [h1, h2]; rfl
        rw [List.append_assoc]
        exact hl _
      mvName := fun hc src dst l ha w hw => keyOp_name (h.mv hc src dst l ha)
      del := fun hc nm l ha w hw => ⟨(by rintro (h | h) <;> cases h), fun h => by cases h⟩
      record := fun hc => by rcases hc with hc | hc | hc <;> contradiction
      userName := fun hc => absurd hc h2
      records := fun hc => absurd hc h.noRekeyAll }

/-- the records after a line: those from before, and at most one more, of a password that was set in that line -/
theorem ring_sets {P : Prims} {G : Str → Prop} {u u' : Session} {rs : List Rec} (h : Keyring P u.creds.master u.store.log rs)
    (hs : Sets P G u u' u.store.log) :
    ∃ rs', Keyring P u'.creds.master u'.store.log (rs ++ rs') ∧ rs'.length ≤ 1 ∧ ∀ x ∈ rs', G x.pass := by
  obtain ⟨h1, -, h3 | ⟨mid, r, h3, h4, hG, h5, h6⟩⟩ := hs
  · exact ⟨[], by rw [h1, h3, List.append_nil]; exact h, by simp, by simp⟩
  · exact ⟨[r], by rw [h1, h3]; exact keyring_set h h4 h5 h6, by simp, fun x hx => List.mem_singleton.1 hx ▸ hG⟩

theorem keyed_line {P : Prims} (hP : Crypt.Spec.Lawful P) {C : Codec} {v : Env} {line : Str} {r : Repl} {rs : List Rec} {b : Bool}
    (h : Keyed P r.u rs) (hl : KeyTurn v line r) (ho : (runLine P C v line r).2 = .ok b) :
    ∃ rs', Keyed P (runLine P C v line r).1.u (rs ++ rs') ∧ rs'.length ≤ 1 ∧ (∀ x ∈ rs', GivenIn v line r x.pass) ∧
      (runLine P C v line r).1.u.creds.master = r.u.creds.master := by
  have h0 := h.sound.tx
  have hw := h.sound.wf
  have hnp : (runLine P C v line r).2 ≠ .panic := by rw [ho]; simp
  have hwf := C67_line_partial P C v line r h0 hw hl.turn.legal hnp
  have hown := history_line h0 hw h.sound.own hl.turn hnp
  have hsound : Sound (runLine P C v line r).1.u.store := ⟨hwf.1, hown, hwf.2⟩
  have hord := hl.turn.legal.env.ord
  suffices hmain : (runLine P C v line r).1.u.creds.master = r.u.creds.master ∧ MultiCreds (runLine P C v line r).1.u.creds ∧
      ∃ rs', Keyring P (runLine P C v line r).1.u.creds.master (runLine P C v line r).1.u.store.log (rs ++ rs') ∧ rs'.length ≤ 1 ∧ (∀ x ∈ rs', GivenIn v line r x.pass) by
    obtain ⟨a, b, rs', c, d, e⟩ := hmain
    exact ⟨rs', ⟨hsound, b, c⟩, d, e, a⟩
  have hsets : ∀ G u', (∀ p, G p → GivenIn v line r p) → Sets P G r.u u' r.u.store.log → u'.creds.master = r.u.creds.master ∧ MultiCreds u'.creds ∧
      ∃ rs', Keyring P u'.creds.master u'.store.log (rs ++ rs') ∧ rs'.length ≤ 1 ∧ (∀ x ∈ rs', GivenIn v line r x.pass) :=
    fun G u' hG hs => by
      obtain ⟨rs', a, b, c⟩ := ring_sets h.ring hs
      exact ⟨hs.1, hs.2.1, rs', a, b, fun x hx => hG _ (c x hx)⟩
  have hsame : ∀ u' : Session, u'.creds = r.u.creds → u'.store.log = r.u.store.log → u'.creds.master = r.u.creds.master ∧
      MultiCreds u'.creds ∧ ∃ rs', Keyring P u'.creds.master u'.store.log (rs ++ rs') ∧ rs'.length ≤ 1 ∧ (∀ x ∈ rs', GivenIn v line r x.pass) :=
    fun u' h1 h2 => ⟨by rw [h1], by rw [h1]; exact h.creds, [], by rw [h1, h2, List.append_nil]; exact h.ring, by simp, by simp⟩
  clear hsound hown hwf
  cases hpl : parseLine line with
  | none =>
    have : runLine P C v line r = (r, .ok false) := by unfold runLine; rw [hpl]
    rw [this]; exact hsame r.u rfl rfl
  | some p =>
    obtain ⟨cmd, args⟩ := p
    have hline := hl.line cmd args hpl
    cases hro : readOnlyFlag cmd with
    | none =>
      unfold runLine
      simp only [hpl, hro]
      simpa using hsame r.u rfl rfl
    | some b' =>
      cases b' with
      | true =>
        unfold runLine
        simp only [hpl, hro]
        have hs := (execRead_same v cmd args r).1
        exact hsame _ hs.creds hs.log
      | false =>
        cases hrd : r.u.readOnly with
        | true =>
          unfold runLine
          simp only [hpl, hro, hrd, if_true]
          simpa using hsame r.u rfl rfl
        | false =>
          have hadds : cmd ≠ b! "passwd" → cmd ≠ b! "adduser" → cmd ≠ b! "rekey" →
              Adds KeyOp v.d.uuid r.u.store (runLine P C v line r).1.u.store := by
            intro h1 h2 h3
            refine addsR_line (P := P) (C := C) (V := fun _ => True) (K := PlainKey) h0 hl.turn.legal.env hw line
              hl.turn.legal.utf8 hl.turn.legal.noSync (fun _ cmd' args' hpl' _ => ?_) hnp
            rw [hpl] at hpl'
            cases hpl'
            exact key_rules hline h1 h2 h3
          unfold runLine at ho hadds ⊢
          simp only [hpl, hro, hrd, Bool.false_eq_true, if_false] at ho hadds ⊢
          by_cases h1 : cmd = b! "passwd"
          · subst h1
            have he : execWrite P C v (b! "passwd") args r = back r (passwd P v.ord v.d r.u (args.head?.getD [])) := rfl
            rw [he] at ho ⊢
            rw [back_fst]
            exact hsets _ _ (fun p hp => .inl ⟨_, _, hpl, by decide, hp⟩) (sets_passwd hP hord hl.draw hw h.creds hl.turn.clock.tick hl.turn.clock.late (back_ok ho))
          by_cases h2 : cmd = b! "adduser"
          · subst h2
            cases args with
            | nil => exact hsame r.u rfl rfl
            | cons nm l =>
              have he : execWrite P C v (b! "adduser") (nm :: l) r = back r (adduser P v.ord v.d r.u nm) := rfl
              rw [he] at ho ⊢
              rw [back_fst]
              obtain ⟨a, b⟩ := hline.adduser rfl nm l rfl
              exact hsets _ _ (fun p hp => .inl ⟨_, _, hpl, by decide, hp⟩) (sets_adduser hP hord hl.draw hw h.creds hl.turn.clock.tick hl.turn.clock.late
                hl.turn.legal.env.fresh a b (back_ok ho))
          by_cases h3 : cmd = b! "rekey"
          · subst h3
            have he : execWrite P C v (b! "rekey") args r = back r (rekey P v.ord v.d r.u (args.head?.getD [])) := rfl
            rw [he] at ho ⊢
            rw [back_fst]
            refine hsets _ _ (fun p hp => ?_) (sets_rekey hP hord hl.draw hw h.creds hl.turn.clock.tick hl.turn.clock.late (back_ok ho))
            by_cases he : args.head?.getD [] = []
            · rw [if_pos he] at hp
              exact .inr ⟨args, hpl, hp⟩
            · rw [if_neg he] at hp
              exact .inl ⟨_, _, hpl, by decide, hp⟩
          obtain ⟨txs, hlog, hq, -⟩ := hadds h1 h2 h3
          have hm := meta_write (P := P) (C := C) (v := v) (r := r) cmd args h1 h2 h3 hline.noRekeyAll
            (by rintro rfl; exact hl.turn.legal.noSync _ hpl) (fun hc nm l ha => hline.rm hc nm l ha)
          refine ⟨by rw [hm.creds], by rw [hm.creds]; exact h.creds, [], ?_, by simp, by simp⟩
          rw [hm.creds, hlog, List.append_nil]
          exact keyring_quiet h.ring hq

end Verif.App
