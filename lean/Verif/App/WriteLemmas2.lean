import Verif.App.WriteLemmas
/-!
# Which operations the commands write: the remaining commands and whole lines
-/
set_option linter.unusedSimpArgs false
namespace Verif.App
open Verif Verif.Txlogs Verif.Blob Verif.Crypt Verif.App.Spec

section
variable {v : Env} {u : Session} {V K : Str → Prop} {Q : Tx → Prop}

/-! ## addsync -/

theorem getString_mem {inp : Input} {x : Str} {rest : Input} (h : getString inp = (some x, rest)) : some x ∈ inp ∧ rest <:+ inp := by
  have h2 := getString_suffix inp
  rw [h] at h2
  refine ⟨?_, h2⟩
  clear h2
  induction inp with
  | nil => cases h
  | cons a l ih =>
    cases a with
    | none => cases h
    | some y =>
      unfold getString at h
      split at h
      · exact List.mem_cons_of_mem _ (ih h)
      · cases h; simp

theorem askPort_mem {inp : Input} {x : Str} {rest : Input} (h : askPort inp = (some x, rest)) :
    (x = b! "22" ∨ some x ∈ inp) ∧ rest <:+ inp := by
  have h2 := askPort_suffix inp
  rw [h] at h2
  refine ⟨?_, h2⟩
  clear h2
  induction inp with
  | nil => cases h
  | cons a l ih =>
    cases a with
    | none => cases h
    | some y =>
      unfold askPort at h
      split at h
      · cases h; exact .inl rfl
      · split at h
        · cases h; exact .inr (by simp)
        · exact (ih h).imp id (fun k => List.mem_cons_of_mem _ k)

theorem menu_suffix {n : Nat} {inp : Input} {x : Int} {rest : Input} (h : getMenuChoice n inp = (some x, rest)) : rest <:+ inp := by
  have h2 := getMenuChoice_suffix n inp
  rw [h] at h2
  exact h2

theorem adds_scp {s : DB} (R : Rules v s V K Q) (u : Session) :
    Adds Q v.d.uuid u.store (addSCPEntry v u v.d.uuid).1.store ∧ ∀ x, (addSCPEntry v u v.d.uuid).2 = .ok x → V x := by
  have refl := Adds.refl (Q := Q) (F := v.d.uuid) u.store
  unfold addSCPEntry
  cases h1 : getString v.d.inp with
  | mk a i1 =>
  cases a with
  | none => exact ⟨refl, by simp⟩
  | some user =>
  obtain ⟨m1, s1⟩ := getString_mem h1
  simp only
  cases h2 : getString i1 with
  | mk a i2 =>
  cases a with
  | none => exact ⟨refl, by simp⟩
  | some host =>
  obtain ⟨m2, s2⟩ := getString_mem h2
  simp only
  cases h3 : askPort i2 with
  | mk a i3 =>
  cases a with
  | none => exact ⟨refl, by simp⟩
  | some port =>
  obtain ⟨m3, s3⟩ := askPort_mem h3
  simp only
  cases h4 : getString i3 with
  | mk a i4 =>
  cases a with
  | none => exact ⟨refl, by simp⟩
  | some path =>
  obtain ⟨m4, s4⟩ := getString_mem h4
  simp only
  cases h5 : getMenuChoice 3 i4 with
  | mk a i5 =>
  cases a with
  | none => exact ⟨refl, by simp⟩
  | some choice =>
  have s5 := menu_suffix h5
  simp only
  have v1 := R.inp _ m1
  have v2 := R.inp _ (s1.subset m2)
  have v3 : V port := by
    rcases m3 with rfl | m3
    · exact R.ascii _ (by decide)
    · exact R.inp _ (s1.subset (s2.subset m3))
  have v4 := R.inp _ (s1.subset (s2.subset (s3.subset m4)))
  have vn : V (v.scpUrl user host port path none) := R.scpUrl _ _ _ _ _ v1 v2 v3 v4 (by simp)
  split
  · cases h6 : getPassword v.d.ent i5 with
    | panic => exact ⟨refl, by simp⟩
    | err e => exact ⟨refl, by simp⟩
    | ok pass =>
      refine ⟨refl, fun x hx => ?_⟩
      cases hx
      refine R.scpUrl _ _ _ _ _ v1 v2 v3 v4 (fun y hy => ?_)
      cases hy
      exact R.password (s5.trans (s4.trans (s3.trans (s2.trans s1)))) h6
  · cases h7 : v.keys with
    | none =>
      refine ⟨refl, fun x hx => ?_⟩
      cases hx
      exact vn
    | some kp =>
      obtain ⟨priv, pub⟩ := kp
      obtain ⟨k1, k2⟩ := R.keypair _ _ h7
      refine ⟨?_, fun x hx => ?_⟩
      · simp only
        have a1 : Adds Q v.d.uuid u.store (Blob.set (fun i => v.d.now (i + 4)) u.store v.d.uuid keyPriv priv).1 :=
          adds_set _ (R.touch 4 _ (by decide) (.inr rfl)) (fun _ => R.put _ _ _ _ (.inr rfl) (R.keys _ (by simp)) k1)
        split
        · exact a1.trans (adds_set _ (R.touch 7 _ (by decide) (.inr rfl))
            (fun _ => R.put _ _ _ _ (.inr rfl) (R.keys _ (by simp)) k2))
        · exact a1.trans (adds_put _ (R.put _ _ _ _ (.inr rfl) (R.keys _ (by simp)) k2) (.inl rfl))
      · cases hx
        exact vn

theorem adds_newSyncLoop {v : Env} {s0 : DB} (R : Rules v s0 V K Q)
    (fuel : Nat) (s : DB) (nm : Str) (hn : ∀ j, Q ⟨v.d.now 3, .setk, v.d.uuid, keyName, nm ++ List.replicate j 49⟩)
    {o : Out Str} (h : newSyncLoop v.ord v.d.now v.d.uuid fuel s nm = some o) : Adds Q v.d.uuid s o.1 := by
  induction fuel generalizing s nm with
  | zero => cases h
  | succ fuel ih =>
    have h1 := adds_new (Q := Q) (F := v.d.uuid) (ord := v.ord) (s := s) (now := v.d.now) (R.add 0) (R.touch 1 _ (by decide) (.inr rfl))
      (by have := hn 0; simpa using this)
    unfold newSyncLoop at h
    split at h
    · rename_i h'
      rw [h'] at h1
      refine h1.trans (ih _ _ ?_ h)
      intro j
      have := hn (j + 1)
      rw [List.append_assoc]
      simpa [List.replicate_succ] using this
    · cases h
      exact h1

theorem adds_addSync (h0 : u.store.txPoint = 0) (hv : EnvOk v u.store) (h : WellFormed u.store) (R : Rules v u.store V K Q)
    (kind : Str)
    (hq : kind = syncSCP ∨ kind = syncFile →
      ∀ j, Q ⟨v.d.now 3, .setk, v.d.uuid, keyName, syncPrefix ++ kind ++ List.replicate j 49⟩)
    (hp : (addSync v u kind).2 ≠ .panic) : Adds Q v.d.uuid u.store (addSync v u kind).1.store := by
  rw [addSync_eq] at hp ⊢
  split
  · exact Adds.refl _
  · rename_i hk
    rw [if_neg hk] at hp
    have hk' : kind = syncSCP ∨ kind = syncFile := by
      by_cases h1 : kind = syncSCP
      · exact .inl h1
      · by_cases h2 : kind = syncFile
        · exact .inr h2
        · exact absurd ⟨h1, h2⟩ hk
    have hkv : ValidUtf8 kind := by rcases hk' with rfl | rfl <;> exact valid_ascii _ (by decide)
    refine adds_doCmd h0 h (body_sync hv h kind hkv (fun k => k.elim)) (fun hr => ?_) hp
    obtain ⟨s', k, h1, -⟩ := newSync_wf hv.ord v.d.now (wf_begin h) (show ¬ Blob.Exists u.store.begin v.d.uuid from hv.fresh)
      hv.uuid_ne hkv (u.store.begin.log.length + 1) (by omega)
    have a1 : Adds Q v.d.uuid u.store s' := by
      have := adds_newSyncLoop R _ _ _ (hq hk') h1
      exact this
    unfold syncBody at hr ⊢
    simp only [h1, lift] at hr ⊢
    have a2 : Adds Q v.d.uuid s' (syncUri v kind v.d.uuid { u with store := s' }).1.store ∧
        ∀ x, (syncUri v kind v.d.uuid { u with store := s' }).2 = .ok x → V x := by
      unfold syncUri
      split
      · cases h2 : getString v.d.inp with
        | mk a i1 =>
        cases a with
        | none => exact ⟨Adds.refl _, by simp⟩
        | some file =>
          obtain ⟨m1, -⟩ := getString_mem h2
          simp only
          cases h3 : v.fileUrl file with
          | none => exact ⟨Adds.refl _, by simp⟩
          | some uri =>
            refine ⟨Adds.refl _, fun x hx => ?_⟩
            cases hx
            exact R.fileUrl _ _ (R.inp _ m1) h3
      · exact adds_scp R { u with store := s' }
    cases h2 : syncUri v kind v.d.uuid { u with store := s' } with
    | mk u2 o =>
    rw [h2] at hr a2
    cases o with
    | panic => cases hr
    | err e => cases hr
    | ok uri =>
      simp only at hr ⊢
      have a3 : Adds Q v.d.uuid u2.store ((u2.store.setKey (v.d.now 10) v.d.uuid keySync (b! "true")).setKey (v.d.now 11) v.d.uuid keyURL uri) :=
        (adds_put _ (R.put _ _ _ _ (.inr rfl) (R.keys _ (by simp)) (R.ascii _ (by decide))) (.inl rfl)).trans
          (adds_put _ (R.put _ _ _ _ (.inr rfl) (R.keys _ (by simp)) (a2.2 _ rfl)) (.inl rfl))
      have hall := a1.trans (a2.1.trans a3)
      generalize (u2.store.setKey (v.d.now 10) v.d.uuid keySync (b! "true")).setKey (v.d.now 11) v.d.uuid keyURL uri = s3 at hr hall ⊢
      have hl := updateSnapshot_log s3
      unfold find withSnapshot at hr ⊢
      cases hu : s3.updateSnapshot with
      | mk s4 o =>
        rw [hu] at hl hr
        have hall' := hall.trans (adds_log hl)
        cases o with
        | some e => cases hr
        | none =>
          simp only [lift] at hr ⊢
          split
          · exact hall'
          · exact hall'

/-! ## mv and rm -/

theorem adds_renameCmd (hv : EnvOk v u.store) (h : WellFormed u.store) (R : Rules v u.store V K Q) (src dst : Str)
    (hq : ∀ w, Blob.Spec.Named u.store w src → Q ⟨v.d.now 2, .setk, w, keyName, dst⟩) :
    Adds Q F u.store (renameCmd v u src dst).1.store := by
  unfold renameCmd
  have hl := updateSnapshot_log u.store
  rcases findByName_spec hv.ord h.good src with ⟨id, e, h1, hvis, hnam⟩ | ⟨h1, -⟩
  · rw [h1]
    simp only [lift]
    split
    · exact adds_log hl
    · have a1 : Adds Q F u.store.updateSnapshot.1 (Blob.rename v.ord v.d.now u.store.updateSnapshot.1 id dst).1 := by
        unfold Blob.rename withSnapshot
        have hl2 := updateSnapshot_log u.store.updateSnapshot.1
        cases hu : u.store.updateSnapshot.1.updateSnapshot with
        | mk s2 o =>
          rw [hu] at hl2
          cases o with
          | some e => exact adds_log hl2
          | none =>
            simp only
            split
            · exact adds_log hl2
            · exact adds_log hl2
            · split
              · exact adds_log hl2
              · exact (adds_log hl2).trans (adds_pair _ (R.touch 0 _ (by decide) (.inl ⟨_, hvis⟩)) (hq id ⟨_, hvis, hnam⟩))
      have a2 := (adds_log hl).trans a1
      split <;> rename_i h' <;> rw [h'] at a2 <;> exact a2
  · rw [h1]
    exact adds_log hl

theorem adds_deleteEntry (hv : EnvOk v u.store) (h : WellFormed u.store) (t : Int) (inp : Input) (nm : Str)
    (hq : ∀ w, Blob.Spec.Named u.store w nm → Q ⟨t, .del, w, [], []⟩) :
    Adds Q F u.store (deleteEntry v.ord t inp u nm).1.store := by
  unfold deleteEntry
  have hl := updateSnapshot_log u.store
  obtain ⟨-, hf, -, -⟩ := good_withSnapshot h.good (fun s => ((s, .panic) : Out Str))
  rcases findByName_spec hv.ord h.good nm with ⟨id, e, h1, h2, h3⟩ | ⟨h1, -⟩
  · rw [h1]
    simp only
    have hd : Adds Q F u.store (u.store.updateSnapshot.1.delete t id) := (adds_log hl).trans (adds_del _ (hq id ⟨_, h2, h3⟩))
    split
    · exact adds_log hl
    · split
      · obtain ⟨us, hu, -⟩ := users_spec hv.ord (wf_update h).good
        rw [update_fresh hf] at hu
        rw [hu]
        simp only
        repeat' split
        all_goals first | exact adds_log hl | exact hd
      · repeat' split
        all_goals first | exact adds_log hl | exact hd
  · rw [h1]
    exact adds_log hl

/-! ## Account commands -/

/-- the operations that store a user record satisfy `Q` -/
def RecordRules (s : DB) (uuid : Str) (now : Nat → Int) (Q : Tx → Prop) : Prop :=
  ∀ i w k x, (Blob.Exists s w ∨ w = uuid) → k ∈ [keySalt, keyIV, keyMKey] → Q ⟨now i, .setk, w, k, hexEncode x⟩

theorem adds_setRecord {s0 : DB} {uuid w : Str} {now : Nat → Int} (hq : RecordRules s0 uuid now Q) (hw : Blob.Exists s0 w ∨ w = uuid)
    (now' : Nat → Int) (hnow : ∀ i, ∃ j, now' i = now j) (s : DB) (a b c : Str) : Adds Q F s (setRecord now' s w a b c) := by
  have : ∀ i k x, k ∈ [keySalt, keyIV, keyMKey] → Q ⟨now' i, .setk, w, k, hexEncode x⟩ := by
    intro i k x hk
    obtain ⟨j, hj⟩ := hnow i
    rw [hj]
    exact hq _ _ _ _ hw hk
  exact ((adds_put _ (this _ _ _ (by simp)) (.inr (by simp))).trans (adds_put _ (this _ _ _ (by simp)) (.inr (by simp)))).trans
    (adds_put _ (this _ _ _ (by simp)) (.inr (by simp)))

theorem adds_storeUser {P : Prims} {d : Draw} {ord : Order} (hord : ∀ m, (ord m).Perm m) (h : WellFormed u.store)
    (hq : RecordRules u.store d.uuid d.now Q) (user key salt : Str) :
    Adds Q F u.store (storeUser P ord d u user key salt).1.store := by
  unfold storeUser
  have hl := updateSnapshot_log u.store
  by_cases hex : ∃ uuid, IsUser u.store uuid user
  · obtain ⟨uuid, hu⟩ := hex
    obtain ⟨e, h1⟩ := mustFindUser_spec hord h.good hu (fun w hw => h.unique _ _ _ hw hu) (h.uuids _ _ hu)
    rw [h1]
    simp only
    split
    · exact adds_log hl
    · exact adds_log hl
    · exact (adds_log hl).trans (adds_setRecord hq (.inl (exists_of_named hu)) _ (fun i => ⟨i, rfl⟩) _ _ _ _)
  · rw [mustFindUser_none hord h.good (fun uuid hu => hex ⟨uuid, hu⟩)]
    exact adds_log hl

theorem adds_storeUser' {P : Prims} {d : Draw} {ord : Order} (hord : ∀ m, (ord m).Perm m) (h : WellFormed u.store)
    (hq : RecordRules u.store d.uuid d.now Q) (u' : Session) (hu : u'.store = u.store) (user key salt : Str) :
    Adds Q F u.store (storeUser P ord d u' user key salt).1.store := by
  rw [← hu] at h hq ⊢
  exact adds_storeUser hord h hq user key salt

theorem adds_passwd {P : Prims} {d : Draw} {ord : Order} (hord : ∀ m, (ord m).Perm m) (h : WellFormed u.store)
    (hq : RecordRules u.store d.uuid d.now Q) (user : Str) : Adds Q F u.store (passwd P ord d u user).1.store := by
  unfold passwd
  split
  · exact Adds.refl _
  · exact Adds.refl _
  · split
    · exact Adds.refl _
    · simp only [deriveKey, ne_eq, not_true, if_false]
      split
      · split
        · exact Adds.refl _
        · refine adds_storeUser' hord h hq _ ?_ _ _ _
          rfl
      · split
        · exact Adds.refl _
        · exact adds_storeUser hord h hq _ _ _

theorem adds_rekey {P : Prims} {d : Draw} {ord : Order} (hord : ∀ m, (ord m).Perm m) (h : WellFormed u.store)
    (hq : RecordRules u.store d.uuid d.now Q) (user : Str) : Adds Q F u.store (rekey P ord d u user).1.store := by
  unfold rekey
  dsimp only
  split
  · exact Adds.refl _
  · exact Adds.refl _
  · split
    · exact Adds.refl _
    · simp only [deriveKey, ne_eq, not_true, if_false]
      by_cases hu : user = []
      · simp only [hu, if_true]
        split
        · exact Adds.refl _
        · refine adds_storeUser' hord h hq _ ?_ _ _ _
          rfl
      · simp only [hu, if_false]
        split
        · exact Adds.refl _
        · exact adds_storeUser hord h hq _ _ _

theorem adds_finishUser {P : Prims} {d : Draw} {s0 : DB} (hq : RecordRules s0 d.uuid d.now Q) (u : Session) (key salt : Str) :
    Adds Q F u.store (finishUser P d u d.uuid key salt).1.store := by
  unfold finishUser
  split
  · exact Adds.refl _
  · exact Adds.refl _
  · exact adds_setRecord hq (.inr rfl) _ (fun i => ⟨_, rfl⟩) _ _ _ _

theorem adds_adduser {P : Prims} (hv : EnvOk v u.store) (h : WellFormed u.store) (R : Rules v u.store V K Q)
    (hq : RecordRules u.store v.d.uuid v.d.now Q) (user : Str) (hu : ValidUtf8 user)
    (hn : Q ⟨v.d.now 3, .setk, v.d.uuid, keyName, userPrefix ++ user⟩) :
    Adds Q v.d.uuid u.store (adduser P v.ord v.d u user).1.store := by
  unfold adduser newUser
  have hval : ValidUtf8 (userPrefix ++ user) := valid_append (valid_ascii _ (by decide)) hu
  have a1 := adds_new (Q := Q) (F := v.d.uuid) (ord := v.ord) (s := u.store) (now := v.d.now) (R.add 0) (R.touch 1 _ (by decide) (.inr rfl)) hn
  rcases wf_new hv.ord v.d.now h hv.fresh hv.uuid_ne hval with h1 | ⟨s', h1, -⟩
  · rw [h1]
    exact adds_log (updateSnapshot_log _)
  · rw [h1] at a1 ⊢
    simp only
    split
    · exact a1.trans (adds_finishUser hq { u with store := s', creds := { u.creds with master := v.d.master, ivm := v.d.ivm, user := user } } _ _)
    · split
      · exact a1
      · exact a1
      · simp only [deriveKey, ne_eq, not_true, if_false]
        exact a1.trans (adds_finishUser hq { u with store := s' } _ _)

theorem adds_rekeyLoop {P : Prims} {s0 : DB} (l : List (Str × Str)) (ds : Nat → Draw) (u : Session) (out : List (Str × Str))
    (hl : ∀ x ∈ l, Blob.Exists s0 x.1) (hq : ∀ j, RecordRules s0 [] (ds j).now Q) :
    Adds Q F u.store (rekeyLoop P l ds u out).1.store := by
  induction l generalizing ds u out with
  | nil => exact Adds.refl _
  | cons x l ih =>
    obtain ⟨uuid, nm⟩ := x
    unfold rekeyLoop
    dsimp only
    split
    · exact Adds.refl _
    · exact Adds.refl _
    · rename_i pass _
      simp only [deriveKey, ne_eq, not_true, if_false]
      have key : ∀ u' : Session, u'.store = u.store → ∀ (k salt : Str), Adds Q F u.store
          (match encryptMasterKey P 1 k u'.creds.master (ds 0).iv with
          | .panic => ((u', .panic) : Session × Res AppErr (List (Str × Str)))
          | .err e => (u', .err (.crypt e))
          | .ok (mkey, iv) =>
            rekeyLoop P l (fun i => ds (i + 1))
              { u' with store := setRecord (ds 0).now u'.store uuid salt iv mkey } (out ++ [(splitUsername nm, pass)])).1.store := by
        intro u' hu' k salt
        rw [← hu']
        split
        · exact Adds.refl _
        · exact Adds.refl _
        · exact (adds_setRecord (hq 0) (.inl (hl (uuid, nm) (by simp))) _ (fun i => ⟨i, rfl⟩) _ _ _ _).trans
            (ih (fun i => ds (i + 1)) _ _ (fun x hx => hl x (by simp [hx])) (fun j => hq (j + 1)))
      exact key _ (by split <;> rfl) _ _

theorem adds_rekeyAll {P : Prims} (hv : EnvOk v u.store) (h : WellFormed u.store)
    (hq : ∀ j, RecordRules u.store [] (v.ds j).now Q) : Adds Q F u.store (rekeyAll P v.ord v.ord' v.d v.ds u).1.store := by
  unfold rekeyAll
  split
  · exact Adds.refl _
  · split
    · exact Adds.refl _
    · exact Adds.refl _
    · obtain ⟨us, hu, -, hl, hnd, h2⟩ := users_spec hv.ord h.good
      rw [hu]
      simp only
      have h3 := adds_rekeyLoop (Q := Q) (F := F) (P := P) (v.ord' us) v.ds { u with store := u.store.updateSnapshot.1 } [] (by
          rintro ⟨uuid, n⟩ hx
          have hx := (hv.ord' us).mem_iff.1 hx
          have := ((h2 uuid n).1 (GoMap.get?_of_mem hnd hx)).1
          exact exists_of_named this) hq
      split
      · rename_i h'
        rw [h'] at h3
        exact (adds_log hl).trans h3
      · exact (adds_log hl).trans h3

end

/-! ## Lines -/

/-- everything a line can write satisfies `Q` -/
structure LineRules (v : Env) (r : Repl) (cmd : Str) (args : List Str) (V K : Str → Prop) (Q : Tx → Prop) : Prop where
  rules : Rules v r.u.store V K Q
  value : cmd = b! "set" → ∀ q k x, setArgs r.ctx args = some (q, k, x) → V x
  setKey : cmd = b! "set" → ∀ q k x, setArgs r.ctx args = some (q, k, x) →
    protectedKeys.any (fun p => equalFold k p) = false → K k
  editKey : cmd = b! "edit" → ∀ q k l, queryArgs r.ctx args = some (q, k, l) →
    protectedKeys.any (fun p => equalFold k p) = false → K k
  cutKey : cmd = b! "rmk" ∨ cmd = b! "edit" → ∀ q k l, queryArgs r.ctx args = some (q, k, l) → k ≠ keyName → k ≠ keyUpdated → K k
  addName : cmd = b! "add" → ∀ nm l, args = nm :: l → ∀ i, Q ⟨v.d.now i, .setk, v.d.uuid, keyName, nm⟩
  syncName : cmd = b! "addsync" → ∀ kind l, args = kind :: l → kind = syncSCP ∨ kind = syncFile →
    ∀ j, Q ⟨v.d.now 3, .setk, v.d.uuid, keyName, syncPrefix ++ kind ++ List.replicate j 49⟩
  mvName : cmd = b! "mv" → ∀ src dst l, args = src :: dst :: l → ∀ w, Blob.Spec.Named r.u.store w src →
    Q ⟨v.d.now 2, .setk, w, keyName, dst⟩
  del : cmd = b! "rm" → ∀ nm l, args = nm :: l → ∀ w, Blob.Spec.Named r.u.store w nm → Q ⟨v.d.now 0, .del, w, [], []⟩
  record : cmd = b! "passwd" ∨ cmd = b! "adduser" ∨ cmd = b! "rekey" → RecordRules r.u.store v.d.uuid v.d.now Q
  userName : cmd = b! "adduser" → ∀ nm l, args = nm :: l → Q ⟨v.d.now 3, .setk, v.d.uuid, keyName, userPrefix ++ nm⟩
  records : cmd = b! "rekeyall" → ∀ j, RecordRules r.u.store [] (v.ds j).now Q

/-- the outcome of a line -/
def AddsR (Q : Tx → Prop) (F : Str) (r : Repl) (x : Repl × Res AppErr Bool) : Prop := x.2 ≠ .panic → Adds Q F r.u.store x.1.u.store

theorem addsR_refl {Q : Tx → Prop} {r : Repl} (o : Res AppErr Bool) : AddsR Q F r (r, o) := fun _ => Adds.refl _

theorem addsR_back {Q : Tx → Prop} {r : Repl} {x : Session × Res AppErr Unit} (h : x.2 ≠ .panic → Adds Q F r.u.store x.1.store) :
    AddsR Q F r (back r x) := by
  obtain ⟨u, o⟩ := x
  cases o with
  | ok a => exact fun _ => h (by simp)
  | err e => exact fun _ => h (by simp)
  | panic => exact fun k => absurd rfl k

theorem addsR_back_ {α : Type} {Q : Tx → Prop} {r : Repl} {x : Session × Res AppErr α} (h : x.2 ≠ .panic → Adds Q F r.u.store x.1.store) :
    AddsR Q F r (back_ r x) := by
  obtain ⟨u, o⟩ := x
  cases o with
  | ok a => exact fun _ => h (by simp)
  | err e => exact fun _ => h (by simp)
  | panic => exact fun k => absurd rfl k

theorem addsR_ite {Q : Tx → Prop} {r : Repl} {c : Prop} [Decidable c] {a b : Repl × Res AppErr Bool} (ha : c → AddsR Q F r a)
    (hb : ¬ c → AddsR Q F r b) : AddsR Q F r (if c then a else b) := by
  by_cases h : c
  · rw [if_pos h]; exact ha h
  · rw [if_neg h]; exact hb h

theorem interruptible_panic {v : Env} {o : Res AppErr Unit} (h : interruptible v o ≠ .panic) : o ≠ .panic := by
  rintro rfl
  exact h rfl

theorem adds_login {v : Env} {u : Session} {Q : Tx → Prop} (hv : EnvOk v u.store) (h : WellFormed u.store) (q : Str) :
    Adds Q F u.store (login v u q).1.store := by
  unfold login
  refine adds_one hv h q _ _ ?_
  intro u' uuid hl hw hf he
  unfold find withSnapshot
  have hl := updateSnapshot_log u'.store
  cases hu : u'.store.updateSnapshot with
  | mk s o =>
    rw [hu] at hl
    cases o with
    | some e => exact adds_log hl
    | none =>
      simp only [lift]
      split
      · exact adds_log hl
      · split <;> exact adds_log hl

theorem addsR_write {P : Prims} {C : Codec} {v : Env} {r : Repl} {V K : Str → Prop} {Q : Tx → Prop} (h0 : r.u.store.txPoint = 0)
    (hv : EnvOk v r.u.store) (h : WellFormed r.u.store) (cmd : Str) (args : List Str)
    (hargs : cmd ≠ b! "set" → ∀ a ∈ args, ValidUtf8 a) (hsync : cmd ≠ b! "sync") (L : LineRules v r cmd args V K Q) :
    AddsR Q v.d.uuid r (execWrite P C v cmd args r) := by
  have hr : ∀ b, AddsR Q v.d.uuid r (r, .ok b) := fun b => addsR_refl _
  have R := L.rules
  unfold execWrite
  refine addsR_ite (fun hc => ?_) (fun _ => ?_)
  · exact addsR_back (fun _ => adds_passwd hv.ord h (L.record (.inl hc)) _)
  refine addsR_ite (fun hc => ?_) (fun _ => ?_)
  · have ha := hargs (by rw [hc]; decide)
    split
    · exact hr _
    · exact addsR_back (fun _ => adds_adduser hv h R (L.record (.inr (.inl hc))) _ (ha _ (by simp)) (L.userName hc _ _ rfl))
  refine addsR_ite (fun hc => ?_) (fun _ => ?_)
  · exact addsR_back (fun _ => adds_rekey hv.ord h (L.record (.inr (.inr hc))) _)
  refine addsR_ite (fun hc => ?_) (fun _ => ?_)
  · exact addsR_back_ (fun _ => adds_rekeyAll hv h (L.records hc))
  refine addsR_ite (fun hc => ?_) (fun _ => ?_)
  · have ha := hargs (by rw [hc]; decide)
    split
    · exact hr _
    · exact addsR_back (fun hp => adds_addNew h0 hv h R _ (ha _ (by simp)) (L.addName hc _ _ rfl) (interruptible_panic hp))
  refine addsR_ite (fun hc => ?_) (fun _ => ?_)
  · split
    · exact addsR_back (fun _ => adds_renameCmd hv h R _ _ (L.mvName hc _ _ _ rfl))
    · exact hr _
  refine addsR_ite (fun hc => ?_) (fun _ => ?_)
  · split
    · exact hr _
    · rename_i nm _
      have h1 : AddsR Q v.d.uuid r (back r (deleteEntry v.ord (v.d.now 0) v.d.inp r.u nm)) :=
        addsR_back (fun _ => adds_deleteEntry hv h _ _ _ (L.del hc _ _ rfl))
      split
      · rename_i h'
        rw [h'] at h1
        have := h1 (by simp)
        split
        · exact fun _ => this
        · exact fun _ => this
      · exact h1
  refine addsR_ite (fun hc => ?_) (fun _ => ?_)
  · split
    · exact hr _
    · rename_i hq
      exact addsR_back (fun _ => adds_deleteKeyCmd hv h R _ _ (L.cutKey (.inl hc) _ _ _ hq))
  refine addsR_ite (fun hc => ?_) (fun _ => ?_)
  · split
    · exact hr _
    · exact addsR_back_ (fun _ => adds_login hv h _)
  refine addsR_ite (fun hc => ?_) (fun _ => ?_)
  · split
    · exact hr _
    · rename_i hq
      exact addsR_back (fun _ => adds_setCmd hv h R _ _ _ (L.value hc _ _ _ hq) (L.setKey hc _ _ _ hq))
  refine addsR_ite (fun hc => ?_) (fun _ => ?_)
  · split
    · exact hr _
    · rename_i hq
      exact addsR_back (fun _ => adds_edit hv h R _ _ (L.editKey hc _ _ _ hq) (L.cutKey (.inr hc) _ _ _ hq))
  refine addsR_ite (fun hc => ?_) (fun _ => ?_)
  · split
    · exact hr _
    · exact addsR_back (fun _ => adds_addLabels hv h R _)
  refine addsR_ite (fun hc => ?_) (fun _ => ?_)
  · split
    · exact hr _
    · exact addsR_back (fun _ => adds_deleteLabel hv h R _ _)
  refine addsR_ite (fun hc => ?_) (fun _ => ?_)
  · exact absurd hc hsync
  refine addsR_ite (fun hc => ?_) (fun _ => ?_)
  · split
    · exact hr _
    · exact addsR_back (fun hp => adds_addSync h0 hv h R _ (L.syncName hc _ _ rfl) (interruptible_panic hp))
  · exact hr _

theorem addsR_line {P : Prims} {C : Codec} {v : Env} {r : Repl} {V K : Str → Prop} {Q : Tx → Prop} (h0 : r.u.store.txPoint = 0)
    (hv : EnvOk v r.u.store) (h : WellFormed r.u.store) (line : Str) (hl : ValidUtf8 line)
    (hsync : ∀ args, parseLine line ≠ some (b! "sync", args))
    (L : r.u.readOnly = false → ∀ cmd args, parseLine line = some (cmd, args) → readOnlyFlag cmd = some false →
      LineRules v r cmd args V K Q) :
    AddsR Q v.d.uuid r (runLine P C v line r) := by
  unfold runLine
  split
  · exact addsR_refl _
  · rename_i cmd args hpl
    split
    · exact addsR_refl _
    · exact fun _ => adds_log (execRead_same v cmd args r).1.log
    · rename_i hw
      split
      · exact addsR_refl _
      · rename_i hro
        exact addsR_write h0 hv h cmd args (parseLine_valid hl hpl) (fun hcmd => hsync args (by rw [hpl, hcmd]))
          (L (by simpa using hro) _ _ hpl hw)

end Verif.App
