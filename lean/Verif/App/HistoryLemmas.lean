import Verif.App.HistorySpec
import Verif.App.WriteLemmas2
import Verif.App.ImportLemmas
/-!
# The order in which commands read the clock

Every command stamps the operations it appends with clock readings in the order in which they were taken.
-/
set_option linter.unusedSimpArgs false
namespace Verif.App
open Verif Verif.Txlogs Verif.Blob Verif.Crypt Verif.App.Spec

/-- `s'` is `s` with operations appended whose times are some of the clock readings `T`, in order. -/
def Ticks (T : List Int) (s s' : DB) : Prop := ∃ l, s'.log = s.log ++ l ∧ (l.map Tx.time).Sublist T

theorem ticks_log {T : List Int} {s s' : DB} (h : s'.log = s.log) : Ticks T s s' := ⟨[], by simp [h], by simp⟩

theorem Ticks.refl {T : List Int} (s : DB) : Ticks T s s := ticks_log rfl

theorem Ticks.trans {T T' : List Int} {a b c : DB} (h : Ticks T a b) (h' : Ticks T' b c) : Ticks (T ++ T') a c := by
  obtain ⟨l, h1, h2⟩ := h
  obtain ⟨m, h3, h4⟩ := h'
  exact ⟨l ++ m, by rw [h3, h1, List.append_assoc], by rw [List.map_append]; exact h2.append h4⟩

theorem Ticks.mono {T T' : List Int} {a b : DB} (h : Ticks T a b) (hT : T.Sublist T') : Ticks T' a b := by
  obtain ⟨l, h1, h2⟩ := h
  exact ⟨l, h1, h2.trans hT⟩

theorem Ticks.from {T : List Int} {a b c : DB} (h : b.log = a.log) (h' : Ticks T b c) : Ticks T a c := by
  obtain ⟨l, h1, h2⟩ := h'
  exact ⟨l, by rw [h1, h], h2⟩

theorem Ticks.upto {T : List Int} {a b c : DB} (h' : Ticks T a b) (h : c.log = b.log) : Ticks T a c := by
  obtain ⟨l, h1, h2⟩ := h'
  exact ⟨l, by rw [h, h1], h2⟩

theorem ticks_put (s : DB) (t : Int) (w k x : Str) : Ticks [t] s (s.setKey t w k x) := ⟨[_], rfl, List.Sublist.refl _⟩
theorem ticks_cut (s : DB) (t : Int) (w k : Str) : Ticks [t] s (s.deleteKey t w k) := ⟨[_], rfl, List.Sublist.refl _⟩
theorem ticks_del (s : DB) (t : Int) (w : Str) : Ticks [t] s (s.delete t w) := ⟨[_], rfl, List.Sublist.refl _⟩
theorem ticks_add (s : DB) (t : Int) (w : Str) : Ticks [t] s (s.add t w) := ⟨[_], rfl, List.Sublist.refl _⟩

theorem ticks_set (s : DB) (now : Nat → Int) (w k x : Str) : Ticks [now 1, now 2] s (Blob.set now s w k x).1 := by
  unfold Blob.set
  split
  · exact Ticks.refl _
  · exact (ticks_put s _ _ _ _).trans (ticks_put _ _ _ _ _)

theorem ticks_deleteKey (s : DB) (now : Nat → Int) (w k : Str) : Ticks [now 1, now 2] s (Blob.deleteKey now s w k).1 := by
  unfold Blob.deleteKey
  split
  · exact Ticks.refl _
  · exact (ticks_put s _ _ _ _).trans (ticks_cut _ _ _ _)

theorem ticks_lift_ {T : List Int} {u : Session} {o : Out Unit} (h : Ticks T u.store o.1) : Ticks T u.store (lift_ u o).1.store := by
  obtain ⟨s, r⟩ := o
  cases r <;> exact h

/-- twelve clock readings -/
def dozen (now : Nat → Int) : List Int := (List.range 12).map now

theorem dozen_sub (now : Nat → Int) (is : List Nat) (h : is.Sublist (List.range 12)) : (is.map now).Sublist (dozen now) := h.map now

section
variable {v : Env} {u : Session} {T : List Int}

theorem ticks_one {α : Type} (q : Str) (d : α) (k : Session → Str → Session × Res AppErr α)
    (hk : ∀ u' uuid, u'.store.log = u.store.log → Ticks T u'.store (k u' uuid).1.store) :
    Ticks T u.store (one v u q d k).1.store := by
  unfold one
  have hl := (sameStore_findOne v.lower v.ord v.ord' u.store q).1
  cases h : findOne v.lower v.ord v.ord' u.store q with
  | mk s o =>
    rw [h] at hl
    cases o with
    | panic => exact ticks_log hl
    | err e => exact ticks_log hl
    | ok id =>
      simp only [lift]
      split
      · exact ticks_log hl
      · exact (hk { u with store := s } id hl).from hl

theorem ticks_oneEntry {α : Type} (q : Str) (d : α) (k : Session → Str → Entry → Session × Res AppErr α)
    (hk : ∀ u' uuid e, Ticks T u'.store (k u' uuid e).1.store) : Ticks T u.store (oneEntry v u q d k).1.store := by
  unfold oneEntry
  refine ticks_one q d _ ?_
  intro u' uuid _
  have hl := mustFind_log u'.store uuid
  cases h : mustFind u'.store uuid with
  | mk s o =>
    rw [h] at hl
    cases o with
    | panic => exact ticks_log hl
    | err e => exact ticks_log hl
    | ok e => exact (hk { u' with store := s } uuid e).from hl

theorem ticks_setCmd (q key value : Str) : Ticks [v.d.now 1, v.d.now 2] u.store (setCmd v u q key value).1.store := by
  unfold setCmd
  refine ticks_one q _ _ ?_
  intro u' uuid _
  have hset : ∀ x, Ticks [v.d.now 1, v.d.now 2] u'.store (lift_ u' (Blob.set v.d.now u'.store uuid key x)).1.store := fun x =>
    ticks_lift_ (ticks_set _ _ _ _ _)
  have h2 : Ticks [v.d.now 1, v.d.now 2] u'.store (lift_ u' (setTwofactor v.otpUri v.otpOk v.d.now u'.store uuid value)).1.store := by
    refine ticks_lift_ ?_
    unfold setTwofactor
    dsimp only
    generalize (if hasPrefix value (b! "otpauth://") = true then value else v.otpUri uuid value) = g
    split
    · exact (ticks_put u'.store _ _ _ _).trans (ticks_put _ _ _ _ _)
    · exact Ticks.refl _
  repeat' split
  all_goals first | exact hset _ | exact h2 | exact Ticks.refl _

theorem ticks_edit (q key : Str) : Ticks [v.d.now 1, v.d.now 2] u.store (edit v u q key).1.store := by
  unfold edit
  refine ticks_one q _ _ ?_
  intro u' uuid _
  have hl := mustFind_log u'.store uuid
  cases h : mustFind u'.store uuid with
  | mk s o =>
    rw [h] at hl
    cases o with
    | panic => exact ticks_log hl
    | err e => exact ticks_log hl
    | ok e =>
      simp only [lift]
      split
      · exact ticks_log hl
      · exact ticks_log hl
      · split
        · exact Ticks.from hl (ticks_lift_ (u := { u' with store := s }) (ticks_deleteKey _ _ _ _))
        · exact Ticks.from hl (ticks_lift_ (u := { u' with store := s }) (ticks_set _ _ _ _ _))

theorem ticks_deleteKeyCmd (q key : Str) : Ticks [v.d.now 1, v.d.now 2] u.store (deleteKeyCmd v u q key).1.store := by
  unfold deleteKeyCmd
  refine ticks_oneEntry q _ _ ?_
  intro u' uuid e
  split
  · exact ticks_lift_ (ticks_deleteKey _ _ _ _)
  · exact Ticks.refl _

theorem ticks_addLabels (q : Str) : Ticks [v.d.now 1, v.d.now 2] u.store (addLabels v u q).1.store := by
  unfold addLabels
  refine ticks_oneEntry q _ _ ?_
  intro u' uuid e
  split
  · exact Ticks.refl _
  · exact Ticks.refl _
  · rename_i ls _
    have h2 : Ticks [v.d.now 1, v.d.now 2] u'.store (lift_ u' (Blob.set v.d.now u'.store uuid keyLabels (join comma ls))).1.store :=
      ticks_lift_ (ticks_set _ _ _ _ _)
    split
    · rename_i h'
      rw [h'] at h2
      split <;> exact h2
    · exact h2

theorem ticks_deleteLabel (q l : Str) : Ticks [v.d.now 0, v.d.now 1, v.d.now 2] u.store (deleteLabel v u q l).1.store := by
  unfold deleteLabel
  refine ticks_oneEntry q _ _ ?_
  intro u' uuid e
  split
  · exact Ticks.refl _
  · rename_i i hi
    have h2 : Ticks [v.d.now 0, v.d.now 1, v.d.now 2] u'.store (removeLabel v.d.now u'.store uuid i).1 := by
      unfold removeLabel
      have hl := mustFind_log u'.store uuid
      cases h : mustFind u'.store uuid with
      | mk s o =>
        rw [h] at hl
        cases o with
        | panic => exact ticks_log hl
        | err e => exact ticks_log hl
        | ok e =>
          dsimp only
          split
          · exact ticks_log hl
          · split
            · exact ((ticks_cut s (v.d.now 0) _ _).mono (by simp)).from hl
            · split
              · exact ticks_log hl
              · exact (((ticks_put s (v.d.now 1) _ _ _).trans (ticks_put _ (v.d.now 2) _ _ _)).mono (by simp)).from hl
    cases hr : removeLabel v.d.now u'.store uuid i with
    | mk s o =>
      rw [hr] at h2
      cases o with
      | panic => exact h2
      | err e => exact h2
      | ok a =>
        simp only [lift]
        split <;> exact h2

theorem ticks_new (ord : Order) (s : DB) (now : Nat → Int) (uuid nm : Str) :
    Ticks [now 0, now 2, now 3] s (new ord now uuid s nm).1 := by
  unfold new withSnapshot
  have hl := updateSnapshot_log s
  cases hu : s.updateSnapshot with
  | mk s' o =>
    rw [hu] at hl
    cases o with
    | some e => exact ticks_log hl
    | none =>
      simp only
      split
      · exact ticks_log hl
      · exact ticks_log hl
      · exact ((ticks_add s' _ _).trans ((ticks_put _ _ _ _ _).trans (ticks_put _ _ _ _ _))).from hl

theorem ticks_setNonEmpty (s : DB) (t : Int) (w k x : Str) : Ticks [t] s (setNonEmpty s t w k x) := by
  unfold setNonEmpty
  split
  · exact Ticks.refl _
  · exact ticks_put _ _ _ _ _

theorem ticks_doCmd {f : Session → Session × Res AppErr Unit} (h0 : u.store.txPoint = 0) (h : WellFormed u.store)
    (hb : Body False u (f { u with store := u.store.begin }))
    (hf : (f { u with store := u.store.begin }).2 = .ok () → Ticks T u.store (f { u with store := u.store.begin }).1.store)
    (hn : (doCmd u f).2 ≠ .panic) : Ticks T u.store (doCmd u f).1.store := by
  obtain ⟨-, h1, h2⟩ := doCmd_spec (L := fun _ => False) h0 h hb
  cases hr : (doCmd u f).2 with
  | panic => exact absurd hr hn
  | err e => exact ticks_log (h1 e hr).log
  | ok a =>
    obtain ⟨h3, h4⟩ := h2 hr
    rw [h4]
    exact hf h3

theorem ticks_addNew (h0 : u.store.txPoint = 0) (hv : EnvOk v u.store) (h : WellFormed u.store)
    (nm : Str) (hn : ValidUtf8 nm) (hp : (addNew v u nm).2 ≠ .panic) : Ticks (dozen v.d.now) u.store (addNew v u nm).1.store := by
  rw [addNew_eq] at hp ⊢
  refine ticks_doCmd h0 h (body_add hv h nm hn (fun k => k.elim)) (fun hr => ?_) hp
  have h1 := ticks_new v.ord u.store.begin v.d.now v.d.uuid nm
  have hf : ¬ Blob.Exists u.store.begin v.d.uuid := hv.fresh
  unfold addBody at hr ⊢
  rcases wf_new hv.ord v.d.now (wf_begin h) hf hv.uuid_ne hn with g | ⟨s', g, -⟩
  · simp only [g] at hr ⊢
    exact ticks_log (updateSnapshot_log _)
  · rw [g] at h1
    simp only [g] at hr ⊢
    cases hp1 : prompt v.d.inp with
    | mk a i1 =>
    rw [hp1] at hr
    cases a with
    | none => cases hr
    | some email =>
    simp only at hr ⊢
    cases hp2 : prompt i1 with
    | mk a i2 =>
    rw [hp2] at hr
    cases a with
    | none => cases hr
    | some user =>
    simp only at hr ⊢
    cases hp3 : getPassword v.d.ent i2 with
    | panic => rw [hp3] at hr; cases hr
    | err e => rw [hp3] at hr; cases hr
    | ok pass =>
      simp only
      exact (h1.trans ((ticks_setNonEmpty _ _ _ _ _).trans ((ticks_setNonEmpty _ _ _ _ _).trans (ticks_setNonEmpty _ _ _ _ _)))).mono
        (dozen_sub v.d.now [0, 2, 3, 4, 5, 6] (by decide))

theorem ticks_scp (u : Session) (w : Str) :
    Ticks ([5, 6, 7, 8, 9].map v.d.now) u.store (addSCPEntry v u w).1.store := by
  unfold addSCPEntry
  repeat' split
  all_goals first
    | exact Ticks.refl _
    | exact ((ticks_set u.store (fun i => v.d.now (i + 4)) w keyPriv _).trans
        (ticks_set _ (fun i => v.d.now (i + 7)) w keyPub _)).mono (List.Sublist.map v.d.now (l₁ := [5, 6, 8, 9]) (by decide))
    | exact ((ticks_set u.store (fun i => v.d.now (i + 4)) w keyPriv _).trans
        (ticks_put _ (v.d.now 7) _ _ _)).mono (List.Sublist.map v.d.now (l₁ := [5, 6, 7]) (by decide))

theorem newSyncLoop_ticks (ord : Order) (now : Nat → Int) (uuid : Str) (fuel : Nat) (s : DB) (nm : Str) {o : Out Str}
    (h : newSyncLoop ord now uuid fuel s nm = some o) : Ticks [now 0, now 2, now 3] s o.1 := by
  induction fuel generalizing s nm with
  | zero => cases h
  | succ fuel ih =>
    unfold newSyncLoop at h
    split at h
    · rename_i h'
      exact (ih _ _ h).from (new_err_log h').1
    · cases h
      exact ticks_new _ _ _ _ _

theorem ticks_addSync (h0 : u.store.txPoint = 0) (hv : EnvOk v u.store) (h : WellFormed u.store)
    (kind : Str) (hp : (addSync v u kind).2 ≠ .panic) : Ticks (dozen v.d.now) u.store (addSync v u kind).1.store := by
  rw [addSync_eq] at hp ⊢
  split
  · exact Ticks.refl _
  · rename_i hk
    rw [if_neg hk] at hp
    have hk' : kind = syncSCP ∨ kind = syncFile := by
      by_cases h1 : kind = syncSCP
      · exact .inl h1
      · by_cases h2 : kind = syncFile
        · exact .inr h2
        · exact absurd ⟨h1, h2⟩ hk
    have hkv : ValidUtf8 kind := by rcases hk' with rfl | rfl <;> exact valid_ascii _ (by decide)
    refine ticks_doCmd h0 h (body_sync hv h kind hkv (fun k => k.elim)) (fun hr => ?_) hp
    obtain ⟨s', k, h1, -⟩ := newSync_wf hv.ord v.d.now (wf_begin h) (show ¬ Blob.Exists u.store.begin v.d.uuid from hv.fresh)
      hv.uuid_ne hkv (u.store.begin.log.length + 1) (by omega)
    have a1 : Ticks [v.d.now 0, v.d.now 2, v.d.now 3] u.store s' := newSyncLoop_ticks _ _ _ _ _ _ h1
    unfold syncBody at hr ⊢
    simp only [h1, lift] at hr ⊢
    have a2 : Ticks ([5, 6, 7, 8, 9].map v.d.now) s' (syncUri v kind v.d.uuid { u with store := s' }).1.store := by
      unfold syncUri
      split
      · repeat' split
        all_goals exact Ticks.refl _
      · exact ticks_scp { u with store := s' } _
    cases h2 : syncUri v kind v.d.uuid { u with store := s' } with
    | mk u2 o =>
    rw [h2] at hr a2
    cases o with
    | panic => cases hr
    | err e => cases hr
    | ok uri =>
      simp only at hr ⊢
      have a3 : Ticks [v.d.now 10, v.d.now 11] u2.store
          ((u2.store.setKey (v.d.now 10) v.d.uuid keySync (b! "true")).setKey (v.d.now 11) v.d.uuid keyURL uri) :=
        (ticks_put _ _ _ _ _).trans (ticks_put _ _ _ _ _)
      have hall : Ticks (dozen v.d.now) _ _ := (a1.trans (a2.trans a3)).mono
        (dozen_sub v.d.now [0, 2, 3, 5, 6, 7, 8, 9, 10, 11] (by decide))
      generalize (u2.store.setKey (v.d.now 10) v.d.uuid keySync (b! "true")).setKey (v.d.now 11) v.d.uuid keyURL uri = s3 at hr hall ⊢
      have hl := updateSnapshot_log s3
      unfold find withSnapshot at hr ⊢
      cases hu : s3.updateSnapshot with
      | mk s4 o =>
        rw [hu] at hl hr
        have hall' := hall.upto hl
        cases o with
        | some e => cases hr
        | none =>
          simp only [lift] at hr ⊢
          split
          · exact hall'
          · exact hall'

theorem ticks_renameCmd (src dst : Str) : Ticks [v.d.now 1, v.d.now 2] u.store (renameCmd v u src dst).1.store := by
  unfold renameCmd
  have hl : (findByName v.ord u.store src).1.log = u.store.log := by
    unfold findByName
    exact withSnapshot_log _ (fun s => by split <;> rfl)
  cases h1 : findByName v.ord u.store src with
  | mk s o =>
    rw [h1] at hl
    cases o with
    | panic => exact ticks_log hl
    | err e => exact ticks_log hl
    | ok x =>
      cases x with
      | none => exact ticks_log hl
      | some x =>
        obtain ⟨id, e⟩ := x
        simp only [lift]
        split
        · exact ticks_log hl
        · have a1 : Ticks [v.d.now 1, v.d.now 2] s (Blob.rename v.ord v.d.now s id dst).1 := by
            unfold Blob.rename withSnapshot
            have hl2 := updateSnapshot_log s
            cases hu : s.updateSnapshot with
            | mk s2 o =>
              rw [hu] at hl2
              cases o with
              | some e => exact ticks_log hl2
              | none =>
                simp only
                split
                · exact ticks_log hl2
                · exact ticks_log hl2
                · split
                  · exact ticks_log hl2
                  · exact ((ticks_put s2 _ _ _ _).trans (ticks_put _ _ _ _ _)).from hl2
          have a2 := a1.from hl
          split <;> rename_i h' <;> rw [h'] at a2 <;> exact a2

theorem ticks_deleteEntry (hv : EnvOk v u.store) (h : WellFormed u.store) (t : Int) (inp : Input) (nm : Str) :
    Ticks [t] u.store (deleteEntry v.ord t inp u nm).1.store := by
  unfold deleteEntry
  have hl := updateSnapshot_log u.store
  obtain ⟨-, hf, -, -⟩ := good_withSnapshot h.good (fun s => ((s, .panic) : Out Str))
  rcases findByName_spec hv.ord h.good nm with ⟨id, e, h1, h2, h3⟩ | ⟨h1, -⟩
  · rw [h1]
    simp only
    have hd : Ticks [t] u.store (u.store.updateSnapshot.1.delete t id) := (ticks_del _ t id).from hl
    split
    · exact ticks_log hl
    · split
      · obtain ⟨us, hu, -⟩ := users_spec hv.ord (wf_update h).good
        rw [update_fresh hf] at hu
        rw [hu]
        simp only
        repeat' split
        all_goals first | exact ticks_log hl | exact hd
      · repeat' split
        all_goals first | exact ticks_log hl | exact hd
  · rw [h1]
    exact ticks_log hl

theorem ticks_setRecord (now : Nat → Int) (s : DB) (w a b c : Str) :
    Ticks [now 0, now 1, now 2] s (setRecord now s w a b c) :=
  (ticks_put _ _ _ _ _).trans ((ticks_put _ _ _ _ _).trans (ticks_put _ _ _ _ _))

theorem ticks_storeUser {P : Prims} {d : Draw} {ord : Order} (hord : ∀ m, (ord m).Perm m) (h : WellFormed u.store)
    (user key salt : Str) : Ticks [d.now 0, d.now 1, d.now 2] u.store (storeUser P ord d u user key salt).1.store := by
  unfold storeUser
  have hl := updateSnapshot_log u.store
  by_cases hex : ∃ uuid, IsUser u.store uuid user
  · obtain ⟨uuid, hu⟩ := hex
    obtain ⟨e, h1⟩ := mustFindUser_spec hord h.good hu (fun w hw => h.unique _ _ _ hw hu) (h.uuids _ _ hu)
    rw [h1]
    simp only
    split
    · exact ticks_log hl
    · exact ticks_log hl
    · exact (ticks_setRecord _ _ _ _ _ _).from hl
  · rw [mustFindUser_none hord h.good (fun uuid hu => hex ⟨uuid, hu⟩)]
    exact ticks_log hl

theorem ticks_storeUser' {P : Prims} {d : Draw} {ord : Order} (hord : ∀ m, (ord m).Perm m) (h : WellFormed u.store)
    (u' : Session) (hu : u'.store = u.store) (user key salt : Str) :
    Ticks [d.now 0, d.now 1, d.now 2] u.store (storeUser P ord d u' user key salt).1.store := by
  rw [← hu] at h ⊢
  exact ticks_storeUser hord h user key salt

theorem ticks_passwd {P : Prims} {d : Draw} {ord : Order} (hord : ∀ m, (ord m).Perm m) (h : WellFormed u.store)
    (user : Str) : Ticks [d.now 0, d.now 1, d.now 2] u.store (passwd P ord d u user).1.store := by
  unfold passwd
  split
  · exact Ticks.refl _
  · exact Ticks.refl _
  · split
    · exact Ticks.refl _
    · simp only [deriveKey, ne_eq, not_true, if_false]
      split
      · split
        · exact Ticks.refl _
        · refine ticks_storeUser' hord h _ ?_ _ _ _
          rfl
      · split
        · exact Ticks.refl _
        · exact ticks_storeUser hord h _ _ _

theorem ticks_rekey {P : Prims} {d : Draw} {ord : Order} (hord : ∀ m, (ord m).Perm m) (h : WellFormed u.store)
    (user : Str) : Ticks [d.now 0, d.now 1, d.now 2] u.store (rekey P ord d u user).1.store := by
  unfold rekey
  dsimp only
  split
  · exact Ticks.refl _
  · exact Ticks.refl _
  · split
    · exact Ticks.refl _
    · simp only [deriveKey, ne_eq, not_true, if_false]
      by_cases hu : user = []
      · simp only [hu, if_true]
        split
        · exact Ticks.refl _
        · refine ticks_storeUser' hord h _ ?_ _ _ _
          rfl
      · simp only [hu, if_false]
        split
        · exact Ticks.refl _
        · exact ticks_storeUser hord h _ _ _

theorem ticks_finishUser {P : Prims} {d : Draw} (u : Session) (w key salt : Str) :
    Ticks [d.now 4, d.now 5, d.now 6] u.store (finishUser P d u w key salt).1.store := by
  unfold finishUser
  split
  · exact Ticks.refl _
  · exact Ticks.refl _
  · exact ticks_setRecord _ _ _ _ _ _

theorem ticks_adduser {P : Prims} (hv : EnvOk v u.store) (h : WellFormed u.store) (user : Str) (hu : ValidUtf8 user) :
    Ticks (dozen v.d.now) u.store (adduser P v.ord v.d u user).1.store := by
  unfold adduser newUser
  have hval : ValidUtf8 (userPrefix ++ user) := valid_append (valid_ascii _ (by decide)) hu
  have a1 := ticks_new v.ord u.store v.d.now v.d.uuid (userPrefix ++ user)
  have key : ∀ {a b : DB}, Ticks [v.d.now 0, v.d.now 2, v.d.now 3] u.store a → Ticks [v.d.now 4, v.d.now 5, v.d.now 6] a b →
      Ticks (dozen v.d.now) u.store b := fun x y => (x.trans y).mono (dozen_sub v.d.now [0, 2, 3, 4, 5, 6] (by decide))
  rcases wf_new hv.ord v.d.now h hv.fresh hv.uuid_ne hval with h1 | ⟨s', h1, -⟩
  · rw [h1]
    exact ticks_log (updateSnapshot_log _)
  · rw [h1] at a1 ⊢
    simp only
    split
    · exact key a1 (ticks_finishUser { u with store := s', creds := { u.creds with master := v.d.master, ivm := v.d.ivm, user := user } } _ _ _)
    · split
      · exact key a1 (Ticks.refl _)
      · exact key a1 (Ticks.refl _)
      · simp only [deriveKey, ne_eq, not_true, if_false]
        exact key a1 (ticks_finishUser { u with store := s' } _ _ _)

/-- the clock readings of `n` rounds of `rekeyall` -/
def roundTimes (ds : Nat → Draw) : Nat → List Int
  | 0 => []
  | n + 1 => [(ds 0).now 0, (ds 0).now 1, (ds 0).now 2] ++ roundTimes (fun i => ds (i + 1)) n

theorem ticks_rekeyLoop {P : Prims} (l : List (Str × Str)) (ds : Nat → Draw) (u : Session) (out : List (Str × Str)) :
    Ticks (roundTimes ds l.length) u.store (rekeyLoop P l ds u out).1.store := by
  induction l generalizing ds u out with
  | nil => exact Ticks.refl _
  | cons x l ih =>
    obtain ⟨uuid, nm⟩ := x
    unfold rekeyLoop
    dsimp only
    split
    · exact Ticks.refl _
    · exact Ticks.refl _
    · rename_i pass _
      simp only [deriveKey, ne_eq, not_true, if_false]
      have key : ∀ u' : Session, u'.store = u.store → ∀ (k salt : Str), Ticks (roundTimes ds (l.length + 1)) u.store
          (match encryptMasterKey P 1 k u'.creds.master (ds 0).iv with
          | .panic => ((u', .panic) : Session × Res AppErr (List (Str × Str)))
          | .err e => (u', .err (.crypt e))
          | .ok (mkey, iv) =>
            rekeyLoop P l (fun i => ds (i + 1))
              { u' with store := setRecord (ds 0).now u'.store uuid salt iv mkey } (out ++ [(splitUsername nm, pass)])).1.store := by
        intro u' hu' k salt
        rw [← hu']
        split
        · exact Ticks.refl _
        · exact Ticks.refl _
        · exact (ticks_setRecord _ _ _ _ _ _).trans (ih (fun i => ds (i + 1)) _ _)
      exact key _ (by split <;> rfl) _ _

theorem ticks_rekeyAll {P : Prims} : ∃ n, Ticks (roundTimes v.ds n) u.store (rekeyAll P v.ord v.ord' v.d v.ds u).1.store := by
  unfold rekeyAll
  split
  · exact ⟨0, Ticks.refl _⟩
  · split
    · exact ⟨0, Ticks.refl _⟩
    · exact ⟨0, Ticks.refl _⟩
    · have hl := users_log v.ord u.store
      cases hu : users v.ord u.store with
      | mk s o =>
        rw [hu] at hl
        cases o with
        | panic => exact ⟨0, ticks_log hl⟩
        | err e => exact ⟨0, ticks_log hl⟩
        | ok us =>
          simp only
          have h3 := ticks_rekeyLoop (P := P) (v.ord' us) v.ds { u with store := s } []
          refine ⟨(v.ord' us).length, ?_⟩
          split
          · rename_i h'
            rw [h'] at h3
            exact h3.from hl
          · exact h3.from hl

theorem ticks_login (q : Str) : Ticks [] u.store (login v u q).1.store := by
  unfold login
  refine ticks_one q _ _ ?_
  intro u' uuid _
  have hl := (sameStore_find u'.store uuid).1
  cases hu : find u'.store uuid with
  | mk s o =>
    rw [hu] at hl
    cases o with
    | panic => exact ticks_log hl
    | err e => exact ticks_log hl
    | ok e =>
      simp only [lift]
      split
      · exact ticks_log hl
      · split <;> exact ticks_log hl

end

/-! ## Lines -/

/-- the outcome of a line: either the twelve clock readings, or those of `rekeyall` -/
def TicksR (v : Env) (r : Repl) (x : Repl × Res AppErr Bool) : Prop :=
  x.2 ≠ .panic → Ticks (dozen v.d.now) r.u.store x.1.u.store ∨ ∃ n, Ticks (roundTimes v.ds n) r.u.store x.1.u.store

theorem ticksR_refl {v : Env} {r : Repl} (o : Res AppErr Bool) : TicksR v r (r, o) := fun _ => .inl (Ticks.refl _)

theorem ticksR_back {v : Env} {r : Repl} {x : Session × Res AppErr Unit} (h : x.2 ≠ .panic → Ticks (dozen v.d.now) r.u.store x.1.store) :
    TicksR v r (back r x) := by
  obtain ⟨u, o⟩ := x
  cases o with
  | ok a => exact fun _ => .inl (h (by simp))
  | err e => exact fun _ => .inl (h (by simp))
  | panic => exact fun k => absurd rfl k

theorem ticksR_ite {v : Env} {r : Repl} {c : Prop} [Decidable c] {a b : Repl × Res AppErr Bool} (ha : c → TicksR v r a)
    (hb : ¬ c → TicksR v r b) : TicksR v r (if c then a else b) := by
  by_cases h : c
  · rw [if_pos h]; exact ha h
  · rw [if_neg h]; exact hb h

theorem ticksR_write {P : Prims} {C : Codec} {v : Env} {r : Repl} (h0 : r.u.store.txPoint = 0)
    (hv : EnvOk v r.u.store) (h : WellFormed r.u.store) (cmd : Str) (args : List Str)
    (hargs : cmd ≠ b! "set" → ∀ a ∈ args, ValidUtf8 a) (hsync : cmd ≠ b! "sync") :
    TicksR v r (execWrite P C v cmd args r) := by
  have hr : ∀ b, TicksR v r (r, .ok b) := fun b => ticksR_refl _
  have d12 : ([1, 2].map v.d.now).Sublist (dozen v.d.now) := dozen_sub _ _ (by decide)
  have d012 : ([0, 1, 2].map v.d.now).Sublist (dozen v.d.now) := dozen_sub _ _ (by decide)
  have d0 : ([0].map v.d.now).Sublist (dozen v.d.now) := dozen_sub _ _ (by decide)
  unfold execWrite
  refine ticksR_ite (fun hc => ?_) (fun _ => ?_)
  · exact ticksR_back (fun _ => (ticks_passwd hv.ord h _).mono d012)
  refine ticksR_ite (fun hc => ?_) (fun _ => ?_)
  · have ha := hargs (by rw [hc]; decide)
    split
    · exact hr _
    · exact ticksR_back (fun _ => ticks_adduser hv h _ (ha _ (by simp)))
  refine ticksR_ite (fun hc => ?_) (fun _ => ?_)
  · exact ticksR_back (fun _ => (ticks_rekey hv.ord h _).mono d012)
  refine ticksR_ite (fun hc => ?_) (fun _ => ?_)
  · intro hn
    have := ticks_rekeyAll (v := v) (u := r.u) (P := P)
    cases hx : rekeyAll P v.ord v.ord' v.d v.ds r.u with
    | mk u o =>
      rw [hx] at this
      cases o <;> exact .inr this
  refine ticksR_ite (fun hc => ?_) (fun _ => ?_)
  · have ha := hargs (by rw [hc]; decide)
    split
    · exact hr _
    · exact ticksR_back (fun hp => ticks_addNew h0 hv h _ (ha _ (by simp)) (interruptible_panic hp))
  refine ticksR_ite (fun hc => ?_) (fun _ => ?_)
  · split
    · exact ticksR_back (fun _ => (ticks_renameCmd _ _).mono d12)
    · exact hr _
  refine ticksR_ite (fun hc => ?_) (fun _ => ?_)
  · split
    · exact hr _
    · rename_i nm _
      have h1 : TicksR v r (back r (deleteEntry v.ord (v.d.now 0) v.d.inp r.u nm)) :=
        ticksR_back (fun _ => (ticks_deleteEntry hv h _ _ _).mono d0)
      split
      · rename_i h'
        rw [h'] at h1
        have := h1 (by simp)
        split
        · exact fun _ => this
        · exact fun _ => this
      · exact h1
  refine ticksR_ite (fun hc => ?_) (fun _ => ?_)
  · split
    · exact hr _
    · exact ticksR_back (fun _ => (ticks_deleteKeyCmd _ _).mono d12)
  refine ticksR_ite (fun hc => ?_) (fun _ => ?_)
  · split
    · exact hr _
    · have key : ∀ q, TicksR v r (back_ r (login v r.u q)) := by
        intro q _
        have := ticks_login (v := v) (u := r.u) q
        cases hx : login v r.u q with
        | mk u o =>
          rw [hx] at this
          cases o <;> exact .inl (this.mono (List.nil_sublist _))
      exact key _
  refine ticksR_ite (fun hc => ?_) (fun _ => ?_)
  · split
    · exact hr _
    · exact ticksR_back (fun _ => (ticks_setCmd _ _ _).mono d12)
  refine ticksR_ite (fun hc => ?_) (fun _ => ?_)
  · split
    · exact hr _
    · exact ticksR_back (fun _ => (ticks_edit _ _).mono d12)
  refine ticksR_ite (fun hc => ?_) (fun _ => ?_)
  · split
    · exact hr _
    · exact ticksR_back (fun _ => (ticks_addLabels _).mono d12)
  refine ticksR_ite (fun hc => ?_) (fun _ => ?_)
  · split
    · exact hr _
    · exact ticksR_back (fun _ => (ticks_deleteLabel _ _).mono d012)
  refine ticksR_ite (fun hc => ?_) (fun _ => ?_)
  · exact absurd hc hsync
  refine ticksR_ite (fun hc => ?_) (fun _ => ?_)
  · split
    · exact hr _
    · exact ticksR_back (fun hp => ticks_addSync h0 hv h _ (interruptible_panic hp))
  · exact hr _

theorem ticksR_line {P : Prims} {C : Codec} {v : Env} {r : Repl} (h0 : r.u.store.txPoint = 0) (h : WellFormed r.u.store)
    (line : Str) (hl : LegalTurn v line r) : TicksR v r (runLine P C v line r) := by
  unfold runLine
  split
  · exact ticksR_refl _
  · rename_i cmd args hpl
    split
    · exact ticksR_refl _
    · exact fun _ => .inl (ticks_log (execRead_same v cmd args r).1.log)
    · split
      · exact ticksR_refl _
      · exact ticksR_write h0 hl.env h cmd args (parseLine_valid hl.utf8 hpl) (fun hcmd => hl.noSync args (by rw [hpl, hcmd]))

end Verif.App
