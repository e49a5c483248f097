import Verif.App.CrewSpec
import Verif.App.FleetCore
import Verif.App.LockoutLemmas
/-!
# Lemmas about several machines that share a file with users
-/
set_option linter.unusedSimpArgs false
namespace Verif.App
open Verif Verif.Txlogs Verif.Blob Verif.Crypt Verif.App.Spec
open Verif.Txlogs.Spec (GoodHistory)

/-- the operation that wrote what is there, after which nothing wrote it -/
theorem last_write {u k n : Str} : ∀ (l : List Tx) (st st' : Spec.State) (e' : Str → Option Str),
    Spec.meaning st l = some st' → st' u = some e' → e' k = some n →
    (∃ e, st u = some e ∧ e k = some n ∧ ∀ t ∈ l, t.kind = .setk ∨ t.kind = .delk → t.uuid = u → t.key ≠ k) ∨
    ∃ a x b, l = a ++ x :: b ∧ x.kind = .setk ∧ x.uuid = u ∧ x.key = k ∧ x.value = n ∧
      ∀ t ∈ b, t.kind = .setk ∨ t.kind = .delk → t.uuid = u → t.key ≠ k := by
  intro l
  induction l with
  | nil => intro st st' e' h h1 h2; cases h; exact .inl ⟨e', h1, h2, by simp⟩
  | cons x l ih =>
    intro st st' e' h h1 h2
    simp only [Spec.meaning] at h
    cases ha : Spec.apply st x with
    | none => rw [ha] at h; cases h
    | some st1 =>
      rw [ha] at h
      rcases ih st1 st' e' h h1 h2 with ⟨e, he, hn, hl⟩ | ⟨a, y, b, rfl, r⟩
      · by_cases hx : x.uuid = u
        · unfold Spec.apply at ha
          cases hk : x.kind <;> cases hs : st x.uuid <;> rw [hk, hs] at ha <;>
            simp only [Option.some.injEq, reduceCtorEq] at ha <;> subst ha
          · rw [← hx] at he
            simp only [Spec.upd, if_true, Option.some.injEq] at he
            subst he; cases hn
          · rw [← hx] at he
            simp only [Spec.upd, if_true, reduceCtorEq] at he
          · rename_i e0
            rw [← hx] at he
            simp only [Spec.upd, if_true, Option.some.injEq] at he
            subst he
            by_cases hkk : x.key = k
            · right
              refine ⟨[], x, l, rfl, hk, hx, hkk, ?_, hl⟩
              simp only [Spec.upd, hkk, if_true, Option.some.injEq] at hn
              exact hn
            · left
              refine ⟨e0, by rw [← hx, hs], ?_, ?_⟩
              · unfold Spec.upd at hn; rw [if_neg (fun h : k = x.key => hkk h.symm)] at hn; exact hn
              · intro t ht
                rcases List.mem_cons.1 ht with rfl | ht
                · intro _ _; exact hkk
                · exact hl t ht
          · rename_i e0
            rw [← hx] at he
            simp only [Spec.upd, if_true, Option.some.injEq] at he
            subst he
            by_cases hkk : x.key = k
            · simp [Spec.upd, hkk] at hn
            · left
              refine ⟨e0, by rw [← hx, hs], ?_, ?_⟩
              · unfold Spec.upd at hn; rw [if_neg (fun h : k = x.key => hkk h.symm)] at hn; exact hn
              · intro t ht
                rcases List.mem_cons.1 ht with rfl | ht
                · intro _ _; exact hkk
                · exact hl t ht
          all_goals
            left
            refine ⟨e, he, hn, ?_⟩
            intro t ht
            rcases List.mem_cons.1 ht with rfl | ht
            · intro h'; rw [hk] at h'; simp at h'
            · exact hl t ht
        · left
          refine ⟨e, by rw [← apply_other hx ha]; exact he, hn, ?_⟩
          intro t ht
          rcases List.mem_cons.1 ht with rfl | ht
          · intro _ h'; exact absurd h' hx
          · exact hl t ht
      · exact .inr ⟨x :: a, y, b, rfl, r⟩

/-- an entry that is not deleted stays -/
theorem present_stays {u : Str} : ∀ (l : List Tx) (st st' : Spec.State), Spec.meaning st l = some st' → (st u).isSome = true →
    (∀ t ∈ l, t.kind = .del → t.uuid ≠ u) → (st' u).isSome = true := by
  intro l
  induction l with
  | nil => intro st st' h h1 _; cases h; exact h1
  | cons x l ih =>
    intro st st' h h1 hd
    simp only [Spec.meaning] at h
    cases ha : Spec.apply st x with
    | none => rw [ha] at h; cases h
    | some st1 =>
      rw [ha] at h
      refine ih st1 st' h ?_ (fun t ht => hd t (by simp [ht]))
      by_cases hx : x.uuid = u
      · have hd' := hd x (by simp)
        obtain ⟨e, he⟩ := Option.isSome_iff_exists.1 h1
        unfold Spec.apply at ha
        rw [hx, he] at ha
        cases hk : x.kind <;> rw [hk] at ha <;> simp only [Option.some.injEq, reduceCtorEq] at ha <;> subst ha
        · exact absurd hx (hd' hk)
        · simp [Spec.upd]
        · simp [Spec.upd]
        · rw [he]; rfl
      · rw [apply_other hx ha]; exact h1

/-- an entry is there if it was added and not deleted -/
theorem visible_iff {l : List Tx} (h : GoodHistory l) {st : Spec.State} (hm : Spec.meaning Spec.empty l = some st) (u : Str) :
    (st u).isSome = true ↔ (∃ x ∈ l, x.kind = .add ∧ x.uuid = u) ∧ ∀ t ∈ l, t.kind = .del → t.uuid ≠ u := by
  constructor
  · intro hs
    refine ⟨(visible_added l _ st hm hs).resolve_left (by simp [Spec.empty]), fun t ht hk hu => ?_⟩
    obtain ⟨a, b, rfl⟩ := List.append_of_mem ht
    rw [meaning_append] at hm
    cases hma : Spec.meaning Spec.empty a with
    | none => rw [hma] at hm; cases hm
    | some st1 =>
      rw [hma] at hm
      simp only [Option.bind_some, Spec.meaning] at hm
      cases hap : Spec.apply st1 t with
      | none => rw [hap] at hm; cases hm
      | some st2 =>
        rw [hap] at hm
        unfold Spec.apply at hap
        rw [hk, hu] at hap
        cases hst : st1 u with
        | none => rw [hst] at hap; cases hap
        | some e1 =>
          rw [hst] at hap
          simp only [Option.some.injEq] at hap
          have := absent_stays b st2 st hm (by rw [← hap]; exact if_pos rfl) (by
            intro t' ht' htk htu
            rcases visible_added a _ st1 hma (by rw [hst]; rfl) with h1 | ⟨z, hz, hzk, hzu⟩
            · cases h1
            · have := h.addsOnce z (by simp [hz]) t' (by simp [ht']) hzk htk (hzu.trans htu.symm)
              subst this
              exact chrono_nodup (a := a) (b := t :: b) h.chrono hz (by simp [ht']))
          rw [this] at hs; cases hs
  · rintro ⟨⟨x, hx, hk, hu⟩, hd⟩
    obtain ⟨a, b, rfl⟩ := List.append_of_mem hx
    rw [meaning_append] at hm
    cases hma : Spec.meaning Spec.empty a with
    | none => rw [hma] at hm; cases hm
    | some st1 =>
      rw [hma] at hm
      simp only [Option.bind_some, Spec.meaning] at hm
      cases hap : Spec.apply st1 x with
      | none => rw [hap] at hm; cases hm
      | some st2 =>
        rw [hap] at hm
        refine present_stays b st2 st hm ?_ (fun t ht => hd t (by simp [ht]))
        unfold Spec.apply at hap
        rw [hk, hu] at hap
        cases hst : st1 u with
        | some e1 => rw [hst] at hap; cases hap
        | none =>
          rw [hst] at hap
          simp only [Option.some.injEq] at hap
          rw [← hap]; simp [Spec.upd]

/-- the log holds the accounts of `base`, and nothing else is about accounts -/
def Leaves (base l : List Tx) : Prop := (∀ t ∈ base, t ∈ l) ∧ ∀ t ∈ l, t ∈ base ∨ LeavesAccounts base t

theorem leaves_refl (base : List Tx) : Leaves base base := ⟨fun _ h => h, fun _ h => .inl h⟩

theorem leaves_union {base a b c : List Tx} (ha : Leaves base a) (hb : Leaves base b) (h : ∀ t, t ∈ c ↔ t ∈ a ∨ t ∈ b) : Leaves base c :=
  ⟨fun t k => (h t).2 (.inl (ha.1 t k)), fun t k => ((h t).1 k).elim (ha.2 t) (hb.2 t)⟩

theorem leaves_users {base l : List Tx} (h : Leaves base l) {t : Tx} (ht : t ∈ l) (hk : t.kind = .setk) (hn : t.key = keyName)
    (hv : hasPrefix t.value userPrefix = true) : t ∈ base := by
  rcases h.2 t ht with k | k
  · exact k
  · rw [k.name hk hn] at hv; cases hv

theorem leaves_userUuid {base l : List Tx} (h : Leaves base l) {uuid : Str} (hu : UserUuid l uuid) : UserUuid base uuid := by
  obtain ⟨t, ht, h1, h2, h3, h4⟩ := hu
  exact ⟨t, leaves_users h ht h1 h3 h4, h1, h2, h3, h4⟩

theorem leaves_ring {P : Prims} {M : Str} {base l : List Tx} {rs : List Rec} (hr : Keyring P M base rs) (h : Leaves base l) :
    Keyring P M l rs := by
  refine ⟨hr.unlocks, fun r k t ht => h.1 t (hr.written r k t ht), ?_, hr.apart, fun uuid hu => hr.each uuid (leaves_userUuid h hu), ?_⟩
  · intro t ht hk hkey
    rcases h.2 t ht with k | k
    · exact hr.only t k hk hkey
    · exact absurd hkey (k.record hk)
  · intro t ht hk hn hv
    have hp : hasPrefix t.value userPrefix = true := by rw [hv]; decide
    exact hr.names t (leaves_users h ht hk hn hp) hk hn hv

theorem leaves_roomy {P : Prims} {base l : List Tx} (hr : Roomy P base) (h : Leaves base l) : Roomy P l := by
  refine ⟨fun us hnd hus => hr.few us hnd fun uuid k => leaves_userUuid h (hus uuid k), ?_⟩
  intro t ht t' ht' n n' a b c d e f
  have p1 : hasPrefix t.value userPrefix = true := by rw [e]; exact user_prefix _
  have p2 : hasPrefix t'.value userPrefix = true := by rw [f]; exact user_prefix _
  exact hr.hash t (leaves_users h ht a c p1) t' (leaves_users h ht' b d p2) n n' a b c d e f

theorem leaves_user {base : List Tx} (hb : GoodHistory base) {s : DB} (hs : GoodHistory s.log) (h : Leaves base s.log) {uuid user : Str}
    (hu : IsUser { log := base } uuid user) : IsUser s uuid user := by
  have huu := isUser_userUuid hu
  obtain ⟨e, ⟨st, hm, he⟩, hn⟩ := hu
  simp only at hm huu
  have hvis := (visible_iff hb hm uuid).1 (by rw [he]; rfl)
  obtain ⟨st', hm'⟩ : ∃ st', Spec.meaning Spec.empty s.log = some st' := Option.isSome_iff_exists.1 hs.replays
  have hdel : ∀ t ∈ s.log, t.kind = .del → t.uuid ≠ uuid := by
    intro t ht hk hx
    rcases h.2 t ht with k | k
    · exact hvis.2 t k hk hx
    · exact (k.entry (by rw [hx]; exact huu)).1 hk
  obtain ⟨x, hx, hxk⟩ := hvis.1
  obtain ⟨e', he'⟩ := Option.isSome_iff_exists.1 ((visible_iff hs hm' uuid).2 ⟨⟨x, h.1 x hx, hxk⟩, hdel⟩)
  rcases last_write base _ st e hm he hn with ⟨_, h4, -⟩ | ⟨a, y, b, rfl, h1, h2, h3, h4, h5⟩
  · cases h4
  · refine ⟨e', ⟨st', hm', he'⟩, ?_⟩
    rw [last_written hs hm' he' (h.1 y (by simp)) h1 h2 h3 ?_, h4]
    intro t' ht' hk hu' hkey
    rcases h.2 t' ht' with k | k
    · rcases List.mem_append.1 k with k | k
      · right
        exact (List.pairwise_append.1 hb.chrono).2.2 t' k y (by simp)
      · rcases List.mem_cons.1 k with k | k
        · exact .inl k
        · exact absurd hkey (h5 t' k hk hu')
    · exact absurd hkey ((k.entry (by rw [hu']; exact huu)).2 hk)

/-- what a file with users decrypts to -/
theorem crew_opens {P : Prims} (hP : Crypt.Spec.Lawful P) {C : Codec} {M : Str} {base R : List Tx} {rs : List Rec} {f : Str} {c : Creds}
    (hb : GoodHistory base) (hr : Keyring P M base rs) (hroom : Roomy P base) (hc : CredsOf P M base rs c) (hl : Leaves base R)
    (h : SavedWith P C M f R) : ∃ q pt key salt,
      decrypt P c.user c.pass (orNil c.key) c.salt f = .ok (1, q, pt) ∧ pt ≠ [] ∧ C.loadLog pt = .ok R ∧
      userSlot q.keys q.user = some key ∧ userSlot q.salts q.user = some salt ∧ q.master.getD [] = c.master ∧
      (c.master = [] → key = c.key) := by
  obtain ⟨ord, ord', iv, c', s, hord, hord', hmc, hM, hs, rfl, hC, h⟩ := h
  have hg := hs.own.good
  have hring := leaves_ring hr hl
  obtain ⟨r, hnew, hu, hpass, hsalt, hkey⟩ := hc.user
  have hus := leaves_user hb hg hl hu
  have hw := keyring_wf hs.wf hg hring (leaves_roomy hroom hl) ⟨_, _, hus⟩
  obtain ⟨p, n, hmk, hwf, hn, hivm, hmas, hacc⟩ := makeParams_multi P hP hord hord' hs.wf.good hmc hw
  obtain ⟨ct, ls, -, -, he, -⟩ := encrypt_multi P hP p n hwf iv (C.marshal s) _ _ hivm hmas
  generalize hf : multiHeader n p.users p.salts p.ivs p.mkeys c'.ivm ++ ct = f' at he
  have h0 : p.nUsers ≠ 0 := by have := hwf.nUsers; have := hwf.pos; omega
  have hff : f' = f := by
    simp only [saveBlob, sealFile, DB.save, hs.tx, hmk, he, Bool.false_eq_true, if_false, ne_eq, not_true, bne_self_eq_false,
      Res.ok.injEq, Option.some.injEq] at h
    exact h
  subst hff
  obtain ⟨r', hnew', hru, ho⟩ := keyring_opens hg hring hus
  have := newest_eq hring.unlocks hnew' hnew hru
  subst this
  rw [← hM] at ho
  obtain ⟨i, uiv, mk, a1, a2, a3, a4, a5, a6⟩ := hacc c.user r'.salt _ ho.2
  have hk0 : c.key ≠ [] := by
    intro k
    have := hc.creds.key
    rw [k] at this
    simp at this
  have hd := C43_multi_roundtrip_partial P hP p iv (C.marshal s) f' _ _ h0 (by rw [hwf.nUsers]; omega) hivm hmas he
    i c.user c.pass (orNil c.key) c.salt ho.2.1 r'.salt uiv mk (P.kdf r'.pass r'.salt) a1 a2 a3 a4 a5
    (.inr ⟨by rw [← hkey]; simp [orNil, hk0], hsalt⟩) a6
  have hil : i < n := by
    have := (List.getElem?_eq_some_iff.1 a1).1
    rwa [hwf.users.us_length] at this
  refine ⟨_, C.marshal s, P.kdf r'.pass r'.salt, r'.salt, hd, hC.nonempty, hC.loadLog, ?_, ?_, ?_, ?_⟩
  · have : i < p.nUsers.toNat := by rw [hwf.nUsers]; simpa using hil
    simp [userSlot, this]
  · simp [userSlot, a3]
  · simp [hmas, hM, hc.master]
  · intro k
    have := hc.creds.master
    rw [k] at this
    simp at this

/-- ... and how it is made -/
theorem crew_seals {P : Prims} (hP : Crypt.Spec.Lawful P) {C : Codec} {M : Str} {base : List Tx} {rs : List Rec} {c : Creds}
    (hb : GoodHistory base) (hr : Keyring P M base rs) (hroom : Roomy P base) (hc : CredsOf P M base rs c) {s : DB} {v : SyncEnv}
    (hs : Sound s) (hl : Leaves base s.log) (hv : (∀ m, (v.ord m).Perm m) ∧ ∀ m, (v.ord' m).Perm m) (hC : Faithful C s)
    (hu : s.updateSnapshot = (s, none)) :
    ∃ ct, sealFile P C v.ord v.ord' v.iv c s = (s, .ok ct) ∧ SavedWith P C M ct s.log := by
  have hg := hs.own.good
  have hring := leaves_ring hr hl
  obtain ⟨r, hnew, hi, hpass, hsalt, hkey⟩ := hc.user
  have hus := leaves_user hb hg hl hi
  have hw := keyring_wf hs.wf hg hring (leaves_roomy hroom hl) ⟨_, _, hus⟩
  obtain ⟨p, n, hmk, hwf, hn, hivm, hmas, hacc⟩ := makeParams_multi P hP hv.1 hv.2 hs.wf.good hc.creds hw
  obtain ⟨ct, ls, -, -, he, -⟩ := encrypt_multi P hP p n hwf v.iv (C.marshal s) _ _ hivm hmas
  generalize hf : multiHeader n p.users p.salts p.ivs p.mkeys c.ivm ++ ct = f at he
  have hst := sealFile_store P C v.ord v.ord' v.iv c hu
  have h2 : (sealFile P C v.ord v.ord' v.iv c s).2 = .ok f := by
    simp only [sealFile, DB.save, hs.tx, hmk, he, ne_eq, not_true, bne_self_eq_false, if_false, Bool.false_eq_true]
  have hseal : sealFile P C v.ord v.ord' v.iv c s = (s, .ok f) := Prod.ext hst h2
  refine ⟨f, hseal, v.ord, v.ord', v.iv, c, s, hv.1, hv.2, hc.creds, hc.master, hs, rfl, hC, ?_⟩
  simp only [saveBlob, hseal, Bool.false_eq_true, if_false]

/-- every machine has the password of a user -/
def crewScheme {P : Prims} (hP : Crypt.Spec.Lawful P) (C : Codec) {M : Str} {base : List Tx} {rs : List Rec} {cs : Nat → Creds}
    (hb : GoodHistory base) (hr : Keyring P M base rs) (hroom : Roomy P base) (hc : ∀ i, CredsOf P M base rs (cs i)) : Scheme P C where
  creds := cs
  log := Leaves base
  env v := (∀ m, (v.ord m).Perm m) ∧ ∀ m, (v.ord' m).Perm m
  saved := SavedWith P C M
  union := leaves_union
  opens i _ hl h := crew_opens hP hb hr hroom (hc i) hl h
  seals i hs hl hv _ hC hu := crew_seals hP hb hr hroom (hc i) hs hl hv hC hu

theorem crew_run {P : Prims} (hP : Crypt.Spec.Lawful P) {C : Codec} {M : Str} {base : List Tx} {rs : List Rec} {cs : Nat → Creds}
    (hb : GoodHistory base) (hr : Keyring P M base rs) (hroom : Roomy P base) (hc : ∀ i, CredsOf P M base rs (cs i)) :
    ∀ (es : List Event) (F : Fleet), CrewRunOk P C base es F → (crewScheme hP C hb hr hroom hc).run es F := by
  intro es
  induction es with
  | nil => intro F _; trivial
  | cons e es ih =>
    intro F h
    refine ⟨?_, ih _ h.2⟩
    cases e with
    | work i turns =>
      intro hl hp
      exact ⟨fun t ht => hp.subset (hl.1 t ht), fun t ht => (h.1 t ht).elim (hl.2 t) .inr⟩
    | sync i v inp => exact h.1

theorem CrewCopies.good {P : Prims} {C : Codec} {M : Str} {rs : List Rec} {F : Fleet} {base : List Tx} (h : CrewCopies P C M rs F base) :
    GoodHistory base := by rw [← h.logs 0]; exact (h.sound 0).own.good

theorem CrewCopies.inv {P : Prims} (hP : Crypt.Spec.Lawful P) {C : Codec} {M : Str} {rs : List Rec} {F : Fleet} {base : List Tx}
    (h : CrewCopies P C M rs F base) : Inv (crewScheme hP C (CrewCopies.good h) h.ring h.roomy h.creds) F base := by
  refine Scheme.start (fun _ => rfl) h.sound h.logs ?_ h.names (leaves_refl _) h.share
  obtain ⟨r, -, hu, -⟩ := (h.creds 0).user
  obtain ⟨x, hx, -⟩ := isUser_uuid hu
  exact List.ne_nil_of_mem hx

end Verif.App
