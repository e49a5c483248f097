import Verif.App.CrashSpec
import Verif.App.FleetLemmas
import Verif.App.SyncTextLemmas
import Verif.App.OwnSyncLemmas
/-!
# Lemmas for C97
-/
namespace Verif.App
open Verif Verif.Txlogs Verif.Blob Verif.Crypt Verif.App.Spec
open Verif.Txlogs.Spec (GoodHistory SameFile)

/-! ## Values in the store come from the log -/

theorem state_values (k : Str) (Q : Str → Prop) {log : List Tx} {st0 st : Txlogs.Spec.State}
    (h0 : ∀ w e x, st0 w = some e → e k = some x → Q x) (h : ∀ t ∈ log, t.kind = .setk → t.key = k → Q t.value)
    (hm : Txlogs.Spec.meaning st0 log = some st) : ∀ w e x, st w = some e → e k = some x → Q x := by
  induction log generalizing st0 with
  | nil => cases hm; exact h0
  | cons tx log ih =>
    simp only [Txlogs.Spec.meaning] at hm
    cases h1 : Txlogs.Spec.apply st0 tx with
    | none => rw [h1] at hm; cases hm
    | some st1 =>
      rw [h1] at hm
      refine ih ?_ (fun t ht => h t (by simp [ht])) hm
      have htx := h tx (by simp)
      intro w e x hw hx
      cases hk : tx.kind with
      | add =>
        simp only [Txlogs.Spec.apply, hk] at h1
        cases hu : st0 tx.uuid with
        | some e0 => rw [hu] at h1; cases h1
        | none =>
          rw [hu] at h1
          cases h1
          simp only [Txlogs.Spec.upd] at hw
          split at hw
          · cases hw; cases hx
          · exact h0 w e x hw hx
      | del =>
        simp only [Txlogs.Spec.apply, hk] at h1
        cases hu : st0 tx.uuid with
        | none => rw [hu] at h1; cases h1
        | some e0 =>
          rw [hu] at h1
          cases h1
          simp only [Txlogs.Spec.upd] at hw
          split at hw
          · cases hw
          · exact h0 w e x hw hx
      | setk =>
        simp only [Txlogs.Spec.apply, hk] at h1
        cases hu : st0 tx.uuid with
        | none => rw [hu] at h1; cases h1
        | some e0 =>
          rw [hu] at h1
          cases h1
          simp only [Txlogs.Spec.upd] at hw
          split at hw
          · cases hw
            simp only [Txlogs.Spec.upd] at hx
            split at hx
            · rename_i hkk
              cases hx
              exact htx hk hkk.symm
            · exact h0 _ e0 x hu hx
          · exact h0 w e x hw hx
      | delk =>
        simp only [Txlogs.Spec.apply, hk] at h1
        cases hu : st0 tx.uuid with
        | none => rw [hu] at h1; cases h1
        | some e0 =>
          rw [hu] at h1
          cases h1
          simp only [Txlogs.Spec.upd] at hw
          split at hw
          · cases hw
            simp only [Txlogs.Spec.upd] at hx
            split at hx
            · cases hx
            · exact h0 _ e0 x hu hx
          · exact h0 w e x hw hx
      | other k =>
        simp [Txlogs.Spec.apply, hk] at h1
        subst h1
        exact h0 w e x hw hx

/-- a store in order with a calm log -/
structure CalmStore (url hosts : Str → Prop) (s : DB) : Prop where
  ok : Ok s
  log : CalmLog url hosts s.log

theorem CalmStore.entry {w : World} {url hosts : Str → Prop} (hg : Gentle w url hosts) {s : DB} (h : CalmStore url hosts s) (uuid : Str) :
    url (val ((s.snapshot.get? uuid).getD []) keyURL) ∧ hosts (val ((s.snapshot.get? uuid).getD []) keyKnownHosts) := by
  have key : ∀ (k : Str) (Q : Str → Prop), Q [] → (∀ t ∈ s.log, t.kind = .setk → t.key = k → Q t.value) →
      Q (val ((s.snapshot.get? uuid).getD []) k) := by
    intro k Q hq hl
    cases hw : s.snapshot.get? uuid with
    | none => exact hq
    | some en =>
      simp only [Option.getD_some, val]
      cases hx : en.get? k with
      | none => exact hq
      | some x =>
        exact state_values k Q (by intro w e x h0; cases h0) (fun t ht => hl t (List.mem_of_mem_take ht)) h.ok.coh.2 uuid
          (fun k => en.get? k) x (by simp [Txlogs.Spec.view, hw]) hx
  exact ⟨key keyURL url hg.url_nil fun t ht hk he => (h.log t ht hk).1 he,
    key keyKnownHosts hosts hg.hosts_nil fun t ht hk he => (h.log t ht hk).2 he⟩

theorem CalmStore.update {url hosts : Str → Prop} {s : DB} (h : CalmStore url hosts s) : CalmStore url hosts s.updateSnapshot.1 :=
  ⟨ok_update h.ok, by rw [updateSnapshot_log]; exact h.log⟩

/-- lines that may be added to a list of known hosts -/
def Addable (hosts : Str → Prop) (h : Str) : Prop := ∀ k, hosts k → hosts (appendHost k h)

theorem calm_saveHostsLoop {w : World} {url hosts : Str → Prop} (hg : Gentle w url hosts) : ∀ (hs : List (Str × Str)) (now : Nat → Int) (s : DB),
    CalmStore url hosts s → (∀ p ∈ hs, Addable hosts p.2) → CalmStore url hosts (saveHostsLoop now s hs) := by
  intro hs
  induction hs with
  | nil => intro now s h _; exact h
  | cons p hs ih =>
    intro now s h hp
    obtain ⟨x, y⟩ := p
    simp only [saveHostsLoop]
    refine ih _ _ ?_ fun q hq => hp q (by simp [hq])
    refine ⟨ok_append (txs := [⟨now 0, .setk, x, keyKnownHosts, _⟩]) h.ok rfl rfl rfl, fun t ht hk => ?_⟩
    rcases List.mem_append.1 ht with ht | ht
    · exact h.log t ht hk
    · rw [List.mem_singleton.1 ht]
      exact ⟨fun e => absurd e (by decide : keyKnownHosts ≠ keyURL), fun _ => hp (x, y) (by simp) _ (h.entry hg x).2⟩

theorem calm_saveHosts {w : World} {url hosts : Str → Prop} (hg : Gentle w url hosts) {hs : List (Str × Str)} {now : Nat → Int} {s : DB}
    (h : CalmStore url hosts s) (hp : ∀ p ∈ hs, Addable hosts p.2) : CalmStore url hosts (saveHosts now s hs).1 :=
  (calm_saveHostsLoop hg hs now s h hp).update

theorem newHosts_addable {hosts : Str → Prop} : ∀ (l : List (Str × Fate × Str)) (m : Results), (∀ p ∈ m, Addable hosts p.2) →
    (∀ p ∈ l, p.2.2 ≠ [] → Addable hosts p.2.2) → ∀ p ∈ newHosts l m, Addable hosts p.2 := by
  intro l
  induction l with
  | nil => intro m hm _; exact hm
  | cons p l ih =>
    obtain ⟨x, f, h⟩ := p
    intro m hm hl
    simp only [newHosts]
    refine ih _ ?_ fun q hq => hl q (by simp [hq])
    split
    · exact hm
    · rename_i hne
      intro q hq
      rcases Json.mem_set hq with rfl | hq
      · exact hl (x, f, h) (by simp) hne
      · exact hm q hq

/-! ## Sending -/

theorem pushAll_calm {w : World} {url hosts : Str → Prop} (hg : Gentle w url hosts) {s : DB} (hs : CalmStore url hosts s) (ct : Str) :
    ∀ (ts : List Str) (m : Results) (inp : Input), (pushAll w s ct ts m inp).2.1 = false := by
  intro ts
  induction ts with
  | nil => intro m inp; rfl
  | cons x ts ih =>
    intro m inp
    obtain ⟨h1, h2⟩ := hs.entry hg x
    obtain ⟨ok, h, rest, e, -⟩ := hg.push x _ ct inp h1 h2
    simp only [pushAll, e]
    exact ih _ _

theorem sealFile_single {P : Prims} (hP : Crypt.Spec.Lawful P) (C : Codec) (ord : Order) (ord' : Results → Results) {iv : Str} {c : Creds}
    (s : DB) (hc : SingleCreds c) (hiv : iv.length = 40) : (sealFile P C ord ord' iv c s).2 ≠ .panic := by
  have hv : ({ keys := [c.key], salts := [c.salt] } : Params).validate = true := by
    have h1 : keySize = 80 := by decide
    simp [Params.validate, hc.key, hc.salt, h1, saltSize]
  obtain ⟨ct, ls, -, -, he, -⟩ := encrypt_single P hP { keys := [c.key], salts := [c.salt] } iv (C.marshal s) c.key c.salt hv rfl rfl rfl
    hc.key hiv
  unfold sealFile
  split
  · simp
  · simp only [makeParams, hc.master, if_true, he]
    simp

theorem paramLoop_calm (P : Prims) (c : Creds) : ∀ (l : List (Str × Str)) (s : DB) (p : Params), Good s →
    (∀ q ∈ l, Blob.Spec.Named s q.1 q.2) → (paramLoop P c l s p).2 ≠ .panic := by
  intro l
  induction l with
  | nil => intro s p _ _; simp [paramLoop]
  | cons q l ih =>
    intro s p hg hl
    obtain ⟨uuid, nm⟩ := q
    obtain ⟨e, hv, -⟩ := hl (uuid, nm) (by simp)
    obtain ⟨en, a, -, b, -⟩ := mustFind_visible hg.ok uuid e hv
    simp only [paramLoop]
    split
    · simp
    · rw [a]
      simp only
      have ih := fun p => ih s.updateSnapshot.1 p (good_update hg) fun q hq => (named_log b _ _).2 (hl q (by simp [hq]))
      repeat' split
      all_goals first
        | exact ih _
        | simp

theorem sealFile_calm {P : Prims} (hP : Crypt.Spec.Lawful P) (C : Codec) {ord : Order} {ord' : Results → Results} {iv : Str} {c : Creds}
    {s : DB} (hc : SomeCreds c) (hiv : iv.length = 40) (hord : ∀ m, (ord m).Perm m) (hord' : ∀ m, (ord' m).Perm m) (hg : Good s) :
    (sealFile P C ord ord' iv c s).2 ≠ .panic := by
  rcases hc.master with hm | ⟨hm, hi⟩
  · exact sealFile_single hP C ord ord' s ⟨hm, hc.key, hc.salt⟩ hiv
  · have hm : c.master ≠ [] := by rintro h; rw [h] at hm; cases hm
    have hi : c.ivm ≠ [] := by rintro h; rw [h] at hi; cases hi
    obtain ⟨us, h1, -, hlog, hnd, hus⟩ := users_spec hord hg
    have hp := paramLoop_calm P c (ord' us) s.updateSnapshot.1 {} (good_update hg) fun q hq =>
      (named_log hlog _ _).2 ((hus q.1 q.2).1 (GoMap.get?_of_mem hnd ((hord' us).mem_iff.1 hq))).1
    unfold sealFile
    split
    · simp
    · simp only [makeParams, hm, if_false, h1]
      cases hx : paramLoop P c (ord' us) s.updateSnapshot.1 {} with
      | mk s' o =>
        rw [hx] at hp
        cases o with
        | panic => exact absurd rfl hp
        | err e => simp
        | ok p =>
          simp only
          have := C49_no_panic_partial P hP 1 { p with ivm := orNil c.ivm, master := orNil c.master } iv (C.marshal s) hiv
            (.inr (by simp [orNil, hm, hi]))
          split
          · rename_i h; exact absurd h this
          · simp
          · simp

theorem pushBack_creds {P : Prims} {C : Codec} {w : World} {v : SyncEnv} {push : Bool} {hs : Results} {ts : List Str} {u : Session}
    {inp : Input} : (pushBack P C w v push hs ts u inp).session.creds = u.creds := by
  unfold pushBack
  repeat' split
  all_goals rfl

theorem pushBack_calm {P : Prims} (hP : Crypt.Spec.Lawful P) {C : Codec} {w : World} {url hosts : Str → Prop} (hg : Gentle w url hosts)
    {v : SyncEnv} (hiv : v.iv.length = 40) (hord : ∀ m, (v.ordH m).Perm m) (ho : ∀ m, (v.ord m).Perm m) (ho' : ∀ m, (v.ord' m).Perm m)
    {push : Bool} {hs : Results} {ts : List Str} {u : Session} {inp : Input} (hc : SomeCreds u.creds) (h : CalmStore url hosts u.store)
    (hown : OwnHistory u.store.log) (htick : ∀ i j, i < j → v.now i < v.now j) (hlate : ∀ t ∈ u.store.log, t.time < v.now 0)
    (hh : ∀ p ∈ hs, Addable hosts p.2) : (pushBack P C w v push hs ts u inp).result ≠ .panic := by
  have h1 := calm_saveHosts hg (now := v.now) h (hs := v.ordH hs) (fun p hp => hh p ((hord _).mem_iff.1 hp))
  simp only [pushBack]
  cases hx : saveHosts v.now u.store (v.ordH hs) with
  | mk s e =>
    rw [hx] at h1
    cases e with
    | some e => simp
    | none =>
      simp only
      by_cases hp : push = false
      · rw [if_pos hp]; simp
      · rw [if_neg hp]
        have hst := sealFile_store P C v.ord v.ord' v.iv u.creds (s := s) (update_again hx)
        have hsv := own_saveHosts h.ok hown htick hlate hx
        have hnp := sealFile_calm hP C (s := s) hc hiv ho ho' (own_wf hsv.1 hsv.2.2.1).1
        cases hf : sealFile P C v.ord v.ord' v.iv u.creds s with
        | mk s2 r =>
          rw [hf] at hst hnp
          simp only at hst
          subst hst
          cases r with
          | panic => exact absurd rfl hnp
          | err e => simp
          | ok ct =>
            simp only
            have h2 := pushAll_calm hg h1 ct ts [] inp
            cases ha : pushAll w s2 ct ts [] inp with
            | mk done x =>
              obtain ⟨crash, hosts', i3⟩ := x
              rw [ha] at h2
              simp only at h2
              subst h2
              simp only
              cases hs' : saveHosts v.now' s2 (v.ordH hosts') with
              | mk s3 e => cases e <;> simp

/-! ## Fetching -/

/-- what a file opens to -/
def OpensTo (C : Codec) (log : List Tx) (p : Params) (pt : Str) : Prop :=
  pt ≠ [] ∧ C.loadLog pt = .ok log ∧ ∃ key salt, userSlot p.keys p.user = some key ∧ userSlot p.salts p.user = some salt ∧
    ∀ user pass, SomeCreds { user := user, pass := pass, key := key, salt := salt, master := p.master.getD [], ivm := p.ivm.getD [] }

theorem saved_opens {P : Prims} (hP : Crypt.Spec.Lawful P) {C : Codec} {c' : Creds} {f : Str} {log : List Tx} (hc' : SingleCreds c')
    (h : SavedAs P C c' f log) {pass : Str} {ck : Option Str} {cs : Str} (hcr : Crypt.Spec.Credentials P pass ck cs c'.salt c'.key)
    (user : Str) : ∃ p pt, decrypt P user pass ck cs f = .ok (1, p, pt) ∧ OpensTo C log p pt := by
  obtain ⟨ord, ord', iv, s, hiv, htx, rfl, hC, h⟩ := h
  simp only [saveBlob, sealFile, DB.save, htx, makeParams, hc'.master, Bool.false_eq_true, if_false, if_true, ne_eq,
    not_true] at h
  cases he : encrypt P 1 { keys := [c'.key], salts := [c'.salt] } iv (C.marshal s) with
  | panic => simp [he] at h
  | err e => simp [he] at h
  | ok f' =>
    simp [he] at h
    subst h
    exact ⟨_, C.marshal s, C42_single_roundtrip P hP _ iv _ c'.key c'.salt _ rfl rfl rfl hiv he user pass _ _ hcr,
      hC.nonempty, hC.loadLog, c'.key, c'.salt, by simp [userSlot], by simp [userSlot], fun _ _ => ⟨hc'.key, hc'.salt, .inl rfl⟩⟩

theorem shared_opens {P : Prims} (hP : Crypt.Spec.Lawful P) {C : Codec} {c' : Creds} {f : Str} {s : DB} (hsv : SavedShared P C c' f s)
    {user pass : Str} {ck : Option Str} {cs salt key : Str} (hac : Account P s c'.master user salt key)
    (hcr : Crypt.Spec.Credentials P pass ck cs salt key) : ∃ p pt, decrypt P user pass ck cs f = .ok (1, p, pt) ∧ OpensTo C s.log p pt := by
  obtain ⟨ord, ord', iv, hord, hord', h⟩ := hsv.saved
  obtain ⟨p, n, hmk, hwf, hn, hivm, hmas, hacc⟩ := makeParams_multi P hP hord hord' hsv.good hsv.creds hsv.users
  have h0 : p.nUsers ≠ 0 := by have := hwf.nUsers; have := hwf.pos; omega
  simp only [saveBlob, sealFile, DB.save, hsv.idle, hmk, Bool.false_eq_true, if_false, ne_eq, not_true] at h
  cases he : encrypt P 1 p iv (C.marshal s) with
  | panic => simp [he] at h
  | err e => simp [he] at h
  | ok f' =>
    simp [he] at h
    subst h
    obtain ⟨i, uiv, mk, a1, a2, a3, a4, a5, a6⟩ := hacc user salt key hac
    have hd := C43_multi_roundtrip_partial P hP p iv (C.marshal s) f' _ _ h0 (by rw [hwf.nUsers]; omega) hivm hmas he
      i user pass _ _ hac.1 salt uiv mk key a1 a2 a3 a4 a5 hcr a6
    have hil : i < n := by
      have := (List.getElem?_eq_some_iff.1 a1).1
      rwa [hwf.users.us_length] at this
    have hk : userSlot ((List.replicate p.nUsers.toNat []).set i key) (i : Int) = some key := by
      have : i < p.nUsers.toNat := by rw [hwf.nUsers]; simpa using hil
      simp [userSlot, this]
    have hkl : key.length = 80 := by
      have hz : keySize = 80 := by decide
      unfold encryptMasterKey at a6
      split at a6
      · cases a6
      · split at a6
        · cases a6
        · split at a6
          · cases a6
          · omega
    exact ⟨_, _, hd, hsv.faithful.nonempty, hsv.faithful.loadLog, key, salt, hk, by simp [userSlot, a3],
      fun _ _ => ⟨hkl, hwf.users.ss_size _ (List.mem_of_getElem? a3),
        .inr ⟨by simpa [hmas] using hsv.creds.master, by simpa [hivm] using hsv.creds.ivm⟩⟩⟩

/-- the questions of `sync` end without a crash -/
theorem decryptBlob_answered {P : Prims} {c : Creds} {f : Str} {enters : Str → Str → Prop} {Q : Params → Str → Prop} {typed : Input}
    (hq : ∀ user pass, enters user pass → ∃ p pt, decrypt P user pass (orNil c.key) c.salt f = .ok (1, p, pt) ∧ Q p pt) :
    ∀ (inp : Input), (∀ x ∈ inp, x ∈ typed) → ∀ (user pass : Str), user = c.user ∨ (c.user = [] ∧ some user ∈ typed) →
      pass = c.pass ∨ some pass ∈ typed → (enters user pass ∨
      ∀ user pass, user = c.user ∨ (c.user = [] ∧ some user ∈ typed) → pass = c.pass ∨ some pass ∈ typed → enters user pass ∨ decrypt P user pass (orNil c.key) c.salt f = .err .wrongPassphrase ∨
        (user = [] ∧ decrypt P user pass (orNil c.key) c.salt f = .err .needUser)) →
    ∃ x rest, decryptBlob P c f user pass inp = (.ok x, rest) ∧ ∀ user pass p pt, x = some (user, pass, p, pt) → Q p pt := by
  have first : ∀ (inp : Input) (user pass : Str), enters user pass →
      ∃ x rest, decryptBlob P c f user pass inp = (.ok x, rest) ∧ ∀ user pass p pt, x = some (user, pass, p, pt) → Q p pt := by
    intro inp user pass he
    obtain ⟨p, pt, hd, hQ⟩ := hq user pass he
    have : decryptBlob P c f user pass inp = (.ok (some (user, pass, p, pt)), inp) := by
      cases inp with
      | nil => simp only [decryptBlob, tryDecrypt, hd]
      | cons a rest => cases a <;> simp only [decryptBlob, tryDecrypt, hd]
    exact ⟨_, _, this, by rintro _ _ _ _ ⟨⟩; exact hQ⟩
  have gone : ∀ rest : Input, ∃ (x : Option (Str × Str × Params × Str)) (r : Input),
      ((.ok none, rest) : Res CErr (Option (Str × Str × Params × Str)) × Input) = (.ok x, r) ∧
      ∀ user pass p pt, x = some (user, pass, p, pt) → Q p pt := fun rest => ⟨none, rest, rfl, by rintro _ _ _ _ ⟨⟩⟩
  intro inp
  induction inp with
  | nil =>
    intro hin user pass hu hps h
    rcases h with h | h
    · exact first _ _ _ h
    · rcases h user pass hu hps with h1 | h1 | ⟨-, h1⟩
      · exact first _ _ _ h1
      all_goals
        simp (decide := true) only [decryptBlob, tryDecrypt, h1, if_true, if_false]
        exact gone _
  | cons a inp ih =>
    intro hin user pass hu hps h
    rcases h with h | h
    · exact first _ _ _ h
    · rcases h user pass hu hps with h1 | h1 | ⟨h0, h1⟩
      · exact first _ _ _ h1
      · cases a with
        | none =>
          simp (decide := true) only [decryptBlob, tryDecrypt, h1, if_true, if_false]
          exact gone _
        | some line =>
          simp (decide := true) only [decryptBlob, tryDecrypt, h1, if_true, if_false]
          split
          · exact gone _
          · exact ih (fun x hx => hin x (by simp [hx])) user line hu (.inr (hin _ (by simp))) (.inr h)
      · cases a with
        | none =>
          simp (decide := true) only [decryptBlob, tryDecrypt, h1, if_true, if_false]
          exact gone _
        | some line =>
          simp (decide := true) only [decryptBlob, tryDecrypt, h1, if_true, if_false]
          have hc : c.user = [] := by
            rcases hu with hu | hu
            · rw [← hu, h0]
            · exact hu.1
          exact ih (fun x hx => hin x (by simp [hx])) line pass (.inr ⟨hc, hin _ (by simp)⟩) hps (.inr h)

theorem canOpen_decrypts {P : Prims} (hP : Crypt.Spec.Lawful P) {C : Codec} {c : Creds} {f : Str} {log : List Tx} {typed : Input}
    (h : CanOpen P C c f typed log) (inp : Input) (hin : ∀ x ∈ inp, x ∈ typed) : ∃ x rest, decryptBlob P c f c.user c.pass inp = (.ok x, rest) ∧
      ∀ user pass p pt, x = some (user, pass, p, pt) → OpensTo C log p pt := by
  rcases h with ⟨c', hc', hsv, ha⟩ | ⟨c', s, hsv, rfl, ha⟩
  · exact decryptBlob_answered (fun user pass he => saved_opens hP hc' hsv he user) inp hin _ _ (.inl rfl) (.inl rfl) ha
  · exact decryptBlob_answered (enters := fun user pass => ∃ salt key, Account P s c'.master user salt key ∧
      Crypt.Spec.Credentials P pass (orNil c.key) c.salt salt key) (fun user pass ⟨salt, key, h1, h2⟩ => shared_opens hP hsv h1 h2) inp hin _ _ (.inl rfl) (.inl rfl) ha

/-- what `pullOne` gives then -/
def CalmFate (url hosts : Str → Prop) (f : Fate) : Prop :=
  ∀ r, f = .merge r → SomeCreds r.creds ∧ r.log ≠ [] ∧ CalmLog url hosts r.log

theorem noChanges_some {R l : List Tx} (hl : l ≠ []) : noChanges R l ≠ none := by
  intro hn
  unfold noChanges at hn
  split at hn
  · cases hn
  · rename_i hlen
    obtain ⟨b, L', rfl⟩ := List.exists_cons_of_ne_nil hl
    cases R with
    | nil => simp at hlen
    | cons a R' =>
      simp only [List.head?_cons, List.getLast?_cons] at hn
      cases hn

theorem pullOne_calm {P : Prims} (hP : Crypt.Spec.Lawful P) {C : Codec} {w : World} {url hosts : Str → Prop} (hg : Gentle w url hosts)
    (hw : Listens w) {u : Session} (h : CalmStore url hosts u.store) (hne : u.store.log ≠ []) {x : Str} {typed : Input}
    (held : ∀ i f h rest, i <:+ typed → pullBlob w x ((u.store.snapshot.get? x).getD []) i = (some (.bytes f, h), rest) →
      ∃ log, CanOpen P C u.creds f typed log ∧ log ≠ [] ∧ CalmLog url hosts log) (inp : Input) (hin : inp <:+ typed) :
    ∃ f hl rest, pullOne P C w u x inp = (some (f, hl), rest) ∧ CalmFate url hosts f ∧ (hl ≠ [] → Addable hosts hl) := by
  obtain ⟨h1, h2⟩ := h.entry hg x
  obtain ⟨p, hl, rest, e, ha⟩ := hg.pull x _ inp h1 h2
  simp only [pullOne, e]
  cases p with
  | failed => exact ⟨_, _, _, rfl, (by intro r hr; cases hr), ha⟩
  | notFound => exact ⟨_, _, _, rfl, (by intro r hr; cases hr), ha⟩
  | bytes f =>
    obtain ⟨log, ho, hn, hcl⟩ := held _ _ _ _ hin e
    obtain ⟨o, rest', hdb, hq⟩ := canOpen_decrypts hP ho rest fun x hx => ((pullBlob_listens hw e).trans hin).subset hx
    cases o with
    | none =>
      simp only [hdb]
      exact ⟨_, _, _, rfl, (by intro r hr; cases hr), ha⟩
    | some o =>
    obtain ⟨user, pass, p, pt⟩ := o
    obtain ⟨hpt, hlog, key, salt, hz1, hz2, hsc⟩ := hq _ _ _ _ rfl
    simp only [hdb, hpt, if_false, hlog]
    cases hc : noChanges log u.store.log with
    | none => exact absurd hc (noChanges_some hne)
    | some b =>
      cases b with
      | true => exact ⟨_, _, _, rfl, (by intro r hr; cases hr), ha⟩
      | false =>
        simp only [hz1, hz2]
        refine ⟨_, _, _, rfl, ?_, ha⟩
        intro r hr
        cases hr
        exact ⟨hsc _ _, hn, hcl⟩

theorem pullAll_calm {P : Prims} (hP : Crypt.Spec.Lawful P) {C : Codec} {w : World} {url hosts : Str → Prop} (hg : Gentle w url hosts)
    (hw : Listens w) {u : Session} (h : CalmStore url hosts u.store) {typed : Input} : ∀ (syncs : List Str), (syncs ≠ [] → u.store.log ≠ []) →
    (∀ x ∈ syncs, ∀ i f h rest, i <:+ typed → pullBlob w x ((u.store.snapshot.get? x).getD []) i = (some (.bytes f, h), rest) →
      ∃ log, CanOpen P C u.creds f typed log ∧ log ≠ [] ∧ CalmLog url hosts log) → ∀ inp : Input, inp <:+ typed →
    ∃ l rest, pullAll P C w u syncs inp = (some l, rest) ∧ ∀ p ∈ l, CalmFate url hosts p.2.1 ∧ (p.2.2 ≠ [] → Addable hosts p.2.2) := by
  intro syncs
  induction syncs with
  | nil => intro _ _ inp _; exact ⟨[], inp, rfl, by simp⟩
  | cons x syncs ih =>
    intro hne held inp hin
    have hne := hne (by simp)
    obtain ⟨f, hl, r1, e1, a1, b1⟩ := pullOne_calm hP hg hw h hne (held x (by simp)) inp hin
    have hsuf := pullOne_suffix (P := P) (C := C) hw u x inp
    rw [e1] at hsuf
    obtain ⟨l, r2, e2, a2⟩ := ih (fun _ => hne) (fun y hy => held y (by simp [hy])) r1 (hsuf.trans hin)
    refine ⟨(x, f, hl) :: l, r2, by simp only [pullAll, e1, e2], ?_⟩
    intro p hp
    rcases List.mem_cons.1 hp with rfl | hp
    · exact ⟨a1, b1⟩
    · exact a2 p hp

theorem remotes_calm {url hosts : Str → Prop} {l : List (Str × Fate × Str)} (h : ∀ p ∈ l, CalmFate url hosts p.2.1) :
    ∀ r ∈ remotes l, SomeCreds r.creds ∧ r.log ≠ [] ∧ CalmLog url hosts r.log := by
  intro r hr
  obtain ⟨uuid, y, hm⟩ := (mem_remotes l r).1 hr
  exact h _ hm r rfl

/-! ## Merging -/

theorem good_own {l : List Tx} (h : OwnHistory l) : Good { log := l } :=
  (own_wf (s := { log := l }) ⟨coherent_reset (s := DB.new) _ _, GoMap.nodupKeys_nil, inner_nil⟩ h).1

theorem takeRemote_calm {ord : Order} (hord : ∀ m, (ord m).Perm m) {u : Creds} {m : Merged} {r : Remote} {merged : List Tx} {inp : Input}
    (hm : m.log ≠ []) (hrl : r.log ≠ []) (h1 : OwnHistory m.log) (h2 : OwnHistory merged) : (takeRemote ord u m r merged inp).1 ≠ .panic := by
  obtain ⟨a, A, e1⟩ := List.exists_cons_of_ne_nil hm
  obtain ⟨b, B, e2⟩ := List.exists_cons_of_ne_nil hrl
  obtain ⟨us1, g1, -⟩ := users_spec hord (good_own h1)
  obtain ⟨us2, g2, -⟩ := users_spec hord (good_own h2)
  unfold takeRemote
  split
  · split
    · simp
    · rw [e1, e2]
      simp only [List.getLast?_cons]
      split
      · simp
      · split
        · split <;> simp
        · simp
  · split
    · rw [g2]
      simp only
      repeat' split
      all_goals simp
    · split
      · have hfind : ∀ x, (find { log := merged } x).2 ≠ .panic := by
          intro x
          unfold find
          rw [(good_withSnapshot (good_own h2) _).1]
          simp
        rw [g1, g2]
        unfold findUser
        rcases findByName_spec hord (good_own h1) (userPrefix ++ m.creds.user) with ⟨x, e, k, -, -⟩ | ⟨k, -⟩
        all_goals
          rw [k]
          simp only
          split
          · rename_i hh; exact absurd hh (hfind _)
          · simp
          · repeat' split
            all_goals simp_all
      · simp

/-- merging logs of one file does not crash -/
theorem mergeRemotes_calm {ord : Order} (hord : ∀ m, (ord m).Perm m) (u : Creds) (log : List Tx) (rs : List Remote)
    (hf : OneFile log (rs.map Remote.log)) (ht : Told log (rs.map Remote.log)) (hc : ∀ r ∈ rs, SomeCreds r.creds ∧ r.log ≠ [])
    (ho : ∀ r ∈ rs, OwnHistory r.log) :
    ∀ (pre post : List Remote) (m : Merged) (inp : Input), rs = pre ++ post → OwnHistory m.log → (post ≠ [] → m.log ≠ []) → SomeCreds m.creds →
      (∀ t, t ∈ m.log ↔ t ∈ log ∨ ∃ x ∈ pre, t ∈ x.log) → (mergeRemotes ord u post m inp).1 ≠ .panic ∧
      ∀ m' rest, mergeRemotes ord u post m inp = (.ok m', rest) → SomeCreds m'.creds ∧ OwnHistory m'.log := by
  intro pre post
  induction post generalizing pre with
  | nil =>
    intro m inp hrs how hne hsc hu'
    refine ⟨by simp [mergeRemotes], fun m' rest h => ?_⟩
    simp only [mergeRemotes, Prod.mk.injEq, Res.ok.injEq] at h
    rw [← h.1]; exact ⟨hsc, how⟩
  | cons r post ih =>
    intro m inp hrs how hne hsc hun
    have hg := how.good
    have hne := hne (by simp)
    have hr : r ∈ rs := by rw [hrs]; simp
    have hpre : ∀ x ∈ pre, x ∈ rs := fun x hx => by rw [hrs]; simp [hx]
    obtain ⟨hgr, hsr⟩ := hf.remotes r.log (List.mem_map_of_mem hr)
    have hu' : ∀ t, t ∈ m.log ↔ t ∈ log ∨ ∃ x ∈ pre.map Remote.log, t ∈ x := by
      intro t
      rw [hun t]
      refine or_congr Iff.rfl ⟨fun ⟨x, hx, h⟩ => ⟨_, List.mem_map_of_mem hx, h⟩, fun ⟨x, hx, h⟩ => ?_⟩
      obtain ⟨y, hy, rfl⟩ := List.mem_map.1 hx
      exact ⟨y, hy, h⟩
    have hs : SameFile m.log r.log := by
      refine sameFile_union hu' hsr fun x hx => ?_
      obtain ⟨y, hy, rfl⟩ := List.mem_map.1 hx
      exact hf.pairs _ (List.mem_map_of_mem (hpre y hy)) _ (List.mem_map_of_mem hr)
    have hd : Txlogs.Spec.Distinguishable m.log r.log :=
      ht (pre.map Remote.log) r.log (post.map Remote.log) m.log (by rw [hrs]; simp) hg.chrono hu'
    have hnp := (C22_good_partial m.log r.log inp hg hgr hs).1
    simp only [mergeRemotes]
    cases h1 : mergeLogs m.log r.log inp with
    | mk x rest1 =>
      rw [h1] at hnp
      cases x with
      | panic => exact absurd rfl hnp
      | err e => simp
      | ok merged =>
        simp only
        obtain ⟨hg', hm'⟩ := C80_merge_partial m.log r.log merged inp rest1 hg hgr hs hd h1
        have how' : OwnHistory merged := own_two hg' how (ho r hr) hm'
        have ht2 := takeRemote_calm hord (u := u) (m := m) (r := r) (merged := merged) (inp := rest1) hne (hc r hr).2 how how'
        cases h2 : takeRemote ord u m r merged rest1 with
        | mk y rest2 =>
          rw [h2] at ht2
          cases y with
          | panic => exact absurd rfl ht2
          | err e => simp
          | ok take =>
            simp only
            refine ih (pre ++ [r]) _ rest2 (by rw [hrs]; simp) how' ?_ ?_ ?_
            · intro _
              obtain ⟨a, A, e1⟩ := List.exists_cons_of_ne_nil hne
              have : a ∈ merged := (hm' a).2 (.inl (by rw [e1]; simp))
              exact List.ne_nil_of_mem this
            · show SomeCreds (if take then r.creds else m.creds)
              split
              · exact (hc r hr).1
              · exact hsc
            · intro t
              show t ∈ merged ↔ _
              rw [hm' t, hun t]
              simp only [List.mem_append, List.mem_singleton]
              constructor
              · rintro ((h | ⟨x, hx, h⟩) | h)
                · exact .inl h
                · exact .inr ⟨x, .inl hx, h⟩
                · exact .inr ⟨r, .inr rfl, h⟩
              · rintro (h3 | ⟨x, hx | rfl, h3⟩)
                · exact .inl (.inl h3)
                · exact .inl (.inr ⟨x, hx, h3⟩)
                · exact .inr h3

theorem syncWith_calm {P : Prims} (hP : Crypt.Spec.Lawful P) {C : Codec} {w : World} {url hosts : Str → Prop} (hg : Gentle w url hosts) (hw : Listens w)
    {v : SyncEnv} (hiv : v.iv.length = 40) (hord : ∀ m, (v.ordH m).Perm m) (ho : ∀ m, (v.ord m).Perm m) (ho' : ∀ m, (v.ord' m).Perm m)
    (htick : ∀ i j, i < j → v.now i < v.now j) {push : Bool} {u : Session} {syncs : List Str} {inp : Input}
    (hc : SomeCreds u.creds) (hown : OwnHistory u.store.log) (hlate : ∀ t ∈ u.store.log, t.time < v.now 0) (h : CalmStore url hosts u.store) (hne : syncs ≠ [] → u.store.log ≠ [])
    (held : ∀ x ∈ syncs, ∀ i f h rest, i <:+ inp → pullBlob w x ((u.store.snapshot.get? x).getD []) i = (some (.bytes f, h), rest) →
      ∃ log, CanOpen P C u.creds f inp log ∧ log ≠ [] ∧ CalmLog url hosts log)
    (hp : ∀ l rest, pullAll P C w u syncs inp = (some l, rest) → PulledOk v u.store.log l) :
    (syncWith P C w v push u syncs inp).result ≠ .panic ∧ SomeCreds (syncWith P C w v push u syncs inp).session.creds := by
  obtain ⟨l, i1, e, hl⟩ := pullAll_calm hP hg hw h syncs hne held inp (List.suffix_refl _)
  have hnl : remotes l ≠ [] → u.store.log ≠ [] := by
    intro hr
    refine hne ?_
    rintro rfl
    simp only [pullAll, Prod.mk.injEq, Option.some.injEq] at e
    rw [← e.1] at hr
    exact hr rfl
  have hpo := hp l i1 e
  have hrc := remotes_calm (fun p hp => (hl p hp).1)
  have hm := mergeRemotes_calm ho u.creds u.store.log (remotes l) hpo.family hpo.told
    (fun r hr => ⟨(hrc r hr).1, (hrc r hr).2.1⟩) hpo.own [] (remotes l) { creds := u.creds, log := u.store.log } i1 rfl hown hnl hc (by simp)
  simp only [syncWith, e]
  cases hx : mergeBlobs v.ord u.creds u.store.log (remotes l) i1 with
  | mk o i2 =>
    have hx' : mergeRemotes v.ord u.creds (remotes l) { creds := u.creds, log := u.store.log } i1 = (o, i2) := hx
    rw [hx'] at hm
    cases o with
    | panic => exact absurd rfl hm.1
    | err e => exact ⟨by simp, hc⟩
    | ok m =>
      simp only
      have hlog := mergeRemotes_from v.ord u.creds _ _ _ _ _ hx'
      have hcl : CalmLog url hosts m.log := by
        intro t ht
        rcases hlog t ht with h3 | ⟨q, hq, h3⟩
        · exact h.log t h3
        · exact (hrc q hq).2.2 t h3
      have hst : CalmStore url hosts (({ u.store.resetSnapshot with log := m.log } : DB).updateSnapshot).1 :=
        CalmStore.update ⟨⟨coherent_reset _ _, GoMap.nodupKeys_nil, inner_nil⟩, hcl⟩
      cases hs : ({ u.store.resetSnapshot with log := m.log } : DB).updateSnapshot with
      | mk s e =>
        rw [hs] at hst
        cases e with
        | some e => exact ⟨by simp, (hm.2 m i2 rfl).1⟩
        | none =>
          have hls : s.log = m.log := by
            have := updateSnapshot_log ({ u.store.resetSnapshot with log := m.log } : DB)
            rw [hs] at this
            exact this
          refine ⟨?_, by rw [pushBack_creds]; exact (hm.2 m i2 rfl).1⟩
          exact pushBack_calm hP hg hiv hord ho ho' (hm.2 m i2 rfl).1 hst (by rw [hls]; exact (hm.2 m i2 rfl).2) htick
            (by
              rw [hls]
              intro t ht
              rcases hlog t ht with h3 | ⟨q, hq, h3⟩
              · exact hlate t h3
              · exact hpo.late q hq t h3)
            (newHosts_addable l [] (by simp) fun p hp => (hl p hp).2)

end Verif.App
