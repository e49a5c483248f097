import Verif.App.ImportedProps
import Verif.App.SharedProps
import Verif.App.DateDemo
/-!
# C123: an import into a file with users
-/
namespace Verif.App
open Verif Verif.Txlogs Verif.Blob Verif.Crypt Verif.App.Spec
open Verif.Crypt.Spec (toy toy_lawful)
open Demo (perm_id perm_id')

/-- None of the records gets a name of a user entry. -/
def Spec.NoUserNames (toLower : Str → Str) (rs : List (List Str)) : Prop :=
  ∀ r ∈ rs, hasPrefix (underscores (toLower (r.getD 4 []))) userPrefix = false

theorem prefix_ones {x : Str} (k : Nat) (h : hasPrefix x userPrefix = false) :
    hasPrefix (x ++ List.replicate k 49) userPrefix = false := by
  cases hx : hasPrefix (x ++ List.replicate k 49) userPrefix with
  | false => rfl
  | true =>
    obtain ⟨t, ht⟩ := (hasPrefix_iff _ _).1 hx
    have h5 : userPrefix.length = 5 := by decide
    by_cases hl : 5 ≤ x.length
    · have := congrArg (List.take 5) ht
      rw [List.take_append_of_le_length hl, List.take_append_of_le_length (by omega), List.take_of_length_le (l := userPrefix) (by omega)] at this
      rw [(hasPrefix_iff _ _).2 ⟨x.drop 5, by rw [← this, List.take_append_drop]⟩] at h
      cases h
    · have hg : ∀ i, i < 5 → x.length ≤ i → userPrefix[i]? = some 49 ∨ (x.length + k ≤ i) := by
        intro i hi hxi
        by_cases hk : x.length + k ≤ i
        · exact .inr hk
        · have := congrArg (fun l => l[i]?) ht
          rw [List.getElem?_append_right hxi, List.getElem?_append_left (by omega), List.getElem?_replicate, if_pos (by omega)] at this
          exact .inl this.symm
      have hlen := congrArg List.length ht
      simp only [List.length_append, List.length_replicate] at hlen
      rcases hg 4 (by omega) (by omega) with h6 | h6
      · exact absurd h6 (by decide)
      · omega

theorem SameUsers.trans {a b c : DB} (h : SameUsers a b) (h' : SameUsers b c) : SameUsers a c := by
  obtain ⟨s1, s2, h1, h2, h3⟩ := h
  obtain ⟨s3, s4, h4, h5, h6⟩ := h'
  rw [h2] at h4
  cases h4
  exact ⟨s1, s4, h1, h5, h6.trans h3⟩

/-- A record that gets no name of a user entry leaves the user entries alone. -/
theorem imported_users_one {toLower : Str → Str} (hlow : ∀ x, ValidUtf8 (toLower x)) {ord : Order} (hord : ∀ m, (ord m).Perm m)
    {d : Draw} {s s' : DB} {r : List Str} (h : WellFormed s) (hf : ¬ Exists s d.uuid) (hne : d.uuid ≠ [])
    (hn : hasPrefix (underscores (toLower (r.getD 4 []))) userPrefix = false) (hr : importRecord toLower ord d s r = (s', .ok ())) :
    SameUsers s s' := by
  rcases importRecord_ops hlow hord r h hf hne with hp | ⟨s1, nm, l, h1, hw, -, ⟨-, k, hk⟩, hlog, -, hl⟩
  · rw [hp] at hr; cases hr
  rw [hr] at h1
  cases h1
  obtain ⟨st, hs, -⟩ := h.good.named
  obtain ⟨st', hs', -⟩ := hw.good.named
  refine ⟨st, st', hs, hs', ?_⟩
  rw [hlog, List.append_assoc, meaning_append, hs] at hs'
  have hnone : userPart st d.uuid = none := part_none hs (fun n hn => absurd (exists_of_named hn) hf)
  refine keeps_meaning rfl ?_ hs'
  intro t ht
  simp only [newOps, List.mem_append, List.mem_cons, List.not_mem_nil, or_false] at ht
  rcases ht with (rfl | rfl | rfl) | ht
  · exact trivial
  · exact kept_put (s := s) (by unfold PlainKey; decide) st hs
  · exact ⟨by show keyName ∉ _; decide, fun _ => ⟨hk ▸ prefix_ones k hn, hnone⟩⟩
  · obtain ⟨h1, -, h3, -⟩ := hl t ht
    have hp : PlainKey t.key := by
      have : ∀ k ∈ recordKeys, k ∉ [keyName, keySalt, keyIV, keyMKey] := by decide
      exact this _ h3
    have := kept_put (s := s) (t := t.time) (w := t.uuid) (x := t.value) hp st hs
    unfold KeepsUsers at this ⊢
    rw [h1]
    exact this

theorem imported_users {toLower : Str → Str} (hlow : ∀ x, ValidUtf8 (toLower x)) {ord : Order} (hord : ∀ m, (ord m).Perm m)
    (rs : List (List Str)) : ∀ {ds : Nat → Draw} {s : DB}, Sound s → ImportOk ds rs.length s → NoUserNames toLower rs →
    SameUsers s (importRecords toLower ord ds s rs).1 := by
  induction rs with
  | nil => intro ds s h _ _; exact sameUsers_log h.wf.good rfl
  | cons r rs ih =>
    intro ds s h hi hn
    unfold importRecords
    rcases imported_one hlow hord r h hi with h1 | ⟨s', h1, h2, h3, -⟩
    · rw [h1]
      exact sameUsers_log h.wf.good rfl
    · rw [h1]
      exact (imported_users_one hlow hord h.wf (importOk_fresh hi (Nat.succ_pos _)) (hi.uuid_ne 0 (Nat.succ_pos _)) (hn r (by simp)) h1).trans
        (ih h2 h3 (fun x hx => hn x (by simp [hx])))

/-- Nor does the whole import, however it ends. -/
theorem C123_accounts (toLower : Str → Str) (hlow : ∀ x, ValidUtf8 (toLower x)) (ord : Order) (hord : ∀ m, (ord m).Perm m)
    (ds : Nat → Draw) (created : Bool) (t : Str) (u : Session) (inp : Input) (h : Sound u.store)
    (hi : ImportOk ds (Csv.read t).1.length u.store) (hn : NoUserNames toLower (Csv.read t).1) :
    SameUsers u.store (importLastpass toLower ord ds created (some t) u inp).1.store := by
  have hsame : SameUsers u.store u.store := sameUsers_log h.wf.good rfl
  have hgo : SameUsers u.store (importCsv toLower ord ds u.store t).1 := by
    have := imported_users hlow hord (Csv.read t).1 h hi hn
    unfold importCsv
    simp only
    split
    · cases hx : importRecords toLower ord ds u.store (Csv.read t).1 with
      | mk s o =>
        rw [hx] at this
        cases o <;> exact this
    · exact hsame
  unfold importLastpass
  simp only
  split
  · exact hgo
  · split
    · exact hsame
    · split
      · exact hgo
      · exact hsame

/-- An import into a file with users that succeeds is saved, if no record gets a name of a user entry; then everybody can open the
file with the password they had and finds exactly what was imported, in order and with dates. -/
theorem C123_users_partial (P : Prims) (hP : Crypt.Spec.Lawful P) (toLower : Str → Str) (hlow : ∀ x, ValidUtf8 (toLower x))
    (v v' : Env) (hord : ∀ m, (v.ord m).Perm m) (ho : ∀ m, (v'.ord m).Perm m) (ho' : ∀ m, (v'.ord' m).Perm m)
    (ds : Nat → Draw) (salt iv t : Str) (inp inp' : Input) (old : Disk) (u u' : Session) (table : Passwords)
    (hopen : load P Json.Spec.codec none salt old inp = (.ok u, inp')) (hm : MultiSession P u) (ht : Holders P u table)
    (h : Sound u.store) (hd : DatedHistory u.store.log) (hc : CleanLog u.store) (hi : ImportOk ds (Csv.read t).1.length u.store)
    (hv : ValidUtf8 t) (hno : NoUserNames toLower (Csv.read t).1)
    (hn : u.store.log.length + 8 * (Csv.read t).1.length < 18446744073709551616)
    (hr : importLastpass toLower v.ord ds old.isNone (some t) u inp' = (u', .ok ())) :
    ∃ f s', (main P Json.Spec.codec none salt iv v v' (.lpassimport toLower ds (some t)) inp old).1.getLast? = some (some f) ∧
      (main P Json.Spec.codec none salt iv v v' (.lpassimport toLower ds (some t)) inp old).2 = .ok () ∧
      Spec.SameStore s' u'.store ∧ Sound s' ∧ DatedHistory s'.log ∧ CleanLog s' ∧ u.store.log <+: s'.log ∧
      ∀ user pass, table user = some pass →
        ∃ u'', openFile P Json.Spec.codec none f [some user, some pass] = (.ok u'', []) ∧ u''.store = s' ∧ u''.creds.user = user ∧
          MultiSession P u'' ∧ Holders P u'' table := by
  have key := C123_import toLower hlow v.ord hord ds old.isNone (some t) u inp' h (fun x hx => by cases hx; exact hi)
  have hsu := C123_accounts toLower hlow v.ord hord ds old.isNone t u inp' h hi hno
  rw [hr] at key hsu
  obtain ⟨a, b, c, d, e, g⟩ := key
  have hclean := d (fun x hx => by cases hx; exact hv) hc
  have hro : u'.readOnly = u.readOnly := (congrArg Session.readOnly g).trans rfl
  have hcr : u'.creds = u.creds := (congrArg Session.creds g).trans rfl
  have hcount : Counted u'.store := Nat.lt_of_le_of_lt e (by simpa using hn)
  have h1 : MultiSession P u' := by
    refine ⟨hro.trans hm.writable, a.wf.good, a.tx, by rw [hcr]; exact hm.creds, hsu.wf hm.users,
      fun w x hx => hm.uuids w x (hsu.symm.isUser hx), ?_⟩
    obtain ⟨w, hw⟩ := hm.me
    exact ⟨w, by rw [hcr]; exact hsu.isUser hw⟩
  have h2 : Holders P u' table := holders_same ht hcr hsu
  obtain ⟨f, s', g1, g2, g3⟩ := C51_save_open_multi P hP Json.Spec.codec v'.ord ho v'.ord' ho' iv u' h1.writable h1.idle h1.good
    (C77_saved _ a.wf hclean hcount) h1.creds h1.users
  have hs : SameUsers u'.store s' := sameUsers_log h1.good g2.log
  have hsound := sound_sameStore a g2
  refine ⟨f, s', ?_, ?_, g2, hsound, ?_, ?_, ?_, ?_⟩
  · simp only [main, hopen, work, hr, saveTrace, g1, getLast?_writeFile]
  · simp only [main, hopen, work, hr, g1]
  · rw [g2.log]; exact c hd
  · exact fun x hx => hclean x (g2.log ▸ hx)
  · rw [g2.log]; exact b
  intro user pass hup
  obtain ⟨salt', hop⟩ := h2 user pass hup
  refine ⟨_, g3 user pass salt' hop, rfl, rfl, ⟨rfl, hsound.wf.good, g2.txPoint, ⟨h1.creds.master, h1.creds.ivm, hP.kdf_length _ _⟩,
    hs.wf h1.users, fun w x hx => h1.uuids w x (hs.symm.isUser hx), ?_⟩, ?_⟩
  · obtain ⟨-, -, w, e, iv, mkey, a, b, -⟩ := hop
    exact ⟨w, hs.isUser ⟨e, a, b⟩⟩
  · intro x p hap
    obtain ⟨salt'', k1, k2⟩ := h2 x p hap
    exact ⟨salt'', k1, hs.account k2⟩

/-! ## Not vacuous -/

namespace ImportedDemo

/-- the draws of "adduser a", with a clock that runs -/
def dA : Draw := { Demo.d0 with now := fun i => 10 + i }

/-- a file of one user -/
def uA : Session := (adduser toy id dA Demo.u0 [97]).1

def tA : Passwords := Txlogs.Spec.upd (fun _ => none) [97] (some [1])

def fA : Str :=
  match saveBlob toy Json.Spec.codec id id iv uA with
  | .ok (some f) => f
  | _ => []

/-- ... opened again -/
def uB : Session :=
  match (load toy Json.Spec.codec none salt (some fA) [some [97], some [1], some (b! "y")]).1 with
  | .ok u => u
  | _ => uA

theorem fA_save : saveBlob toy Json.Spec.codec id id iv uA = .ok (some fA) := by decide +kernel

attribute [irreducible] fA

theorem uB_load : load toy Json.Spec.codec none salt (some fA) [some [97], some [1], some (b! "y")] = (.ok uB, [some (b! "y")]) := by
  decide +kernel

theorem uB_open : openFile toy Json.Spec.codec none fA [some [97], some [1]] = (.ok uB, []) := by decide +kernel

theorem uB_import : (importLastpass toLower id ds false (some csv) uB [some (b! "y")]).2 = .ok () := by decide +kernel

attribute [irreducible] uB

theorem uA_multi : MultiSession toy uA ∧ Holders toy uA tA := by
  obtain ⟨u', h1, h2, -, h4⟩ := C51_first_user toy toy_lawful perm_id (d := dA) ⟨by decide, by decide, by decide, by decide⟩
    Demo.u0_single Demo.u0_new Demo.u0_none
  have : u' = uA := by rw [uA, h1]
  subst this
  exact ⟨h2, h4⟩

theorem uA_sound : Sound uA.store := by
  have hg := uA_multi.1.good
  have ho : OwnHistory uA.store.log := HistoryDemo.own (by decide +kernel)
  exact ⟨(own_wf hg.ok ho).2.2 (by decide +kernel), ho, uA_multi.1.idle⟩

theorem uA_dated : DatedHistory uA.store.log := DateDemo.dated_small (by decide +kernel) (by decide +kernel)

theorem uA_clean : CleanLog uA.store := by
  have h : (uA.store.log.all fun t => Demo.asciiTx { t with time := 0 } && decide (0 ≤ t.time ∧ t.time ≤ 100)) = true := by decide +kernel
  intro t ht
  have := List.all_eq_true.1 h t ht
  simp only [Demo.asciiTx, Bool.and_eq_true, beq_iff_eq, decide_eq_true_eq] at this
  obtain ⟨⟨⟨⟨⟨k, a⟩, b⟩, c⟩, -⟩, d⟩ := this
  refine ⟨⟨Demo.kind_ok k, valid_ascii _ (Demo.kind_ascii k), valid_ascii _ a, valid_ascii _ b, valid_ascii _ c⟩, ?_⟩
  unfold FitsInt64; omega

theorem uB_all : MultiSession toy uB ∧ Holders toy uB tA ∧ Spec.SameStore uB.store uA.store := by
  obtain ⟨hm, hh⟩ := uA_multi
  obtain ⟨f, s', g1, g2, g3⟩ := C51_save_open_multi toy toy_lawful Json.Spec.codec id perm_id id perm_id' iv uA hm.writable hm.idle hm.good
    (C77_saved _ uA_sound.wf uA_clean (by unfold Counted; decide +kernel)) hm.creds hm.users
  rw [fA_save] at g1
  cases g1
  obtain ⟨slt, hop⟩ := hh [97] [1] (by decide)
  have hu := g3 _ _ _ hop
  rw [uB_open] at hu
  simp only [Prod.mk.injEq, Res.ok.injEq, and_true] at hu
  have hs : SameUsers uA.store s' := sameUsers_log hm.good g2.log
  rw [hu]
  refine ⟨⟨rfl, (sound_sameStore uA_sound g2).wf.good, g2.txPoint, ⟨hm.creds.master, hm.creds.ivm, toy_lawful.kdf_length [1] slt⟩,
    hs.wf hm.users, fun w x hx => hm.uuids w x (hs.symm.isUser hx), ?_⟩, ?_, g2⟩
  · obtain ⟨-, -, w, e, iv, mkey, a, b, -⟩ := hop
    exact ⟨w, hs.isUser ⟨e, a, b⟩⟩
  · intro x p hap
    obtain ⟨salt'', k1, k2⟩ := hh x p hap
    exact ⟨salt'', k1, hs.account k2⟩

/-- clocks and identifiers for the import -/
theorem okB : ImportOk ds (Csv.read csv).1.length uB.store := by
  have hl : ∀ t ∈ uB.store.log, t.uuid = [9] ∧ t.time < 20 := by
    rw [uB_all.2.2.log]
    have : (uA.store.log.all fun t => decide (t.uuid = [9] ∧ t.time < 20)) = true := by decide +kernel
    intro t ht
    simpa using List.all_eq_true.1 this t ht
  have h0 := ok
  refine ⟨?_, h0.apart, h0.uuid_ne, h0.text, h0.tick, h0.rounds, ?_, h0.fits⟩
  · intro i hi t ht
    rw [(hl t ht).1]
    rw [csv_read] at hi
    have : i = 0 ∨ i = 1 := by simp at hi; omega
    rcases this with rfl | rfl <;> decide
  · intro _ t ht
    have := (hl t ht).2
    simp only [ds]
    omega

theorem no_users : NoUserNames toLower (Csv.read csv).1 := by
  rw [csv_read]
  unfold NoUserNames
  decide +kernel

/-- C123_users_partial -/
example : ∃ f, (main toy Json.Spec.codec none salt iv {} {} (.lpassimport toLower ds (some csv)) [some [97], some [1], some (b! "y")]
      (some fA)).1.getLast? = some (some f) ∧
    ∃ u'', openFile toy Json.Spec.codec none f [some [97], some [1]] = (.ok u'', []) := by
  obtain ⟨hm, hh, hs⟩ := uB_all
  obtain ⟨f, s', h1, -, -, -, -, -, -, h2⟩ := C123_users_partial toy toy_lawful toLower toLower_valid {} {} perm_id perm_id perm_id' ds salt iv csv
    [some [97], some [1], some (b! "y")] [some (b! "y")] (some fA) uB _ tA uB_load hm hh (sound_sameStore uA_sound hs)
    (by rw [hs.log]; exact uA_dated) (fun x hx => uA_clean x (hs.log ▸ hx)) okB text no_users
    (by rw [hs.log, csv_read]; decide +kernel) (Prod.ext rfl uB_import)
  obtain ⟨u'', h3, -⟩ := h2 [97] [1] (by decide)
  exact ⟨f, h1, u'', h3⟩

end ImportedDemo

end Verif.App
