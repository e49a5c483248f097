import Verif.App.FleetTextLemmas
import Verif.App.FleetDemo
import Verif.App.SharedProps
/-!
# C89 for machines whose files are written as JSON
-/
set_option linter.unusedSimpArgs false
namespace Verif.App
open Verif Verif.Txlogs Verif.Blob Verif.Crypt Verif.App.Spec
open Verif.Crypt.Spec (toy toy_lawful)

theorem textRunOk_run {P : Prims} (hP : Crypt.Spec.Lawful P) {c : Creds} {F : Fleet} {base : List Tx} {es : List Event} {quiet : Bool}
    (h : Copies P Json.Spec.codec c F base) (hb : ∀ t ∈ base, Json.Spec.CleanTx t ∧ FitsInt64 t.time)
    (hr : TextRunOk P quiet es F) : RunOk P Json.Spec.codec quiet es F :=
  (Copies.inv hP h).text quiet es (fun i t ht => hb t (by rw [← h.logs i]; exact ht)) hr (single_run hP h.single _ _)

/-- **C89 for files written as JSON**: whatever well-formed text is typed on the machines, nothing is lost, on no machine and not in
the shared file. -/
theorem C89_text_intact_partial (P : Prims) (hP : Crypt.Spec.Lawful P) (c : Creds) (F : Fleet) (base : List Tx)
    (es es' : List Event) (h : Copies P Json.Spec.codec c F base) (hb : ∀ t ∈ base, Json.Spec.CleanTx t ∧ FitsInt64 t.time)
    (hr : TextRunOk P false (es ++ es') F) :
    let F1 := F.run P Json.Spec.codec es
    let F2 := F.run P Json.Spec.codec (es ++ es')
    (∀ i, (F2.machine i).creds = c ∧ Sound (F2.machine i).store ∧ ∀ t ∈ F1.log i, t ∈ F2.log i) ∧
      ∃ R1 R2, readShare P Json.Spec.codec c F1.share = some R1 ∧ readShare P Json.Spec.codec c F2.share = some R2 ∧ OwnHistory R2 ∧
        (∀ t ∈ R1, t ∈ R2) ∧ ∀ t ∈ R2, ∃ i, t ∈ F2.log i :=
  C89_intact_partial P hP Json.Spec.codec c F base es es' h (textRunOk_run hP h hb hr)

/-- **C89 for files written as JSON**: after two rounds of syncs the machines have the same log, which is that of the shared file, and
it holds what any of them had. -/
theorem C89_text_agree_partial (P : Prims) (hP : Crypt.Spec.Lawful P) (c : Creds) (F : Fleet) (base : List Tx)
    (es s1 s2 : List Event) (h : Copies P Json.Spec.codec c F base) (hb : ∀ t ∈ base, Json.Spec.CleanTx t ∧ FitsInt64 t.time)
    (hr : TextRunOk P true (es ++ s1 ++ s2) F) (h1 : OnlySyncs s1) (h2 : OnlySyncs s2) (hsub : ∀ i ∈ syncers s2, i ∈ syncers s1) :
    let F1 := F.run P Json.Spec.codec es
    let F2 := F.run P Json.Spec.codec (es ++ s1 ++ s2)
    ∃ R1 R2, readShare P Json.Spec.codec c F1.share = some R1 ∧ readShare P Json.Spec.codec c F2.share = some R2 ∧
      (∀ i ∈ syncers s2, F2.log i = R2) ∧ ∀ t, t ∈ R2 ↔ t ∈ R1 ∨ ∃ i ∈ syncers s1, t ∈ F1.log i :=
  C89_agree_partial P hP Json.Spec.codec c F base es s1 s2 h (textRunOk_run hP h hb hr) h1 h2 hsub

namespace FleetTextDemo
open FleetDemo hiding C file after saved work step_work0 step_work1 Gives env env0 env1 step_sync0 step_sync1 gives1 gives2 gives3 gives4
  F0 copies quiet s2 legalN legalU runOk F0_machine faithful turn
open Verif.App.SyncDemo (iv)
open Demo (perm_id perm_id' fresh_concrete named_concrete parse_ne)

abbrev C : Codec := Json.Spec.codec

def file (l : List Tx) : Str :=
  match saveBlob toy C id id iv (on l) with
  | .ok (some f) => f
  | _ => []

def after (turns : List Turn) : Session := (runRepl toy C turns { u := start }).1.u

theorem work {a b : Session} {f : Str} {i : Nat} {turns : List Turn} (hm : (st a b f).machine i = start)
    (hl : Along toy C HistoryTurn turns { u := start })
    (h1 : (runRepl toy C turns { u := start }).2 = .ok ()) (h2 : (after turns).creds = start.creds)
    (h3 : NamesApart (after turns).store.log)
    (h4 : ∀ t ∈ (after turns).store.log, t ∈ base ∨
      ∀ x ∈ a.store.log ++ b.store.log ++ base, Foreign t x) : WorkOk toy C (st a b f) i turns := by
  refine ⟨by rw [hm]; exact hl, by rw [hm]; exact h1, by rw [hm]; exact h2, by rw [hm]; exact h3, ?_⟩
  rw [hm]
  intro t ht
  have hb : (st a b f).log i = base := by unfold Fleet.log; rw [hm]; exact upd_log _
  rw [hb]
  refine (h4 t ht).imp id fun h j x hx => h x ?_
  simp only [List.mem_append]
  rcases st_log a b f j with k | k | k <;> rw [k] at hx
  · exact .inl (.inl hx)
  · exact .inl (.inr hx)
  · exact .inr hx

theorem step_work0 (b : Session) (f : Str) (turns : List Turn) :
    (st start b f).step toy C (.work 0 turns) = st (after turns) b f := by
  simp only [Fleet.step, Fleet.set, st, after, Fleet.mk.injEq, and_true]
  funext j
  by_cases h : j = 0 <;> simp [h]

theorem step_work1 (a : Session) (f : Str) (turns : List Turn) :
    (st a start f).step toy C (.work 1 turns) = st a (after turns) f := by
  simp only [Fleet.step, Fleet.set, st, after, Fleet.mk.injEq, and_true]
  funext j
  by_cases h : j = 1 <;> simp [h]

/-! ## sync -/

/-- a machine with `u` and a share with `f` become one with the log `l` and a share with `f'` -/
structure Gives (u : Session) (f : Str) (l : List Tx) (f' : Str) : Prop where
  syncs : collectSyncs (shareWorld f) v.ord u.store.updateSnapshot.1 = [[97]]
  session : (sync toy C (shareWorld f) v [] true u []).session = on l
  share : (if (sync toy C (shareWorld f) v [] true u []).pushed = [] then f else (sync toy C (shareWorld f) v [] true u []).sent) = f'

theorem textSync {F : Fleet} {i : Nat} {u : Session} {l : List Tx} {f' : Str} (hm : F.machine i = u) (h : Gives u F.share l f')
    (hl : l.length < 100) (hq : ¬ ∃ d x, Spec.Conflict toy C F i d x) : TextEventOk toy true F (.sync i v []) := by
  refine ⟨by decide, perm_id', ⟨[97], by decide, by rw [hm]; exact h.syncs⟩, ?_, fun _ => hq⟩
  rw [hm, h.session]
  show (upd l).log.length < _
  rw [upd_log]
  omega

theorem textSync0 {a b : Session} {f f' : Str} {l : List Tx} (h : Gives a f l f') (hl : l.length < 100)
    (hq : ¬ ∃ d x, Spec.Conflict toy C (st a b f) 0 d x) : TextEventOk toy true (st a b f) (.sync 0 v []) :=
  textSync (F := st a b f) (i := 0) rfl h hl hq
theorem textSync1 {a b : Session} {f f' : Str} {l : List Tx} (h : Gives b f l f') (hl : l.length < 100)
    (hq : ¬ ∃ d x, Spec.Conflict toy C (st a b f) 1 d x) : TextEventOk toy true (st a b f) (.sync 1 v []) :=
  textSync (F := st a b f) (i := 1) rfl h hl hq

theorem step_sync0 {a b : Session} {f f' : Str} {l : List Tx} (h : Gives a f l f') :
    (st a b f).step toy C (.sync 0 v []) = st (on l) b f' := by
  have e : (st a b f).step toy C (.sync 0 v []) =
      { machine := fun j => if j = 0 then (sync toy C (shareWorld f) v [] true a []).session else (st a b f).machine j
        share := if (sync toy C (shareWorld f) v [] true a []).pushed = [] then f
          else (sync toy C (shareWorld f) v [] true a []).sent } := rfl
  rw [e, h.session, h.share]
  simp only [st, Fleet.mk.injEq, and_true]
  funext j
  by_cases k : j = 0 <;> simp [k]

theorem step_sync1 {a b : Session} {f f' : Str} {l : List Tx} (h : Gives b f l f') :
    (st a b f).step toy C (.sync 1 v []) = st a (on l) f' := by
  have e : (st a b f).step toy C (.sync 1 v []) =
      { machine := fun j => if j = 1 then (sync toy C (shareWorld f) v [] true b []).session else (st a b f).machine j
        share := if (sync toy C (shareWorld f) v [] true b []).pushed = [] then f
          else (sync toy C (shareWorld f) v [] true b []).sent } := rfl
  rw [e, h.session, h.share]
  simp only [st, Fleet.mk.injEq, and_true]
  funext j
  by_cases k : j = 1 <;> simp [k]

theorem gives1 : Gives (after turnsN) (file base) (base ++ opsN) (file (base ++ opsN)) :=
  ⟨by decide +kernel, by decide +kernel, by decide +kernel⟩
theorem gives2 : Gives (after turnsU) (file (base ++ opsN)) (base ++ opsN ++ opsU) (file (base ++ opsN ++ opsU)) :=
  ⟨by decide +kernel, by decide +kernel, by decide +kernel⟩
theorem gives3 : Gives (on (base ++ opsN)) (file (base ++ opsN ++ opsU)) (base ++ opsN ++ opsU) (file (base ++ opsN ++ opsU)) :=
  ⟨by decide +kernel, by decide +kernel, by decide +kernel⟩

def s2 : List Event := [.sync 0 v []]

/-- ASCII, and early -/
def plainTx (t : Tx) : Bool :=
  decide (t.kind ∈ [.add, .del, .setk, .delk]) && t.uuid.all (fun b => b.toNat < 0x80) && t.key.all (fun b => b.toNat < 0x80) &&
    t.value.all (fun b => b.toNat < 0x80) && decide (0 ≤ t.time ∧ t.time < 1000)

theorem plain {t : Tx} (h : plainTx t = true) : Json.Spec.CleanTx t ∧ FitsInt64 t.time := by
  simp only [plainTx, Bool.and_eq_true, decide_eq_true_eq] at h
  obtain ⟨⟨⟨⟨k, a⟩, b⟩, c⟩, d⟩ := h
  refine ⟨⟨Demo.kind_ok k, valid_ascii _ (Demo.kind_ascii k), valid_ascii _ a, valid_ascii _ b, valid_ascii _ c⟩, ?_⟩
  unfold FitsInt64; omega

theorem clean_base : ∀ t ∈ base, Json.Spec.CleanTx t ∧ FitsInt64 t.time := fun t ht =>
  plain ((by decide +kernel : ∀ t ∈ base, plainTx t = true) t ht)

theorem clean_logs : ∀ l ∈ [base, base ++ opsN, base ++ opsN ++ opsU], Json.Spec.Clean (upd l) := by
  have h : ∀ l ∈ [base, base ++ opsN, base ++ opsN ++ opsU], (∀ t ∈ l, plainTx t = true) ∧ l.length < 100 := by decide +kernel
  intro l hl
  obtain ⟨h1, h2⟩ := h l hl
  refine clean_of_log (ok_update (HistoryDemo.ok_log l)) (fun t ht => plain (h1 t ?_)) ?_
  · rw [upd_log] at ht; exact ht
  · unfold Counted; rw [upd_log]; omega

def F0 : Fleet := st start start (file base)

theorem F0_machine (i : Nat) : F0.machine i = start := by
  simp only [F0, st]; split <;> (try rfl); split <;> rfl

theorem copies : Copies toy C start.creds F0 base := by
  refine ⟨single, fun i => by rw [F0_machine], fun i => by rw [F0_machine]; exact sound_base,
    fun i => by unfold Fleet.log; rw [F0_machine]; exact upd_log _, by decide, by decide +kernel,
    id, id, iv, upd base, by decide, updateSnapshot_txPoint _, upd_log _, Json.C11_partial _ (clean_logs _ (by simp)), by decide +kernel⟩

theorem legalN : Along toy C HistoryTurn turnsN { u := start } :=
  ⟨FleetDemo.turn (cmd := b! "set") (args := [b! "bank", b! "note", b! "x"]) (by decide) (by decide +kernel) (by decide) (by decide), trivial⟩
theorem legalU : Along toy C HistoryTurn turnsU { u := start } :=
  ⟨FleetDemo.turn (cmd := b! "set") (args := [b! "bank", b! "user", b! "y"]) (by decide) (by decide +kernel) (by decide) (by decide), trivial⟩

theorem vt_text (t : Int) : TextEnv (vt t []) where
  typed := fun x hx => by cases hx
  uuid := valid_ascii [8] (by decide)
  otp := fun w x _ hx => hx
  editor := fun x y hx hy => by cases hy; exact hx
  fileUrl := fun x y hx hy => by cases hy; exact hx
  scpUrl := fun _ _ _ _ _ _ _ _ hd _ => hd
  keypair := fun a b h => by cases h
theorem textN : Along toy C TextTurn turnsN { u := start } := ⟨⟨legalN.1.legal, vt_text _⟩, trivial⟩
theorem textU : Along toy C TextTurn turnsU { u := start } := ⟨⟨legalU.1.legal, vt_text _⟩, trivial⟩

theorem saved (l : List Tx) (h : l ∈ [base, base ++ opsN, base ++ opsN ++ opsU])
    (hs : saveBlob toy C id id iv (on l) = .ok (some (file l))) : readShare toy C start.creds (file l) = some l :=
  saved_reads toy_lawful single ⟨id, id, iv, upd l, by decide, updateSnapshot_txPoint _, upd_log _, Json.C11_partial _ (clean_logs _ h), hs⟩

theorem quiet {a b : Session} {f : Str} {i : Nat} {l : List Tx} (hs : readShare toy C start.creds f = some l)
    (hc : ((st a b f).machine i).creds = start.creds) (h : ∀ t ∈ (st a b f).log i ++ l, t.kind ≠ .del) :
    ¬ ∃ d x, Spec.Conflict toy C (st a b f) i d x := by
  rintro ⟨d, x, R, h1, h2⟩
  have hs' : readShare toy C start.creds (st a b f).share = some l := hs
  rw [hc, hs'] at h1
  cases h1
  obtain ⟨a, -, b, -⟩ := h2
  exact h d (List.mem_append.2 a) b

theorem runOk : TextRunOk toy true (es ++ s1 ++ s2) F0 := by
  have e1 := step_work0 start (file base) turnsN
  have e2 := step_work1 (after turnsN) (file base) turnsU
  have e3 := step_sync0 (b := after turnsU) gives1
  have e4 := step_sync1 (a := on (base ++ opsN)) gives2
  simp only [es, s1, s2, List.cons_append, List.nil_append, TextRunOk, F0, e1, e2, e3, e4, and_true]
  refine ⟨⟨work rfl legalN (by decide +kernel) (by decide +kernel) (by decide +kernel) (by decide +kernel), textN, ?_⟩,
    ⟨work rfl legalU (by decide +kernel) (by decide +kernel) (by decide +kernel) (by decide +kernel), textU, ?_⟩,
    textSync0 gives1 (by decide +kernel) (quiet (saved base (by simp) (by decide +kernel)) (by decide +kernel) (by decide +kernel)),
    textSync1 gives2 (by decide +kernel) (quiet (saved (base ++ opsN) (by simp) (by decide +kernel)) (by decide +kernel) (by decide +kernel)),
    textSync0 gives3 (by decide +kernel) (quiet (saved (base ++ opsN ++ opsU) (by simp) (by decide +kernel)) (by decide +kernel) (by decide +kernel))⟩
  · exact (by decide +kernel : ∀ t ∈ (after turnsN).store.log, -9223372036854775808 ≤ t.time ∧ t.time ≤ 9223372036854775807)
  · exact (by decide +kernel : ∀ t ∈ (after turnsU).store.log, -9223372036854775808 ≤ t.time ∧ t.time ≤ 9223372036854775807)

-- C89: both machines end up with both changes
example : Copies toy C start.creds F0 base ∧ TextRunOk toy true (es ++ s1 ++ s2) F0 ∧ OnlySyncs s1 ∧ OnlySyncs s2 ∧
    (∀ i ∈ syncers s2, i ∈ syncers s1) ∧ ∀ i ∈ syncers s2, (F0.run toy C (es ++ s1 ++ s2)).log i = base ++ opsN ++ opsU := by
  refine ⟨copies, runOk, by simp [OnlySyncs, s1], by simp [OnlySyncs, s2], by simp [s1, s2, syncers], ?_⟩
  have e1 := step_work0 start (file base) turnsN
  have e2 := step_work1 (after turnsN) (file base) turnsU
  have e3 := step_sync0 (b := after turnsU) gives1
  have e4 := step_sync1 (a := on (base ++ opsN)) gives2
  have e5 := step_sync0 (b := on (base ++ opsN ++ opsU)) gives3
  simp only [es, s1, s2, List.cons_append, List.nil_append, Fleet.run, F0, e1, e2, e3, e4, e5]
  intro i hi
  simp only [syncers, List.mem_cons, List.not_mem_nil, or_false] at hi
  subst hi
  exact upd_log _

end FleetTextDemo
end Verif.App
