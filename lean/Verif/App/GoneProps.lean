import Verif.App.GoneSpec
import Verif.App.WholeProps
import Verif.App.YearsProps
import Verif.App.FieldsProps
import Verif.App.PastProps
import Verif.App.EditProps
import Verif.App.ShowProps
import Verif.App.YearsDemo
/-!
# Property C111: what was deleted or replaced is gone
-/
namespace Verif.App
open Verif Verif.Txlogs Verif.Blob Verif.Crypt Verif.App.Spec
open Verif.Crypt.Spec (toy toy_lawful)
open Verif.Txlogs.Spec (GoodHistory Replays)
open Demo (perm_id perm_id')


theorem cleaned_clean {t : Tx} (h : Json.Spec.CleanTx t) : Json.Spec.cleaned t = t := by
  obtain ⟨tm, k, a, b, c⟩ := t
  have h1 := h.kindOk
  unfold Json.Spec.KindOk at h1
  simp only [Json.Spec.cleaned, Json.sanitize_valid h.kind, Json.sanitize_valid h.uuid, Json.sanitize_valid h.key, Json.sanitize_valid h.value, h1]

/-- Everything in the log of a store with well-formed texts is printed by `dumpall`. -/
theorem C111_printed {s : DB} (ho : Ok s) (hc : CleanLog s) (hn : Counted s) {t : Tx} (ht : t ∈ s.log) : Readable t s := by
  have h := clean_of_log ho hc hn
  refine ⟨ht, _, Json.C110_history s h.toInRange, ?_⟩
  exact List.mem_map.2 ⟨t, ht, cleaned_clean (hc t ht).1⟩

/-- What `rm` deletes, having said that this includes all history irrecoverably, is all still there: the log is the old one with one
more operation. Opened at any time before, the file shows the entry with all it had. -/
theorem C111_rm (v : Env) (u : Session) (nm uuid : Str) (e : Str → Option Str) (now : Int) (hv : EnvOk v u.store) (h : WellFormed u.store)
    (he : Blob.Spec.Visible u.store uuid e) (hn : e keyName = some nm) (hme : splitUsername nm = [] ∨ splitUsername nm ≠ u.creds.user)
    (hin : v.d.inp.head? = some (some nm)) :
    let u' := (deleteEntry v.ord now v.d.inp u nm).1
    ¬ Blob.Exists u'.store uuid ∧ u'.store.log = u.store.log ++ [⟨now, .del, uuid, [], []⟩] ∧
    ∀ T, (∀ t ∈ u.store.log, t.time ≤ T) → T < now → ∀ s, s.log = cutLog T u'.store.log → Blob.Spec.Visible s uuid e := by
  obtain ⟨-, -, h1, -⟩ := C79_rm v u nm uuid now hv h ⟨e, he, hn⟩ hme
  have hlog : (deleteEntry v.ord now v.d.inp u nm).1.store.log = u.store.log ++ [⟨now, .del, uuid, [], []⟩] := by
    have hid : uuid ≠ [] := h.uuids uuid nm ⟨e, he, hn⟩
    have hds : ¬ (splitUsername nm ≠ [] ∧ splitUsername nm = u.creds.user) := by
      rintro ⟨a, b⟩; rcases hme with c | c
      · exact a c
      · exact c b
    have hp : (prompt v.d.inp).1 = v.d.inp.head?.join := by
      cases hi : v.d.inp with
      | nil => rfl
      | cons a l => cases a <;> rfl
    unfold deleteEntry
    rcases findByName_spec hv.ord h.good nm with ⟨x, en, a, b, c⟩ | ⟨a, b⟩
    · have hx : x = uuid := h.unique x uuid nm ⟨_, b, c⟩ ⟨e, he, hn⟩
      subst hx
      rw [a]
      simp only [hid, if_false, hds, decide_false, Bool.false_eq_true, hp, hin]
      rw [if_neg (by simp)]
      show (u.store.updateSnapshot.1.delete now x).log = _
      simp only [DB.delete, DB.appendLog, updateSnapshot_log]
    · exact absurd ⟨e, he, hn⟩ (b uuid)
  refine ⟨(h1 hin).1, hlog, fun T h2 h3 s hs => ?_⟩
  rw [hlog, cutLog_between h2 (by simpa using h3)] at hs
  exact (visible_log hs uuid e).2 he

theorem kept_autoSync {P : Prims} {C : Codec} {v : Env} {auto : Bool} {r : Repl} (h : Sound r.u.store)
    (ha : auto = true → AutoOk P C v r.u) (hr : (autoSync P C v auto r).2 = .ok ()) :
    r.u.store.log.Sublist (autoSync P C v auto r).1.u.store.log := by
  unfold autoSync at hr ⊢
  by_cases hc : r.u.readOnly = false ∧ auto = true
  · rw [if_pos hc] at hr ⊢
    obtain ⟨hs, hn⟩ := ha hc.2
    exact C76_sync_partial P C _ _ _ _ _ _ h.wf.good.ok h.own hs (by simpa using hr)
  · rw [if_neg hc]; exact List.Sublist.refl _

/-- A run of the program, with whatever lines and `sync`s, leaves every operation of the history. -/
theorem C111_program_partial (P : Prims) (C : Codec) (auto : Bool) (v v' : Env) (iv : Str) (turns : List Turn) (u : Session)
    (o : Option Str) (h : Sound u.store) (h1 : auto = true → AutoOk P C v u)
    (h2 : Along P C (WholeTurn P C) turns (autoSync P C v auto { u := u }).1)
    (h3 : auto = true → AutoOk P C v' (runRepl P C turns (autoSync P C v auto { u := u }).1).1.u)
    (hr : (session P C auto v v' iv turns u).2 = .ok o) :
    u.store.log.Sublist (session P C auto v v' iv turns u).1.u.store.log := by
  have a := sound_autoSync (P := P) (C := C) (v := v) (auto := auto) (r := { u := u }) h h1
  have a' := kept_autoSync (P := P) (C := C) (v := v) (auto := auto) (r := { u := u }) h h1
  unfold session at hr ⊢
  cases hx : autoSync P C v auto { u := u } with
  | mk r1 o1 =>
    rw [hx] at hr a a' h2 h3
    cases o1 with
    | panic => cases hr
    | err e => cases hr
    | ok x =>
      have a := a rfl
      have a' := a' rfl
      simp only at hr h2 h3 a' ⊢
      have b := C87_session_partial P C turns r1 a h2
      have b' := C76_whole_session_partial P C turns r1 a h2
      cases hy : runRepl P C turns r1 with
      | mk r2 o2 =>
        rw [hy] at hr b b' h3
        cases o2 with
        | panic => cases hr
        | err e => cases hr
        | ok x =>
          have b := b rfl
          have b' := b' rfl
          simp only at hr h3 b' ⊢
          have c' := kept_autoSync (P := P) (C := C) (v := v') (auto := auto && r2.u.startTx ≠ r2.u.store.log.length) (r := r2) b
            (fun h => h3 (by simp only [Bool.and_eq_true] at h; exact h.1))
          cases hz : autoSync P C v' (auto && r2.u.startTx ≠ r2.u.store.log.length) r2 with
          | mk r3 o3 =>
            rw [hz] at hr c'
            cases o3 with
            | panic => cases hr
            | err e => cases hr
            | ok x => exact (a'.trans b').trans (c' rfl)

theorem later_life {P : Prims} {s0 s : DB} {f : Str} {k : Keys} (h : FileLater P s0 f k s) : FileLife P f k s := by
  induction h with
  | held h => exact h
  | next _ ho hf hl hr hc a b c d ih => exact .next ih ho hf hl hr hc a b c d

theorem later_prefix {P : Prims} (hP : Crypt.Spec.Lawful P) {s0 s : DB} {f : Str} {k : Keys} (h : FileLater P s0 f k s) :
    s0.log <+: s.log := by
  induction h with
  | held h => exact List.prefix_refl _
  | @next f k s inp inp' u turns r ord ord' iv f' hx ho hf hl hr hc a b c d ih =>
    obtain ⟨u', k1, k2, k3, k4, k5⟩ := C74_file_partial P hP _ _ _ (later_life hx) _ ho
    rw [k1] at hf
    cases hf
    have := C76_session_partial P Json.Spec.codec turns { u := u } k3.txPoint k4 (along_mono (fun _ _ _ (h : FileTurn P _ _ _) => h.turn.legal) _ _ hl)
      (by rw [hr]; simp)
    rw [hr] at this
    simp only [k3.log] at this
    exact ih.trans this

theorem counted_life {P : Prims} {s : DB} {f : Str} {k : Keys} (h : FileLife P f k s) : Counted s := by
  cases h with
  | new _ _ _ _ h => exact h
  | next _ _ _ _ _ h => exact h

/-- Nothing that was ever saved in a file leaves it: whoever can open it, however many sessions by whomever later, can read every
operation that ever was in it, among them all values that were replaced and all entries that were deleted. The passwords may have
been changed and users added and removed. -/
theorem C111_file_partial (P : Prims) (hP : Crypt.Spec.Lawful P) (s0 s : DB) (f : Str) (k : Keys) (h : FileLater P s0 f k s) (inp : Input)
    (ho : k.Opens inp) :
    ∃ u, openFile P Json.Spec.codec none f inp = (.ok u, []) ∧ ∀ t ∈ s0.log, Readable t u.store := by
  obtain ⟨u, k1, -, k3, k4, k5⟩ := C74_file_partial P hP _ _ _ (later_life h) _ ho
  refine ⟨u, k1, fun t ht => ?_⟩
  have hc := counted_life (later_life h)
  exact C111_printed k4.good.ok k5 (by unfold Counted at hc ⊢; rw [k3.log]; exact hc)
    (by rw [k3.log]; exact (later_prefix hP h).subset ht)

theorem later_years {P : Prims} {s0 s : DB} {f pass : Str} (h : YearsLater P s0 f pass s) : Years P f pass s := by
  induction h with
  | held h => exact h
  | next _ ho hrun hr a b c ih => exact .next ih ho hrun hr a b c

theorem later_sublist {P : Prims} (hP : Crypt.Spec.Lawful P) {s0 s : DB} {f pass : Str} (h : YearsLater P s0 f pass s) :
    s0.log.Sublist s.log := by
  induction h with
  | held h => exact List.Sublist.refl _
  | @next f pass q iv f' s u auto v v' turns r hx ho hrun hr a b c ih =>
    obtain ⟨u', k1, k2, k3, k4, k5⟩ := C98_life_partial P hP _ _ _ (later_years hx)
    rw [k1] at ho
    cases ho
    have := C111_program_partial P Json.Spec.codec auto v v' iv turns _ (some f') k4 (fun hh => (hrun.start hh).ok)
      (along_mono (fun _ _ _ h => h.1) _ _ hrun.lines) (fun hh => (hrun.stop hh).ok) (by rw [hr])
    rw [hr] at this
    simp only [k3.log] at this
    exact ih.trans this

theorem ranged_years {P : Prims} {s : DB} {f pass : Str} (h : Years P f pass s) : Counted s ∧ ∀ t ∈ s.log, FitsInt64 t.time := by
  cases h with
  | new _ _ hrun hr =>
    have a := hrun.counted
    have b := hrun.times
    rw [hr] at a b
    exact ⟨a, b⟩
  | next _ _ hrun hr =>
    have a := hrun.counted
    have b := hrun.times
    rw [hr] at a b
    exact ⟨a, b⟩

/-- The same for a file without users that is synced. -/
theorem C111_years_partial (P : Prims) (hP : Crypt.Spec.Lawful P) (s0 s : DB) (f pass : Str) (h : YearsLater P s0 f pass s) :
    ∃ u, openFile P Json.Spec.codec none f [some pass] = (.ok u, []) ∧ ∀ t ∈ s0.log, Readable t u.store := by
  obtain ⟨u, k1, -, k3, k4, k5⟩ := C98_life_partial P hP _ _ _ (later_years h)
  obtain ⟨a, b⟩ := ranged_years (later_years h)
  refine ⟨u, k1, fun t ht => ?_⟩
  exact C111_printed k4.wf.good.ok (fun t ht => ⟨k5 t ht, b t (by rw [k3.log] at ht; exact ht)⟩)
    (by unfold Counted at a ⊢; rw [k3.log]; exact a) (by rw [k3.log]; exact (later_sublist hP h).subset ht)

namespace GoneDemo
open ShowDemo (u e u_wf u_env u_entry)

/-- `rm bank`, confirmed -/
def after : Session := (deleteEntry (Demo.vL [some (b! "bank")]).ord 9 [some (b! "bank")] u (b! "bank")).1

theorem removed : ¬ Blob.Exists after.store [1] ∧ after.store.log = u.store.log ++ [⟨9, .del, [1], [], []⟩] ∧
    ∀ T, (∀ t ∈ u.store.log, t.time ≤ T) → T < 9 → ∀ s, s.log = cutLog T after.store.log → Blob.Spec.Visible s [1] e :=
  C111_rm (Demo.vL [some (b! "bank")]) u (b! "bank") [1] e 9 (u_env _ rfl rfl rfl) u_wf.1 u_entry rfl (.inl (by decide)) rfl

end GoneDemo

/-- That the data and all history of an entry that was removed cannot be recovered, as `rm` says, is false: the entry is gone, but
`dumpall` prints its password, and at an earlier time the file shows the entry. -/
theorem C111_rm_false : (∃ x, ShowDemo.e keyPass = some x ∧
      Readable ⟨0, .setk, [1], keyPass, x⟩ GoneDemo.after.store) ∧
    ¬ Blob.Exists GoneDemo.after.store [1] ∧
    ∀ s, s.log = cutLog 5 GoneDemo.after.store.log → Blob.Spec.Visible s [1] ShowDemo.e := by
  obtain ⟨h1, h2, h3⟩ := GoneDemo.removed
  refine ⟨⟨b! "p", by decide, ?_⟩, h1, h3 5 (by decide) (by decide)⟩
  have hok : Ok GoneDemo.after.store := by
    have : GoneDemo.after.store.snapshot = ShowDemo.u.store.updateSnapshot.1.snapshot ∧
        GoneDemo.after.store.version = ShowDemo.u.store.updateSnapshot.1.version ∧
        GoneDemo.after.store.log = ShowDemo.u.store.updateSnapshot.1.log ++ [⟨9, .del, [1], [], []⟩] := by
      refine ⟨by decide +kernel, by decide +kernel, ?_⟩
      rw [updateSnapshot_log]; exact h2
    exact ok_append (ok_update ShowDemo.u_wf.1.good.ok) this.2.2 this.2.1 this.1
  refine C111_printed hok ?_ ?_ ?_
  · intro t ht
    have hv : ∀ x : Str, x.all (fun c => c.toNat < 0x80) = true → ValidUtf8 x := fun x hx => valid_ascii x hx
    have : ∀ t ∈ GoneDemo.after.store.log, (t.kind = .add ∨ t.kind = .setk ∨ t.kind = .del) ∧ t.uuid.all (fun c => c.toNat < 0x80) = true ∧
        t.key.all (fun c => c.toNat < 0x80) = true ∧ t.value.all (fun c => c.toNat < 0x80) = true ∧ FitsInt64 t.time := by
      rw [h2]; unfold FitsInt64; decide +kernel
    obtain ⟨a, b, c, d, f⟩ := this t ht
    refine ⟨⟨?_, ?_, hv _ b, hv _ c, hv _ d⟩, f⟩
    · unfold Json.Spec.KindOk; rcases a with a | a | a <;> rw [a] <;> decide
    · rcases a with a | a | a <;> rw [a] <;> exact hv _ (by decide)
  · unfold Counted; rw [h2]; decide
  · rw [h2]; decide

/-- Not vacuous: a file with a user, and a later session in which an entry was added. -/
example : ∃ u, openFile toy Json.Spec.codec none (Demo.fileOf Demo.rV) [some (b! "a"), some (b! "A")] = (.ok u, []) ∧
    ∀ t ∈ Demo.rU.u.store.log, Readable t u.store := by
  have h : FileLater toy Demo.rU.u.store (Demo.fileOf Demo.rV) Demo.kU Demo.rV.u.store := by
    rw [← Demo.keysV]
    exact .next (.held Demo.fileLife1) Demo.opensU Demo.openU ⟨Demo.turnV, trivial⟩ Demo.runV Demo.countV perm_id perm_id' Demo.iv40 Demo.saveV
  exact C111_file_partial toy toy_lawful _ _ _ _ h _ Demo.opensU

example : Demo.rU.u.store.log ≠ [] := by decide +kernel

example := C111_years_partial toy toy_lawful _ _ _ _ (YearsLater.held YearsDemo.firstYear)

/-- Not vacuous: a run with a `sync`. -/
example : HistoryDemo.u.store.log.Sublist OwnSyncDemo.done.1.u.store.log := by
  have := C111_program_partial toy Json.Spec.codec false OwnSyncDemo.turn OwnSyncDemo.turn SyncDemo.iv [(some (b! "sync"), OwnSyncDemo.turn)]
    HistoryDemo.u _ HistoryDemo.sound (by simp) ⟨OwnSyncDemo.along.1.1, trivial⟩ (by simp)
    (by rw [OwnSyncDemo.done_eq]; exact OwnSyncDemo.written)
  rw [OwnSyncDemo.done_eq] at this
  exact this

end Verif.App
