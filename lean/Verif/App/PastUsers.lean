import Verif.App.PastDemo
import Verif.App.WholeProps
import Verif.App.GoneProps
/-!
# Property C99 for files with users, and for files that are synced
-/
namespace Verif.App
open Verif Verif.Txlogs Verif.Blob Verif.Crypt Verif.App.Spec
open Verif.Crypt.Spec (toy toy_lawful)
open Verif.Txlogs.Spec (GoodHistory Replays)
open Verif.Time (Stamp)

namespace Spec

/-- A file that held `s0` at the instant `T`, and what opens it, after any number of later sessions by anybody. -/
inductive FileSince (P : Prims) (T : Int) (s0 : DB) : Str → Keys → DB → Prop where
  | held {f : Str} {k : Keys} : FileLife P f k s0 → (∀ t ∈ s0.log, t.time ≤ T) → FileSince P T s0 f k s0
  | next {f : Str} {k : Keys} {s : DB} {inp inp' : Input} {u : Session} {turns : List Turn} {r : Repl} {ord : Order}
      {ord' : Results → Results} {iv f' : Str} :
      FileSince P T s0 f k s → k.Opens inp → openFile P Json.Spec.codec none f inp = (.ok u, inp') →
      Along P Json.Spec.codec (fun v line r => FileTurn P v line r ∧ LateTurn T v) turns { u := u } →
      runRepl P Json.Spec.codec turns { u := u } = (r, .ok ()) →
      Counted r.u.store → (∀ m, (ord m).Perm m) → (∀ m, (ord' m).Perm m) → iv.length = 40 →
      saveBlob P Json.Spec.codec ord ord' iv r.u = .ok (some f') →
      FileSince P T s0 f' (lastKeys P Json.Spec.codec turns { u := u } k) r.u.store

end Spec

theorem fileSince_life {P : Prims} {T : Int} {s0 s : DB} {f : Str} {k : Keys} (h : FileSince P T s0 f k s) : FileLife P f k s := by
  induction h with
  | held h _ => exact h
  | next _ ho hf hl hr hc a b c d ih => exact .next ih ho hf (along_mono (fun _ _ _ h => h.1) _ _ hl) hr hc a b c d

theorem fileSince_later {P : Prims} (hP : Crypt.Spec.Lawful P) {T : Int} {s0 s : DB} {f : Str} {k : Keys} (h : FileSince P T s0 f k s) :
    (∀ t ∈ s0.log, t.time ≤ T) ∧ Later T s0.log s.log := by
  induction h with
  | held h ht => exact ⟨ht, Later.refl _⟩
  | @next f k s inp inp' u turns r ord ord' iv f' hx ho hf hl hr hc a b c d ih =>
    obtain ⟨h1, h3⟩ := ih
    refine ⟨h1, h3.trans ?_⟩
    obtain ⟨u', k1, k2, k3, k4, -⟩ := C74_file_partial P hP _ _ _ (fileSince_life hx) _ ho
    rw [k1] at hf
    cases hf
    have := later_session _ _ k3.txPoint k4
      (along_mono (fun _ _ _ (h : FileTurn P _ _ _ ∧ LateTurn T _) => ⟨h.1.turn.legal, h.2⟩) _ _ hl) (by rw [hr]; simp)
    rw [hr] at this
    rw [← k3.log]
    exact this

/-- What a file held at an instant is what it shows to everybody who can open it when it is opened at that instant, however many
sessions by whomever came later and whatever was done in them. Users may have been added and removed and passwords changed: it opens
with the passwords of now, not with those of then, and shows the users of then. Without `sync`. -/
theorem C99_file_partial (P : Prims) (hP : Crypt.Spec.Lawful P) (T : Int) (s0 s : DB) (f : Str) (k : Keys) (h : FileSince P T s0 f k s)
    (inp : Input) (ho : k.Opens inp) :
    ∃ u, openFile P Json.Spec.codec (some T) f inp = (.ok u, []) ∧ u.readOnly = true ∧ Shows u.store s0.log := by
  obtain ⟨h1, l, h3, h4⟩ := fileSince_later hP h
  obtain ⟨u, k1, -, k3, k4, -⟩ := C74_file_partial P hP _ _ _ (fileSince_life h) _ ho
  have e : cutLog T u.store.log = s0.log := by rw [k3.log, h3]; exact cutLog_between h1 h4
  have hrep : Replays s0.log := by
    obtain ⟨st, h5, -⟩ := k4.good.named
    refine replays_prefix (b := l) ?_
    rw [← h3, ← k3.log]
    unfold Replays
    rw [h5]
    rfl
  obtain ⟨u', g1, g2, -, g4⟩ := openFile_past k1 (e ▸ hrep)
  exact ⟨u', g1, g2, e ▸ g4⟩

/-- A file without users that is synced, opened at an instant, shows everything it held at that instant, in the same order. What
other machines did up to that instant and `sync` brought later is shown as well, and nothing done after the instant. -/
theorem C99_years_partial (P : Prims) (hP : Crypt.Spec.Lawful P) (T : Int) (s0 s : DB) (f pass : Str) (h : YearsLater P s0 f pass s)
    (hT : ∀ t ∈ s0.log, t.time ≤ T) :
    ∃ u l, openFile P Json.Spec.codec (some T) f [some pass] = (.ok u, []) ∧ u.readOnly = true ∧ Shows u.store l ∧
      s0.log.Sublist l ∧ l.Sublist s.log ∧ ∀ t, t ∈ l ↔ t ∈ s.log ∧ t.time ≤ T := by
  obtain ⟨u, k1, -, k3, k4, -⟩ := C98_life_partial P hP _ _ _ (later_years h)
  obtain ⟨u', g1, g2, -, g4⟩ := C99_open_partial P Json.Spec.codec T f _ _ u k1 k4.own.good
  rw [k3.log] at g4
  refine ⟨u', _, g1, g2, g4, ?_, List.filter_sublist, fun t => by simp [List.mem_filter]⟩
  have := (later_sublist hP h).filter (fun x => decide (x.time ≤ T))
  rwa [List.filter_eq_self.2 (fun x hx => decide_eq_true (hT x hx))] at this

namespace PastUsersDemo
open Demo (uU kU rU opensU openU fileLife1 perm_id perm_id' iv40 fileOf parse_ne)

/-- "a" adds an entry at the time 5 -/
def vW : Env := { PastDemo.vQ with d := { PastDemo.vQ.d with uuid := [8], inp := Demo.vN.d.inp } }
def rW : Repl := Demo.after (b! "add x") vW { u := uU }

theorem vW_clean : CleanEnv vW :=
  { PastDemo.vQ_clean with
    typed := fun x hx => valid_ascii _ (by
      have : ∀ y ∈ Demo.vN.d.inp, ∀ x, y = some x → x.all (fun b => b.toNat < 0x80) = true := by decide
      exact this _ hx _ rfl)
    uuid := valid_ascii _ (by decide) }

theorem turnW : FileTurn toy vW (b! "add x") { u := uU } where
  turn := ⟨⟨valid_ascii _ (by decide), ⟨perm_id, perm_id', by decide, Demo.fresh_concrete Demo.uU_wf.good (by decide +kernel)⟩,
    parse_ne (x := (b! "add", [b! "x"])) (by decide +kernel) (by decide)⟩, vW_clean⟩
  draw := ⟨by decide, by decide, by decide, by decide⟩
  first := by
    intro _ nm l h
    have hp : parseLine (b! "add x") = some (b! "add", [b! "x"]) := by decide +kernel
    rw [hp] at h
    cases h
  later := by
    intro _ cmd args h
    have hp : parseLine (b! "add x") = some (b! "add", [b! "x"]) := by decide +kernel
    rw [hp] at h
    cases h
    refine ⟨?_, fun h => absurd h (by decide), fun h => absurd h (by decide),
      fun h => absurd h (by decide), by decide, fun h => absurd h (by decide)⟩
    intro _ nm l h
    cases h
    decide

theorem keysW : lastKeys toy Json.Spec.codec [(some (b! "add x"), vW)] { u := uU } kU = kU := by
  have hp : parseLine (b! "add x") = some (b! "add", [b! "x"]) := by decide +kernel
  have ht : keysAfter vW (b! "add x") { u := uU } kU = kU := by
    unfold keysAfter kU tableAfter
    rw [hp]
    rfl
  unfold lastKeys lastKeys
  rw [ht]
  split <;> rfl

theorem since : ∃ f, FileSince toy 0 rU.u.store f kU rW.u.store := by
  obtain ⟨u, k1, k2, k3, k4, k5⟩ := C74_file_partial toy toy_lawful _ _ _ fileLife1 _ opensU
  have hu : uU = u := Res.ok.inj (Prod.mk.inj (openU.symm.trans k1)).1
  rw [← hu] at k2 k3 k4 k5
  have hr : runRepl toy Json.Spec.codec [(some (b! "add x"), vW)] { u := uU } = (rW, .ok ()) := by
    unfold rW Demo.after; exact Demo.run_eq (by decide +kernel)
  have hc : Counted rW.u.store := by unfold Counted; decide +kernel
  obtain ⟨f, h, -⟩ := C74_session_partial toy toy_lawful [(some (b! "add x"), vW)] { u := uU } rW kU (List.replicate 40 4) id id
    perm_id perm_id' iv40 k2 k3.txPoint k4 k5 ⟨turnW, trivial⟩ hr hc
  refine ⟨f, ?_⟩
  rw [← keysW]
  refine FileSince.next (turns := [(some (b! "add x"), vW)]) (FileSince.held fileLife1 (by decide +kernel)) opensU openU
    ⟨⟨turnW, ⟨fun _ => ?_, fun _ _ => ?_⟩⟩, trivial⟩ hr hc perm_id perm_id' iv40 h
  · show (0 : Int) < 5; omega
  · show (0 : Int) < 5; omega

end PastUsersDemo

/-- not vacuous: a file with the user "a" since the time 0 gets an entry at the time 5; opened at 0 it shows the user only -/
example : ∃ f u s, openFile toy Json.Spec.codec (some 0) f [some (b! "a"), some (b! "A")] = (.ok u, []) ∧
    FileSince toy 0 Demo.rU.u.store f Demo.kU s ∧ u.store.log = Demo.rU.u.store.log ∧ u.store.log ≠ [] ∧ s.log ≠ u.store.log := by
  obtain ⟨f, h⟩ := PastUsersDemo.since
  obtain ⟨u, h1, -, h3⟩ := C99_file_partial toy toy_lawful _ _ _ _ _ h _ Demo.opensU
  refine ⟨f, u, _, h1, h, h3.log, ?_, ?_⟩
  · rw [h3.log]; decide +kernel
  · rw [h3.log]; decide +kernel

/-- not vacuous: a file that was synced -/
example := C99_years_partial toy toy_lawful 1000000 _ _ _ _ (YearsLater.held YearsDemo.firstYear) (by decide +kernel)

end Verif.App
