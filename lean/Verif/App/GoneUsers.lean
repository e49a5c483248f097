import Verif.App.PastUsers
import Verif.App.KeyYearsDemo
/-!
# Properties C99 and C111 for files with users that are synced
-/
namespace Verif.App
open Verif Verif.Txlogs Verif.Blob Verif.Crypt Verif.App.Spec
open Verif.Crypt.Spec (toy toy_lawful)

namespace Spec

/-- A file with users that once held `s0`, after any number of later runs of the program with `sync`s by anybody. -/
inductive KeyYearsLater (P : Prims) (s0 : DB) : Str → List Rec → DB → Prop where
  | held {f : Str} {rs : List Rec} : KeyYears P f rs s0 → KeyYearsLater P s0 f rs s0
  | next {f user uuid iv f' : Str} {rs rs' : List Rec} {s : DB} {x : Rec} {u : Session} {auto : Bool} {v v' : Env} {turns : List Turn}
      {r : Repl} :
      KeyYearsLater P s0 f rs s → IsUser s uuid user → Newest rs x → x.uuid = uuid →
      openFile P Json.Spec.codec none f [some user, some x.pass] = (.ok u, []) → KeyRun P auto v v' iv turns u →
      session P Json.Spec.codec auto v v' iv turns u = (r, .ok (some f')) →
      Keyed P r.u rs' → (∀ y ∈ rs, y ∈ rs') → KeyYearsLater P s0 f' rs' r.u.store

end Spec

theorem later_keyYears {P : Prims} {s0 s : DB} {f : Str} {rs : List Rec} (h : KeyYearsLater P s0 f rs s) : KeyYears P f rs s := by
  induction h with
  | held h => exact h
  | next _ a b c d e g i j ih => exact .next ih a b c d e g i j

theorem key_whole {P : Prims} {C : Codec} {v : Env} {line : Str} {r : Repl} (h : KeyWholeTurn P C v line r) : WholeTurn P C v line r := by
  rcases h with h | ⟨args, h1, h2, h3, -⟩
  · exact .inl h.turn
  · exact .inr ⟨args, h1, h2, h3⟩

theorem keyYears_sublist {P : Prims} (hP : Crypt.Spec.Lawful P) {s0 s : DB} {f : Str} {rs : List Rec} (h : KeyYearsLater P s0 f rs s) :
    s0.log.Sublist s.log := by
  induction h with
  | held h => exact List.Sublist.refl _
  | @next f user uuid iv f' rs rs' s x u auto v v' turns r hx hu hn hxu ho hrun hr hk hm ih =>
    obtain ⟨y, u', k1, k2, k3, k4, k5, k6, -⟩ := C88_life_partial P hP _ _ _ (later_keyYears hx) _ _ hu
    have he := newest_unique k4.ring k1 hn (k2.trans hxu.symm)
    subst he
    rw [k3] at ho
    cases ho
    have := C111_program_partial P Json.Spec.codec auto v v' iv turns _ (some f') k4.sound (fun hh => (hrun.start hh).ok)
      (along_mono (fun _ _ _ h => key_whole h.1) _ _ hrun.lines) (fun hh => (hrun.stop hh).ok) (by rw [hr])
    rw [hr] at this
    simp only [k5.log] at this
    exact ih.trans this

theorem writable_keyYears {P : Prims} {s : DB} {f : Str} {rs : List Rec} (h : KeyYears P f rs s) : Writable P s := by
  cases h with
  | saved _ _ _ _ h => exact h
  | next _ _ _ _ _ hrun hr =>
    have a := hrun.writable
    rw [hr] at a
    exact a

/-- Nothing that was ever saved in a file with users that is synced leaves it: every user, however many runs of the program with
`sync`s by whomever later, can read every operation that ever was in it. -/
theorem C111_users_years_partial (P : Prims) (hP : Crypt.Spec.Lawful P) (s0 s : DB) (f : Str) (rs : List Rec)
    (h : KeyYearsLater P s0 f rs s) (uuid user : Str) (hu : IsUser s uuid user) :
    ∃ x u, Newest rs x ∧ x.uuid = uuid ∧ openFile P Json.Spec.codec none f [some user, some x.pass] = (.ok u, []) ∧
      ∀ t ∈ s0.log, Readable t u.store := by
  obtain ⟨x, u, k1, k2, k3, k4, k5, k6, -⟩ := C88_life_partial P hP _ _ _ (later_keyYears h) _ _ hu
  have hw := writable_keyYears (later_keyYears h)
  refine ⟨x, u, k1, k2, k3, fun t ht => ?_⟩
  refine C111_printed k4.sound.wf.good.ok (fun t ht => ⟨k6 t ht, hw.times t (by rw [k5.log] at ht; exact ht)⟩)
    (by have := hw.counted; unfold Counted at this ⊢; rw [k5.log]; exact this) ?_
  rw [k5.log]
  exact (keyYears_sublist hP h).subset ht

/-- And opened at an instant it shows every user all that it held at that instant, in the same order, with what other machines did up
to that instant and `sync` brought later, and nothing done after it. -/
theorem C99_users_years_partial (P : Prims) (hP : Crypt.Spec.Lawful P) (T : Int) (s0 s : DB) (f : Str) (rs : List Rec)
    (h : KeyYearsLater P s0 f rs s) (hT : ∀ t ∈ s0.log, t.time ≤ T) (uuid user : Str) (hu : IsUser s uuid user) :
    ∃ x u l, Newest rs x ∧ x.uuid = uuid ∧ openFile P Json.Spec.codec (some T) f [some user, some x.pass] = (.ok u, []) ∧
      u.readOnly = true ∧ Shows u.store l ∧ s0.log.Sublist l ∧ l.Sublist s.log ∧ ∀ t, t ∈ l ↔ t ∈ s.log ∧ t.time ≤ T := by
  obtain ⟨x, u, k1, k2, k3, k4, k5, k6, -⟩ := C88_life_partial P hP _ _ _ (later_keyYears h) _ _ hu
  obtain ⟨u', g1, g2, -, g4⟩ := C99_open_partial P Json.Spec.codec T f _ _ u k3 k4.sound.own.good
  rw [k5.log] at g4
  refine ⟨x, u', _, k1, k2, g1, g2, g4, ?_, List.filter_sublist, fun t => by simp [List.mem_filter]⟩
  have := (keyYears_sublist hP h).filter (fun x => decide (x.time ≤ T))
  rwa [List.filter_eq_self.2 (fun x hx => decide_eq_true (hT x hx))] at this

namespace GoneUsersDemo
open KeyYearsDemo

/-- "a" opens the file and changes the password; what was in it before is still there -/
theorem after : ∃ rs, KeyYearsLater toy LockDemo.u.store newFile rs run.1.u.store := by
  have hr : session toy Json.Spec.codec false LockDemo.env LockDemo.env SyncDemo.iv [(some (b! "passwd"), LockDemo.env)] opened =
      (run.1, .ok (some newFile)) := run_eq.trans (Prod.ext rfl (by decide +kernel))
  obtain ⟨⟨rs', h1, h2, -⟩, -⟩ := C88_run_partial toy toy_lawful false LockDemo.env LockDemo.env SyncDemo.iv
    [(some (b! "passwd"), LockDemo.env)] opened LockDemo.rs0 newFile run.1 opened_keyed
    (by rw [opened_log]; exact clean_u) run_ok hr
  exact ⟨rs', .next (.held start) LockDemo.user_a newest rfl opened_eq run_ok hr h1 h2⟩

/-- not vacuous: the old record of "a" can be read with the new password -/
example : ∃ rs x u, Newest rs x ∧ openFile toy Json.Spec.codec none newFile [some [97], some x.pass] = (.ok u, []) ∧
    ∀ t ∈ LockDemo.u.store.log, Readable t u.store := by
  obtain ⟨rs, h⟩ := after
  obtain ⟨x, u, h1, -, h2, h3⟩ := C111_users_years_partial toy toy_lawful _ _ _ _ h [9] [97] run_user
  exact ⟨rs, x, u, h1, h2, h3⟩

example : LockDemo.u.store.log ≠ [] := by decide +kernel

/-- not vacuous: opened before the change -/
example : ∃ rs x u l, Newest rs x ∧ openFile toy Json.Spec.codec (some 50) newFile [some [97], some x.pass] = (.ok u, []) ∧
    Shows u.store l ∧ LockDemo.u.store.log.Sublist l ∧ ⟨100, .setk, [9], keySalt, hexEncode (List.replicate 32 2)⟩ ∉ l := by
  obtain ⟨rs, h⟩ := after
  obtain ⟨x, u, l, h1, -, h2, -, h3, h4, -, h5⟩ := C99_users_years_partial toy toy_lawful 50 _ _ _ _ h (by decide +kernel) [9] [97] run_user
  exact ⟨rs, x, u, l, h1, h2, h3, h4, fun hm => absurd ((h5 _).1 hm).2 (by decide)⟩

end GoneUsersDemo
end Verif.App
