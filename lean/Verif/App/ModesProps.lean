import Verif.App.ModesLemmas
/-!
# C113: What bpass writes, others cannot read

The property: a file that bpass makes cannot be read by other users of the machine. It holds for the password file, for remotes
of the kind `file` and for the temporary files of `edit`, whatever the umask; not for what `export` writes, which is the only file
with the passwords in plain text that stays.
-/
namespace Verif.App
open Verif Verif.Txlogs
open Modes

/-- A file that was not there, or that nobody else could use, cannot be read by others after anything that bpass does, but for an
export under that name. -/
theorem C113_private (umask : Nat) (as : List Act) (fs : Fs) (path : Str) (ha : ∀ a ∈ as, Unexported path a)
    (h : ∀ n, fs path = some n → Private n) :
    seen (run umask as fs) path = none ∧ ∀ n, run umask as fs path = some n → Private n :=
  ⟨not_seen (run_private umask as fs path ha h), run_private umask as fs path ha h⟩

/-- At no moment, that is: nor before the last of the writes. -/
theorem C113_always (umask : Nat) (as bs : List Act) (fs : Fs) (path : Str) (ha : ∀ a ∈ as ++ bs, Unexported path a)
    (h : ∀ n, fs path = some n → Private n) : seen (run umask as fs) path = none :=
  (C113_private umask as fs path (fun a hm => ha a (List.mem_append_left _ hm)) h).1

/-- The value that is edited is never readable, not even if somebody guessed the name of the temporary file and made one before: then
the value is not written. -/
theorem C113_edit (umask : Nat) (fs : Fs) (path value : Str) :
    (fs path = none → seen (act umask (.edit path value) fs) path = none) ∧
    (fs path ≠ none → act umask (.edit path value) fs = fs) := by
  constructor
  · intro h
    exact not_seen (act_private umask (.edit path value) fs path (fun d => by intro h; cases h) (by intro n hn; rw [h] at hn; cases hn))
  · intro h
    simp only [act, putNew]
    split
    · rfl
    · rename_i hn
      exact absurd hn h

/-- What is exported can be read by everybody exactly if the umask does not forbid it. -/
theorem C113_export (umask : Nat) (fs : Fs) (path data : Str) (h : fs path = none) :
    seen (act umask (.exportTo path data) fs) path = if umask &&& 4 = 0 then some data else none := by
  have hm : ∀ m : Nat, (newMode m 0o666 &&& 4 = 0) ↔ (m &&& 4 ≠ 0) := by
    intro m
    have hb : ∀ x : Nat, (x &&& 4 = 0) ↔ x.testBit 2 = false := by
      intro x
      constructor
      · intro h
        have := congrArg (fun y => Nat.testBit y 2) h
        simp only [Nat.testBit_and, Nat.zero_testBit] at this
        rw [show Nat.testBit 4 2 = true by decide, Bool.and_true] at this
        exact this
      · intro h
        refine Nat.eq_of_testBit_eq fun i => ?_
        rw [Nat.testBit_and, show (4 : Nat) = 2 ^ 2 from rfl, Nat.testBit_two_pow, Nat.zero_testBit]
        by_cases hi : 2 = i
        · subst hi
          rw [h, Bool.false_and]
        · simp [hi]
    rw [hb, ne_eq, hb]
    have h666 : Nat.testBit 0o666 2 = true := by decide
    have h1ff : Nat.testBit 0x1ff 2 = true := by decide
    unfold newMode
    rw [Nat.testBit_and, Nat.testBit_xor, Nat.testBit_and, h666, h1ff]
    cases m.testBit 2 <;> simp
  have hs : act umask (.exportTo path data) fs path = some { mode := newMode umask 0o666, data := data } := by
    simp only [act, put, setNode, if_true, h]
  unfold seen
  rw [hs]
  simp only
  by_cases hu : umask &&& 4 = 0
  · rw [if_pos hu, if_pos (fun h => (hm umask).1 h hu)]
  · rw [if_neg hu, if_neg (fun h => h ((hm umask).2 hu))]

/-- With the umask that is usual (022), whoever has an account on the machine can read all passwords as soon as they are exported. -/
theorem C113_export_false : ∃ (s : DB) (pass text : Str) (fs : Fs) (path : Str),
    (∃ e, s.snapshot.get? (b! "u") = some e ∧ e.get? (b! "pass") = some pass) ∧ export_ (b! "CSV") true s = .ok text ∧
    fs path = none ∧ seen (act 0o22 (.exportTo path text) fs) path = some text ∧ text = b! "name,pass\nbank,hunter2\n" ∧ pass = b! "hunter2" :=
  ⟨{ snapshot := [(b! "u", [(b! "name", b! "bank"), (b! "pass", b! "hunter2")])] }, b! "hunter2", b! "name,pass\nbank,hunter2\n", fun _ => none,
    b! "out.csv", ⟨[(b! "name", b! "bank"), (b! "pass", b! "hunter2")], by decide, by decide⟩, by decide +kernel, rfl,
    (C113_export 0o22 _ _ _ rfl).trans (by decide), rfl, rfl⟩

/-- A file that is there keeps its permissions, whatever is written: one that others can read stays so, for the password file (which is
encrypted) and for an export (which is not). -/
theorem C113_kept (umask : Nat) (fs : Fs) (path data : Str) (n : Modes.Node) (h : fs path = some n) :
    act umask (.save path data) fs path = some { n with data := data } ∧ act umask (.push path data) fs path = some { n with data := data } ∧
    act umask (.exportTo path data) fs path = some { n with data := data } := by
  simp [act, put, setNode, h]

theorem C113_existing_false : ∃ (fs : Fs) (path data : Str), seen (act 0o77 (.exportTo path data) fs) path = some data ∧ data ≠ [] :=
  ⟨fun _ => some { mode := 0o644, data := [] }, [], [1], rfl, by decide⟩

/-! ## Non-vacuity -/

-- a new file, edited, saved and pushed
example : seen (run 0o22 [.edit (b! "/tmp/bp1") (b! "old"), .wipe (b! "/tmp/bp1") (b! "new"), .remove (b! "/tmp/bp1"), .save (b! "f") [1],
    .push (b! "/mnt/f") [1], .exportTo (b! "out.csv") (b! "x")] (fun _ => none)) (b! "/mnt/f") = none :=
  (C113_private 0o22 _ (fun _ => none) (b! "/mnt/f")
    (by
      intro a ha d
      simp only [List.mem_cons, List.not_mem_nil, or_false] at ha
      rcases ha with rfl | rfl | rfl | rfl | rfl | rfl <;> simp)
    (by intro n h; cases h)).1

example : (run 0o22 [.push (b! "/mnt/f") [1]] (fun _ => none)) (b! "/mnt/f") = some { mode := 0o600, data := [1] } := by decide

end Verif.App
