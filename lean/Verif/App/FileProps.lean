import Verif.App.File
import Verif.App.AccountsDemo
/-!
# Properties of a run of the program

C58 (a crash while saving) and C73 (the exit status).
-/
set_option linter.unusedSimpArgs false
namespace Verif.App
open Verif Verif.Txlogs Verif.Blob Verif.Crypt Verif.App.Spec
open Verif.Crypt.Spec (toy toy_lawful)

/-! ## C58 -/

theorem getLast?_writeFile (old : Disk) (data : Str) : (writeFile old data).getLast? = some (some data) := by
  unfold writeFile
  rw [List.range_succ, List.map_append, List.getLast?_cons, List.getLast?_append]
  simp

theorem mem_writeFile {old d : Disk} {data : Str} (h : d ∈ writeFile old data) : d = old ∨ ∃ k, d = some (data.take k) := by
  unfold writeFile at h
  rcases List.mem_cons.1 h with rfl | h
  · exact .inl rfl
  · obtain ⟨k, -, rfl⟩ := List.mem_map.1 h
    exact .inr ⟨k, rfl⟩

theorem empty_mem_writeFile (old : Disk) (data : Str) : some [] ∈ writeFile old data := by
  unfold writeFile
  refine List.mem_cons_of_mem _ (List.mem_map.2 ⟨0, ?_, rfl⟩)
  simp

/-- As long as writing itself does not fail, a run that ends in an error or a crash never touches the file; a run that ends well leaves the complete new file, or in a
read-only session the old one; on the way the file only ever contains the old contents or the beginning of the new ones. -/
theorem C58_partial (P : Prims) (C : Codec) (history : Option Int) (salt iv : Str) (v v' : Env) (job : Job) (inp : Input)
    (old : Disk) (trace : List Disk) (res : Res AppErr Unit)
    (h : main P C history salt iv v v' job inp old = (trace, res)) :
    (res ≠ .ok () → trace = [old]) ∧
    (res = .ok () → trace = [old] ∨ ∃ f, trace.getLast? = some (some f) ∧
      ∀ d ∈ trace, d = old ∨ ∃ k, d = some (f.take k)) := by
  unfold main at h
  split at h
  · cases h; exact ⟨fun _ => rfl, by simp⟩
  · cases h; exact ⟨fun _ => rfl, by simp⟩
  · split at h
    · cases h; exact ⟨fun _ => rfl, by simp⟩
    · cases h; exact ⟨fun _ => rfl, by simp⟩
    · rename_i u _
      simp only [Prod.mk.injEq] at h
      obtain ⟨rfl, rfl⟩ := h
      unfold saveTrace
      cases hs : saveBlob P C v'.ord v'.ord' iv u with
      | err e => exact ⟨fun _ => rfl, by simp⟩
      | panic => exact ⟨fun _ => rfl, by simp⟩
      | ok o =>
        cases o with
        | none => exact ⟨fun _ => rfl, fun _ => .inl rfl⟩
        | some f => exact ⟨by simp, fun _ => .inr ⟨f, getLast?_writeFile old f, fun d hd => mem_writeFile hd⟩⟩

/-- An empty file cannot be opened. -/
theorem openFile_empty (P : Prims) (C : Codec) (history : Option Int) (inp : Input) (u : Session) (inp' : Input) :
    openFile P C history [] inp ≠ (.ok u, inp') := by
  unfold openFile
  have : isMultiUser [] = .panic := by decide
  rw [this]
  simp

/-- False, and for every save whatsoever: while it is written the file is empty, which is neither the old nor the new file
and cannot be opened. -/
theorem C58_always_false (P : Prims) (C : Codec) (ord : Order) (ord' : Results → Results) (iv : Str) (u : Session) (old : Disk)
    (hold : old ≠ some []) (f : Str) (h : saveBlob P C ord ord' iv u = .ok (some f)) (hf : f ≠ []) :
    ∃ d ∈ saveTrace P C ord ord' iv u old, d ≠ old ∧ d ≠ some f ∧
      ∀ history inp, load P C history [] d inp = (openFile P C history [] inp) ∧
        ∀ u' inp', load P C history [] d inp ≠ (.ok u', inp') := by
  refine ⟨some [], ?_, Ne.symm hold, ?_, ?_⟩
  · unfold saveTrace; rw [h]; exact empty_mem_writeFile old f
  · intro h'; cases h'; exact hf rfl
  · intro history inp
    exact ⟨rfl, fun u' inp' => openFile_empty P C history inp u' inp'⟩

namespace FileDemo

/-- a file -/
def file : Str := match saveBlob toy (Demo.codec Demo.u0.store) id id (List.replicate 40 4) Demo.u0 with
  | .ok (some f) => f | _ => []

/-- a run that opens it and ends at once -/
def run : List Disk × Res AppErr Unit :=
  main toy (Demo.codec Demo.u0.store) none [] (List.replicate 40 2) {} {} (.prompt false []) [some [1]] (some file)

theorem empty : some [] ∈ run.1 ∧ some [] ≠ some file ∧ run.1.getLast? ≠ some (some []) := by decide +kernel

end FileDemo

/-- The statement is false: saving an unchanged file can leave it empty. -/
theorem C58_false : ¬ ∀ (P : Prims) (C : Codec) (salt iv : Str) (v v' : Env) (job : Job) (inp : Input) (old : Str)
    (trace : List Disk) (res : Res AppErr Unit), main P C none salt iv v v' job inp (some old) = (trace, res) →
    ∀ d ∈ trace, d = some old ∨ trace.getLast? = some d := by
  intro hall
  obtain ⟨h1, h2, h3⟩ := FileDemo.empty
  exact (hall toy (Demo.codec Demo.u0.store) [] (List.replicate 40 2) {} {} (.prompt false []) [some [1]] FileDemo.file
    FileDemo.run.1 FileDemo.run.2 (Prod.eta FileDemo.run).symm (some []) h1).elim h2 h3

/-! ## C73 -/

/-- The exit status says nothing about whether the run succeeded: it is 1 exactly when closing the terminal failed. -/
theorem C73_meaningless (clearClip clipFails closeFails : Bool) (r : Res AppErr Unit) (h : r ≠ .panic) :
    exitStatus clearClip clipFails closeFails r = if closeFails then 1 else 0 := by
  cases r with
  | panic => exact absurd rfl h
  | ok a => cases closeFails <;> simp [exitStatus]
  | err e => cases closeFails <;> simp [exitStatus]

/-- False: a run with a wrong password ends with status 0. -/
theorem C73_false : ¬ ∀ (P : Prims) (C : Codec) (history : Option Int) (salt iv : Str) (v v' : Env) (job : Job) (inp : Input)
    (old : Disk) (e : AppErr), (main P C history salt iv v v' job inp old).2 = .err e →
    exitStatus true false false (main P C history salt iv v v' job inp old).2 ≠ 0 := by
  intro hall
  have := hall toy (Demo.codec {}) none [] [] {} {} (.prompt false []) [] none .aborted (by decide +kernel)
  revert this
  decide +kernel

/-- A crash is reported. -/
theorem C73_crash_partial (clearClip clipFails closeFails : Bool) : exitStatus clearClip clipFails closeFails .panic = 2 := rfl

/-! ## The hypotheses can be met -/

/-- C58_partial: a run that adds an entry and saves -/
example : (main toy (Demo.codec {}) none (List.replicate 32 1) (List.replicate 40 2) {} {}
    (.prompt false [(some (b! "add a"), { d := { uuid := b! "u", inp := [some [], some [], some (b! "m"), some [7], some [7]] } })])
    [some [1], some [1]] none).2 = .ok () := by decide +kernel

/-- C58_always_false -/
example : ∃ f, saveBlob toy (Demo.codec {}) id id (List.replicate 40 2) Demo.u0 = .ok (some f) ∧ f ≠ [] := by
  refine ⟨match saveBlob toy (Demo.codec {}) id id (List.replicate 40 2) Demo.u0 with | .ok (some f) => f | _ => [], ?_⟩
  decide +kernel

end Verif.App
