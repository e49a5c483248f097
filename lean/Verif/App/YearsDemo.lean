import Verif.App.YearsProps
import Verif.App.OwnSyncDemo
/-!
# C98 over the life of a file: the hypotheses can be met

The primitives are `Crypt.Spec.toy`.
-/
set_option linter.unusedSimpArgs false
namespace Verif.App
open Verif Verif.Txlogs Verif.Blob Verif.Crypt Verif.App.Spec
open Verif.Crypt.Spec (toy toy_lawful)

namespace YearsDemo
open Verif.App.SyncDemo (iv)
open HistoryDemo (logL logR u v)
open OwnSyncDemo (turn saved done done_eq written along)

theorem textW : TextWorld turn.w :=
  ⟨fun _ _ _ _ _ _ _ h => (by cases h), fun _ _ _ _ _ _ _ _ h => (by cases h)⟩

theorem choices : SyncChoices (fun _ => True) turn.v :=
  ⟨fun m => List.Perm.refl m, fun m => List.Perm.refl m, fun _ => trivial, fun _ => trivial⟩

theorem doneLog : done.1.u.store.log = logL ++ (logR (b! "shop")).drop 4 := by decide +kernel

theorem run : Run toy false turn turn iv [(some (b! "sync"), turn)] u := by
  have hp : parseLine (b! "sync") = some (b! "sync", []) := by decide +kernel
  refine ⟨by decide, by simp, ?_, by simp, ?_, ?_⟩
  · exact ⟨⟨along.1.1, along.1.2, .inr ⟨[], hp, textW, choices⟩⟩, trivial⟩
  · rw [done_eq, doneLog]
    unfold FitsInt64
    decide +kernel
  · rw [done_eq]; unfold Counted; rw [doneLog]; decide

theorem pair_of {α β : Type} {x : α × β} {b : β} (h : x.2 = b) : x = (x.1, b) := h ▸ rfl

theorem clean : ∀ t ∈ u.store.log, Json.Spec.CleanTx t := fun t ht => (SyncTextDemo.clean t ht).1

-- C98: a run of the program in which `sync` asked for another passphrase
example := C98_run_partial toy toy_lawful false turn turn iv [(some (b! "sync"), turn)] u [1] saved done.1 OwnSyncDemo.own
  HistoryDemo.sound clean run (by rw [done_eq]; exact pair_of written)

def fresh : Session :=
  match createFile toy none (List.replicate 32 3) [some [1], some [1]] with
  | (.ok u, _) => u
  | _ => {}

def firstRun : Repl × Res AppErr (Option Str) := session toy Json.Spec.codec false turn turn iv [] fresh

def first : Str :=
  match firstRun.2 with
  | .ok (some f) => f
  | _ => []

theorem firstYear : Years toy first [1] firstRun.1.u.store := by
  refine .new (pass := [1]) (salt := List.replicate 32 3) (inp := []) (u := fresh) (auto := false) (v := turn) (v' := turn) (iv := iv)
    (turns := []) (r := firstRun.1) (by decide) (by decide +kernel) ⟨by decide, by simp, trivial, by simp, ?_, ?_⟩
    (Prod.ext rfl (by decide +kernel)) ⟨[1], [1], .inl rfl, .nil, .inl rfl⟩ (by decide) (by decide +kernel)
  · have : firstRun.1.u.store.log = [] := by decide +kernel
    intro t ht
    have ht : t ∈ firstRun.1.u.store.log := ht
    rw [this] at ht
    cases ht
  · show firstRun.1.u.store.log.length < _
    decide +kernel

-- C98: the file of that first run
example := C98_life_partial toy toy_lawful first [1] _ firstYear

def second : Session :=
  match openFile toy Json.Spec.codec none first [some [1]] with
  | (.ok u, _) => u
  | _ => {}

def secondRun : Repl × Res AppErr (Option Str) := session toy Json.Spec.codec false turn turn iv [] second

theorem second_eq : session toy Json.Spec.codec false turn turn iv [] second = secondRun := rfl

def secondFile : Str :=
  match secondRun.2 with
  | .ok (some f) => f
  | _ => []

theorem secondLog : secondRun.1.u.store.log = [] := by decide +kernel

-- C98: the next run
example : ∃ q, Passed false turn turn [] [1] q ∧ Years toy secondFile q secondRun.1.u.store := by
  refine C98_next_partial toy toy_lawful first [1] _ firstYear false turn turn iv [] second secondRun.1 secondFile (by decide +kernel)
    ⟨by decide, by simp, trivial, by simp, ?_, ?_⟩
    (by rw [second_eq]; exact pair_of (by decide +kernel))
  · rw [second_eq, secondLog]
    intro t ht
    cases ht
  · rw [second_eq]
    unfold Counted
    rw [secondLog]
    decide

end YearsDemo
end Verif.App
