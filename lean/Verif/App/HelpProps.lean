import Verif.App.Help
import Verif.App.ResumeProps

/-!
# C130: the help tells what the prompt does
-/

namespace Verif.App

open Verif Verif.Txlogs Verif.Blob Verif.Crypt Verif.App.Spec

namespace Help

theorem usages_eq : usages =
  [⟨b! "passwd", 0, 0, false⟩,
   ⟨b! "help", 0, 1, false⟩,
   ⟨b! "exit", 0, 0, false⟩,
   ⟨b! "add", 1, 1, false⟩,
   ⟨b! "rm", 1, 1, false⟩,
   ⟨b! "mv", 2, 2, false⟩,
   ⟨b! "ls", 0, 1, false⟩,
   ⟨b! "cd", 0, 1, false⟩,
   ⟨b! "labels", 1, 1, false⟩,
   ⟨b! "show", 1, 2, true⟩,
   ⟨b! "set", 2, 3, true⟩,
   ⟨b! "get", 2, 2, true⟩,
   ⟨b! "cp", 2, 2, true⟩,
   ⟨b! "edit", 2, 2, true⟩,
   ⟨b! "open", 1, 1, true⟩,
   ⟨b! "rmk", 2, 2, true⟩,
   ⟨b! "label", 1, 1, true⟩,
   ⟨b! "rmlabel", 2, 2, true⟩,
   ⟨b! "pass", 1, 1, true⟩,
   ⟨b! "user", 1, 1, true⟩,
   ⟨b! "email", 1, 1, true⟩,
   ⟨b! "totp", 1, 1, true⟩,
   ⟨b! "login", 1, 1, true⟩,
   ⟨b! "sync", 0, 1, false⟩,
   ⟨b! "addsync", 1, 1, false⟩,
   ⟨b! "adduser", 1, 1, false⟩,
   ⟨b! "passwd", 0, 1, false⟩,
   ⟨b! "rekey", 0, 1, false⟩,
   ⟨b! "rekeyall", 0, 0, false⟩,
   ⟨b! "dump", 1, 1, true⟩,
   ⟨b! "dumpall", 0, 0, false⟩] := by decide +kernel

end Help

open Help

/-- The commands described in the help and in the topics it names are exactly those that are known. -/
theorem C130_commands (cmd : Str) : (∃ u ∈ usages, u.cmd = cmd) ↔ readOnlyFlag cmd ≠ none := by
  rw [usages_eq]
  constructor
  · rintro ⟨u, hu, rfl⟩
    revert u
    decide +kernel
  · intro h
    have : cmd ∈ [b! "passwd", b! "adduser", b! "rekey", b! "rekeyall", b! "add", b! "mv", b! "rm", b! "rmk", b! "login", b! "set",
      b! "edit", b! "label", b! "rmlabel", b! "sync", b! "addsync"] ++ [b! "ls", b! "cd", b! "cp", b! "get", keyUser, keyPass, keyEmail,
      keyTwoFactor, b! "open", b! "labels", b! "show", b! "dump", b! "dumpall", b! "help", b! "exit"] := by
      unfold readOnlyFlag at h
      split at h
      · exact List.mem_append_left _ (by assumption)
      · split at h
        · exact List.mem_append_right _ (by assumption)
        · exact absurd rfl h
    revert this
    generalize cmd = c
    revert c
    decide +kernel

/-- The topics named in the help are exactly those about which it says something. -/
theorem C130_topics (t : Str) (rest : List Str) : t ∈ topics (helpCmd []) ↔ helpCmd (t :: rest) ≠ [] := by
  have h : topics (helpCmd []) = [b! "sync", b! "users", b! "other"] := by decide +kernel
  rw [h]
  unfold helpCmd
  dsimp only
  by_cases h1 : t = b! "sync"
  · subst h1; exact ⟨fun _ => by rw [if_pos rfl]; exact List.cons_ne_nil _ _, fun _ => by decide⟩
  · by_cases h2 : t = b! "users"
    · subst h2; exact ⟨fun _ => by rw [if_neg h1, if_pos rfl]; exact List.cons_ne_nil _ _, fun _ => by decide⟩
    · by_cases h3 : t = b! "other"
      · subst h3; exact ⟨fun _ => by rw [if_neg h1, if_neg h2, if_pos rfl]; exact List.cons_ne_nil _ _, fun _ => by decide⟩
      · rw [if_neg h1, if_neg h2, if_neg h3]
        simp [h1, h2, h3]

/-- A line with fewer arguments than the help asks for does nothing at all; a query can be left out if there is a current entry. -/
theorem C130_few (P : Prims) (C : Codec) (v : Env) (line : Str) (r : Repl) (u : Usage) (hu : u ∈ usages) (args : List Str)
    (hp : parseLine line = some (u.cmd, args))
    (hf : args.length + (if u.query = true ∧ r.ctx ≠ [] then 1 else 0) < u.need) : runLine P C v line r = (r, .ok false) := by
  rw [usages_eq] at hu
  unfold runLine
  rw [hp]
  dsimp only
  simp only [List.mem_cons, List.not_mem_nil, or_false] at hu
  rcases hu with rfl | rfl | rfl | rfl | rfl | rfl | rfl | rfl | rfl | rfl | rfl | rfl | rfl | rfl | rfl | rfl | rfl | rfl | rfl | rfl | rfl | rfl | rfl | rfl | rfl | rfl | rfl | rfl | rfl | rfl | rfl
  all_goals first
    | exact absurd hf (Nat.not_lt_zero _)
    | (rcases args with _ | ⟨a, _ | ⟨b, rest⟩⟩ <;> by_cases hc : r.ctx = [] <;> simp [hc] at hf <;> first | omega |
        simp (decide := true) [readOnlyFlag, execRead, execWrite, queryArgs, queryArg, setArgs, hc])

/-- Arguments beyond those the help knows do not matter. `set` and `labels` are described as taking any number; for `get`, `cp` and
`cd` see C130_index, C130_cd and C130_surplus_false. -/
theorem C130_surplus_partial (P : Prims) (C : Codec) (v : Env) (line line' cmd : Str) (args : List Str) (n : Nat) (r : Repl)
    (hp : parseLine line = some (cmd, args)) (hp' : parseLine line' = some (cmd, args.take n))
    (hn : ∀ u ∈ usages, u.cmd = cmd → u.all ≤ n) (hc : cmd ∉ [b! "set", b! "labels", b! "get", b! "cp", b! "cd"]) :
    runLine P C v line' r = runLine P C v line r := by
  unfold runLine
  rw [hp, hp']
  dsimp only
  by_cases hnil : args = []
  · rw [hnil, List.take_nil]
  by_cases hk : readOnlyFlag cmd = none
  · rw [hk]
  · obtain ⟨u, hu, rfl⟩ := (C130_commands cmd).2 hk
    rw [usages_eq] at hu hn
    simp only [List.mem_cons, List.not_mem_nil, or_false] at hu
    rcases hu with rfl | rfl | rfl | rfl | rfl | rfl | rfl | rfl | rfl | rfl | rfl | rfl | rfl | rfl | rfl | rfl | rfl | rfl | rfl | rfl | rfl | rfl | rfl | rfl | rfl | rfl | rfl | rfl | rfl | rfl | rfl
    all_goals first
      | exact absurd (by decide) hc
      | (have h0 := hn
         simp only [List.forall_mem_cons] at h0
         simp (decide := true) at h0
         rcases args with _ | ⟨a, _ | ⟨b, rest⟩⟩ <;> rcases n with _ | _ | n
         all_goals first
           | exact absurd rfl hnil
           | omega
           | (simp (decide := true) [readOnlyFlag, execRead, execWrite, queryArgs, queryArg]; done)
           | (simp (decide := true) [readOnlyFlag, execRead, execWrite]; done)
           | (simp (decide := true) [readOnlyFlag, execRead, execWrite]; exact rfl)
           | (by_cases hx : r.ctx = [] <;> simp (decide := true) [readOnlyFlag, execRead, execWrite, queryArgs, hx]))

/-- `get` and `cp` with arguments beyond query and key (or beyond the key, in an entry): if the first of them is a number they do
not matter, otherwise the line does nothing. -/
theorem C130_index (P : Prims) (C : Codec) (v : Env) (line line' cmd : Str) (args : List Str) (n : Nat) (x : Str) (rest : List Str)
    (r : Repl) (hcmd : cmd = b! "get" ∨ cmd = b! "cp") (hn : n = if r.ctx = [] then 2 else 1) (ha : args.length = n)
    (hp : parseLine line = some (cmd, args ++ x :: rest)) (hp' : parseLine line' = some (cmd, args)) :
    runLine P C v line r = if (atoi x).isNone then (r, .ok false) else runLine P C v line' r := by
  unfold runLine
  rw [hp, hp']
  by_cases hctx : r.ctx = []
  · rw [if_pos hctx] at hn
    subst hn
    rcases args with _ | ⟨q, _ | ⟨k, _ | ⟨z, t⟩⟩⟩ <;> simp at ha
    rcases hcmd with rfl | rfl <;> cases hx : atoi x <;>
      simp (decide := true) [readOnlyFlag, execRead, queryArgs, hctx, hx]
  · rw [if_neg hctx] at hn
    subst hn
    rcases args with _ | ⟨k, _ | ⟨z, t⟩⟩ <;> simp at ha
    rcases hcmd with rfl | rfl <;> cases hx : atoi x <;>
      simp (decide := true) [readOnlyFlag, execRead, queryArgs, hctx, hx]

/-- `cd` with more than one argument does nothing. -/
theorem C130_cd (P : Prims) (C : Codec) (v : Env) (line a b : Str) (rest : List Str) (r : Repl)
    (hp : parseLine line = some (b! "cd", a :: b :: rest)) : runLine P C v line r = (r, .ok false) := by
  unfold runLine
  rw [hp]
  simp (decide := true) [readOnlyFlag, execRead, cd]

namespace HelpDemo
open Verif.Crypt.Spec (toy)
open ResumeDemo (vY rY)

/-- "get y pass", and the same with a third argument -/
theorem differ : (runLine toy Json.Spec.codec vY (b! "get y pass") rY).1.out ≠ (runLine toy Json.Spec.codec vY (b! "get y pass now") rY).1.out := by
  decide +kernel

/-- "mv y" does nothing -/
example : runLine toy Json.Spec.codec vY (b! "mv y") rY = (rY, .ok false) :=
  C130_few toy Json.Spec.codec vY (b! "mv y") rY ⟨b! "mv", 2, 2, false⟩ (by decide +kernel) [b! "y"] (by decide +kernel) (by decide)

/-- "rmk" in an entry does nothing -/
example : runLine toy Json.Spec.codec vY (b! "rmk") { rY with ctx := b! "y" } = ({ rY with ctx := b! "y" }, .ok false) :=
  C130_few toy Json.Spec.codec vY (b! "rmk") _ ⟨b! "rmk", 2, 2, true⟩ (by decide +kernel) [] (by decide +kernel) (by decide)

/-- "mv y z w" is "mv y z" -/
example : (runLine toy Json.Spec.codec vY (b! "mv y z w") rY).1.u.store.log ≠ rY.u.store.log := by
  rw [← C130_surplus_partial toy Json.Spec.codec vY (b! "mv y z w") (b! "mv y z") (b! "mv") [b! "y", b! "z", b! "w"] 2 rY
    (by decide +kernel) (by decide +kernel) (by decide +kernel) (by decide)]
  decide +kernel

/-- "get y pass 3" is "get y pass", "get y pass now" does nothing, nor does "cd y z" -/
example : runLine toy Json.Spec.codec vY (b! "get y pass 3") rY = runLine toy Json.Spec.codec vY (b! "get y pass") rY ∧
    runLine toy Json.Spec.codec vY (b! "get y pass now") rY = (rY, .ok false) ∧
    runLine toy Json.Spec.codec vY (b! "cd y z") rY = (rY, .ok false) :=
  ⟨(C130_index toy Json.Spec.codec vY _ (b! "get y pass") (b! "get") [b! "y", b! "pass"] 2 (b! "3") [] rY (Or.inl rfl)
      (by decide +kernel) rfl (by decide +kernel) (by decide +kernel)).trans (if_neg (by decide +kernel)),
    (C130_index toy Json.Spec.codec vY _ (b! "get y pass") (b! "get") [b! "y", b! "pass"] 2 (b! "now") [] rY (Or.inl rfl)
      (by decide +kernel) rfl (by decide +kernel) (by decide +kernel)).trans (if_pos (by decide +kernel)),
    C130_cd toy Json.Spec.codec vY _ (b! "y") (b! "z") [] rY (by decide +kernel)⟩

/-- `labels` is described, under the topic "users" there is text, under "labels" there is none -/
example : (∃ u ∈ usages, u.cmd = b! "labels") ∧ b! "users" ∈ topics (helpCmd []) ∧ helpCmd [b! "labels"] = [] :=
  ⟨(C130_commands _).2 (by decide), (C130_topics _ []).2 (by decide +kernel), by decide +kernel⟩

end HelpDemo

open HelpDemo in
/-- C130 is false of `get`: it takes a third argument that the help does not know, refuses one that is not a number (repl.go:584-592), and ignores the number
(commands.go:658). -/
theorem C130_surplus_false : ¬ ∀ (P : Prims) (C : Codec) (v : Env) (line line' cmd : Str) (args : List Str) (n : Nat) (r : Repl),
    WellFormed r.u.store → parseLine line = some (cmd, args) → parseLine line' = some (cmd, args.take n) →
    (∀ u ∈ usages, u.cmd = cmd → u.all ≤ n) → cmd ∉ [b! "set", b! "labels"] →
    (runLine P C v line' r).1.out = (runLine P C v line r).1.out := by
  intro h
  exact differ (h Crypt.Spec.toy Json.Spec.codec ResumeDemo.vY (b! "get y pass now") (b! "get y pass") (b! "get") [b! "y", b! "pass", b! "now"] 2
    ResumeDemo.rY ResumeDemo.rY_wf.1 (by decide +kernel) (by decide +kernel) (by decide +kernel) (by decide))

end Verif.App
