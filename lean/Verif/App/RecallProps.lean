import Verif.App.RecallLemmas
import Verif.App.AccountsDemo
/-!
# C114: What can be recalled at the prompt

The property: the arrow keys bring back the commands of this session and nothing else, above all nothing that was typed as an answer
to a question.
-/
namespace Verif.App
open Verif Verif.Txlogs Verif.Blob Verif.Crypt Verif.App.Spec
open Verif.Crypt.Spec (toy)

/-- Remembering lines does not change what the session does. -/
theorem C114_same (P : Prims) (C : Codec) (turns : List Turn) (r : Repl) : (runRecall P C turns r).1 = runRepl P C turns r := by
  induction turns generalizing r with
  | nil => rfl
  | cons t rest ih =>
    obtain ⟨line, v⟩ := t
    cases line with
    | none => rfl
    | some line =>
      rw [runRecall, runRepl]
      unfold runLine
      cases hp : parseLine line with
      | none => exact ih r
      | some ca =>
        obtain ⟨cmd, args⟩ := ca
        dsimp only
        cases hf : readOnlyFlag cmd with
        | none => exact ih r
        | some ro =>
          dsimp only
          cases ro with
          | true =>
            rw [if_neg (by simp)]
            simp only [if_true]
            generalize execRead v cmd args r = x
            obtain ⟨r', o⟩ := x
            match o with
            | .ok false => exact ih r'
            | .ok true => rfl
            | .err e => rfl
            | .panic => rfl
          | false =>
            by_cases hr : r.u.readOnly = true
            · rw [if_pos ⟨hr, rfl⟩, if_pos hr]
              exact ih r
            · rw [if_neg (fun h => hr h.1), if_neg hr]
              simp only [Bool.false_eq_true, if_false]
              generalize execWrite P C v cmd args r = x
              obtain ⟨r', o⟩ := x
              match o with
              | .ok false => exact ih r'
              | .ok true => rfl
              | .err e => rfl
              | .panic => rfl

/-- What is remembered are the lines with a command that is allowed, without the spaces around them, in the order in which they were
typed: all of them unless a command ended the session with an error, and else those up to it. -/
theorem C114_exact (P : Prims) (C : Codec) (turns : List Turn) (r : Repl) :
    (runRecall P C turns r).2 <+: ((atPrompt turns).filter (isCommand r.u.readOnly)).map trimSpace ∧
    ((runRecall P C turns r).1.2 = .ok () → (runRecall P C turns r).2 = ((atPrompt turns).filter (isCommand r.u.readOnly)).map trimSpace) := by
  induction turns generalizing r with
  | nil => exact ⟨List.prefix_refl _, fun _ => rfl⟩
  | cons t rest ih =>
    obtain ⟨line, v⟩ := t
    cases line with
    | none => exact ⟨List.prefix_refl _, fun _ => rfl⟩
    | some line =>
      rw [runRecall, atPrompt]
      cases hp : parseLine line with
      | none =>
        have hc : isCommand r.u.readOnly line = false := by simp [isCommand, hp]
        rw [if_neg (by simp), List.filter_cons_of_neg (by simp [hc])]
        exact ih r
      | some ca =>
        obtain ⟨cmd, args⟩ := ca
        dsimp only
        by_cases he : cmd = b! "exit"
        · subst he
          have hf : readOnlyFlag (b! "exit") = some true := by decide
          rw [Option.map_some, if_pos rfl, hf]
          dsimp only
          rw [if_neg (by simp)]
          simp only [if_true]
          rw [show execRead v (b! "exit") args r = (r, .ok true) from rfl]
          exact ⟨List.prefix_refl _, fun _ => rfl⟩
        rw [Option.map_some, if_neg (by simpa using he)]
        cases hf : readOnlyFlag cmd with
        | none =>
          have hc : isCommand r.u.readOnly line = false := by simp [isCommand, hp, hf]
          rw [List.filter_cons_of_neg (by simp [hc])]
          exact ih r
        | some ro =>
          dsimp only
          by_cases hr : r.u.readOnly = true ∧ ro = false
          · have hc : isCommand r.u.readOnly line = false := by simp [isCommand, hp, hf, hr.1, hr.2]
            rw [if_pos hr, List.filter_cons_of_neg (by simp [hc])]
            exact ih r
          · have hc : isCommand r.u.readOnly line = true := by
              simp only [isCommand, hp, hf]
              cases h1 : r.u.readOnly <;> cases h2 : ro <;> simp_all
            rw [if_neg hr, List.filter_cons_of_pos (by simp [hc])]
            have h1 := exec_ro P C v cmd args ro r
            have h2 := exec_ne P C v cmd args ro r he
            generalize (if ro = true then execRead v cmd args r else execWrite P C v cmd args r) = x at h1 h2
            obtain ⟨r', o⟩ := x
            match o with
            | .ok false =>
              have hi := ih r'
              rw [show r'.u.readOnly = r.u.readOnly from h1] at hi
              dsimp only
              rw [List.map_cons]
              refine ⟨(List.prefix_cons_inj _).2 hi.1, fun h => ?_⟩
              rw [hi.2 h]
            | .ok true => exact absurd rfl h2
            | .err e => exact ⟨List.nil_prefix, fun h => by cases h⟩
            | .panic => exact ⟨List.nil_prefix, fun h => by cases h⟩

/-- Nothing is remembered but lines typed at the prompt whose first word is a command: a password typed there by mistake is not, unless it
begins like a command. -/
theorem C114_only (P : Prims) (C : Codec) (turns : List Turn) (r : Repl) (l : Str) (h : l ∈ (runRecall P C turns r).2) :
    ∃ line v, (some line, v) ∈ turns ∧ l = trimSpace line ∧ ∃ cmd args, parseLine line = some (cmd, args) ∧ readOnlyFlag cmd ≠ none ∧
      (r.u.readOnly = true → readOnlyFlag cmd = some true) := by
  have hm := (C114_exact P C turns r).1.subset h
  rw [List.mem_map] at hm
  obtain ⟨line, hl, rfl⟩ := hm
  rw [List.mem_filter] at hl
  obtain ⟨hl, hc⟩ := hl
  have ht : ∀ ts : List Turn, line ∈ atPrompt ts → ∃ v, (some line, v) ∈ ts := by
    intro ts
    induction ts with
    | nil => intro h; cases h
    | cons t ts ih =>
      intro h
      obtain ⟨x, v⟩ := t
      cases x with
      | none => cases h
      | some x =>
        rw [atPrompt] at h
        split at h
        · cases h
        · rcases List.mem_cons.1 h with rfl | h
          · exact ⟨v, .head _⟩
          · obtain ⟨v', h'⟩ := ih h
            exact ⟨v', .tail _ h'⟩
  obtain ⟨v, hv⟩ := ht turns hl
  refine ⟨line, v, hv, rfl, ?_⟩
  unfold isCommand at hc
  split at hc
  · cases hc
  · rename_i cmd args hp
    split at hc
    · cases hc
    · rename_i ro hf
      refine ⟨cmd, args, hp, by simp [hf], fun hr => ?_⟩
      rw [hr] at hc
      rw [hf]
      simpa using hc

/-- The answers to questions, hidden or not, are not remembered: with other answers, another clock and other remotes the same lines are
remembered, if no command ends the session with an error. -/
theorem C114_answers (P : Prims) (C : Codec) (turns turns' : List Turn) (r r' : Repl) (hl : turns.map Prod.fst = turns'.map Prod.fst)
    (hr : r'.u.readOnly = r.u.readOnly) (h : (runRepl P C turns r).2 = .ok ()) (h' : (runRepl P C turns' r').2 = .ok ()) :
    (runRecall P C turns r).2 = (runRecall P C turns' r').2 := by
  rw [(C114_exact P C turns r).2 (by rw [C114_same]; exact h), (C114_exact P C turns' r').2 (by rw [C114_same]; exact h'), hr]
  have ht : ∀ ts ts' : List Turn, ts.map Prod.fst = ts'.map Prod.fst → atPrompt ts = atPrompt ts' := by
    intro ts
    induction ts with
    | nil =>
      intro ts' h
      cases ts' with
      | nil => rfl
      | cons _ _ => simp at h
    | cons t ts ih =>
      intro ts' h
      cases ts' with
      | nil => simp at h
      | cons t' ts' =>
        obtain ⟨x, v⟩ := t
        obtain ⟨x', v'⟩ := t'
        simp only [List.map_cons, List.cons.injEq] at h
        obtain ⟨rfl, h⟩ := h
        cases x with
        | none => rfl
        | some x =>
          rw [atPrompt, atPrompt, ih ts' h]
  rw [ht turns turns' hl]

namespace RecallDemo

/-- a file with the entry `bank` -/
def r0 : Repl := { u := { store := { log := [⟨0, .add, b! "u", [], []⟩, ⟨1, .setk, b! "u", b! "name", b! "bank"⟩] } } }

/-- a password set in one line, then one with the question, then a password typed at the prompt, and a command that says how it is used -/
def turns : List Turn :=
  [(some (b! "set bank pass hunter2"), {}), (some (b! " set bank pin"), { d := { inp := [some (b! "1234"), some (b! ".")] } }),
   (some (b! "hunter2"), {}), (some (b! "set"), {})]

theorem recalled : (runRecall toy (Demo.codec {}) turns r0).2 = [b! "set bank pass hunter2", b! "set bank pin", b! "set"] ∧
    (runRecall toy (Demo.codec {}) turns r0).1.2 = .ok () ∧
    (runRecall toy (Demo.codec {}) turns r0).1.1.u.store.log.length = 6 := by decide +kernel

end RecallDemo
open RecallDemo

/-- A value given in a line of `set`, a password say, can be brought back by whoever comes to the keyboard. -/
theorem C114_value_false : ∃ (turns : List Turn) (r : Repl) (q value : Str), (runRepl toy (Demo.codec {}) turns r).2 = .ok () ∧
    (b! "set " ++ q ++ b! " pass " ++ value) ∈ (runRecall toy (Demo.codec {}) turns r).2 ∧
    ∃ tx ∈ (runRepl toy (Demo.codec {}) turns r).1.u.store.log, tx.key = keyPass ∧ tx.value = value :=
  ⟨turns, r0, b! "bank", b! "hunter2", by rw [← C114_same]; exact recalled.2.1, by rw [recalled.1]; exact .head _, by decide +kernel⟩

/-- Nor are only valid commands remembered, as the comment at `AddHistory` asks for (line_editing.go:23-25). -/
theorem C114_valid_false : ∃ (r : Repl) (line : Str), line ∈ (runRecall toy (Demo.codec {}) [(some line, {})] r).2 ∧
    runLine toy (Demo.codec {}) {} line r = (r, .ok false) ∧ setArgs r.ctx [] = none ∧ parseLine line = some (b! "set", []) :=
  ⟨{ u := {} }, b! "set", by decide +kernel, by decide +kernel, by decide, by decide⟩

/-! ## Non-vacuity -/

example : (runRecall toy (Demo.codec {}) turns r0).2 = ((atPrompt turns).filter (isCommand false)).map trimSpace :=
  (C114_exact toy (Demo.codec {}) turns r0).2 recalled.2.1

-- other answers
example : (runRecall toy (Demo.codec {}) turns r0).2 =
    (runRecall toy (Demo.codec {}) (turns.map fun t => (t.1, { t.2 with d := { t.2.d with inp := [some (b! "9")] } })) r0).2 :=
  C114_answers toy (Demo.codec {}) _ _ r0 r0 (by simp) rfl (by rw [← C114_same]; exact recalled.2.1) (by decide +kernel)

end Verif.App
