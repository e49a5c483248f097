import Verif.App.Scan
import Verif.App.RecallLemmas
import Verif.App.TightProps
import Verif.App.FileProps
/-!
# C124: on Windows a run is kept only if it is left with `exit`
-/
set_option linter.unusedSimpArgs false
namespace Verif.App
open Verif Verif.Txlogs Verif.Blob Verif.Crypt Verif.App.Spec
open Verif.Crypt.Spec (toy toy_lawful)

theorem takeWhile_line {l rest : Str} (h : (10 : UInt8) ∉ l) :
    (l ++ 10 :: rest).takeWhile (· ≠ 10) = l ∧ (l ++ 10 :: rest).dropWhile (· ≠ 10) = 10 :: rest := by
  induction l with
  | nil => simp
  | cons c l ih =>
    have hc : c ≠ 10 := fun e => h (by simp [e])
    obtain ⟨a, b⟩ := ih (fun hm => h (by simp [hm]))
    simp only [List.cons_append, List.takeWhile_cons, List.dropWhile_cons, hc, ne_eq, not_false_eq_true, decide_true, if_true]
    exact ⟨by rw [show List.takeWhile (fun x => decide ¬x = (10 : UInt8)) (l ++ 10 :: rest) = l from a], b⟩

theorem scanLines_more (s : Str) : ∀ n, s.length ≤ n → scanLines n s = scanLines s.length s := by
  suffices ∀ k s, s.length ≤ k → ∀ n m, s.length ≤ n → s.length ≤ m → scanLines n s = scanLines m s from
    fun n hn => this s.length s (Nat.le_refl _) n s.length hn (Nat.le_refl _)
  intro k
  induction k with
  | zero =>
    intro s hs n m _ _
    have : s = [] := List.eq_nil_of_length_eq_zero (by omega)
    subst this
    cases n <;> cases m <;> simp [scanLines, scanLine]
  | succ k ih =>
    intro s hs n m hn hm
    cases s with
    | nil => cases n <;> cases m <;> simp [scanLines, scanLine]
    | cons c s =>
      cases n with
      | zero => simp at hn
      | succ n =>
        cases m with
        | zero => simp at hm
        | succ m =>
          simp only [scanLines]
          cases hx : scanLine (c :: s) with
          | none => rfl
          | some p =>
            obtain ⟨line, rest⟩ := p
            have hr : rest.length ≤ s.length := by
              unfold scanLine at hx
              split at hx
              · cases hx
              · simp only [Option.some.injEq, Prod.mk.injEq] at hx
                rw [← hx.2, List.length_drop]
                have := (List.dropWhile_sublist (fun x => decide (x ≠ (10 : UInt8))) (l := c :: s)).length_le
                simp only [List.length_cons] at this
                omega
            simp only [List.length_cons] at hn hm hs
            show line :: scanLines n rest = line :: scanLines m rest
            rw [ih rest (by omega) n m (by omega) (by omega)]

theorem scanned_line {l rest : Str} (h : (10 : UInt8) ∉ l) (hl : l.length < scanMax) :
    scanned (l ++ 10 :: rest) = dropCR l :: scanned rest := by
  obtain ⟨a, b⟩ := takeWhile_line (rest := rest) h
  unfold scanned
  rw [show (l ++ 10 :: rest).length = (l.length + rest.length) + 1 by simp; omega]
  have hx : scanLine (l ++ 10 :: rest) = some (dropCR l, rest) := by
    unfold scanLine
    rw [a, b, if_neg]
    · rfl
    · rintro (h1 | h1)
      · cases l <;> simp at h1
      · omega
  simp only [scanLines, hx]
  rw [scanLines_more rest _ (by omega)]

/-- What is typed comes out line by line: with either kind of line end, and lines of fewer than 65535 bytes that do not themselves end
in a carriage return. -/
theorem C124_scan (lines : List (Str × Bool)) (h : ∀ p ∈ lines, (10 : UInt8) ∉ p.1 ∧ p.1.length + 1 < scanMax ∧ p.1.getLast? ≠ some 13) :
    scanned (lines.flatMap fun p => p.1 ++ (if p.2 then [13, 10] else [10])) = lines.map Prod.fst := by
  induction lines with
  | nil => rfl
  | cons p lines ih =>
    obtain ⟨l, crlf⟩ := p
    obtain ⟨h1, h2, h3⟩ := h _ (List.mem_cons_self ..)
    simp only at h1 h2 h3
    rw [List.flatMap_cons, List.map_cons, ← ih (fun q hq => h q (by simp [hq]))]
    cases crlf with
    | false =>
      rw [if_neg Bool.false_ne_true, List.append_assoc]
      rw [show [10] ++ List.flatMap (fun p : Str × Bool => p.1 ++ (if p.2 then [13, 10] else [10])) lines =
        10 :: List.flatMap (fun p : Str × Bool => p.1 ++ (if p.2 then [13, 10] else [10])) lines from rfl]
      rw [scanned_line h1 (by omega)]
      unfold dropCR
      rw [if_neg h3]
    | true =>
      rw [if_pos rfl]
      rw [show l ++ [13, 10] ++ List.flatMap (fun p : Str × Bool => p.1 ++ (if p.2 then [13, 10] else [10])) lines =
        (l ++ [13]) ++ 10 :: List.flatMap (fun p : Str × Bool => p.1 ++ (if p.2 then [13, 10] else [10])) lines by simp]
      rw [scanned_line (by simp [h1]) (by simp; omega)]
      unfold dropCR
      rw [if_pos (by simp)]
      simp

/-- After a line of 65536 bytes or more nothing is read, not even `exit`. -/
theorem C124_long (lines : List (Str × Bool)) (h : ∀ p ∈ lines, (10 : UInt8) ∉ p.1 ∧ p.1.length + 1 < scanMax ∧ p.1.getLast? ≠ some 13)
    (long rest : Str) (h10 : (10 : UInt8) ∉ long) (hl : scanMax ≤ long.length) :
    scanned ((lines.flatMap fun p => p.1 ++ (if p.2 then [13, 10] else [10])) ++ (long ++ 10 :: rest)) = lines.map Prod.fst := by
  induction lines with
  | nil =>
    obtain ⟨a, -⟩ := takeWhile_line (rest := rest) h10
    show scanned (long ++ 10 :: rest) = []
    unfold scanned
    rw [show (long ++ 10 :: rest).length = (long.length + rest.length) + 1 by simp; omega]
    have hx : scanLine (long ++ 10 :: rest) = none := by
      unfold scanLine
      rw [a, if_pos (.inr hl)]
    simp only [scanLines, hx]
  | cons p lines ih =>
    obtain ⟨l, crlf⟩ := p
    obtain ⟨h1, h2, h3⟩ := h _ (List.mem_cons_self ..)
    simp only at h1 h2 h3
    rw [List.flatMap_cons, List.map_cons, ← ih (fun q hq => h q (by simp [hq]))]
    generalize List.flatMap (fun p : Str × Bool => p.1 ++ (if p.2 then [13, 10] else [10])) lines = tl
    cases crlf with
    | false =>
      rw [if_neg Bool.false_ne_true, show l ++ [10] ++ tl ++ (long ++ 10 :: rest) = l ++ 10 :: (tl ++ (long ++ 10 :: rest)) by simp]
      rw [scanned_line h1 (by omega)]
      unfold dropCR
      rw [if_neg h3]
    | true =>
      rw [if_pos rfl, show l ++ [13, 10] ++ tl ++ (long ++ 10 :: rest) = (l ++ [13]) ++ 10 :: (tl ++ (long ++ 10 :: rest)) by simp]
      rw [scanned_line (by simp [h1]) (by simp; omega)]
      unfold dropCR
      rw [if_pos (by simp)]
      simp

/-- Only `exit` ends the prompt. -/
theorem runLine_ends {P : Prims} {C : Codec} {v : Env} {line : Str} {r : Repl} (h : (runLine P C v line r).2 = .ok true) :
    ∃ args, parseLine line = some (b! "exit", args) := by
  unfold runLine at h
  split at h
  · cases h
  · rename_i cmd args hp
    by_cases hc : cmd = b! "exit"
    · exact ⟨args, by rw [hp, hc]⟩
    · split at h
      · cases h
      · exact absurd h (execRead_ne v cmd args r hc)
      · split at h
        · cases h
        · exact absurd h (execWrite_ne P C v cmd args r)

/-- On Windows a run whose lines do not include `exit` never ends well. -/
theorem C124_prompt (P : Prims) (C : Codec) (lines : List Str) (vs : Nat → Env) (r : Repl)
    (h : ∀ l ∈ lines, ∀ args, parseLine l ≠ some (b! "exit", args)) : (runRepl P C (winTurns lines vs) r).2 ≠ .ok () := by
  induction lines generalizing vs r with
  | nil => simp [winTurns, runRepl, winEnv]
  | cons l lines ih =>
    unfold winTurns runRepl
    cases hx : runLine P C (vs 0) l r with
    | mk r' o =>
      cases o with
      | err e => simp
      | panic => simp
      | ok b =>
        cases b with
        | false => exact ih _ _ (fun x hx => h x (by simp [hx]))
        | true =>
          obtain ⟨args, hp⟩ := runLine_ends (P := P) (C := C) (v := vs 0) (r := r) (by rw [hx])
          exact absurd hp (h l (by simp) args)

/-- On Windows nothing that was typed is saved unless one of the lines is `exit`: the file stays as it was. -/
theorem C124_unsaved (P : Prims) (C : Codec) (history : Option Int) (salt iv : Str) (v v' : Env) (auto : Bool) (typed : Str)
    (vs : Nat → Env) (inp : Input) (old : Disk) (h : ∀ l ∈ scanned typed, ∀ args, parseLine l ≠ some (b! "exit", args)) :
    (main P C history salt iv v v' (.prompt auto (winTurns (scanned typed) vs)) inp old).1 = [old] ∧
    (main P C history salt iv v v' (.prompt auto (winTurns (scanned typed) vs)) inp old).2 ≠ .ok () := by
  unfold main
  cases hl : load P C history salt old inp with
  | mk o inp' =>
    cases o with
    | err e => exact ⟨rfl, by simp⟩
    | panic => exact ⟨rfl, by simp⟩
    | ok u =>
      simp only [work]
      cases ha : autoSync P C v auto { u := u } with
      | mk r o =>
        cases o with
        | err e => exact ⟨rfl, by simp⟩
        | panic => exact ⟨rfl, by simp⟩
        | ok _ =>
          have := C124_prompt P C (scanned typed) vs r h
          cases hx : runRepl P C (winTurns (scanned typed) vs) r with
          | mk r' o =>
            rw [hx] at this
            cases o with
            | err e => simp only [hx]; exact ⟨trivial, by simp⟩
            | panic => simp only [hx]; exact ⟨trivial, by simp⟩
            | ok _ => exact absurd rfl this

/-- With `exit` it does not matter what comes after: the run is the one that ends there. -/
theorem C124_exit (P : Prims) (C : Codec) (line : Str) (args : List Str) (hl : parseLine line = some (b! "exit", args))
    (lines rest : List Str) (vs : Nat → Env) (r : Repl) :
    runRepl P C (winTurns (lines ++ line :: rest) vs) r =
      runRepl P C ((List.range lines.length).zipWith (fun i l => (some l, vs i)) lines) r := by
  rw [show (List.range lines.length).zipWith (fun i l => ((some l, vs i) : Turn)) lines =
    (lines.zipIdx).map (fun p => (some p.1, vs p.2)) from by
      apply List.ext_getElem?
      intro i
      simp only [List.getElem?_zipWith, List.getElem?_map, List.getElem?_zipIdx]
      cases hi : lines[i]? with
      | none => cases hr : (List.range lines.length)[i]? <;> simp
      | some l =>
        have : i < lines.length := (List.getElem?_eq_some_iff.1 hi).1
        rw [List.getElem?_range this]; simp]
  suffices ∀ (k : Nat) (lines : List Str) (ws : Nat → Env) (r : Repl), (∀ i, vs (k + i) = ws i) →
      runRepl P C (winTurns (lines ++ line :: rest) ws) r = runRepl P C ((lines.zipIdx k).map (fun p => (some p.1, vs p.2))) r from
    this 0 lines vs r (fun i => by rw [Nat.zero_add])
  intro k lines
  induction lines generalizing k with
  | nil =>
    intro ws r _
    rw [List.nil_append, winTurns, C74_exit P C _ line args _ r hl]
    rfl
  | cons l lines ih =>
    intro ws r hw
    rw [List.cons_append, winTurns, List.zipIdx_cons, List.map_cons, runRepl, runRepl]
    have h0 := hw 0
    rw [Nat.add_zero] at h0
    simp only [h0]
    cases hx : runLine P C (ws 0) l r with
    | mk r' o =>
      cases o with
      | err e => rfl
      | panic => rfl
      | ok b =>
        cases b with
        | true => rfl
        | false => exact ih (k + 1) (fun i => ws (i + 1)) r' (fun i => by rw [← hw (i + 1)]; congr 1; omega)

/-- A text that is entered line by line cannot be ended by the end of the input on Windows: the command fails. -/
theorem C124_text (inp : Input) (lines : List Str) (blank : Bool) (h : ∀ l ∈ inp, l ≠ some (b! ".") ∧ l ≠ some []) :
    (promptMultiline true inp lines blank).1 = none := by
  induction inp generalizing lines blank with
  | nil => rfl
  | cons x inp ih =>
    cases x with
    | none => rfl
    | some l =>
      obtain ⟨h1, h2⟩ := h _ (List.mem_cons_self ..)
      unfold promptMultiline
      rw [if_neg (fun e => h1 (by rw [e])), if_neg (fun e => h2 (by rw [e]))]
      exact ih _ _ (fun y hy => h y (by simp [hy]))

/-- A line with a dot ends it everywhere, and the text is what was typed. -/
theorem C124_dot (ctrlC : Bool) (text lines : List Str) (rest : Input) (h : ∀ l ∈ text, l ≠ b! "." ∧ l ≠ []) :
    promptMultiline ctrlC (text.map some ++ some (b! ".") :: rest) lines false = (some (join 10 (lines ++ text)), rest) := by
  induction text generalizing lines with
  | nil => rw [List.map_nil, List.nil_append, promptMultiline, if_pos rfl, List.append_nil]
  | cons l text ih =>
    obtain ⟨h1, h2⟩ := h _ (List.mem_cons_self ..)
    rw [List.map_cons, List.cons_append, promptMultiline, if_neg h1, if_neg h2]
    show promptMultiline ctrlC (text.map some ++ some (b! ".") :: rest) (lines ++ [l]) false = _
    rw [ih _ (fun y hy => h y (by simp [hy])), List.append_assoc]
    rfl

/-! ## Not vacuous -/

namespace ScanDemo

def env : Env := { d := { uuid := b! "u", inp := [some [], some [], some (b! "m"), some [7], some [7]] } }

/-- what is typed -/
def text : Str := b! "add a\r\nls\n"

theorem text_lines : scanned text = [b! "add a", b! "ls"] := by decide +kernel

/-- C124_scan -/
example : scanned text = [(b! "add a", true), (b! "ls", false)].map Prod.fst :=
  C124_scan [(b! "add a", true), (b! "ls", false)] (by decide)

/-- C124_long: a long line and `exit` after it -/
example : scanned (b! "add a\n" ++ (List.replicate 65536 97 ++ 10 :: b! "exit\n")) = [b! "add a"] :=
  C124_long [(b! "add a", false)] (by decide) (List.replicate 65536 97) (b! "exit\n") (by
    intro h
    exact absurd (List.mem_replicate.1 h).2 (by decide)) (by rw [List.length_replicate]; exact Nat.le_refl _)

theorem no_exit : ∀ l ∈ scanned text, ∀ args, parseLine l ≠ some (b! "exit", args) := by
  rw [text_lines]
  intro l hl args
  simp only [List.mem_cons, List.not_mem_nil, or_false] at hl
  rcases hl with rfl | rfl
  · rw [show parseLine (b! "add a") = some (b! "add", [b! "a"]) by decide +kernel]
    intro h
    cases h
  · rw [show parseLine (b! "ls") = some (b! "ls", []) by decide +kernel]
    intro h
    cases h

/-- C124_prompt, C124_unsaved -/
example (old : Disk) : (main toy (Demo.codec {}) none (List.replicate 32 1) (List.replicate 40 2) {} {}
    (.prompt false (winTurns (scanned text) fun _ => env)) [some [1], some [1]] old).1 = [old] :=
  (C124_unsaved toy _ none _ _ _ _ false text _ _ _ no_exit).1

/-- C124_text -/
example : (promptMultiline true [some (b! "one"), none] [] false).1 = none := C124_text _ _ _ (by decide)

/-- C124_dot -/
example : promptMultiline true [some (b! "one"), some (b! "two"), some (b! "."), none] [] false = (some (b! "one\ntwo"), [none]) :=
  C124_dot true [b! "one", b! "two"] [] [none] (by decide)

/-- C124_exit -/
example (C : Codec) (r : Repl) : runRepl toy C (winTurns ([b! "add a", b! "ls"] ++ b! "exit" :: [b! "rm a"]) fun _ => env) r =
    runRepl toy C [(some (b! "add a"), env), (some (b! "ls"), env)] r :=
  C124_exit toy C (b! "exit") [] (by decide +kernel) [b! "add a", b! "ls"] [b! "rm a"] (fun _ => env) r

end ScanDemo

/-- False: the same lines, ended by the end of the input, are saved elsewhere and lost on Windows. -/
theorem C124_false : ∃ (C : Codec) (salt iv typed : Str) (inp : Input) (vs : Nat → Env) (f : Str),
    (main toy C none salt iv {} {} (.prompt false (((scanned typed).map fun l => ((some l, vs 0) : Turn)) ++ [(none, vs 0)])) inp none).1.getLast?
      = some (some f) ∧
    (main toy C none salt iv {} {} (.prompt false (winTurns (scanned typed) vs)) inp none).1 = [none] :=
  ⟨Demo.codec {}, List.replicate 32 1, List.replicate 40 2, ScanDemo.text, [some [1], some [1]], fun _ => ScanDemo.env,
    (match (main toy (Demo.codec {}) none (List.replicate 32 1) (List.replicate 40 2) {} {} (.prompt false
      (((scanned ScanDemo.text).map fun l => ((some l, ScanDemo.env) : Turn)) ++ [(none, ScanDemo.env)])) [some [1], some [1]] none).1.getLast? with
      | some (some f) => f | _ => []), by decide +kernel,
    (C124_unsaved toy (Demo.codec {}) none _ _ _ _ false ScanDemo.text _ _ _ ScanDemo.no_exit).1⟩

end Verif.App
