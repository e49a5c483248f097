import Verif.App.PromptSpec
import Verif.App.InputProps
/-!
# C63 (settings), C78: the prompts
-/
namespace Verif.App
open Verif Verif.App.Spec

/-! ## helper lemmas -/

/-- the loop all the prompts share: ask until `f` understands the line -/
def askLoop {α : Type} (f : Str → Option α) : Input → Option α × Input
  | [] => (none, [])
  | none :: rest => (none, rest)
  | some s :: rest =>
    match f s with
    | some a => (some a, rest)
    | none => askLoop f rest

theorem askLoop_some {α : Type} (f : Str → Option α) (inp : Input) (a : α) (rest : Input) :
    askLoop f inp = (some a, rest) ↔ ∃ s, FirstAnswer (fun s => (f s).isSome = true) inp s rest ∧ f s = some a := by
  induction inp with
  | nil =>
    constructor
    · intro h; cases h
    · rintro ⟨s, ⟨sk, h, -⟩, -⟩; cases sk <;> cases h
  | cons o inp ih =>
    cases o with
    | none =>
      constructor
      · intro h; cases h
      · rintro ⟨s, ⟨sk, h, -⟩, -⟩; cases sk <;> cases h
    | some s =>
      unfold askLoop
      cases hf : f s with
      | some x =>
        constructor
        · intro h
          cases h
          exact ⟨s, ⟨[], rfl, by simp, by simp [hf]⟩, hf⟩
        · rintro ⟨s', ⟨sk, h, h2, h3⟩, h4⟩
          cases sk with
          | nil => cases h; rw [hf] at h4; cases h4; rfl
          | cons y sk => cases h; exact absurd (by simp [hf]) (h2 s (by simp))
      | none =>
        dsimp only
        rw [ih]
        constructor
        · rintro ⟨s', ⟨sk, h, h2, h3⟩, h4⟩
          refine ⟨s', ⟨s :: sk, by rw [h]; rfl, ?_, h3⟩, h4⟩
          intro x hx
          rcases List.mem_cons.1 hx with rfl | hx
          · simp [hf]
          · exact h2 x hx
        · rintro ⟨s', ⟨sk, h, h2, h3⟩, h4⟩
          cases sk with
          | nil => cases h; rw [hf] at h4; cases h4
          | cons y sk => cases h; exact ⟨s', ⟨sk, rfl, fun x hx => h2 x (by simp [hx]), h3⟩, h4⟩

/-- the prompt gives up exactly if no answer comes before an interruption or the end -/
theorem askLoop_none {α : Type} (f : Str → Option α) (inp : Input) :
    (askLoop f inp).1 = none ↔ ∃ (skipped : List Str) (rest : Input), inp = skipped.map some ++ rest ∧ (∀ x ∈ skipped, f x = none) ∧
      (rest = [] ∨ ∃ r, rest = none :: r) := by
  induction inp with
  | nil => exact ⟨fun _ => ⟨[], [], rfl, by simp, .inl rfl⟩, fun _ => rfl⟩
  | cons o inp ih =>
    cases o with
    | none =>
      simp only [askLoop, true_iff]
      exact ⟨[], _, rfl, by simp, .inr ⟨_, rfl⟩⟩
    | some s =>
      unfold askLoop
      cases hf : f s with
      | some x =>
        simp only [reduceCtorEq, false_iff]
        rintro ⟨sk, rest, h, h2, h3⟩
        cases sk with
        | nil => rcases h3 with rfl | ⟨r, rfl⟩ <;> cases h
        | cons y sk => cases h; rw [h2 s (by simp)] at hf; cases hf
      | none =>
        dsimp only
        rw [ih]
        constructor
        · rintro ⟨sk, rest, h, h2, h3⟩
          refine ⟨s :: sk, rest, by rw [h]; rfl, ?_, h3⟩
          intro x hx
          rcases List.mem_cons.1 hx with rfl | hx
          · exact hf
          · exact h2 x hx
        · rintro ⟨sk, rest, h, h2, h3⟩
          cases sk with
          | nil => rcases h3 with rfl | ⟨r, rfl⟩ <;> cases h
          | cons y sk => cases h; exact ⟨sk, rest, rfl, fun x hx => h2 x (by simp [hx]), h3⟩

def yesNo (s : Str) : Option Bool :=
  if s ∈ [b! "yes", b! "y", b! "YES", b! "Y"] then some true
  else if s ∈ [b! "no", b! "n", b! "NO", b! "N"] then some false
  else none

theorem getYesNo_ask (inp : Input) : getYesNo inp = askLoop yesNo inp := by
  induction inp with
  | nil => rfl
  | cons o inp ih =>
    cases o with
    | none => rfl
    | some s =>
      unfold getYesNo askLoop yesNo
      split
      · rfl
      · split
        · rfl
        · exact ih

theorem getString_ask (inp : Input) : getString inp = askLoop (fun s => if s = [] then none else some s) inp := by
  induction inp with
  | nil => rfl
  | cons o inp ih =>
    cases o with
    | none => rfl
    | some s =>
      unfold getString askLoop
      by_cases h : s = []
      · rw [if_pos h, if_pos h]; exact ih
      · rw [if_neg h, if_neg h]

theorem getMenu_ask (n : Nat) (inp : Input) :
    getMenuChoice n inp = askLoop (fun s => (atoi s).bind (fun i => if i - 1 < 0 ∨ i - 1 ≥ n then none else some (i - 1))) inp := by
  induction inp with
  | nil => rfl
  | cons o inp ih =>
    cases o with
    | none => rfl
    | some s =>
      unfold getMenuChoice askLoop
      cases atoi s with
      | none => exact ih
      | some i =>
        dsimp only [Option.bind]
        split
        · exact ih
        · rfl

theorem yesNo_true {s : Str} : yesNo s = some true ↔ Yes s := by
  unfold yesNo Yes
  split
  · rename_i h
    simp only [List.mem_cons, List.not_mem_nil, or_false] at h
    simp only [true_iff]
    rcases h with h | h | h | h <;> simp [h]
  · rename_i h
    simp only [List.mem_cons, List.not_mem_nil, or_false, not_or] at h
    have : ∀ x : Bool, (if s ∈ [b! "no", b! "n", b! "NO", b! "N"] then some false else none) ≠ some true := by
      intro _; split <;> simp
    simp only [this false, false_iff, not_or]
    exact ⟨h.2.1, h.2.2.2, h.1, h.2.2.1⟩

theorem yesNo_false {s : Str} : yesNo s = some false ↔ No s := by
  unfold yesNo No
  split
  · rename_i h
    simp only [List.mem_cons, List.not_mem_nil, or_false] at h
    rcases h with h | h | h | h <;> subst h <;> decide
  · split
    · rename_i h
      simp only [List.mem_cons, List.not_mem_nil, or_false] at h
      simp only [true_iff]
      rcases h with h | h | h | h <;> simp [h]
    · rename_i h
      simp only [List.mem_cons, List.not_mem_nil, or_false, not_or] at h
      simp only [reduceCtorEq, false_iff, not_or]
      exact ⟨h.2.1, h.2.2.2, h.1, h.2.2.1⟩

theorem yesNo_isSome (s : Str) : (yesNo s).isSome = true ↔ (Yes s ∨ No s) := by
  rw [← yesNo_true, ← yesNo_false]
  cases yesNo s with
  | none => simp
  | some b => cases b <;> simp

/-! ## C78 -/

/-- A question is answered yes or no exactly as the first line that is an answer says; other lines are asked again. -/
theorem C78_yesno (inp rest : Input) :
    (getYesNo inp = (some true, rest) ↔ ∃ s, FirstAnswer (fun s => Yes s ∨ No s) inp s rest ∧ Yes s) ∧
    (getYesNo inp = (some false, rest) ↔ ∃ s, FirstAnswer (fun s => Yes s ∨ No s) inp s rest ∧ No s) := by
  rw [getYesNo_ask, askLoop_some, askLoop_some]
  have : (fun s => (yesNo s).isSome = true) = (fun s => Yes s ∨ No s) := funext fun s => propext (yesNo_isSome s)
  rw [this]
  simp only [yesNo_true, yesNo_false]
  trivial

/-- There is no consent without one of the four words. -/
theorem C78_consent (inp rest : Input) (h : getYesNo inp = (some true, rest)) : ∃ s, some s ∈ inp ∧ Yes s := by
  obtain ⟨s, ⟨sk, h1, -⟩, h2⟩ := ((C78_yesno inp rest).1).1 h
  exact ⟨s, by rw [h1]; simp, h2⟩

/-- No answer is both. -/
theorem C78_yes_or_no (s : Str) : ¬ (Yes s ∧ No s) := by
  rintro ⟨a, b⟩
  rw [← yesNo_true] at a
  rw [← yesNo_false, a] at b
  cases b

/-- A text prompt returns the first line that is not empty. -/
theorem C78_string (inp rest : Input) (s : Str) : getString inp = (some s, rest) ↔ FirstAnswer (fun s => s ≠ []) inp s rest := by
  rw [getString_ask, askLoop_some]
  have : (fun s : Str => ((if s = [] then none else some s : Option Str)).isSome = true) = (fun s => s ≠ []) := by
    funext s
    by_cases h : s = [] <;> simp [h]
  rw [this]
  constructor
  · rintro ⟨x, h1, h2⟩
    split at h2
    · cases h2
    · cases h2; exact h1
  · intro h
    obtain ⟨sk, h1, h2, h3⟩ := h
    exact ⟨s, ⟨sk, h1, h2, h3⟩, by rw [if_neg h3]⟩

/-- A menu returns the index of the first line that is the number of an item. -/
theorem C78_menu (n : Nat) (inp rest : Input) (i : Int) :
    getMenuChoice n inp = (some i, rest) ↔
      ∃ s, FirstAnswer (fun s => ∃ k : Int, atoi s = some k ∧ 1 ≤ k ∧ k ≤ n) inp s rest ∧ atoi s = some (i + 1) := by
  rw [getMenu_ask, askLoop_some]
  have : (fun s => ((atoi s).bind (fun i => if i - 1 < 0 ∨ i - 1 ≥ n then none else some (i - 1)) : Option Int).isSome = true) =
      (fun s => ∃ k : Int, atoi s = some k ∧ 1 ≤ k ∧ k ≤ n) := by
    funext s
    cases atoi s with
    | none => simp
    | some k =>
      simp only [Option.bind_some, Option.some.injEq]
      split
      · simp; omega
      · simp; omega
  rw [this]
  constructor
  · rintro ⟨s, h1, h2⟩
    refine ⟨s, h1, ?_⟩
    cases ha : atoi s with
    | none => rw [ha] at h2; cases h2
    | some k =>
      rw [ha] at h2
      simp only [Option.bind_some] at h2
      split at h2
      · cases h2
      · cases h2; simp
  · rintro ⟨s, h1, h2⟩
    refine ⟨s, h1, ?_⟩
    obtain ⟨-, -, -, k, h3, h4⟩ := h1
    rw [h2] at h3
    cases h3
    rw [h2]
    simp only [Option.bind_some]
    rw [if_neg (by omega)]
    simp

/-- An item that is chosen exists. -/
theorem C78_menu_range (n : Nat) (inp rest : Input) (i : Int) (h : getMenuChoice n inp = (some i, rest)) : 0 ≤ i ∧ i < n := by
  obtain ⟨s, ⟨-, -, -, k, h1, h2⟩, h3⟩ := (C78_menu n inp rest i).1 h
  rw [h1] at h3
  cases h3
  omega

/-- The lines before the end, without a line ".", without two blank lines in a row and not ending in a blank line. -/
def Paragraphs : Bool → List Str → Prop
  | b, [] => b = false
  | b, l :: ls => l ≠ b! "." ∧ (l = [] → b = false) ∧ Paragraphs (l = []) ls

theorem multi_aux (c : Bool) (ls : List Str) (tail : Input) (acc : List Str) (b : Bool) (h : Paragraphs b ls) :
    promptMultiline c (ls.map some ++ tail) acc b =
      if ls = [] then promptMultiline c tail acc false
      else promptMultiline c tail ((if b then acc ++ [[]] else acc) ++ ls) false := by
  induction ls generalizing acc b with
  | nil => rw [show b = false from h]; simp
  | cons l ls ih =>
    obtain ⟨h1, h2, h3⟩ := h
    simp only [List.map_cons, List.cons_append, promptMultiline, if_neg h1, reduceCtorEq, if_false]
    by_cases hl : l = []
    · rw [if_pos hl, h2 hl]
      simp only [Bool.false_eq_true, if_false]
      simp only [hl, decide_true] at h3
      rw [ih acc true h3]
      cases ls with
      | nil => cases h3
      | cons y ys => simp [hl]
    · rw [if_neg hl]
      simp only [hl, decide_false] at h3
      rw [ih _ false h3]
      cases ls with
      | nil => cases b <;> simp
      | cons y ys => cases b <;> simp

/-- A text of several lines is taken over as typed, up to a line ".", two blank lines, or (if the prompt is ended rather than
interrupted) the end of input. -/
theorem C78_multiline (c : Bool) (ls : List Str) (rest : Input) (h : Paragraphs false ls) :
    promptMultiline c (ls.map some ++ some (b! ".") :: rest) [] false = (some (join 10 ls), rest) ∧
    promptMultiline c (ls.map some ++ some [] :: some [] :: rest) [] false = (some (join 10 ls), rest) ∧
    promptMultiline false (ls.map some ++ none :: rest) [] false = (some (join 10 ls), rest) ∧
    promptMultiline true (ls.map some ++ none :: rest) [] false = (none, rest) := by
  rw [multi_aux _ _ _ _ _ h, multi_aux _ _ _ _ _ h, multi_aux _ _ _ _ _ h, multi_aux _ _ _ _ _ h]
  by_cases hl : ls = []
  · subst hl
    simp [promptMultiline]
  · simp [promptMultiline, hl]

/-- not vacuous -/
example : getYesNo [some [], some (b! "maybe"), some (b! "y"), some (b! "n")] = (some true, [some (b! "n")]) := by decide
example : getMenuChoice 2 [some (b! "3"), some (b! "0"), some (b! "2")] = (some 1, []) := by decide
example : getString [some [], some (b! "x")] = (some (b! "x"), []) := by decide
example : Paragraphs false [b! "a", [], b! "b"] := by simp [Paragraphs]

/-! ## C63: the settings -/

theorem fmtInt_chars (n : Int) : ∀ b ∈ fmtInt n, b.toNat < 0x80 ∧ isSpaceRune b.toNat = false ∧ (b = 45 ∨ isDigit b = true) := by
  have hd : ∀ b ∈ fmtNat n.natAbs, isDigit b = true := List.all_eq_true.1 (fmtNat_facts _).2.1
  have hs : ∀ b : UInt8, isDigit b = true → b.toNat < 0x80 ∧ isSpaceRune b.toNat = false := by
    intro b hb
    simp only [isDigit, Bool.and_eq_true, decide_eq_true_eq] at hb
    refine ⟨by omega, ?_⟩
    have h1 := hb.1
    have h2 := hb.2
    simp only [isSpaceRune]
    simp only [Bool.or_eq_false_iff, Bool.and_eq_false_iff, decide_eq_false_iff_not]
    omega
  intro b hb
  unfold fmtInt at hb
  split at hb
  · rcases List.mem_cons.1 hb with rfl | hb
    · decide
    · exact ⟨(hs b (hd b hb)).1, (hs b (hd b hb)).2, .inr (hd b hb)⟩
  · exact ⟨(hs b (hd b hb)).1, (hs b (hd b hb)).2, .inr (hd b hb)⟩

theorem fmtInt_ne (n : Int) : fmtInt n ≠ [] := by
  unfold fmtInt
  split
  · simp
  · exact (fmtNat_facts _).1

theorem fmtInt_noSpace (n : Int) : NoSpace (fmtInt n) :=
  noSpace_ascii _ (fun b hb => ⟨(fmtInt_chars n b hb).1, (fmtInt_chars n b hb).2.1⟩)

theorem fmtInt_not (n : Int) (s : Str) (h : ∀ b l, s = b :: l → b ≠ 45 ∧ isDigit b = false) : fmtInt n ≠ s := by
  intro he
  cases s with
  | nil => exact fmtInt_ne n he
  | cons b l =>
    obtain ⟨h1, h2⟩ := h b l rfl
    rcases (fmtInt_chars n b (by rw [he]; simp)).2.2 with h3 | h3
    · exact h1 h3
    · rw [h2] at h3; cases h3

theorem toggle_eq (n : Int) : (if n ≥ 0 then (-1 : Int) else 0) = if n < 0 then 0 else -1 := by
  by_cases h : n < 0
  · rw [if_pos h, if_neg (by omega)]
  · rw [if_neg h, if_pos (by omega)]

/-- One adjustment at the prompt does to the settings what it says, and asks for another password. -/
theorem C63_adjust (a : Adjust) (ha : a.Fine) (st : PwState) (rest : Input) :
    ∃ st', choose st (some a.line :: rest) = .again true st' rest ∧
      (st'.length, st'.classes) = a.apply (st.length, st.classes) := by
  cases a with
  | more => exact ⟨st, by simp [choose, Adjust.line], rfl⟩
  | toggle c =>
    cases c <;>
    · refine ⟨_, (by simp only [choose, Adjust.line, Class.letter]; rfl), ?_⟩
      simp only [Adjust.apply, Class.set, Class.get]
      refine congrArg _ ?_
      have hf : ∀ b : UInt8, b.toNat < 0x80 ∧ isSpaceRune b.toNat = false → fields [b] = [[b]] := fun b hb =>
        fields_single _ (by simp) (noSpace_ascii _ (by intro x hx; rcases List.mem_singleton.1 hx with rfl; exact hb))
      rw [hf _ (by decide)]
      simp only [setSetting]
      congr 1
      exact toggle_eq _
  | atLeast c n =>
    have hf : ∀ c : Class, fields (c.letter :: 32 :: fmtInt n) = [[c.letter], fmtInt n] := by
      intro c
      have := fields_word [c.letter] (by simp) (noSpace_ascii _ (by cases c <;> decide)) 32 (by decide) (by decide) (fmtInt n)
      rw [List.singleton_append] at this
      rw [this, fields_single _ (fmtInt_ne n) (fmtInt_noSpace n)]
    have hn : atoi (fmtInt n) = some n := atoi_fmtInt n ha
    refine ⟨{ st with classes := c.set n st.classes }, ?_, rfl⟩
    have h0 : fmtInt n ≠ [] := fmtInt_ne n
    cases c <;>
    · simp only [choose, Adjust.line, hf]
      rw [if_neg (by simp), if_neg (by simp), if_neg (by simp), if_neg (by simp)]
      simp [Class.letter, setSetting, hn, Class.set]
  | len n =>
    have hn : atoi (fmtInt n) = some n := atoi_fmtInt n ⟨ha.1, ha.2.1⟩
    refine ⟨{ st with length := n }, ?_, rfl⟩
    have hb : ∀ b l, (b ≠ 45 ∧ isDigit b = false) → fmtInt n ≠ b :: l := by
      intro b l h
      exact fmtInt_not n _ (fun b' l' he => by cases he; exact h)
    simp only [choose, Adjust.line, fields_single _ (fmtInt_ne n) (fmtInt_noSpace n), hn]
    rw [if_neg (fmtInt_ne n), if_neg (hb _ _ (by decide)), if_neg (hb _ _ (by decide)), if_neg (hb _ _ (by decide)),
      if_neg (hb _ _ (by decide)), if_neg (hb _ _ (by decide)), if_neg (hb _ _ (by decide)), if_neg (hb _ _ (by decide)),
      if_neg (hb _ _ (by decide)), if_neg (hb _ _ (by decide))]

theorem settings_loop (ent : Nat → Nat → UInt8) (adj : List Adjust) (hadj : ∀ a ∈ adj, a.Fine) (rest : Input) :
    ∀ (fuel i : Nat) (st : PwState), adj.length + 1 ≤ fuel → (st.length ≤ 0 ∨ st.length % 256 ≠ 0) →
      ∃ x, adj.foldl (fun s a => a.apply s) (st.length, st.classes) = x ∧
      pwLoop ent fuel i true st (adj.map (fun a => some a.line) ++ some (b! "y") :: rest) =
        match genPassword (ent (i + adj.length)) x.1 x.2 with
        | .ok pw => .ok pw
        | .err _ => .ok []
        | .panic => .panic := by
  induction adj with
  | nil =>
    intro fuel i st hf hl
    refine ⟨_, rfl, ?_⟩
    obtain ⟨fuel, rfl⟩ : ∃ k, fuel = k + 1 := ⟨fuel - 1, by simp at hf; omega⟩
    simp only [List.map_nil, List.nil_append, pwLoop, if_true, List.foldl_nil, List.length_nil, Nat.add_zero]
    cases genPassword (ent i) st.length st.classes <;> simp [choose]
  | cons a adj ih =>
    intro fuel i st hf hl
    obtain ⟨fuel, rfl⟩ : ∃ k, fuel = k + 1 := ⟨fuel - 1, by simp at hf; omega⟩
    have ha := hadj a (by simp)
    refine ⟨_, rfl, ?_⟩
    have key : ∀ st1 : PwState, st1.length = st.length → st1.classes = st.classes →
        (match choose st1 (some a.line :: (adj.map (fun a => some a.line) ++ some (b! "y") :: rest)) with
          | .ret pw => Res.ok pw
          | .fail => .err ()
          | .crash => .panic
          | .again regen st rest => pwLoop ent fuel (i + 1) regen st rest) =
        match genPassword (ent (i + (a :: adj).length)) (List.foldl (fun s a => a.apply s) (st.length, st.classes) (a :: adj)).1
          (List.foldl (fun s a => a.apply s) (st.length, st.classes) (a :: adj)).2 with
        | .ok pw => .ok pw
        | .err _ => .ok []
        | .panic => .panic := by
      intro st1 h1 h2
      obtain ⟨st', g1, g2⟩ := C63_adjust a ha st1 (adj.map (fun a => some a.line) ++ some (b! "y") :: rest)
      rw [g1]
      rw [h1, h2] at g2
      have hl' : st'.length ≤ 0 ∨ st'.length % 256 ≠ 0 := by
        have := congrArg Prod.fst g2
        simp only at this
        rw [this]
        cases a with
        | more => exact hl
        | toggle c => exact hl
        | atLeast c n => exact hl
        | len n => exact ha.2.2
      obtain ⟨x, k1, k2⟩ := ih (fun b hb => hadj b (by simp [hb])) fuel (i + 1) st' (by simp at hf; omega) hl'
      dsimp only
      rw [k2, ← k1, g2, List.foldl_cons, List.length_cons, show i + 1 + adj.length = i + (adj.length + 1) from by omega]
    simp only [List.map_cons, List.cons_append]
    unfold pwLoop
    simp only [if_true]
    cases hg : genPassword (ent i) st.length st.classes with
    | ok pw => exact key _ rfl rfl
    | err e => exact key _ rfl rfl
    | panic =>
      exfalso
      by_cases hi : Impossible st.length st.classes
      · rw [(C54_meets_partial (ent i) _ _ hl).1 hi] at hg; cases hg
      · obtain ⟨pw, h3, -⟩ := (C54_meets_partial (ent i) _ _ hl).2 hi
        rw [h3] at hg; cases hg

/-- After any adjustments, accepting returns the password generated for exactly the settings they lead to, starting from 32
characters of any kind; it meets them. If they are impossible, it is empty. -/
theorem C63_settings_partial (ent : Nat → Nat → UInt8) (adj : List Adjust) (hadj : ∀ a ∈ adj, a.Fine) (rest : Input) :
    let x := adj.foldl (fun s a => a.apply s) (32, {})
    (Impossible x.1 x.2 → getPassword ent (adj.map (fun a => some a.line) ++ some (b! "y") :: rest) = .ok []) ∧
    (¬ Impossible x.1 x.2 → ∃ pw, getPassword ent (adj.map (fun a => some a.line) ++ some (b! "y") :: rest) = .ok pw ∧
      Meets x.1 x.2 pw) := by
  intro x
  have hx : x.1 ≤ 0 ∨ x.1 % 256 ≠ 0 := by
    have : ∀ (adj : List Adjust), (∀ a ∈ adj, a.Fine) → ∀ y : Int × Classes, (y.1 ≤ 0 ∨ y.1 % 256 ≠ 0) →
        (adj.foldl (fun s a => a.apply s) y).1 ≤ 0 ∨ (adj.foldl (fun s a => a.apply s) y).1 % 256 ≠ 0 := by
      intro adj
      induction adj with
      | nil => intro _ y hy; exact hy
      | cons a adj ih =>
        intro h y hy
        refine ih (fun b hb => h b (by simp [hb])) _ ?_
        have ha := h a (by simp)
        cases a with
        | more => exact hy
        | toggle c => exact hy
        | atLeast c n => exact hy
        | len n => exact ha.2.2
    exact this adj hadj _ (by decide)
  obtain ⟨x', h1, h2⟩ := settings_loop ent adj hadj rest
    ((adj.map (fun a => some a.line) ++ some (b! "y") :: rest).length + 1) 0 {} (by simp) (by decide)
  have hxx : x' = x := h1.symm
  subst hxx
  unfold getPassword
  rw [h2]
  obtain ⟨g1, g2⟩ := C54_meets_partial (ent (0 + adj.length)) x.1 x.2 hx
  refine ⟨fun hi => by rw [g1 hi], fun hi => ?_⟩
  obtain ⟨pw, k1, k2⟩ := g2 hi
  rw [k1]
  exact ⟨pw, rfl, k2⟩

/-- not vacuous: upper case off, at least 3 digits, 12 characters -/
example (ent : Nat → Nat → UInt8) :
    ∃ pw, getPassword ent [some (b! "u"), some (b! "n 3"), some (b! "12"), some (b! "y")] = .ok pw ∧
      Meets 12 { upper := -1, numbers := 3 } pw :=
  (C63_settings_partial ent [.toggle .upper, .atLeast .numbers 3, .len 12] (by
    intro a ha
    simp only [List.mem_cons, List.not_mem_nil, or_false] at ha
    rcases ha with rfl | rfl | rfl
    · trivial
    · simp [Adjust.Fine]
    · simp [Adjust.Fine]) []).2 (by
    show ¬ Impossible 12 { upper := -1, numbers := 3 }
    simp [Impossible, Classes.needLen, Classes.all])

end Verif.App
