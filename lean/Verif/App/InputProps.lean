import Verif.App.Input
import Verif.App.PassGenProps
/-!
# C63 The interactive password generator
-/
namespace Verif.App
open Verif

/-! ## helper lemmas -/

theorem genPassword_ok_meets {ent : Nat → UInt8} {length : Int} {c : Classes} {pw : Str}
    (h : genPassword ent length c = .ok pw) : Meets length c pw := by
  by_cases hlen : length ≤ 0 ∨ length % 256 ≠ 0
  · obtain ⟨h1, h2⟩ := C54_meets_partial ent length c hlen
    by_cases hi : Impossible length c
    · rw [h1 hi] at h; cases h
    · obtain ⟨pw', h3, h4⟩ := h2 hi
      rw [h3] at h; cases h; exact h4
  · simp only [not_or, ne_eq, Decidable.not_not] at hlen
    by_cases hi : Impossible length c
    · rcases hi with hi | ⟨-, hi⟩
      · rw [genPassword, if_pos hi] at h; cases h
      · exfalso
        have hp : c.pairs = [] := by
          simp only [Classes.pairs, List.filter_eq_nil_iff]
          intro p hp; have := hi p hp; simp; omega
        have hz : c.needLen = 0 := by rw [← needLen_eq, hp]; rfl
        rw [genPassword, if_neg (by omega)] at h
        simp only [hp, required] at h
        rw [if_pos ⟨by omega, trivial⟩] at h
        cases h
    · rw [C54_false ent length c (by omega) hlen.2 hi] at h; cases h

/-- the password on display belongs to the settings on display -/
def Displayed (ent : Nat → Nat → UInt8) (st : PwState) : Prop :=
  ∃ i, genPassword (ent i) st.length st.classes = .ok st.password ∨
    (st.password = [] ∧ genPassword (ent i) st.length st.classes = .err .impossible)

theorem pwLoop_ok (ent : Nat → Nat → UInt8) (fuel i : Nat) (regen : Bool) (st : PwState) (inp : Input) (pw : Str)
    (hst : regen = false → Displayed ent st) (h : pwLoop ent fuel i regen st inp = .ok pw) :
    (∃ st', Displayed ent st' ∧ st'.password = pw ∧ some (b! "y") ∈ inp) ∨
      ∃ a b, inp = a ++ some (b! "m") :: some pw :: some pw :: b := by
  induction fuel generalizing i regen st inp with
  | zero => simp [pwLoop] at h
  | succ fuel ih =>
    have key : ∀ st1 i1, Displayed ent st1 →
        (match choose st1 inp with
          | .ret pw => Res.ok pw
          | .fail => .err ()
          | .crash => .panic
          | .again regen st rest => pwLoop ent fuel i1 regen st rest) = Res.ok pw →
        (∃ st', Displayed ent st' ∧ st'.password = pw ∧ some (b! "y") ∈ inp) ∨
          ∃ a b, inp = a ++ some (b! "m") :: some pw :: some pw :: b := by
      intro st1 i1 hd h
      cases inp with
      | nil => simp [choose] at h
      | cons o rest =>
        cases o with
        | none => simp [choose] at h
        | some line =>
          have ihr : ∀ regen' st' rest', (∃ pre, rest = pre ++ rest') → (regen' = false → Displayed ent st') →
              pwLoop ent fuel i1 regen' st' rest' = .ok pw →
              (∃ st', Displayed ent st' ∧ st'.password = pw ∧ some (b! "y") ∈ some line :: rest) ∨
              ∃ a b, some line :: rest = a ++ some (b! "m") :: some pw :: some pw :: b := by
            rintro regen' st' rest' ⟨pre, rfl⟩ hd' h'
            rcases ih i1 regen' st' rest' hd' h' with ⟨st2, h1, h2, h3⟩ | ⟨a, b, rfl⟩
            · exact Or.inl ⟨st2, h1, h2, by simp [h3]⟩
            · exact Or.inr ⟨some line :: (pre ++ a), b, by simp⟩
          unfold choose at h
          simp only at h
          by_cases h1 : line = []
          · simp only [h1, if_true] at h
            rw [h1] at ihr ⊢
            exact ihr true st1 rest ⟨[], rfl⟩ (by simp) h
          by_cases h2 : line = b! "y"
          · simp only [h2, if_true] at h
            have : ¬ (b! "y" = []) := by decide
            simp only [this, if_false] at h
            injection h with h
            exact Or.inl ⟨st1, hd, h, by simp [h2]⟩
          simp only [h1, h2, if_false] at h
          by_cases h3 : line = b! "m"
          · simp only [h3, if_true] at h
            match rest, h with
            | [], h => cases h
            | none :: _, h => cases h
            | [some initial], h => cases h
            | some initial :: none :: _, h => cases h
            | some initial :: some verify :: rest', h =>
              simp only at h
              by_cases hv : initial ≠ verify
              · simp only [ne_eq, hv, not_false_eq_true, if_true] at h
                exact ihr true st1 rest' ⟨[some initial, some verify], rfl⟩ (by simp) h
              · have hv' : initial = verify := by simpa using hv
                simp only [hv, if_false] at h
                injection h with h
                subst hv' h
                exact Or.inr ⟨[], rest', by simp [h3]⟩
          simp only [h3, if_false] at h
          by_cases h4 : line = b! "?"
          · simp only [h4, if_true] at h
            rw [h4] at ihr ⊢
            exact ihr false st1 rest ⟨[], rfl⟩ (fun _ => hd) h
          simp only [h4, if_false] at h
          cases hf : fields line with
          | nil => simp [hf] at h
          | cons s ss =>
            simp only [hf] at h
            by_cases h5 : s = b! "c"
            · simp only [h5, if_true] at h
              exact ihr false st1 rest ⟨[], rfl⟩ (fun _ => hd) h
            simp only [h5, if_false] at h
            have done : ∀ st', pwLoop ent fuel i1 true st' rest = .ok pw → _ :=
              fun st' h' => ihr true st' rest ⟨[], rfl⟩ (by simp) h'
            by_cases h6 : s = b! "u"
            · simp only [h6, if_true] at h; exact done _ h
            simp only [h6, if_false] at h
            by_cases h7 : s = b! "l"
            · simp only [h7, if_true] at h; exact done _ h
            simp only [h7, if_false] at h
            by_cases h8 : s = b! "n"
            · simp only [h8, if_true] at h; exact done _ h
            simp only [h8, if_false] at h
            by_cases h9 : s = b! "b"
            · simp only [h9, if_true] at h; exact done _ h
            simp only [h9, if_false] at h
            by_cases h10 : s = b! "e"
            · simp only [h10, if_true] at h; exact done _ h
            simp only [h10, if_false] at h
            cases ha : atoi line with
            | none => simp only [ha] at h; exact done _ h
            | some n => simp only [ha] at h; exact done _ h
    unfold pwLoop at h
    simp only at h
    by_cases hr : regen = true
    · simp only [hr, if_true] at h
      cases hg : genPassword (ent i) st.length st.classes with
      | panic => simp [hg] at h
      | err e =>
        cases e
        simp only [hg] at h
        exact key { st with password := [], shown := false } _ ⟨i, Or.inr ⟨rfl, hg⟩⟩ h
      | ok p =>
        simp only [hg] at h
        exact key { st with password := p, shown := true } _ ⟨i, Or.inl hg⟩ h
    · simp only [hr] at h
      exact key _ _ (hst (by simpa using hr)) h

/-! ## C63 -/

/-- Whatever the user enters: a returned password was either typed twice after `m`, or it was accepted with `y` and is
what `genPassword` made for settings then in force — meeting them — unless those were impossible, in which case it is empty. -/
theorem C63_returned (ent : Nat → Nat → UInt8) (inp : Input) (pw : Str) (h : getPassword ent inp = .ok pw) :
    (∃ a b, inp = a ++ some (b! "m") :: some pw :: some pw :: b) ∨
    (some (b! "y") ∈ inp ∧ ∃ length classes i, (genPassword (ent i) length classes = .ok pw ∧ Meets length classes pw) ∨
      (pw = [] ∧ genPassword (ent i) length classes = .err .impossible)) := by
  rcases pwLoop_ok ent _ _ true _ inp pw (by simp) h with ⟨st, ⟨i, hd⟩, rfl, hy⟩ | hm
  · refine Or.inr ⟨hy, st.length, st.classes, i, ?_⟩
    rcases hd with hd | hd
    · exact Or.inl ⟨hd, genPassword_ok_meets hd⟩
    · exact Or.inr hd
  · exact Or.inl hm

/-- Accepting at once returns the first generated password, 32 characters. -/
theorem C63_accept (ent : Nat → Nat → UInt8) (rest : Input) :
    ∃ pw, getPassword ent (some (b! "y") :: rest) = .ok pw ∧ genPassword (ent 0) 32 {} = .ok pw ∧ Meets 32 {} pw := by
  obtain ⟨pw, h1, h2⟩ := (C54_meets_partial (ent 0) 32 {} (by decide)).2
    (by simp [Impossible, Classes.needLen, Classes.all])
  refine ⟨pw, ?_, h1, h2⟩
  simp [getPassword, pwLoop, h1, choose]

/-- The prompt crashes on a line of blanks (`splits[0]` of an empty slice). -/
theorem C63_false (ent : Nat → Nat → UInt8) : getPassword ent [some (b! " ")] = .panic := by
  obtain ⟨pw, h1, -⟩ := (C54_meets_partial (ent 0) 32 {} (by decide)).2
    (by simp [Impossible, Classes.needLen, Classes.all])
  have hf : fields (b! " ") = [] := by decide
  simp [getPassword, pwLoop, h1, choose, hf]

/-- After an impossible request `y` returns the empty password. -/
theorem C63_empty_false (ent : Nat → Nat → UInt8) : getPassword ent [some (b! "-1"), some (b! "y")] = .ok [] := by
  obtain ⟨pw, h1, -⟩ := (C54_meets_partial (ent 0) 32 {} (by decide)).2
    (by simp [Impossible, Classes.needLen, Classes.all])
  have h2 := (C54_meets_partial (ent 1) (-1) {} (by decide)).1 (by simp [Impossible, Classes.needLen])
  have hf : fields (b! "-1") = [b! "-1"] := by decide
  have ha : atoi (b! "-1") = some (-1) := by decide
  simp [getPassword, pwLoop, h1, choose, hf, ha, h2]

/-- lines that crash the prompt: blanks only, or a length that is a positive multiple of 256 -/
def BadLine (line : Str) : Prop :=
  (line ≠ [] ∧ fields line = []) ∨ ∃ n, atoi line = some n ∧ 0 < n ∧ n % 256 = 0

/-- On every input without such lines the prompt does not crash. Missing for the full property: `C63_false`. -/
theorem C63_no_crash_partial (ent : Nat → Nat → UInt8) (inp : Input)
    (hgood : ∀ line, some line ∈ inp → ¬ BadLine line) : getPassword ent inp ≠ .panic := by
  have main : ∀ fuel i regen st inp, (∀ line, some line ∈ inp → ¬ BadLine line) →
      (st.length ≤ 0 ∨ st.length % 256 ≠ 0) → pwLoop ent fuel i regen st inp ≠ .panic := by
    intro fuel
    induction fuel with
    | zero => intros; simp [pwLoop]
    | succ fuel ih =>
      intro i regen st inp hg hl
      have key : ∀ st1 i1, (st1.length ≤ 0 ∨ st1.length % 256 ≠ 0) →
          (match choose st1 inp with
            | .ret pw => Res.ok pw
            | .fail => .err ()
            | .crash => .panic
            | .again regen st rest => pwLoop ent fuel i1 regen st rest) ≠ (Res.panic : Res Unit Str) := by
        intro st1 i1 hl1
        cases inp with
        | nil => simp [choose]
        | cons o rest =>
          cases o with
          | none => simp [choose]
          | some line =>
            have hline := hg line (by simp)
            have hr : ∀ l, some l ∈ rest → ¬ BadLine l := fun l h => hg l (by simp [h])
            unfold choose
            simp only
            by_cases h1 : line = []
            · simp only [h1, if_true]; exact ih _ _ _ _ hr hl1
            by_cases h2 : line = b! "y"
            · simp only [h2, if_true]
              have : ¬ (b! "y" = []) := by decide
              simp [this]
            simp only [h1, h2, if_false]
            by_cases h3 : line = b! "m"
            · simp only [h3, if_true]
              match rest, hr with
              | [], _ => simp
              | none :: _, _ => simp
              | [some initial], _ => simp
              | some initial :: none :: _, _ => simp
              | some initial :: some verify :: rest', hr =>
                simp only
                by_cases hv : initial ≠ verify
                · simp only [ne_eq, hv, not_false_eq_true, if_true]
                  exact ih _ _ _ _ (fun l h => hr l (by simp [h])) hl1
                · simp only [hv, if_false]; simp
            simp only [h3, if_false]
            by_cases h4 : line = b! "?"
            · simp only [h4, if_true]; exact ih _ _ _ _ hr hl1
            simp only [h4, if_false]
            cases hf : fields line with
            | nil => exact absurd (Or.inl ⟨h1, hf⟩) hline
            | cons s ss =>
              simp only
              by_cases h5 : s = b! "c"
              · simp only [h5, if_true]; exact ih _ _ _ _ hr hl1
              simp only [h5, if_false]
              by_cases h6 : s = b! "u"
              · simp only [h6, if_true]; exact ih _ _ _ _ hr hl1
              simp only [h6, if_false]
              by_cases h7 : s = b! "l"
              · simp only [h7, if_true]; exact ih _ _ _ _ hr hl1
              simp only [h7, if_false]
              by_cases h8 : s = b! "n"
              · simp only [h8, if_true]; exact ih _ _ _ _ hr hl1
              simp only [h8, if_false]
              by_cases h9 : s = b! "b"
              · simp only [h9, if_true]; exact ih _ _ _ _ hr hl1
              simp only [h9, if_false]
              by_cases h10 : s = b! "e"
              · simp only [h10, if_true]; exact ih _ _ _ _ hr hl1
              simp only [h10, if_false]
              cases ha : atoi line with
              | none => exact ih _ _ _ _ hr hl1
              | some n =>
                refine ih _ _ _ _ hr ?_
                by_cases hn : n ≤ 0 ∨ n % 256 ≠ 0
                · exact hn
                · exact absurd (Or.inr ⟨n, ha, by omega, by omega⟩) hline
      unfold pwLoop
      simp only
      by_cases hr : regen = true
      · simp only [hr, if_true]
        have h54 := C54_meets_partial (ent i) st.length st.classes hl
        by_cases hi : Impossible st.length st.classes
        · rw [h54.1 hi]; exact key _ _ hl
        · obtain ⟨pw, hp, -⟩ := h54.2 hi
          rw [hp]; exact key _ _ hl
      · simp only [hr]; exact key _ _ hl
  exact main _ _ _ _ _ hgood (by decide)

example : ¬ BadLine (b! "n 4") := by
  have h1 : fields (b! "n 4") = [b! "n", b! "4"] := by decide
  have h2 : atoi (b! "n 4") = none := by decide
  simp [BadLine, h1, h2]
example (ent : Nat → Nat → UInt8) : getPassword ent [some (b! "m"), some (b! "pw"), some (b! "pw")] = .ok (b! "pw") := by
  obtain ⟨pw, h1, -⟩ := (C54_meets_partial (ent 0) 32 {} (by decide)).2
    (by simp [Impossible, Classes.needLen, Classes.all])
  simp [getPassword, pwLoop, h1, choose]

end Verif.App
