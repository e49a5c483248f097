import Verif.App.TightProps2
import Verif.App.ShowProps
import Verif.App.EdgesProps
/-!
# More of what wrong programs slipped through, third round

Each theorem here rejects a wrong program that the other theorems of its claim accepted (see `seeded/LOG.jsonl`).
-/
namespace Verif.App
open Verif Verif.Txlogs Verif.Blob Verif.Crypt

/-! ## C81 -/

/-- What `show` prints of the current version of an entry ends with the number of operations on it, whatever that number is; of an
old version it says no such thing. Before it is the date of the last change if the entry has one, and an entry whose time stamp
cannot be read is not shown. -/
theorem C81_tail (date : Int → Str) (width : Nat) (e : Entry) (snaps : Nat) :
    (updated e = none → showTail date width e snaps = none) ∧
    (∀ t, updated e = some t → ∃ d, d = (match t with | none => [] | some t => keyValueText width keyUpdated (date t)) ∧
      showTail date width e 0 = some d ∧
      (snaps ≠ 0 → showTail date width e snaps = some (d ++ keyValueText width (b! "snaps") (fmtNat snaps)))) := by
  constructor
  · intro h
    unfold showTail
    rw [h]
  · intro t h
    refine ⟨_, rfl, ?_, fun hn => ?_⟩
    · unfold showTail
      rw [h]
      simp only [if_true, List.append_nil]
      cases t <;> rfl
    · unfold showTail
      rw [h]
      simp only [if_neg hn]
      cases t <;> rfl

example : showTail (fun _ => b! "D") 8 [(keyName, b! "n")] 1 = some (b! "  snaps:   1\n") := by decide

theorem spreadLabels_plain (l : Str) (h : comma ∉ l) : spreadLabels l = l := by
  unfold spreadLabels
  induction l with
  | nil => rfl
  | cons c l ih =>
    have hc : c ≠ comma := fun e => h (e ▸ List.mem_cons_self ..)
    rw [List.flatMap_cons, if_neg hc, ih (fun hm => h (List.mem_cons_of_mem _ hm))]
    rfl

theorem spreadLabels_append (a b : Str) : spreadLabels (a ++ b) = spreadLabels a ++ spreadLabels b := by
  simp [spreadLabels]

theorem spreadLabels_join : ∀ ls : List Str, (∀ l ∈ ls, comma ∉ l) → spreadLabels (join comma ls) = joinStr (b! ", ") ls
  | [], _ => rfl
  | [l], h => spreadLabels_plain l (h l (List.mem_cons_self ..))
  | l :: m :: ls, h => by
    show spreadLabels (l ++ comma :: join comma (m :: ls)) = l ++ b! ", " ++ joinStr (b! ", ") (m :: ls)
    rw [spreadLabels_append, spreadLabels_plain l (h l (List.mem_cons_self ..))]
    have h2 : ∀ s, spreadLabels (comma :: s) = b! ", " ++ spreadLabels s := fun s => rfl
    rw [h2, spreadLabels_join (m :: ls) (fun x hx => h x (List.mem_cons_of_mem _ hx)), List.append_assoc]

/-- `show` prints the labels of an entry, all of them and in their order, with a comma and a space between them. -/
theorem C81_labels_text (v : Env) (te : Str) (width : Nat) (e : Entry) (ls : List Str) (hl : ∀ l ∈ ls, comma ∉ l)
    (he : e.get? keyLabels = some (join comma ls)) :
    showOne v te width e keyLabels = some (keyValueText width keyLabels (joinStr (b! ", ") ls)) := by
  unfold showOne
  rw [if_neg (by decide), he]
  simp only
  rw [if_neg (by decide), if_pos trivial, spreadLabels_join ls hl]

example : showOne {} [] 8 [(keyLabels, b! "x,y")] keyLabels = some (b! "  labels:  x, y\n") :=
  C81_labels_text {} [] 8 _ [b! "x", b! "y"] (by decide) (by decide)

/-! ## C83 -/

/-- A password is read from the terminal only if there is no pinentry. If there is one, whatever goes wrong with it, what is typed in
the terminal does not matter: the answer is what pinentry said, or none. -/
theorem C83_prompt (starts exits : Bool) (settings : Nat) (ls : List Str) (hidden : Option Str) :
    promptPassword (pinentry false starts settings ls exits) hidden = hidden ∧
    (∀ pw, promptPassword (pinentry true starts settings ls exits) hidden = some pw ↔
      pinentry true starts settings ls exits = .ok pw) := by
  refine ⟨by simp [pinentry, promptPassword], fun pw => ?_⟩
  have hnf : pinentry true starts settings ls exits ≠ .notFound := by
    unfold pinentry
    simp only [not_true_eq_false, if_false]
    repeat' split
    all_goals (intro h; cases h)
  cases hp : pinentry true starts settings ls exits with
  | notFound => exact absurd hp hnf
  | err => simp [promptPassword]
  | ok p => simp [promptPassword]

/-- not vacuous: pinentry dies after the greeting -/
example : promptPassword (pinentry true true 3 [b! "OK Pleased to meet you"] true) (some (b! "typed")) = none := by decide

end Verif.App
