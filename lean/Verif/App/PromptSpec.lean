import Verif.App.Input
/-!
# What the properties of the prompts talk about
-/
namespace Verif.App.Spec
open Verif Verif.App

/-- The answers that count as yes, and as no. -/
def Yes (s : Str) : Prop := s = b! "y" ∨ s = b! "Y" ∨ s = b! "yes" ∨ s = b! "YES"
def No (s : Str) : Prop := s = b! "n" ∨ s = b! "N" ∨ s = b! "no" ∨ s = b! "NO"

/-- The first line that is an answer is `s`; nothing after it is used. -/
def FirstAnswer (Ok : Str → Prop) (inp : Input) (s : Str) (rest : Input) : Prop :=
  ∃ skipped : List Str, inp = skipped.map some ++ some s :: rest ∧ (∀ x ∈ skipped, ¬ Ok x) ∧ Ok s

/-- A class of characters in the password prompt, by the letter that stands for it. -/
inductive Class where
  | upper | lower | numbers | basic | extra

def Class.letter : Class → UInt8
  | .upper => 117 | .lower => 108 | .numbers => 110 | .basic => 98 | .extra => 101

def Class.get (c : Class) (k : Classes) : Int :=
  match c with
  | .upper => k.upper | .lower => k.lower | .numbers => k.numbers | .basic => k.basic | .extra => k.extra

def Class.set (c : Class) (n : Int) (k : Classes) : Classes :=
  match c with
  | .upper => { k with upper := n } | .lower => { k with lower := n } | .numbers => { k with numbers := n }
  | .basic => { k with basic := n } | .extra => { k with extra := n }

/-- What can be adjusted at the password prompt: switch a class on or off, ask for at least so many characters of it, ask for a
length, or ask for another password. -/
inductive Adjust where
  | toggle (c : Class)
  | atLeast (c : Class) (n : Int)
  | len (n : Int)
  | more

/-- what the user types for it -/
def Adjust.line : Adjust → Str
  | .toggle c => [c.letter]
  | .atLeast c n => c.letter :: 32 :: fmtInt n
  | .len n => fmtInt n
  | .more => []

/-- the settings after it -/
def Adjust.apply : Adjust → Int × Classes → Int × Classes
  | .toggle c, (l, k) => (l, c.set (if c.get k < 0 then 0 else -1) k)
  | .atLeast c n, (l, k) => (l, c.set n k)
  | .len n, (_, k) => (n, k)
  | .more, x => x

/-- numbers fit an `int` and no length is a positive multiple of 256 -/
def Adjust.Fine : Adjust → Prop
  | .toggle _ => True
  | .atLeast _ n => -9223372036854775808 ≤ n ∧ n ≤ 9223372036854775807
  | .len n => -9223372036854775808 ≤ n ∧ n ≤ 9223372036854775807 ∧ (n ≤ 0 ∨ n % 256 ≠ 0)
  | .more => True

end Verif.App.Spec
