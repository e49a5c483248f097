import Verif.App.PassGen
/-!
# What it means that a generated password is hard to guess

`rand.Read` fills a buffer with `N` bytes, each of the `256 ^ N` contents as likely as any other. How likely a password is, is how
many of these contents lead to it.
-/
namespace Verif.App.Spec
open Verif Verif.App

/-- all bytes -/
def bytes : List UInt8 := (List.range 256).map UInt8.ofNat

/-- all strings of `n` bytes -/
def strings : Nat → List Str
  | 0 => [[]]
  | n + 1 => bytes.flatMap fun b => (strings n).map (b :: ·)

/-- how many strings of `n` bytes have the property -/
def count (n : Nat) (p : Str → Bool) : Nat := (strings n).countP p

/-- the bytes of a buffer, by their numbers -/
def entOf (l : Str) : Nat → UInt8 := fun i => l.getD i 0

/-- the size of the buffer (passwd_gen.go:38) -/
def bufferSize (length : Int) (c : Classes) : Nat := (c.needLen + (length - c.needLen) * 2 + length).toNat

/-- in how many ways `genPassword` arrives at the password -/
def ways (length : Int) (c : Classes) (pw : Str) : Nat := count (bufferSize length c) fun l => genPassword (entOf l) length c = .ok pw

/-- how many bytes pick the character from the alphabet -/
def picks (alphabet : Str) (x : UInt8) : Nat := bytes.countP fun b => pickFrom alphabet b = some x

/-- the most bytes that pick one character -/
def mostPicks (alphabet : Str) : Nat := (bytes.map (picks alphabet)).foldl max 0

/-- how many pairs of bytes pick the character, first a class and then a character of its alphabet -/
def picks2 (pairs : List (Str × Int)) (x : UInt8) : Nat :=
  (bytes.map fun a => match pickFrom pairs a with | none => 0 | some p => picks p.1 x).sum

end Verif.App.Spec
