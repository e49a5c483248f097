import Verif.App.Edges
/-!
# What the properties of the edges talk about
-/
namespace Verif.App.Spec
open Verif Verif.App

/-- The escapes of the protocol of pinentry: the percent sign and the ends of lines. -/
def pinEscape (p : Str) : Str :=
  p.flatMap fun c => if c = 37 then b! "%25" else if c = 13 then b! "%0D" else if c = 10 then b! "%0A" else [c]

/-- The beginning of every conversation with pinentry: a greeting and an OK for each setting. -/
def pinStart (settings : Nat) : List Str := b! "OK Pleased to meet you" :: List.replicate settings (b! "OK")

/-- The code units of a character. -/
def utf16Units (r : Nat) : List UInt16 :=
  if r < 0x10000 then [UInt16.ofNat r]
  else [UInt16.ofNat (0xD800 + (r - 0x10000) / 1024), UInt16.ofNat (0xDC00 + (r - 0x10000) % 1024)]

/-- What is on the line after these keys: backspace takes back the last one. `none`: there was none to take back. -/
def typedKeys : List UInt8 → Str → Option Str
  | [], s => some s
  | k :: ks, s => if k = 8 then (if s = [] then none else typedKeys ks s.dropLast) else typedKeys ks (s ++ [k])

/-- A key that is typed into the text, or backspace. -/
def TextKey (k : UInt8) : Prop := k.toNat < 0x80 ∧ k ∉ [13, 10, 4, 3]

end Verif.App.Spec
