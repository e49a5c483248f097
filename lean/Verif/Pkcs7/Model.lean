import Verif.Go.Basic
/-!
# Model of `pkcs7/pad.go`
-/
namespace Verif.Pkcs7
open Verif

/-- `Pad` (pad.go:41-56); `none` = panic. `byte(padBytes)` keeps the low eight bits. The branch `padBytes == 0` is
never taken (`k - len % k > 0`) but is kept. -/
def pad (b : Str) (k : Int) : Option Str :=
  if k < 1 then none
  else
    let padBytes := k.toNat - b.length % k.toNat
    let padBytes := if padBytes = 0 then k.toNat else padBytes
    some (b ++ List.replicate padBytes (UInt8.ofNat padBytes))

/-- errors of `Unpad` (pad.go:10-14) -/
inductive PErr where
  | emptySlice | paddingInvalid | amountImpossible
  deriving Repr, DecidableEq

/-- `Unpad` (pad.go:59-79): the loop of lines 72-76 reads the last `padBytes` bytes from left to right. -/
def unpad (b : Str) : Res PErr Str :=
  match b.getLast? with
  | none => .err .emptySlice
  | some padByte =>
    let n := padByte.toNat
    if n > b.length then .err .amountImpossible
    else if (b.drop (b.length - n)).all (· == padByte) then .ok (b.take (b.length - n))
    else .err .paddingInvalid

end Verif.Pkcs7
