import Verif.Go.Quote
import Verif.App.Commands
/-!
# What `dump` prints
-/
namespace Verif.App
open Verif Verif.Txlogs Verif.Blob

/-- `dumpBlob` with indent 0 (commands.go:1234-1238); the map is visited in the order of the list -/
def dumpText (isPrint : Nat → Bool) (l : List (Str × Str)) : Str :=
  l.flatMap fun p => p.1 ++ b! ": " ++ goQuote isPrint p.2 ++ [10]

end Verif.App
