import Verif.App.Modes
/-! # What C113 means by files that are private -/
namespace Verif.App
open Verif Modes

/-- no permissions but those of the owner -/
def Private (n : Modes.Node) : Prop := n.mode &&& 0o77 = 0

/-- `export` does not write there -/
def Unexported (path : Str) (a : Act) : Prop := ∀ d, a ≠ .exportTo path d

end Verif.App
