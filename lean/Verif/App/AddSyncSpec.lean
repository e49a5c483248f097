import Verif.App.Commands
import Verif.App.PromptSpec
/-!
# What the properties of `addsync` talk about
-/
namespace Verif.App.Spec
open Verif Verif.Txlogs Verif.Blob Verif.Crypt Verif.App

/-- The port typed: the default for an empty line. Lines that are no number are asked again. -/
def PortTyped (inp : Input) (port : Str) (rest : Input) : Prop :=
  ∃ p, FirstAnswer (fun p => p = [] ∨ (atoi p).isSome) inp p rest ∧ port = if p = [] then b! "22" else p

/-- What was typed for a remote reached by scp: user, host, port, path and the way to log in (0 and 1 = a new key, 2 = a
password). -/
def ScpTyped (inp : Input) (user host port path : Str) (choice : Int) (rest : Input) : Prop :=
  ∃ i1 i2 i3 i4, FirstAnswer (fun s => s ≠ []) inp user i1 ∧ FirstAnswer (fun s => s ≠ []) i1 host i2 ∧ PortTyped i2 port i3 ∧
    FirstAnswer (fun s => s ≠ []) i3 path i4 ∧
    ∃ s, FirstAnswer (fun s => ∃ k : Int, atoi s = some k ∧ 1 ≤ k ∧ k ≤ 3) i4 s rest ∧ atoi s = some (choice + 1)

/-- The address and the keys to be recorded for an scp remote. -/
def ScpSays (v : Env) (url : Str) (priv pub : Option Str) : Prop :=
  ∃ user host port path choice rest, ScpTyped v.d.inp user host port path choice rest ∧
    ((choice = 2 ∧ ∃ pass, getPassword v.d.ent rest = .ok pass ∧ url = v.scpUrl user host port path (some pass) ∧
        priv = none ∧ pub = none) ∨
     (choice ≠ 2 ∧ url = v.scpUrl user host port path none ∧ priv = v.keys.map Prod.fst ∧ pub = v.keys.map Prod.snd))

/-- The address to be recorded for a remote that is a file. -/
def FileSays (v : Env) (url : Str) (priv pub : Option Str) : Prop :=
  priv = none ∧ pub = none ∧ ∃ file rest, FirstAnswer (fun s => s ≠ []) v.d.inp file rest ∧ v.fileUrl file = some url

end Verif.App.Spec
