import Verif.Go.Time
import Verif.App.Session
/-!
# Model of opening a file as it was at a time in the past

cli.go:86-93, main.go:45-47, 229-249 and the dates that are shown (commands.go:689-706, 1136-1141).
-/
namespace Verif.App
open Verif Verif.Txlogs

/-- what `--time` asks for (cli.go:86-93 with main.go:45-47): `none` = the program ends with a message, `some none` = the file as it
is, `some (some t)` = the file as it was at `t`, for reading only -/
def cliTime (flag : Str) : Option (Option Int) :=
  if flag = [] then some none
  else
    match Time.parse flag with
    | none => none
    | some (t, ns) => if Time.isZero t ns then some none else some (some (Time.unixNano t ns))

/-- the program started with `--time flag` opens the file `f` (main.go:45-66); `none` = it ends before -/
def openAt (P : Crypt.Prims) (C : Codec) (flag f : Str) (inp : Input) : Option (Res AppErr Session × Input) :=
  (cliTime flag).map fun history => openFile P C history f inp

/-- the date that `show` and `get` give for the field "updated" (commands.go:701, 1140), where the local time is `zone` seconds east -/
def shownDate (zone : Int) (t : Int) : Str := Time.rfc3339 zone t

end Verif.App
