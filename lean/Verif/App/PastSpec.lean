import Verif.App.Past
import Verif.App.HistorySpec
import Verif.App.AccessSpec
import Verif.Go.TimeSpec
/-!
# What it means to see a file as it was
-/
namespace Verif.App.Spec
open Verif Verif.Txlogs Verif.Blob Verif.Crypt

/-- The store `s` shows exactly what the operations `l` amount to. -/
structure Shows (s : DB) (l : List Tx) : Prop where
  log : s.log = l
  version : s.version = l.length
  state : Txlogs.Spec.meaning Txlogs.Spec.empty l = some (Txlogs.Spec.view s.snapshot)

/-- A turn after the instant `T`. -/
structure LateTurn (T : Int) (v : Env) : Prop where
  now : ∀ i, T < v.d.now i
  nows : ∀ k i, T < (v.ds k).now i

/-- A single-user file that held `s0` at the instant `T`, after any number of later sessions. -/
inductive Since (P : Prims) (T : Int) (s0 : DB) : Str → Str → DB → Prop where
  | then {f pass : Str} : Life P f pass s0 → (∀ t ∈ s0.log, t.time ≤ T) → Since P T s0 f pass s0
  | next {f pass : Str} {s : DB} {inp : Input} {u : Session} {turns : List Turn} {r : Repl} {ord : Order}
      {ord' : Results → Results} {iv f' : Str} :
      Since P T s0 f pass s → openFile P Json.Spec.codec none f [some pass] = (.ok u, inp) →
      Along P Json.Spec.codec (fun v line r => OwnTurn v line r ∧ LateTurn T v) turns { u := u } →
      runRepl P Json.Spec.codec turns { u := u } = (r, .ok ()) →
      Counted r.u.store → iv.length = 40 → saveBlob P Json.Spec.codec ord ord' iv r.u = .ok (some f') →
      Since P T s0 f' (lastPass P Json.Spec.codec turns { u := u } pass) r.u.store

/-- A date as it is shown, typed the way `--time` takes it. -/
def retype (s : Str) : Str := s.take 10 ++ b! " " ++ (s.drop 11).take 8

/-- What is shown behind a date: how far, in seconds, the clock shown is ahead of UTC. -/
def zoneOf : Str → Option Int
  | [90] => some 0
  | [sign, a, b, 58, c, d] =>
    let n : Nat := (Time.digitVal a * 10 + Time.digitVal b) * 3600 + (Time.digitVal c * 10 + Time.digitVal d) * 60
    if sign = 43 then some n else if sign = 45 then some (-n) else none
  | _ => none

/-- A year of which every nanosecond has a number of 64 bits. -/
def Counts (t : Time.Stamp) : Prop := 1678 ≤ t.year ∧ t.year ≤ 2261

end Verif.App.Spec
