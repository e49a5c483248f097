import Verif.App.PastProps
import Verif.App.HistoryProps
/-!
# C99: where it fails, and that it is not vacuous
-/
namespace Verif.App
open Verif Verif.Txlogs Verif.Blob Verif.Crypt Verif.App.Spec
open Verif.Crypt.Spec (toy toy_lawful)
open Verif.Txlogs.Spec (GoodHistory Replays)
open Verif.Time (Stamp)
open HistoryDemo (own ownB ok_log)

namespace PastDemo

/-! ## a file that is created and changed later -/

/-- a note is set at the time 5 -/
def vQ : Env :=
  { d := { Demo.d0 with
           uuid := [6]
           now := fun _ => 5
           inp := [] }
    ds := fun _ => { now := fun _ => 5 } }

def line : Str := b! "set x note hi"
def rQ : Repl := Demo.after line vQ { u := Demo.uM }

theorem vQ_clean : CleanEnv vQ where
  typed := fun x hx => by cases hx
  uuid := valid_ascii _ (by decide)
  now := fun i => by show FitsInt64 5; unfold FitsInt64; omega
  nows := fun j i => by show FitsInt64 5; unfold FitsInt64; omega
  otp := fun w x _ hx => hx
  editor := fun x y hx hy => by cases hy; exact hx
  fileUrl := fun x y hx hy => by cases hy; exact hx
  scpUrl := fun _ _ _ _ _ _ _ _ hd _ => hd
  keypair := fun a b h => by cases h

theorem vQ_late : LateTurn 0 vQ := ⟨fun _ => by show (0 : Int) < 5; omega, fun _ _ => by show (0 : Int) < 5; omega⟩

theorem since : ∃ f, Since toy 0 Demo.rN.u.store f (b! "A") rQ.u.store := by
  obtain ⟨u, k1, k2, k3, k4, k5⟩ := C74_life_partial toy toy_lawful _ _ _ Demo.life1
  have hu : Demo.uM = u := Res.ok.inj (Prod.mk.inj (Demo.openM.symm.trans k1)).1
  rw [← hu] at k4
  have hM : OwnTurn vQ line { u := Demo.uM } :=
    ⟨⟨⟨valid_ascii _ (by decide), ⟨Demo.perm_id, Demo.perm_id', by decide, Demo.fresh_concrete k4.good (by decide +kernel)⟩,
      Demo.parse_ne (x := (b! "set", [b! "x", b! "note", b! "hi"])) (by decide +kernel) (by decide)⟩, vQ_clean⟩, by decide,
      Demo.noAdd (x := (b! "set", [b! "x", b! "note", b! "hi"])) (by decide +kernel) (by decide)⟩
  have hl : Since toy 0 Demo.rN.u.store (Demo.fileOf rQ)
      (lastPass toy Json.Spec.codec [(some line, vQ)] { u := Demo.uM } (b! "A")) rQ.u.store :=
    Since.next (turns := [(some line, vQ)]) (Since.then Demo.life1 (by decide +kernel)) Demo.openM ⟨⟨hM, vQ_late⟩, trivial⟩
      (by unfold rQ Demo.after; exact Demo.run_eq (by decide +kernel))
      (by unfold Counted; decide +kernel) (by decide : (List.replicate 40 (4 : UInt8)).length = 40) (ord := id) (ord' := id)
      (by decide +kernel)
  have hp : lastPass toy Json.Spec.codec [(some line, vQ)] { u := Demo.uM } (b! "A") = b! "A" := by decide +kernel
  rw [hp] at hl
  exact ⟨_, hl⟩

/-- what is typed for the beginning of 1970 -/
theorem flag_text : Time.Spec.text Time.Spec.epoch = b! "1970-01-01 00:00:00" := by decide +kernel

end PastDemo

theorem valid_epoch : Time.Spec.Valid Time.Spec.epoch := by refine ⟨?_, ?_, ?_, ?_, ?_, ?_⟩ <;> decide

/-- not vacuous: a file got an entry at the time 0 and a note in it at the time 5; opened at 0 it shows the entry without the note -/
example : ∃ f u s, openAt toy Json.Spec.codec (b! "1970-01-01 00:00:00") f [some (b! "A")] = some (.ok u, []) ∧
    Since toy 0 Demo.rN.u.store f (b! "A") s ∧ u.store.log = Demo.rN.u.store.log ∧ u.store.log ≠ [] ∧ s.log ≠ u.store.log := by
  obtain ⟨f, h⟩ := PastDemo.since
  obtain ⟨u, h1, -, h3⟩ := C99_program_partial toy toy_lawful Time.Spec.epoch valid_epoch (by unfold Counts; decide) _ _ f _ (by
    rw [Time.unix_epoch]; exact h)
  rw [PastDemo.flag_text] at h1
  refine ⟨f, u, _, h1, h, h3.log, ?_, ?_⟩
  · rw [h3.log]; decide +kernel
  · rw [h3.log]; decide +kernel

/-- not vacuous: the first second of a leap day -/
example : Time.Spec.Valid { year := 2024, month := 2, day := 29, hour := 0, min := 0, sec := 0 } ∧
    ¬ Time.Spec.Valid { year := 1900, month := 2, day := 29, hour := 0, min := 0, sec := 0 } ∧
    Time.unix { year := 2024, month := 2, day := 29, hour := 0, min := 0, sec := 0 } = 1709164800 := by
  refine ⟨⟨by decide, by decide, by decide, by decide, by decide, by decide⟩, fun h => absurd h.day (by decide), by decide +kernel⟩

/-- not vacuous: half a second after 2024-02-29 00:00:00 -/
example : shownDate 0 1709164800500000000 = b! "2024-02-29T00:00:00Z" ∧
    cliTime (b! "2024-02-29 00:00:00") = some (some 1709164800000000000) ∧
    cliTime (b! "2024-02-29 00:00:01") = some (some 1709164801000000000) ∧
    cliTime (b! "2023-02-29 00:00:01") = none := by
  decide +kernel

/-- not vacuous: a day that does not exist, and a file opened at a time -/
example : Time.parse (b! "2023-02-29 00:00:01") = none ∧
    ((openAt toy Json.Spec.codec (b! "2024-02-29 00:00:01") (Demo.fileOf Demo.rN) [some (b! "A")]).map fun r =>
      match r.1 with
      | .ok u => u.readOnly
      | _ => false) = some true := by
  decide +kernel

/-! ## where it fails -/

/-- A date that exists can mean another one: from the year 2263 on the number of nanoseconds does not fit 64 bits, and a file opened
at such a time shows nothing, although everything in it is older. -/
theorem C99_far_false : ¬ ∀ (t : Stamp) (c : Creds) (s : DB) (u : Session), Time.Spec.Valid t → GoodHistory s.log →
    (∀ x ∈ s.log, x.time ≤ Time.unix t * 1000000000) →
    (cliTime (Time.Spec.text t)).map (fun h => openStore h c (some s)) = some (.ok u) → u.store.log = s.log := by
  intro h
  have hv : Time.Spec.Valid { year := 2263, month := 1, day := 1, hour := 0, min := 0, sec := 0 } := by
    refine ⟨?_, ?_, ?_, ?_, ?_, ?_⟩ <;> decide
  have := h { year := 2263, month := 1, day := 1, hour := 0, min := 0, sec := 0 } {}
    { log := [⟨1, .add, [1], [], []⟩, ⟨2, .setk, [1], keyName, b! "bank"⟩] }
    { creds := {}, store := {}, readOnly := true, startTx := 0 } hv (own (by decide +kernel)).good (by decide +kernel) (by decide +kernel)
  exact absurd this (by decide)

/-- One time is not taken for a time: at the first second of the year 1 the file is opened as it is, for writing. -/
theorem C99_zero_false : ¬ ∀ (P : Prims) (C : Codec) (flag f : Str) (inp rest : Input) (u : Session), Crypt.Spec.Lawful P →
    flag ≠ [] → openAt P C flag f inp = some (.ok u, rest) → u.readOnly = true := by
  intro h
  have e : cliTime (b! "0001-01-01 00:00:00") = some none := by decide +kernel
  have := h toy Json.Spec.codec (b! "0001-01-01 00:00:00") (Demo.fileOf Demo.rN) [some (b! "A")] [] Demo.uM toy_lawful (by decide)
    (by unfold openAt; rw [e]; simp only [Option.map_some, Demo.openM])
  exact absurd this (by decide)

namespace PastDemo

/-- an entry that gets its name ten nanoseconds after it was added -/
def logC : List Tx := [⟨10, .add, [1], [], []⟩, ⟨20, .setk, [1], keyName, b! "bank"⟩]
def uC : Session :=
  { creds := { pass := b! "A", key := toy.kdf (b! "A") (List.replicate 32 1), salt := List.replicate 32 1 }
    store := { log := logC }, startTx := 2 }
def fC : Str := Demo.fileOf { u := uC }

theorem openC : openFile toy Json.Spec.codec none fC [some (b! "A")] = (.ok uC, []) := by decide +kernel

theorem soundC : Sound uC.store := by
  have ho : OwnHistory uC.store.log := own (by decide +kernel)
  exact ⟨(own_wf (ok_log _) ho).2.2 (by decide +kernel), ho, rfl⟩

/-- what it is opened as at the time 15 -/
def uC' : Session :=
  { creds := uC.creds
    store := { log := [⟨10, .add, [1], [], []⟩], version := 1, snapshot := [([1], [])] }
    readOnly := true, startTx := 1 }

theorem openC' : openFile toy Json.Spec.codec (some 15) fC [some (b! "A")] = (.ok uC', []) := by decide +kernel

end PastDemo

/-- A command takes several nanoseconds, and what is shown for a time in between is not in order: an entry that had no name yet
makes `ls` crash. -/
theorem C99_cut_false : ¬ ∀ (P : Prims) (C : Codec) (t : Int) (f line : Str) (inp rest rest' : Input) (u u' : Session) (v : Env),
    Crypt.Spec.Lawful P → openFile P C none f inp = (.ok u, rest) → Sound u.store → openFile P C (some t) f inp = (.ok u', rest') →
    (runLine P C v line { u := u' }).2 ≠ .panic := by
  intro h
  exact h toy Json.Spec.codec 15 PastDemo.fC (b! "ls") [some (b! "A")] [] [] PastDemo.uC PastDemo.uC' {} toy_lawful PastDemo.openC
    PastDemo.soundC PastDemo.openC' (by decide +kernel)

/-- Dates are shown in local time and taken as UTC: typed as it is shown, a date means another instant wherever the local time is
not UTC. -/
theorem C99_zone_false : ¬ ∀ (zone x : Int) (t : Stamp) (a : Int), 0 ≤ x → retype (shownDate zone x) = Time.Spec.text t →
    cliTime (Time.Spec.text t) = some (some a) → a ≤ x := by
  intro h
  have := h 3600 0 { year := 1970, month := 1, day := 1, hour := 1, min := 0, sec := 0 } 3600000000000 (by omega) (by decide +kernel)
    (by decide +kernel)
  omega

/-- The date that is shown for a change is in general before the change: a file opened at that date does not have it yet. -/
theorem C99_date_false : ¬ ∀ (x : Int) (c : Creds) (s : DB) (u : Session), 0 ≤ x → GoodHistory s.log → (∃ t ∈ s.log, t.time = x) →
    (cliTime (retype (shownDate 0 x))).map (fun h => openStore h c (some s)) = some (.ok u) → ∃ t ∈ u.store.log, t.time = x := by
  intro h
  have := h 1500000000 {} { log := [⟨1, .add, [1], [], []⟩, ⟨1500000000, .setk, [1], keyName, b! "bank"⟩] }
    { creds := {}, store := { log := [⟨1, .add, [1], [], []⟩], version := 1, snapshot := [([1], [])] }, readOnly := true, startTx := 1 }
    (by omega) (own (by decide +kernel)).good (by decide) (by decide +kernel)
  exact absurd this (by decide)

/-- not vacuous: at the time 20 the same file shows the entry under its name -/
example : ∃ u', openFile toy Json.Spec.codec (some 20) PastDemo.fC [some (b! "A")] = (.ok u', []) ∧ u'.readOnly = true ∧
    u'.creds = PastDemo.uC.creds ∧ Shows u'.store PastDemo.logC := by
  have := C99_open_partial toy Json.Spec.codec 20 _ _ _ _ PastDemo.openC PastDemo.soundC.own.good
  have e : PastDemo.uC.store.log.filter (fun x => x.time ≤ 20) = PastDemo.logC := by decide
  rw [e] at this
  exact this

end Verif.App
