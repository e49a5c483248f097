import Verif.App.SyncProps
/-!
# Two remotes, one of them behind: C27 is false

and the properties of `sync` are not vacuous.
-/
namespace Verif.App.SyncDemo
open Verif Verif.Txlogs Verif.Blob Verif.Crypt Verif.App Verif.App.Spec
open Verif.Crypt.Spec (toy toy_lawful)

/-- a sync entry `x` -/
def entryOps (t : Int) (x : UInt8) : List Tx :=
  [⟨t, .add, [x], [], []⟩, ⟨t + 1, .setk, [x], keyName, b! "sync/" ++ [x]⟩, ⟨t + 2, .setk, [x], keySync, b! "true"⟩,
   ⟨t + 3, .setk, [x], keyURL, [x]⟩]

/-- the local log: two sync entries -/
def logA : List Tx := entryOps 1 97 ++ entryOps 5 98
/-- remote `b` has one more operation -/
def logB : List Tx := logA ++ [⟨9, .setk, [98], b! "note", [1]⟩]

def C : Codec where
  marshal s := if s.log = logA then [1] else [2]
  load t := if t = [1] then .ok (some { log := logA }) else .ok (some { log := logB })
  loadLog t := if t = [1] then .ok logA else .ok logB

def u : Session :=
  { creds := { pass := [1], key := List.replicate 80 1, salt := List.replicate 32 1 }, store := { log := logA } }

def iv : Str := List.replicate 40 4

def fileOf (log : List Tx) : Str :=
  match saveBlob toy C id id iv { u with store := { log := log } } with
  | .ok (some f) => f
  | _ => []

/-- what the two remotes hold -/
def w : World where
  scheme _ := some syncFile
  sshPull _ _ inp := (none, inp)
  readFile uuid _ := if uuid = [97] then .bytes (fileOf logA) else .bytes (fileOf logB)
  sshPush _ _ _ inp := (none, inp)
  writeFile _ _ _ := true

def v : SyncEnv := { iv := iv }

theorem pulls : pullAll toy C w { u with store := u.store.updateSnapshot.1 } [[97], [98]] [] =
    (some [([97], .skip, []),
      ([98], .merge { name := b! "sync/b", creds := u.creds, log := logB }, [])], []) := by
  decide +kernel

theorem merges : mergeBlobs v.ord u.creds u.store.log [{ name := b! "sync/b", creds := u.creds, log := logB }] [] =
    (.ok ⟨u.creds, logB⟩, []) := by decide +kernel

/-- the first and last component of a successful decryption -/
def text : Res CErr (Int × Params × Str) → Option (Int × Str)
  | .ok (v, _, pt) => some (v, pt)
  | _ => none

theorem text_some {r : Res CErr (Int × Params × Str)} {v : Int} {pt : Str} (h : text r = some (v, pt)) :
    ∃ p, r = .ok (v, p, pt) := by
  cases r with
  | ok x => obtain ⟨a, b, c⟩ := x; cases h; exact ⟨b, rfl⟩
  | err e => cases h
  | panic => cases h

theorem reads : ∃ p, decrypt toy u.creds.user u.creds.pass (orNil u.creds.key) u.creds.salt (fileOf logA) = .ok (1, p, [1]) :=
  text_some (by decide +kernel)

set_option maxRecDepth 1000000 in
/-- C27 is false: a remote that was read successfully, but has the log the local file started with, is not written to although
another remote brought changes. It keeps a log that is not the merged one. -/
theorem C27_false : ∃ (P : Prims) (C : Codec) (w : World) (v : SyncEnv) (u : Session) (uuid ct : Str),
    Crypt.Spec.Lawful P ∧ (∀ m, (v.ord m).Perm m) ∧
    let r := sync P C w v [] true u []
    r.result = .ok () ∧ uuid ∈ collectSyncs w v.ord u.store.updateSnapshot.1 ∧ Reads w uuid (syncEntry u uuid) ct ∧
      (∃ p pt log, decrypt P u.creds.user u.creds.pass (orNil u.creds.key) u.creds.salt ct = .ok (1, p, pt) ∧
        C.loadLog pt = .ok log ∧ log ≠ r.session.store.log) ∧ uuid ∉ r.pushed.map Prod.fst := by
  refine ⟨toy, C, w, v, u, [97], fileOf logA, toy_lawful, fun m => List.Perm.refl m, ?_, ?_, ?_, ?_, ?_⟩
  · decide +kernel
  · decide +kernel
  · exact ⟨[], [], [], by decide +kernel⟩
  · obtain ⟨p, hp⟩ := reads
    exact ⟨p, [1], logA, hp, rfl, by decide +kernel⟩
  · decide +kernel

/-! ## The hypotheses of the other properties are satisfied -/

-- remote `b` is written to, with the merged log
example : (sync toy C w v [] true u []).pushed = [([98], true)] ∧
    (sync toy C w v [] true u []).session.store.log = logB := by decide +kernel

example := C27_opens_single_partial toy toy_lawful C w v (by decide) { u with store := u.store.updateSnapshot.1 }
  [[97], [98]] [] [] [] _ ⟨u.creds, logB⟩ pulls merges rfl (by decide +kernel) ⟨rfl, by decide, by decide⟩ [1] (by decide)
  (by decide +kernel)

/-- a world in which `a` cannot be read -/
def wBad : World := { w with readFile := fun uuid _ => if uuid = [97] then .failed else .bytes (fileOf logB) }

example : [97] ∉ (sync toy C wBad v [] true u []).pushed.map Prod.fst := by
  refine C26_unreadable toy C wBad v [] true u [] [97] ?_ ?_
  · rintro ⟨inp, h, inp', hp⟩
    have : pullBlob wBad [97] (syncEntry u [97]) inp = (some (.failed, []), inp) := rfl
    rw [this] at hp
    cases hp
  · rintro ct ⟨inp, h, inp', hp⟩
    have : pullBlob wBad [97] (syncEntry u [97]) inp = (some (.failed, []), inp) := rfl
    rw [this] at hp
    cases hp

/-- a remote without common history: the user declines -/
def logC : List Tx := entryOps 3 99
def CC : Codec := { C with loadLog := fun _ => .ok logC }
def wOther : World := { w with readFile := fun _ _ => .bytes (fileOf logA) }

example : ∃ l i1 e, pullAll toy CC wOther u [[97]] [some (b! "n")] = (some l, i1) ∧
    mergeBlobs v.ord u.creds u.store.log (remotes l) i1 = (.err e, []) := by
  refine ⟨[([97], .merge { creds := u.creds, log := logC }, [])], [some (b! "n")], .totalFork, by decide +kernel, by decide +kernel⟩

-- C65: the entry "x" has no url
def uX : Session := { u with store := { log := [⟨1, .add, [7], [], []⟩, ⟨2, .setk, [7], keyName, [120]⟩] } }
def wX : World := { w with scheme := fun s => if s = [] then some [] else some syncFile }

example : (sync toy C wX v [120] true uX []).result = .panic :=
  C65_false toy C wX v [120] true uX [] [7] [(keyName, [120])] uX.store.updateSnapshot.1 (by decide) (by decide +kernel)
    (by decide +kernel) (by decide) (by decide +kernel) (by decide +kernel)

example : [98] ∈ (sync toy C w v [] true u []).pushed.map Prod.fst := by decide +kernel

end Verif.App.SyncDemo
