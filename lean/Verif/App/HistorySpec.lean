import Verif.App.KeepSpec
import Verif.App.SoundSpec
/-!
# What the properties of the histories the program writes talk about
-/
namespace Verif.App.Spec
open Verif Verif.Txlogs Verif.Txlogs.Spec Verif.Blob Verif.Crypt Verif.App

/-- A history as bpass writes it: in order of time, it can be replayed, has no unknown operations, and adds each uuid at most
once; besides every entry is given a name, which is valid UTF-8 and never taken away, and no entry has the empty uuid. -/
structure OwnHistory (l : List Tx) : Prop where
  good : GoodHistory l
  given : ∀ x ∈ l, x.kind = .add → ∃ y ∈ l, y.kind = .setk ∧ y.uuid = x.uuid ∧ y.key = keyName
  kept : ∀ x ∈ l, x.kind = .delk → x.key ≠ keyName
  utf8 : ∀ x ∈ l, x.kind = .setk → x.key = keyName → ValidUtf8 x.value
  uuids : ∀ x ∈ l, x.kind = .add → x.uuid ≠ []

/-- The clock runs during a turn: every reading is later than the one before and later than everything in the log. `ds` holds
the clock readings of the rounds of `rekeyall`, three each. -/
structure ClockOk (v : Env) (s : DB) : Prop where
  tick : ∀ i j, i < j → v.d.now i < v.d.now j
  late : ∀ t ∈ s.log, t.time < v.d.now 0
  ticks : ∀ k i j, i < j → (v.ds k).now i < (v.ds k).now j
  lates : ∀ t ∈ s.log, t.time < (v.ds 0).now 0
  rounds : ∀ k, (v.ds k).now 2 < (v.ds (k + 1)).now 0

/-- The uuid drawn in a turn was never used in the file, not even for an entry that is gone. -/
def NewUuid (v : Env) (s : DB) : Prop := ∀ t ∈ s.log, t.uuid ≠ v.d.uuid

/-- A turn other than `sync` in which the clock runs and uuids are new. -/
structure HistoryTurn (v : Env) (line : Str) (r : Repl) : Prop where
  legal : LegalTurn v line r
  clock : ClockOk v r.u.store
  uuid : NewUuid v r.u.store

/-- No two entries were ever given the same name. -/
def NamesApart (l : List Tx) : Prop :=
  ∀ x ∈ l, ∀ y ∈ l, x.kind = .setk → y.kind = .setk → x.key = keyName → y.key = keyName → x.value = y.value → x.uuid = y.uuid

/-- What came from the remotes: histories bpass wrote, of the same file as that of the session and distinguishable, and older than
the clock, which also runs between the two times at which new hosts are written down. -/
structure PulledOk (v : SyncEnv) (log : List Tx) (l : List (Str × Fate × Str)) : Prop where
  own : ∀ q ∈ remotes l, OwnHistory q.log
  family : OneFile log ((remotes l).map Remote.log)
  told : Told log ((remotes l).map Remote.log)
  late : ∀ q ∈ remotes l, ∀ t ∈ q.log, t.time < v.now 0
  after : ∀ i, i < l.length → v.now i < v.now' 0

/-- `syncs` are the remotes `sync` goes through when it is called with the name `nm`. -/
def Selected (w : World) (v : SyncEnv) (u : Session) (nm : Str) (syncs : List Str) : Prop :=
  (nm = [] → syncs = collectSyncs w v.ord u.store.updateSnapshot.1) ∧ (nm ≠ [] → ∃ uuid, uuid ≠ [] ∧ syncs = [uuid])

/-- What `sync` meets is possible, and the other machines do their part. -/
structure SyncOk (P : Prims) (C : Codec) (w : World) (v : SyncEnv) (nm : Str) (u : Session) (inp : Input) : Prop where
  ordH : ∀ m, (v.ordH m).Perm m
  tick : ∀ i j, i < j → v.now i < v.now j
  tick' : ∀ i j, i < j → v.now' i < v.now' j
  begins : v.now 0 ≤ v.now' 0
  late : ∀ t ∈ u.store.log, t.time < v.now 0
  pulled : ∀ syncs l rest, Selected w v u nm syncs →
    pullAll P C w { u with store := u.store.updateSnapshot.1 } syncs inp = (some l, rest) → PulledOk v u.store.log l

/-- Nowhere was a name given to two entries. -/
def NamesApartAll (P : Prims) (C : Codec) (w : World) (v : SyncEnv) (nm : Str) (u : Session) (inp : Input) : Prop :=
  ∀ syncs l rest, Selected w v u nm syncs →
    pullAll P C w { u with store := u.store.updateSnapshot.1 } syncs inp = (some l, rest) →
    NamesApart (u.store.log ++ ((remotes l).map Remote.log).flatten)

/-- A turn, `sync` included. -/
def WholeTurn (P : Prims) (C : Codec) (v : Env) (line : Str) (r : Repl) : Prop :=
  HistoryTurn v line r ∨
    ∃ args, parseLine line = some (b! "sync", args) ∧ SyncOk P C v.w v.v (args.head?.getD []) r.u v.d.inp ∧
      NamesApartAll P C v.w v.v (args.head?.getD []) r.u v.d.inp

/-- An automatic `sync` meets what is possible, if there is one. -/
def AutoOk (P : Prims) (C : Codec) (v : Env) (u : Session) : Prop :=
  SyncOk P C v.w v.v [] u v.d.inp ∧ NamesApartAll P C v.w v.v [] u v.d.inp

/-- A file in order with a history as `sync` needs it, outside any transaction. -/
structure Sound (s : DB) : Prop where
  wf : WellFormed s
  own : OwnHistory s.log
  tx : s.txPoint = 0

end Verif.App.Spec
