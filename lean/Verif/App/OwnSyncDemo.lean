import Verif.App.OwnSyncProps
import Verif.App.LockoutDemo
import Verif.App.SyncTextProps
/-!
# C98: the hypotheses can be met, and what is false

The primitives are `Crypt.Spec.toy`.
-/
set_option linter.unusedSimpArgs false
namespace Verif.App
open Verif Verif.Txlogs Verif.Blob Verif.Crypt Verif.App.Spec
open Verif.Crypt.Spec (toy toy_lawful)

namespace OwnSyncDemo
open Verif.App.SyncDemo (entryOps iv)
open HistoryDemo (logL logR u v)

/-- there the same file has another passphrase, `[2]` -/
def there : Creds := { pass := [2], key := List.replicate 80 2, salt := List.replicate 32 2 }

def remoteFile : Str :=
  match saveBlob toy Json.Spec.codec id id iv { creds := there, store := { log := logR (b! "shop") } } with
  | .ok (some f) => f
  | _ => []

def w : World := { SyncDemo.w with readFile := fun _ _ => .bytes remoteFile }

def after : Synced := sync toy Json.Spec.codec w v [] true u [some [2]]

def saved : Str :=
  match saveBlob toy Json.Spec.codec id id iv after.session with
  | .ok (some f) => f
  | _ => []

def opened (x : Res AppErr Session × Input) : Option (List Tx) :=
  match x.1 with
  | .ok u => some u.store.log
  | _ => none

theorem own : OwnSession toy u [1] := ⟨rfl, rfl, ⟨rfl, rfl, rfl⟩, by decide, rfl, .inl rfl⟩

theorem listens : Listens w := by
  intro uuid e inp x rest h
  cases h
  exact List.suffix_refl _

theorem pull_const {w : World} {g uuid f h : Str} {e : Entry} {inp rest : Input} (hs : ∀ x, w.scheme x = some syncFile)
    (hr : ∀ x e, w.readFile x e = .bytes g) (hf : pullBlob w uuid e inp = (some (.bytes f, h), rest)) : f = g := by
  have h1 : (syncFile = syncSCP) = False := by simp (decide := true)
  simp only [pullBlob, hs, hr, h1, if_false, if_true, Prod.mk.injEq, Option.some.injEq, Pulled.bytes.injEq] at hf
  exact hf.1.1.symm

theorem noUsers : NoUsersThere w v [] u := by
  intro syncs uuid inp f h rest _ _ hf
  rw [pull_const (g := remoteFile) (fun _ => rfl) (fun _ _ => rfl) hf]
  decide +kernel

example : ∃ pass', (pass' = [1] ∨ some pass' ∈ [some [2]]) ∧ OwnSession toy after.session pass' :=
  C98_partial toy toy_lawful _ w v [] true u [some [2]] [1] own listens noUsers

/-- It can be the passphrase that was typed: then the old one does not open the file any more. -/
theorem C98_pass_false : after.result = .ok () ∧ opened (openFile toy Json.Spec.codec none saved [some [2]]) = some after.session.store.log ∧
    opened (openFile toy Json.Spec.codec none saved [some [1]]) = none := by decide +kernel

/-- what is pulled -/
def got : List (Str × Fate × Str) := [([97], .merge { name := b! "sync/a", creds := there, log := logR (b! "shop") }, [])]

theorem pulled : pullAll toy Json.Spec.codec w { u with store := u.store.updateSnapshot.1 } [[97]] [some [2]] = (some got, []) := by
  decide +kernel

theorem selected {syncs : List Str} (h : Selected w v u [] syncs) : syncs = [[97]] := by
  rw [h.1 rfl]
  decide +kernel

theorem syncOk : SyncOk toy Json.Spec.codec w v [] u [some [2]] := by
  have h0 := HistoryDemo.syncOk_shop
  have hp0 : pullAll toy (HistoryDemo.D (b! "shop")) HistoryDemo.w { u with store := u.store.updateSnapshot.1 } [[97]] [] =
      (some (HistoryDemo.got (b! "shop")), []) := by decide +kernel
  have k := h0.pulled [[97]] _ _ ⟨fun _ => by decide +kernel, fun h => absurd rfl h⟩ hp0
  refine ⟨h0.ordH, h0.tick, h0.tick', h0.begins, h0.late, fun syncs l rest hsel h => ?_⟩
  rw [selected hsel, pulled] at h
  obtain ⟨rfl, -⟩ := Prod.mk.inj h |>.imp Option.some.inj id
  have hm : (remotes got).map Remote.log = (remotes (HistoryDemo.got (b! "shop"))).map Remote.log := rfl
  have hq : ∀ q ∈ remotes got, q.log ∈ (remotes (HistoryDemo.got (b! "shop"))).map Remote.log :=
    fun q hq => hm ▸ List.mem_map_of_mem hq
  refine ⟨fun q hq' => ?_, hm ▸ k.family, hm ▸ k.told, fun q hq' => ?_, k.after⟩
  · obtain ⟨q', a, b⟩ := List.mem_map.1 (hq q hq')
    exact b ▸ k.own q' a
  · obtain ⟨q', a, b⟩ := List.mem_map.1 (hq q hq')
    exact b ▸ k.late q' a

theorem apart : NamesApartAll toy Json.Spec.codec w v [] u [some [2]] := by
  intro syncs l rest hsel h
  rw [selected hsel, pulled] at h
  obtain ⟨rfl, -⟩ := Prod.mk.inj h |>.imp Option.some.inj id
  decide +kernel

/-- `sync`, with the passphrase of the remote typed when asked -/
def turn : Env := { w := w, v := v, d := { salt := List.replicate 32 3, inp := [some [2]] } }

theorem along : Along toy Json.Spec.codec (fun v line r => WholeTurn toy Json.Spec.codec v line r ∧ OwnSyncTurn v line r)
    [(some (b! "sync"), turn)] { u := u } := by
  have hp : parseLine (b! "sync") = some (b! "sync", []) := by decide +kernel
  refine ⟨⟨.inr ⟨[], hp, syncOk, apart⟩, rfl, ?_, ?_⟩, trivial⟩
  · intro args h; rw [hp] at h; exact absurd h (by simp (decide := true))
  · intro args h; rw [hp] at h; cases h; exact ⟨listens, noUsers⟩

def done : Repl × Res AppErr (Option Str) := session toy Json.Spec.codec false turn turn iv [(some (b! "sync"), turn)] u

theorem faithful_of {s : DB} {l : List Tx} (ho : Ok s) (hlog : s.log = l)
    (h : ∀ t ∈ l, (Json.kindOf (Json.kindStr t.kind) = t.kind ∧ (Json.kindStr t.kind).all (fun b => b.toNat < 0x80) = true ∧
      t.uuid.all (fun b => b.toNat < 0x80) = true ∧ t.key.all (fun b => b.toNat < 0x80) = true ∧
      t.value.all (fun b => b.toNat < 0x80) = true) ∧ -9223372036854775808 ≤ t.time ∧ t.time ≤ 9223372036854775807)
    (hc : l.length < 18446744073709551616) : Faithful Json.Spec.codec s := by
  subst hlog
  refine Json.C11_partial _ (clean_of_log ho (fun t ht => ?_) hc)
  obtain ⟨⟨h1, h2, h3, h4, h5⟩, h6⟩ := h t ht
  exact ⟨⟨h1, valid_ascii _ h2, valid_ascii _ h3, valid_ascii _ h4, valid_ascii _ h5⟩, h6⟩

theorem done_eq : session toy Json.Spec.codec false turn turn iv [(some (b! "sync"), turn)] u = done := rfl

theorem written : done.2 = .ok (some saved) := by decide +kernel

theorem faithful : Faithful Json.Spec.codec done.1.u.store := by
  have hlog : done.1.u.store.log = logL ++ (logR (b! "shop")).drop 4 := by decide +kernel
  have hs := C87_program_partial toy Json.Spec.codec false turn turn iv [(some (b! "sync"), turn)] u (some saved) HistoryDemo.sound
    (by simp) (along_mono (fun _ _ _ h => h.1) _ _ along) (by simp) (by rw [done_eq]; exact written)
  rw [done_eq] at hs
  exact faithful_of hs.wf.good.ok hlog (by decide +kernel) (by decide)

-- C98: the program with a `sync` in which another passphrase was typed
example := C98_program_partial toy toy_lawful Json.Spec.codec false turn turn iv (by decide) [(some (b! "sync"), turn)] u [1] saved own
  HistoryDemo.sound (by simp) along (by simp)
  (by rw [done_eq]; exact faithful) (by rw [done_eq]; exact written)

/-- the file here, without users -/
def uL : Session := { u with store := { log := entryOps 1 97 ++ [⟨15, .setk, [97], b! "note", [1]⟩] } }

/-- With a remote that has users this is false: the file here gets users too, is sent to the remote and can afterwards be opened only
under a user's name and passphrase. -/
theorem C98_users_false :
    (sync toy LockDemo.D LockDemo.w LockDemo.v [] true uL [some [97], some [2]]).result = .ok () ∧
    OwnSession toy uL [1] ∧
    (sync toy LockDemo.D LockDemo.w LockDemo.v [] true uL [some [97], some [2]]).session.creds = (LockDemo.session [2] 2 []).creds ∧
    isMultiUser (sync toy LockDemo.D LockDemo.w LockDemo.v [] true uL [some [97], some [2]]).sent = .ok true :=
  ⟨by decide +kernel, ⟨rfl, rfl, ⟨rfl, rfl, rfl⟩, by decide, rfl, .inl rfl⟩, by decide +kernel, by decide +kernel⟩

/-- the same with a note written in the same second in which a user was added there -/
def uT : Session := { u with store := { log := entryOps 1 97 ++ [⟨5, .setk, [97], b! "note", [1]⟩] } }

/-- `sync` reports success although the histories could not be merged: nothing is taken over and nothing is sent. -/
theorem C96_silent_false :
    (sync toy LockDemo.D LockDemo.w LockDemo.v [] true uT [some [97], some [2]]).result = .ok () ∧
    (sync toy LockDemo.D LockDemo.w LockDemo.v [] true uT [some [97], some [2]]).session.store.log = uT.store.log ∧
    (sync toy LockDemo.D LockDemo.w LockDemo.v [] true uT [some [97], some [2]]).pushed = [] ∧
    (mergeBlobs id uT.creds uT.store.log [LockDemo.remote] []).1 = .err (.blob (.tx (.notInSnapshot [9]))) := by
  decide +kernel

end OwnSyncDemo
end Verif.App
