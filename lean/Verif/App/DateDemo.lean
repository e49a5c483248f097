import Verif.App.DateProps
import Verif.App.EffectProps
/-!
# C109: what the date does not tell, and non-vacuity
-/
namespace Verif.App
open Verif Verif.Txlogs Verif.Blob Verif.Crypt Verif.App.Spec
open Verif.Crypt.Spec (toy toy_lawful)

namespace DateDemo
open HistoryDemo (own ownB ok_log)
open Verif.Txlogs.Spec (SameIds)
open Demo (perm_id perm_id' fresh_concrete parse_ne)
open SyncDemo (C)

instance : DecidableEq (Option Entry) := inferInstanceAs (DecidableEq (Option (List (Str × Str))))

/-- a file with an entry "bank", which has a user name and a label, and with the user "a" -/
def log : List Tx :=
  [⟨1, .add, [1], [], []⟩, ⟨2, .setk, [1], keyUpdated, b! "1"⟩, ⟨3, .setk, [1], keyName, b! "bank"⟩,
   ⟨4, .setk, [1], keyUser, b! "me"⟩, ⟨6, .setk, [1], keyUpdated, b! "5"⟩, ⟨7, .setk, [1], keyLabels, b! "x"⟩,
   ⟨11, .add, [2], [], []⟩, ⟨12, .setk, [2], keyUpdated, b! "11"⟩, ⟨13, .setk, [2], keyName, b! "user/a"⟩,
   ⟨14, .setk, [2], keySalt, b! "00"⟩, ⟨15, .setk, [2], keyIV, b! "00"⟩, ⟨16, .setk, [2], keyMKey, b! "00"⟩]

def u : Session :=
  { creds := { user := b! "a", pass := b! "A", key := List.replicate 80 65, salt := List.replicate 32 1
               master := List.replicate 80 3, ivm := List.replicate 40 8 }
    store := { log := log } }

/-- the clock begins at `t`, and `inp` is typed -/
def v (t : Int) (inp : Input) : Env :=
  { d := { now := fun i => t + i
           uuid := [8]
           inp := inp
           salt := List.replicate 32 2
           iv := List.replicate 40 6 }
    ds := fun k => { now := fun i => 300 + 10 * (k : Int) + i } }

theorem sound : Sound u.store := by
  have ho : OwnHistory u.store.log := own (by decide +kernel)
  exact ⟨(own_wf (ok_log _) ho).2.2 (by decide +kernel), ho, rfl⟩

theorem dated : DatedHistory u.store.log where
  given := by decide +kernel
  kept := by decide +kernel
  date := by
    intro x hx hk hkey
    have h : ∀ x ∈ log, x.kind = .setk → x.key = keyUpdated →
        x.value = fmtInt 1 ∧ 1 < x.time ∨ x.value = fmtInt 5 ∧ 5 < x.time ∨ x.value = fmtInt 11 ∧ 11 < x.time := by decide +kernel
    rcases h x hx hk hkey with ⟨h1, h2⟩ | ⟨h1, h2⟩ | ⟨h1, h2⟩
    · exact ⟨1, by unfold FitsInt64; omega, h2, h1⟩
    · exact ⟨5, by unfold FitsInt64; omega, h2, h1⟩
    · exact ⟨11, by unfold FitsInt64; omega, h2, h1⟩

theorem legal {t : Int} {inp : Input} {line : Str} {x : Str × List Str} (hl : line.all (fun b => b.toNat < 0x80) = true)
    (hp : parseLine line = some x) (hx : x.1 ≠ b! "sync") : LegalTurn (v t inp) line { u := u } :=
  ⟨valid_ascii _ hl, ⟨perm_id, perm_id', (by decide : ([8] : Str) ≠ []), fresh_concrete sound.wf.good (v := [8]) (by decide +kernel)⟩,
    parse_ne hp hx⟩

theorem turn {inp : Input} {line : Str} {x : Str × List Str} (hl : line.all (fun b => b.toNat < 0x80) = true)
    (hp : parseLine line = some x) (hx : x.1 ≠ b! "sync") : HistoryTurn (v 100 inp) line { u := u } := by
  refine ⟨legal hl hp hx, ⟨fun i j h => ?_, by show ∀ t ∈ log, t.time < (100 : Int) + 0; decide +kernel, fun k i j h => ?_,
    by show ∀ t ∈ log, t.time < (300 : Int) + 10 * 0 + 0; decide +kernel, fun k => ?_⟩, ?_⟩
  · simp only [v]; omega
  · simp only [v]; omega
  · simp only [v]; omega
  · show ∀ x ∈ log, x.uuid ≠ ([8] : Str)
    decide +kernel

theorem fits (inp : Input) : ClockFits (v 100 inp) := by
  intro j hj
  simp only [v, FitsInt64]
  omega

theorem visible {s : DB} (h : Good s) {w : Str} {en : Entry} (hg : s.updateSnapshot.1.snapshot.get? w = some en) :
    Blob.Spec.Visible s w (fun k => en.get? k) := by
  obtain ⟨-, hf, -, hlog⟩ := good_withSnapshot h (fun s => ((s, .panic) : Out Str))
  exact (visible_log hlog _ _).1 ((visible_fresh hf w _).2 ⟨en, hg, rfl⟩)

/-- the entries -/
def bank : Entry := [(keyUpdated, b! "5"), (keyName, b! "bank"), (keyUser, b! "me"), (keyLabels, b! "x")]
def moved : Entry := [(keyUpdated, b! "100"), (keyName, b! "bank"), (keyUser, b! "you"), (keyLabels, b! "x")]
def ann : Entry := [(keyUpdated, b! "11"), (keyName, b! "user/a"), (keySalt, b! "00"), (keyIV, b! "00"), (keyMKey, b! "00")]

theorem bank_visible : Blob.Spec.Visible u.store [1] (fun k => bank.get? k) := visible sound.wf.good (by decide +kernel)
theorem ann_visible : Blob.Spec.Visible u.store [2] (fun k => ann.get? k) := visible sound.wf.good (by decide +kernel)

/-- the entry `w` after a line -/
def after (t : Int) (inp : Input) (line w : Str) : Option Entry :=
  (runLine toy C (v t inp) line { u := u }).1.u.store.updateSnapshot.1.snapshot.get? w

theorem after_visible {t : Int} {inp : Input} {line w : Str} {x : Str × List Str} {en : Entry}
    (hl : line.all (fun b => b.toNat < 0x80) = true) (hp : parseLine line = some x) (hx : x.1 ≠ b! "sync")
    (hn : (runLine toy C (v t inp) line { u := u }).2 ≠ .panic) (he : after t inp line w = some en) :
    Blob.Spec.Visible (runLine toy C (v t inp) line { u := u }).1.u.store w (fun k => en.get? k) :=
  visible (C67_line_partial toy C _ line { u := u } rfl sound.wf (legal hl hp hx) hn).1.good he

-- `set bank user you` gives the entry a later date
example : ∃ n n', (fun k => bank.get? k) keyUpdated = some (fmtInt n) ∧
    (fun k => moved.get? k) keyUpdated = some (fmtInt n') ∧
    n < n' := by
  obtain ⟨n, n', h1, h2, -, h3, h4⟩ := C109_later_partial toy C (v 100 []) (b! "set bank user you") { u := u } sound dated
    (turn (x := (b! "set", [b! "bank", b! "user", b! "you"])) (by decide) (by decide +kernel) (by decide)) (by decide +kernel) [1] _ _ bank_visible
    (after_visible (x := (b! "set", [b! "bank", b! "user", b! "you"]))
      (en := moved)
      (by decide) (by decide +kernel) (by decide) (by decide +kernel) (by decide +kernel))
  refine ⟨n, n', h1, h2, ?_⟩
  by_cases hlt : n < n'
  · exact hlt
  · have := (h4 (by omega)).date
    exact absurd this (by decide)

example : DatedHistory (runLine toy C (v 100 []) (b! "set bank user you") { u := u }).1.u.store.log :=
  C109_line_partial toy C (v 100 []) (b! "set bank user you") { u := u } false sound dated
    ⟨.inl (turn (x := (b! "set", [b! "bank", b! "user", b! "you"])) (by decide) (by decide +kernel) (by decide)), fits [], fun args h => by
      rw [show parseLine (b! "set bank user you") = some (b! "set", [b! "bank", b! "user", b! "you"]) from by decide +kernel] at h
      simp at h⟩ (by decide +kernel)

/-- Removing the only label of an entry does not show in its date. -/
theorem C109_label_false : ∃ (v : Env) (line : Str) (r : Repl) (w : Str) (e e' : Str → Option Str), Sound r.u.store ∧
    DatedHistory r.u.store.log ∧ HistoryTurn v line r ∧ (runLine toy C v line r).2 = .ok false ∧ Blob.Spec.Visible r.u.store w e ∧
    Blob.Spec.Visible (runLine toy C v line r).1.u.store w e' ∧ e keyLabels = some (b! "x") ∧ e' keyLabels = none ∧
    e' keyUpdated = e keyUpdated :=
  ⟨v 100 [], b! "rmlabel bank x", { u := u }, [1], _, _, sound, dated,
    turn (x := (b! "rmlabel", [b! "bank", b! "x"])) (by decide) (by decide +kernel) (by decide), by decide +kernel, bank_visible,
    after_visible (x := (b! "rmlabel", [b! "bank", b! "x"])) (en := [(keyUpdated, b! "5"), (keyName, b! "bank"), (keyUser, b! "me")])
      (by decide) (by decide +kernel) (by decide) (by decide +kernel) (by decide +kernel), by decide, by decide, by decide⟩

/-- Nor does a new password of a user show in the date of the entry of the user. -/
theorem C109_passwd_false : ∃ (v : Env) (line : Str) (r : Repl) (w : Str) (e e' : Str → Option Str), Sound r.u.store ∧
    DatedHistory r.u.store.log ∧ HistoryTurn v line r ∧ (runLine toy C v line r).2 = .ok false ∧ Blob.Spec.Visible r.u.store w e ∧
    Blob.Spec.Visible (runLine toy C v line r).1.u.store w e' ∧ e' keySalt ≠ e keySalt ∧ e' keyUpdated = e keyUpdated := by
  have hx : (after 100 [some (b! "m"), some (b! "B"), some (b! "B")] (b! "passwd") [2]).isSome = true ∧
      ((after 100 [some (b! "m"), some (b! "B"), some (b! "B")] (b! "passwd") [2]).getD []).get? keySalt ≠ some (b! "00") ∧
      ((after 100 [some (b! "m"), some (b! "B"), some (b! "B")] (b! "passwd") [2]).getD []).get? keyUpdated = some (b! "11") := by
    decide +kernel
  obtain ⟨h1, h2, h3⟩ := hx
  obtain ⟨en, hen⟩ := Option.isSome_iff_exists.1 h1
  rw [hen] at h2 h3
  exact ⟨v 100 [some (b! "m"), some (b! "B"), some (b! "B")], b! "passwd", { u := u }, [2], _, _, sound, dated,
    turn (x := (b! "passwd", [])) (by decide) (by decide +kernel) (by decide), by decide +kernel, ann_visible,
    after_visible (x := (b! "passwd", [])) (by decide) (by decide +kernel) (by decide) (by decide +kernel) hen, h2, h3⟩

/-- A later date does not mean that the entry is another one: setting a key to the value it has counts as a change. -/
theorem C109_same_false : ∃ (v : Env) (line : Str) (r : Repl) (w : Str) (e e' : Str → Option Str), Sound r.u.store ∧
    DatedHistory r.u.store.log ∧ HistoryTurn v line r ∧ (runLine toy C v line r).2 = .ok false ∧ Blob.Spec.Visible r.u.store w e ∧
    Blob.Spec.Visible (runLine toy C v line r).1.u.store w e' ∧ (∀ k, k ≠ keyUpdated → e' k = e k) ∧ e' keyUpdated ≠ e keyUpdated := by
  refine ⟨v 100 [], b! "set bank user me", { u := u }, [1], _, _, sound, dated,
    turn (x := (b! "set", [b! "bank", b! "user", b! "me"])) (by decide) (by decide +kernel) (by decide), by decide +kernel, bank_visible,
    after_visible (x := (b! "set", [b! "bank", b! "user", b! "me"]))
      (en := [(keyUpdated, b! "100"), (keyName, b! "bank"), (keyUser, b! "me"), (keyLabels, b! "x")])
      (by decide) (by decide +kernel) (by decide) (by decide +kernel) (by decide +kernel), ?_, by decide⟩
  intro k hk
  simp only [bank, GoMap.get?_cons]
  rw [if_neg hk.symm, if_neg hk.symm]

/-- When the clock is set back, an entry changed later has an earlier date. -/
theorem C109_clock_false : ∃ (v : Env) (line : Str) (r : Repl) (w : Str) (e e' : Str → Option Str), Sound r.u.store ∧
    DatedHistory r.u.store.log ∧ LegalTurn v line r ∧ (runLine toy C v line r).2 = .ok false ∧ Blob.Spec.Visible r.u.store w e ∧
    Blob.Spec.Visible (runLine toy C v line r).1.u.store w e' ∧ e' keyUser ≠ e keyUser ∧ e keyUpdated = some (fmtInt 5) ∧
    e' keyUpdated = some (fmtInt 2) :=
  ⟨v 2 [], b! "set bank user you", { u := u }, [1], _, _, sound, dated,
    legal (x := (b! "set", [b! "bank", b! "user", b! "you"])) (by decide) (by decide +kernel) (by decide), by decide +kernel, bank_visible,
    after_visible (x := (b! "set", [b! "bank", b! "user", b! "you"]))
      (en := [(keyUpdated, b! "2"), (keyName, b! "bank"), (keyUser, b! "you"), (keyLabels, b! "x")])
      (by decide) (by decide +kernel) (by decide) (by decide +kernel) (by decide +kernel), by decide, by decide, by decide⟩

/-! ### `sync` with dated files -/

/-- a sync entry and, if there is one, a change of it -/
def base : List Tx :=
  [⟨1, .add, [97], [], []⟩, ⟨2, .setk, [97], keyUpdated, b! "1"⟩, ⟨3, .setk, [97], keyName, b! "sync/a"⟩, ⟨4, .setk, [97], keySync, b! "true"⟩,
   ⟨5, .setk, [97], keyURL, b! "a"⟩]
def here : List Tx := base ++ [⟨7, .setk, [97], keyUpdated, b! "6"⟩, ⟨8, .setk, [97], keyNotes, b! "x"⟩]
def there : List Tx := base ++ [⟨11, .setk, [97], keyUpdated, b! "10"⟩, ⟨12, .setk, [97], keyEmail, b! "y"⟩]

def D : Codec where
  marshal _ := [2]
  load _ := .ok (some { log := there })
  loadLog _ := .ok there

def uS : Session := { SyncDemo.u with store := { log := here } }
def wS : World := HistoryDemo.w
def vS : SyncEnv := HistoryDemo.v

theorem sound_here : Sound uS.store := by
  have ho : OwnHistory uS.store.log := own (by decide +kernel)
  exact ⟨(own_wf (ok_log _) ho).2.2 (by decide +kernel), ho, rfl⟩

theorem dated_small {l : List Tx} (h : (∀ x ∈ l, x.kind = .add → ∃ y ∈ l, y.kind = .setk ∧ y.uuid = x.uuid ∧ y.key = keyUpdated) ∧
    (∀ x ∈ l, x.kind = .delk → x.key ≠ keyUpdated) ∧
    ∀ x ∈ l, x.kind = .setk → x.key = keyUpdated → x.value = fmtInt (x.time - 1)) (hf : ∀ x ∈ l, 1 ≤ x.time ∧ x.time ≤ 100) :
    DatedHistory l :=
  ⟨h.1, h.2.1, fun x hx hk hkey => ⟨x.time - 1, by have := hf x hx; unfold FitsInt64; omega, by omega, h.2.2 x hx hk hkey⟩⟩

theorem dated_here : DatedHistory uS.store.log := dated_small (by decide +kernel) (by decide +kernel)
theorem dated_there : DatedHistory there := dated_small (by decide +kernel) (by decide +kernel)

theorem selectedS {syncs : List Str} (h : Selected wS vS uS [] syncs) : syncs = [[97]] := by
  rw [h.1 rfl]
  decide +kernel

def gotS : List (Str × Fate × Str) := [([97], .merge { name := b! "sync/a", creds := uS.creds, log := there }, [])]

theorem pullsS : pullAll toy D wS { uS with store := uS.store.updateSnapshot.1 } [[97]] [] = (some gotS, []) := by decide +kernel

theorem toldS : Told here [there] := by
  intro pre r post c h hc hu hs
  have hpre : pre = [] := by
    cases pre with
    | nil => rfl
    | cons a pre => cases pre <;> simp at h
  subst hpre
  simp only [List.nil_append, List.cons.injEq] at h
  obtain ⟨rfl, -⟩ := h
  exfalso
  obtain ⟨-, -, h3⟩ := hs
  cases hl : c.getLast? with
  | none => rw [hl] at h3; cases h3
  | some t =>
    have ht : t.time < 9 := (show ∀ t ∈ here, t.time < 9 by decide +kernel) t (by simpa using (hu t).1 (List.mem_of_getLast? hl))
    rw [hl] at h3
    have h4 : there.getLast?.map Tx.time = some 12 := rfl
    rw [h4] at h3
    simp only [Option.map_some, Option.some.injEq] at h3
    omega

theorem syncOkS : SyncOk toy D wS vS [] uS [] := by
  refine ⟨perm_id', fun i j h => ?_, fun i j h => ?_, by decide, by decide +kernel, fun syncs l rest hsel h => ?_⟩
  · simp only [vS, HistoryDemo.v]; omega
  · simp only [vS, HistoryDemo.v]; omega
  · rw [selectedS hsel, pullsS] at h
    obtain ⟨rfl, -⟩ := Prod.mk.inj h |>.imp Option.some.inj id
    have hone : ∀ q ∈ remotes gotS, q.log = there := by
      intro q hq
      rw [List.mem_singleton.1 (show q ∈ [_] from hq)]
    have ho : OwnHistory there := own (by decide +kernel)
    have hf : (SameIds here there ∧ ∀ x ∈ here, ∀ y ∈ there, x.kind = .add → y.kind = .add → x.uuid = y.uuid → x = y) ∧
        (SameIds there there ∧ ∀ x ∈ there, ∀ y ∈ there, x.kind = .add → y.kind = .add → x.uuid = y.uuid → x = y) := by decide +kernel
    refine ⟨fun q hq => by rw [hone q hq]; exact ho, ⟨sound_here.own.good, ?_, ?_⟩, toldS, ?_, ?_⟩
    · intro r hr
      rw [List.mem_singleton.1 (show r ∈ [there] from hr)]
      exact ⟨ho.good, ⟨hf.1.1, hf.1.2⟩⟩
    · intro r hr r' hr'
      rw [List.mem_singleton.1 (show r ∈ [there] from hr), List.mem_singleton.1 (show r' ∈ [there] from hr')]
      exact ⟨hf.2.1, hf.2.2⟩
    · intro q hq t ht
      rw [hone q hq] at ht
      exact (show ∀ t ∈ there, t.time < (100 : Int) by decide +kernel) t ht
    · intro i hi
      have : gotS.length = 1 := rfl
      simp only [vS, HistoryDemo.v]
      omega

theorem pulledS : PulledDated toy D wS vS [] uS [] := by
  intro syncs l rest hsel h q hq
  rw [selectedS hsel, pullsS] at h
  obtain ⟨rfl, -⟩ := Prod.mk.inj h |>.imp Option.some.inj id
  rw [List.mem_singleton.1 (show q ∈ [_] from hq)]
  exact dated_there

-- the date of the later change, which is the one there
example : DatedHistory (sync toy D wS vS [] true uS []).session.store.log ∧
    (((sync toy D wS vS [] true uS []).session.store.updateSnapshot.1.snapshot.get? [97]).getD []).get? keyUpdated = some (b! "10") :=
  ⟨C109_sync_partial toy D wS vS [] true uS [] sound_here.wf.good.ok sound_here.own dated_here syncOkS pulledS (by decide +kernel),
    by decide +kernel⟩

-- also as the automatic `sync`, and as a line
example : AutoDated toy D { w := wS, v := vS } uS := by
  refine ⟨⟨syncOkS, ?_⟩, pulledS⟩
  intro syncs l rest hsel h
  rw [selectedS hsel, show pullAll toy D wS { uS with store := uS.store.updateSnapshot.1 } [[97]] [] = (some gotS, []) from pullsS] at h
  obtain ⟨rfl, -⟩ := Prod.mk.inj h |>.imp Option.some.inj id
  decide +kernel

end DateDemo
end Verif.App
