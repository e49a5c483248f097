import Verif.App.SoundLemmas2
import Verif.App.AccountsDemo
import Verif.App.SyncDemo
/-!
# Properties of whole sessions at the prompt

C66 (no command crashes the session) and C67 (commands keep the file in order).
-/
set_option linter.unusedSimpArgs false
namespace Verif.App
open Verif Verif.Txlogs Verif.Blob Verif.Crypt Verif.App.Spec
open Verif.Crypt.Spec (toy toy_lawful)

/-! ## C67 -/

/-- A line other than `sync` leaves a file in order in order, unless it crashes. -/
theorem C67_line_partial (P : Prims) (C : Codec) (v : Env) (line : Str) (r : Repl) (h0 : r.u.store.txPoint = 0)
    (h : WellFormed r.u.store) (hl : LegalTurn v line r) (hn : (runLine P C v line r).2 ≠ .panic) :
    WellFormed (runLine P C v line r).1.u.store ∧ (runLine P C v line r).1.u.store.txPoint = 0 := by
  have := fineR_line (p := False) (L := fun _ => True) (P := P) (C := C) h0 hl.env h line hl.utf8 hl.noSync
    (fun _ _ _ _ _ => trivial) (fun k => k.elim)
  obtain ⟨a, b⟩ := this.2 hn
  exact ⟨a, b.tx.trans h0⟩

/-- Any number of lines other than `sync`, whatever is typed at their prompts, drawn at random or met on the way, leaves a file in
order in order, whether the session then ends normally, with an error or at an interrupt. -/
theorem C67_session_partial (P : Prims) (C : Codec) (turns : List Turn) (r : Repl) (h0 : r.u.store.txPoint = 0)
    (h : WellFormed r.u.store) (hl : Along P C LegalTurn turns r) (hn : (runRepl P C turns r).2 ≠ .panic) :
    WellFormed (runRepl P C turns r).1.u.store ∧ (runRepl P C turns r).1.u.store.txPoint = 0 := by
  induction turns generalizing r with
  | nil => exact ⟨h, h0⟩
  | cons t rest ih =>
    obtain ⟨o, v⟩ := t
    cases o with
    | none => exact ⟨h, h0⟩
    | some line =>
      obtain ⟨hl1, hl2⟩ := hl
      have key := C67_line_partial P C v line r h0 h hl1
      unfold runRepl at hn ⊢
      cases hx : runLine P C v line r with
      | mk r' o =>
        rw [hx] at hn key hl2
        cases o with
        | panic => exact absurd rfl hn
        | err e => exact key (by simp)
        | ok b =>
          obtain ⟨k1, k2⟩ := key (by simp)
          cases b with
          | true => exact ⟨k1, k2⟩
          | false => exact ih r' k2 k1 hl2 hn

/-- What a file holds after any number of sessions without `sync`, each of them ended normally, saved and opened again. -/
inductive Grown (P : Prims) (C : Codec) : DB → Prop where
  | new : Grown P C DB.new
  | next {u : Session} {turns : List Turn} {r : Repl} {s' : DB} : Grown P C u.store → Along P C LegalTurn turns { u := u } →
      runRepl P C turns { u := u } = (r, .ok ()) → Spec.SameStore s' r.u.store → Grown P C s'

theorem wf_sameStore {s s' : DB} (h : WellFormed s) (hs : Spec.SameStore s' s) : WellFormed s' := by
  refine wf_log h ⟨⟨?_, ?_⟩, hs.nodup, hs.inner⟩ hs.log
  · rw [hs.version, hs.log]; exact h.good.ok.coh.1
  · rw [hs.version, hs.log, hs.view]; exact h.good.ok.coh.2

theorem wf_new_file : WellFormed DB.new := by
  refine ⟨good_new, ?_, ?_, ?_⟩ <;> intro u <;> intros <;> rename_i a <;> try rename_i b
  all_goals
    obtain ⟨e, ⟨st, h1, h2⟩, -⟩ := a
    cases h1
    simp [Txlogs.Spec.empty] at h2

/-- A file is in order after any number of such sessions. -/
theorem C67_file_partial (P : Prims) (C : Codec) (s : DB) (h : Grown P C s) : WellFormed s ∧ s.txPoint = 0 := by
  induction h with
  | new => exact ⟨wf_new_file, rfl⟩
  | next _ hl hr hs ih =>
    have := C67_session_partial P C _ _ ih.2 ih.1 hl (by rw [hr]; simp)
    rw [hr] at this
    exact ⟨wf_sameStore this.1 hs, hs.txPoint⟩

/-! ## C66 -/

/-- A line that avoids the known ways to crash does not crash. -/
theorem C66_line_partial (P : Prims) (hP : Crypt.Spec.Lawful P) (C : Codec) (v : Env) (line : Str) (r : Repl)
    (h0 : r.u.store.txPoint = 0) (h : WellFormed r.u.store) (hl : LegalTurn v line r) (hc : CarefulTurn v line r) :
    (runLine P C v line r).2 ≠ .panic :=
  (fineR_line (p := True) (L := fun _ => True) (P := P) (C := C) h0 hl.env h line hl.utf8 hl.noSync
    (fun _ _ _ _ _ => trivial) (fun _ => ⟨hP, hc.sizes, hc.prompts, hc.careful⟩)).1 trivial

/-- A session of such lines does not crash. -/
theorem C66_session_partial (P : Prims) (hP : Crypt.Spec.Lawful P) (C : Codec) (turns : List Turn) (r : Repl)
    (h0 : r.u.store.txPoint = 0) (h : WellFormed r.u.store)
    (hl : Along P C (fun v line r => LegalTurn v line r ∧ CarefulTurn v line r) turns r) :
    (runRepl P C turns r).2 ≠ .panic := by
  induction turns generalizing r with
  | nil => simp [runRepl]
  | cons t rest ih =>
    obtain ⟨o, v⟩ := t
    cases o with
    | none => unfold runRepl; split <;> simp
    | some line =>
      obtain ⟨⟨hl1, hc⟩, hl2⟩ := hl
      have hp := C66_line_partial P hP C v line r h0 h hl1 hc
      have key := C67_line_partial P C v line r h0 h hl1 hp
      unfold runRepl
      cases hx : runLine P C v line r with
      | mk r' o =>
        rw [hx] at hp key hl2
        cases o with
        | panic => exact absurd rfl hp
        | err e => simp
        | ok b =>
          cases b with
          | true => simp
          | false => exact ih r' key.2 key.1 hl2

namespace Demo

/-- what the turns below meet -/
def vS : Env := { d := { d0 with uuid := [8], inp := [some [], some [], some (b! "m"), some [7], some [7]] } }

/-- a session in the file with users of `u1` -/
def rS : Repl := { u := u1 }

theorem u1_wf : WellFormed u1.store := by
  have hu : ∀ w n, Blob.Spec.Named u1.store w n → w = [9] ∧ n = userPrefix ++ [97] := by
    intro w n h
    obtain ⟨en, h1, h2⟩ := (named_concrete u1_multi.1.good _ _).1 h
    have hm := get_mem h1 h2
    have he : u1.store.updateSnapshot.1.snapshot.map (fun p => (p.1, name p.2)) = [([9], some (userPrefix ++ [97]))] := by
      decide +kernel
    rw [he] at hm
    simp at hm
    exact hm
  refine ⟨u1_multi.1.good, ?_, ?_, ?_⟩
  · intro a b n h1 h2; rw [(hu _ _ h1).1, (hu _ _ h2).1]
  · intro a n h; rw [(hu _ _ h).1]; simp
  · intro a n h; rw [(hu _ _ h).2]; exact valid_ascii _ (by decide)

theorem vS_ok {s : DB} (hg : Good s) (h : s.updateSnapshot.1.snapshot.get? [8] = none) : EnvOk vS s :=
  ⟨perm_id, perm_id', by decide, fresh_concrete hg h⟩

theorem parse_ne {line : Str} {x : Str × List Str} (h : parseLine line = some x) (hx : x.1 ≠ b! "sync") :
    ∀ args, parseLine line ≠ some (b! "sync", args) := by
  intro args hh; rw [h] at hh; cases hh; exact hx rfl

theorem suffix_cases {α : Type} [DecidableEq α] {l : List α} {Q : List α → Prop} (h : ∀ k, k ≤ l.length → Q (l.drop k)) :
    ∀ m, m <:+ l → Q m := by
  intro m hm
  obtain ⟨t, rfl⟩ := hm
  have := h t.length (by simp)
  rwa [List.drop_left] at this

theorem vS_prompt : PromptOk vS := by
  refine suffix_cases (l := vS.d.inp) (Q := fun i => getPassword vS.d.ent i ≠ .panic) ?_
  have : ∀ k : Fin 6, getPassword vS.d.ent (vS.d.inp.drop k) ≠ .panic := by decide +kernel
  intro k hk
  exact this ⟨k, by have : vS.d.inp.length = 5 := by decide +kernel
                    omega⟩

theorem vS_sizes : SizesOk { vS with ds := fun _ => dAll } := ⟨by decide, fun _ => (by decide : dAll.iv.length = 40)⟩

/-- the same, with further draws -/
def vT : Env := { vS with ds := fun _ => dAll }
theorem vT_ok {s : DB} (hg : Good s) (h : s.updateSnapshot.1.snapshot.get? [8] = none) : EnvOk vT s :=
  ⟨perm_id, perm_id', by decide, fresh_concrete hg h⟩

/-- after `add x` -/
def rX : Repl := (runLine toy SyncDemo.C vT (b! "add x") rS).1

theorem addX_legal : LegalTurn vT (b! "add x") rS :=
  ⟨valid_ascii _ (by decide), vT_ok u1_multi.1.good (by decide +kernel), parse_ne (x := (b! "add", [b! "x"])) (by decide +kernel)
    (by decide)⟩

theorem addX_careful : CarefulTurn vT (b! "add x") rS := by
  refine ⟨vS_sizes, vS_prompt, ?_⟩
  intro cmd args h
  have : parseLine (b! "add x") = some (b! "add", [b! "x"]) := by decide +kernel
  rw [this] at h
  cases h
  exact ⟨by simp, by simp, by simp⟩

theorem rX_wf : WellFormed rX.u.store ∧ rX.u.store.txPoint = 0 :=
  C67_line_partial toy SyncDemo.C vT _ rS (by decide +kernel) u1_wf addX_legal (by decide +kernel)

/-- Not vacuous: `add x` in a file with a user is such a line, and it adds an entry named "x". -/
example : LegalTurn vT (b! "add x") rS ∧ CarefulTurn vT (b! "add x") rS ∧ WellFormed rS.u.store ∧
    ∃ u, Blob.Spec.Named rX.u.store u (b! "x") := by
  refine ⟨addX_legal, addX_careful, u1_wf, [8], ?_⟩
  rw [named_concrete rX_wf.1.good]
  have : (rX.u.store.updateSnapshot.1.snapshot.get? [8]).map name = some (some (b! "x")) := by decide +kernel
  cases hg : rX.u.store.updateSnapshot.1.snapshot.get? [8] with
  | none => rw [hg] at this; simp at this
  | some en => rw [hg] at this; exact ⟨en, rfl, by simpa using this⟩

/-- what the second turn meets: another uuid -/
def vV : Env := { d := { d0 with uuid := [6], inp := [] } }

theorem show_legal : LegalTurn vV (b! "show x -1") rX :=
  ⟨valid_ascii _ (by decide), ⟨perm_id, perm_id', by decide, fresh_concrete rX_wf.1.good (by decide +kernel)⟩,
    parse_ne (x := (b! "show", [b! "x", b! "-1"])) (by decide +kernel) (by decide)⟩

theorem rekey_legal : LegalTurn vT (b! "rekey nobody") rS :=
  ⟨valid_ascii _ (by decide), vT_ok u1_multi.1.good (by decide +kernel),
    parse_ne (x := (b! "rekey", [b! "nobody"])) (by decide +kernel) (by decide)⟩

end Demo

/-- `show` with a negative number crashes the program. What was done before in the session (here: an entry added) is lost, as
nothing is saved after a crash. -/
theorem C66_false : ∃ (turns : List Turn) (r : Repl), WellFormed r.u.store ∧ r.u.store.txPoint = 0 ∧
    Along toy SyncDemo.C LegalTurn turns r ∧ (runRepl toy SyncDemo.C turns r).2 = .panic ∧
    r.u.store.log.length < (runRepl toy SyncDemo.C turns r).1.u.store.log.length :=
  ⟨[(some (b! "add x"), Demo.vT), (some (b! "show x -1"), Demo.vV)], Demo.rS, Demo.u1_wf, by decide +kernel,
    ⟨Demo.addX_legal, Demo.show_legal, trivial⟩, by decide +kernel, by decide +kernel⟩

/-- So does `rekey` for a user that does not exist in a file with users. -/
theorem C66_rekey_false : ∃ (v : Env) (r : Repl), WellFormed r.u.store ∧ r.u.store.txPoint = 0 ∧
    LegalTurn v (b! "rekey nobody") r ∧ (runLine toy SyncDemo.C v (b! "rekey nobody") r).2 = .panic :=
  ⟨Demo.vT, Demo.rS, Demo.u1_wf, by decide +kernel, Demo.rekey_legal, by decide +kernel⟩

end Verif.App
