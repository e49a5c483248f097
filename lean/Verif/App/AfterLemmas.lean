import Verif.App.AfterSpec
import Verif.App.StaleProps
import Verif.App.TightProps
import Verif.App.RecallLemmas
/-!
# Lemmas on the end of a run
-/
namespace Verif.App
open Verif Verif.Txlogs Verif.Blob Verif.Crypt Spec

/-! ## Only `sync` sends anything -/

theorem back_pushed (r : Repl) (x : Session × Res AppErr Unit) : (back r x).1.pushed = r.pushed := by
  obtain ⟨u, o⟩ := x
  cases o <;> rfl

theorem ite_pushed {c : Prop} [Decidable c] {a b : Repl × Res AppErr Bool} {r : Repl} (h1 : c → a.1.pushed = r.pushed)
    (h2 : ¬ c → b.1.pushed = r.pushed) : (if c then a else b).1.pushed = r.pushed := by
  split
  · exact h1 ‹_›
  · exact h2 ‹_›

theorem execWrite_pushed (P : Prims) (C : Codec) (v : Env) (cmd : Str) (args : List Str) (r : Repl) (hc : cmd ≠ b! "sync") :
    (execWrite P C v cmd args r).1.pushed = r.pushed := by
  unfold execWrite
  refine ite_pushed (fun _ => back_pushed _ _) fun _ => ?_
  refine ite_pushed (fun _ => by cases args <;> first | rfl | exact back_pushed _ _) fun _ => ?_
  refine ite_pushed (fun _ => back_pushed _ _) fun _ => ?_
  refine ite_pushed (fun _ => by rw [back__u]) fun _ => ?_
  refine ite_pushed (fun _ => by cases args <;> first | rfl | exact back_pushed _ _) fun _ => ?_
  refine ite_pushed (fun _ => ?_) fun _ => ?_
  · match args with
    | [] => rfl
    | [_] => rfl
    | _ :: _ :: _ => exact back_pushed _ _
  refine ite_pushed (fun _ => ?_) fun _ => ?_
  · cases args with
    | nil => rfl
    | cons nm l =>
      have h := back_pushed r (deleteEntry v.ord (v.d.now 0) v.d.inp r.u nm)
      dsimp only
      split
      · rename_i hx
        rw [hx] at h
        dsimp only at h ⊢
        split <;> exact h
      · exact h
  refine ite_pushed (fun _ => ?_) fun _ => ?_
  · cases queryArgs r.ctx args with
    | none => rfl
    | some x => exact back_pushed _ _
  refine ite_pushed (fun _ => ?_) fun _ => ?_
  · split
    · rfl
    · rw [back__u]
  refine ite_pushed (fun _ => ?_) fun _ => ?_
  · cases setArgs r.ctx args with
    | none => rfl
    | some x => exact back_pushed _ _
  refine ite_pushed (fun _ => ?_) fun _ => ?_
  · cases queryArgs r.ctx args with
    | none => rfl
    | some x => exact back_pushed _ _
  refine ite_pushed (fun _ => ?_) fun _ => ?_
  · cases queryArg r.ctx args with
    | none => rfl
    | some x => exact back_pushed _ _
  refine ite_pushed (fun _ => ?_) fun _ => ?_
  · cases queryArgs r.ctx args with
    | none => rfl
    | some x => exact back_pushed _ _
  refine ite_pushed (fun h => absurd h hc) fun _ => ?_
  refine ite_pushed (fun _ => by cases args <;> first | rfl | exact back_pushed _ _) fun _ => rfl

theorem runLine_pushed {P : Prims} {C : Codec} {v : Env} {line : Str} {r : Repl} (h : NoSync (some line, v)) :
    (runLine P C v line r).1.pushed = r.pushed := by
  unfold runLine
  cases hp : parseLine line with
  | none => rfl
  | some x =>
    obtain ⟨cmd, args⟩ := x
    have hc : cmd ≠ b! "sync" := fun e => h args (by rw [hp, e])
    dsimp only
    cases readOnlyFlag cmd with
    | none => rfl
    | some b =>
      cases b with
      | true => exact (execRead_same v cmd args r).2
      | false =>
        dsimp only
        split
        · rfl
        · exact execWrite_pushed P C v cmd args r hc

theorem runRepl_pushed {P : Prims} {C : Codec} : ∀ {turns : List Turn} {r : Repl}, (∀ t ∈ turns, NoSync t) →
    (runRepl P C turns r).1.pushed = r.pushed
  | [], _, _ => rfl
  | (none, _) :: _, _, _ => rfl
  | (some line, v) :: rest, r, h => by
    have h1 := runLine_pushed (P := P) (C := C) (r := r) (h _ (List.mem_cons_self ..))
    unfold runRepl
    cases hl : runLine P C v line r with
    | mk r1 o =>
      rw [hl] at h1
      cases o with
      | ok b =>
        cases b with
        | false => exact (runRepl_pushed fun t ht => h t (List.mem_cons_of_mem _ ht)).trans h1
        | true => exact h1
      | err e => exact h1
      | panic => exact h1

/-! ## What a run keeps -/

theorem runLine_ro (P : Prims) (C : Codec) (v : Env) (line : Str) (r : Repl) :
    (runLine P C v line r).1.u.readOnly = r.u.readOnly := by
  unfold runLine
  cases hp : parseLine line with
  | none => rfl
  | some x =>
    obtain ⟨cmd, args⟩ := x
    dsimp only
    cases readOnlyFlag cmd with
    | none => rfl
    | some b =>
      cases b with
      | true => exact execRead_ro v cmd args r
      | false =>
        dsimp only
        split
        · rfl
        · exact execWrite_ro P C v cmd args r

theorem runRepl_ro (P : Prims) (C : Codec) : ∀ (turns : List Turn) (r : Repl), (runRepl P C turns r).1.u.readOnly = r.u.readOnly
  | [], _ => rfl
  | (none, _) :: _, _ => rfl
  | (some line, v) :: rest, r => by
    have h1 := runLine_ro P C v line r
    unfold runRepl
    cases hl : runLine P C v line r with
    | mk r1 o =>
      rw [hl] at h1
      cases o with
      | ok b =>
        cases b with
        | false => exact (runRepl_ro P C rest r1).trans h1
        | true => exact h1
      | err e => exact h1
      | panic => exact h1

theorem autoSync_ro (P : Prims) (C : Codec) (v : Env) (auto : Bool) (r : Repl) : (autoSync P C v auto r).1.u.readOnly = r.u.readOnly := by
  unfold autoSync
  split
  · exact sync_ro ..
  · rfl

end Verif.App
