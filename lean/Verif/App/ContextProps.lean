import Verif.App.ContextSpec
import Verif.App.WordProps
import Verif.App.ClipProps
import Verif.App.EffectProps
import Verif.App.ReplProps
import Verif.App.ClipDemo

namespace Verif.App
open Verif.Blob Verif.Txlogs Verif.Crypt Verif.App.Spec
open Verif.Crypt.Spec (toy toy_lawful)
open Demo (perm_id perm_id' fresh_concrete)

/-! ## C121: what a current entry is for -/

theorem back_at (n : Str) (r : Repl) (x : Session × Res AppErr Unit) : back (atEntry n r) x = endsAt n (back (atEntry [] r) x) := by
  obtain ⟨u, o⟩ := x; cases o <;> rfl
theorem backU_at {α : Type} (n : Str) (r : Repl) (x : Session × Res AppErr α) :
    back_ (atEntry n r) x = endsAt n (back_ (atEntry [] r) x) := by
  obtain ⟨u, o⟩ := x; cases o <;> rfl
theorem backOut_at (n : Str) (r : Repl) (x : Session × Res AppErr (Option Str)) :
    backOut (atEntry n r) x = endsAt n (backOut (atEntry [] r) x) := by
  obtain ⟨u, o⟩ := x
  cases o with
  | ok a => cases a <;> rfl
  | err e => rfl
  | panic => rfl

theorem queryArgs_at {n : Str} (hn : n ≠ []) (args : List Str) : queryArgs n args = queryArgs [] (n :: args) := by
  cases args <;> simp [queryArgs, hn]
theorem queryArg_at {n : Str} (hn : n ≠ []) (args : List Str) : queryArg n args = queryArg [] (n :: args) := by
  simp [queryArg, hn]
theorem setArgs_at {n : Str} (hn : n ≠ []) (args : List Str) : setArgs n args = setArgs [] (n :: args) := by
  simp only [setArgs, queryArgs_at hn]

/-- what `get` and `cp` do with their arguments -/
theorem match_at {α : Type} (n : Str) (r : Repl) (o : Option α) (f g : α → Repl × Res AppErr Bool)
    (h : ∀ a, f a = endsAt n (g a)) :
    (match o with | none => (atEntry n r, .ok false) | some a => f a) =
      endsAt n (match o with | none => (atEntry [] r, .ok false) | some a => g a) := by
  cases o with
  | none => rfl
  | some a => exact h a

theorem at_u (n : Str) (r : Repl) : (atEntry n r).u = r.u := rfl
theorem at_ctx (n : Str) (r : Repl) : (atEntry n r).ctx = n := rfl

theorem execRead_at (v : Env) (cmd : Str) (args : List Str) (r : Repl) {n : Str} (hn : n ≠ [])
    (hc : cmd ∈ [b! "show", b! "get", b! "cp", b! "open", keyPass, keyUser, keyEmail, keyTwoFactor, b! "dump"]) :
    execRead v cmd args (atEntry n r) = endsAt n (execRead v cmd (n :: args) (atEntry [] r)) := by
  simp only [List.mem_cons, List.not_mem_nil, or_false] at hc
  rcases hc with rfl | rfl | rfl | rfl | rfl | rfl | rfl | rfl | rfl <;> unfold execRead <;>
    simp (decide := true) only [if_false, if_true, at_u, at_ctx, ← queryArgs_at hn, ← queryArg_at hn, hn, List.head?_cons,
      List.drop_succ_cons, List.drop_zero]
  · exact backU_at n r _
  · cases queryArgs n args with
    | none => rfl
    | some x =>
      obtain ⟨q, k, rest⟩ := x
      simp only
      split
      · rfl
      · exact backOut_at n r _
  · cases queryArgs n args with
    | none => rfl
    | some x =>
      obtain ⟨q, k, rest⟩ := x
      simp only
      split
      · rfl
      · exact backOut_at n r _
  · cases queryArg n args with
    | none => rfl
    | some q => exact backU_at n r _
  · cases queryArg n args with
    | none => rfl
    | some q => exact backOut_at n r _
  · cases queryArg n args with
    | none => rfl
    | some q => exact backOut_at n r _
  · cases queryArg n args with
    | none => rfl
    | some q => exact backOut_at n r _
  · cases queryArg n args with
    | none => rfl
    | some q => exact backOut_at n r _
  · cases queryArg n args with
    | none => rfl
    | some q => exact backU_at n r _

theorem execWrite_at (P : Prims) (C : Codec) (v : Env) (cmd : Str) (args : List Str) (r : Repl) {n : Str} (hn : n ≠ [])
    (hc : cmd ∈ [b! "set", b! "edit", b! "rmk", b! "label", b! "rmlabel"]) :
    execWrite P C v cmd args (atEntry n r) = endsAt n (execWrite P C v cmd (n :: args) (atEntry [] r)) := by
  simp only [List.mem_cons, List.not_mem_nil, or_false] at hc
  rcases hc with rfl | rfl | rfl | rfl | rfl <;> unfold execWrite <;>
    simp (decide := true) only [if_false, if_true, at_u, at_ctx, ← queryArgs_at hn, ← queryArg_at hn, ← setArgs_at hn]
  · cases setArgs n args with
    | none => rfl
    | some x => exact back_at n r _
  · cases queryArgs n args with
    | none => rfl
    | some x => exact back_at n r _
  · cases queryArgs n args with
    | none => rfl
    | some x => exact back_at n r _
  · cases queryArg n args with
    | none => rfl
    | some x => exact back_at n r _
  · cases queryArgs n args with
    | none => rfl
    | some x => exact back_at n r _

theorem execLogin_at (P : Prims) (C : Codec) (v : Env) (r : Repl) (n : Str) (hn : n ≠ []) :
    execWrite P C v (b! "login") [] (atEntry n r) = endsAt n (execWrite P C v (b! "login") [n] (atEntry [] r)) := by
  unfold execWrite
  simp (decide := true) only [if_false, if_true, at_u, at_ctx]
  cases n with
  | nil => exact absurd rfl hn
  | cons a n => exact backU_at _ r _

theorem ite_at {c : Prop} [Decidable c] {n : Str} {a b a' b' : Repl × Res AppErr Bool} (h : c → a = endsAt n a') (h' : ¬ c → b = endsAt n b') :
    (if c then a else b) = endsAt n (if c then a' else b') := by
  split
  · exact h ‹_›
  · exact h' ‹_›

theorem execRead_free (v : Env) (cmd : Str) (args : List Str) (r : Repl) (n : Str) (hq : cmd ∉ queried)
    (hc : cmd ∉ [b! "login", b! "cd", b! "rm"]) :
    execRead v cmd args (atEntry n r) = endsAt n (execRead v cmd args (atEntry [] r)) := by
  simp only [queried, List.mem_cons, List.not_mem_nil, or_false, not_or] at hq hc
  unfold execRead
  simp only [hq, hc, if_false, or_self, at_u]
  refine ite_at (fun _ => backU_at n r _) fun _ => ite_at (fun _ => ite_at (fun _ => rfl) fun _ => backU_at n r _) fun _ =>
    ite_at (fun _ => rfl) fun _ => rfl

theorem execWrite_free (P : Prims) (C : Codec) (v : Env) (cmd : Str) (args : List Str) (r : Repl) (n : Str) (hq : cmd ∉ queried)
    (hc : cmd ∉ [b! "login", b! "cd", b! "rm"]) :
    execWrite P C v cmd args (atEntry n r) = endsAt n (execWrite P C v cmd args (atEntry [] r)) := by
  simp only [queried, List.mem_cons, List.not_mem_nil, or_false, not_or] at hq hc
  unfold execWrite
  simp only [hq, hc, if_false, at_u]
  refine ite_at (fun _ => back_at n r _) fun _ => ite_at (fun _ => ?_) fun _ => ite_at (fun _ => back_at n r _) fun _ =>
    ite_at (fun _ => backU_at n r _) fun _ => ite_at (fun _ => ?_) fun _ => ite_at (fun _ => ?_) fun _ => ite_at (fun _ => ?_) fun _ =>
    ite_at (fun _ => ?_) fun _ => rfl
  · cases args with
    | nil => rfl
    | cons a l => exact back_at n r _
  · cases args with
    | nil => rfl
    | cons a l => exact back_at n r _
  · match args with
    | [] => rfl
    | [a] => rfl
    | a :: b :: l => exact back_at n r _
  · by_cases hp : (sync P C v.w v.v (args.head?.getD []) true r.u v.d.inp).pushed = []
    · simp only [hp, if_true]
      exact back_at n r _
    · simp only [hp, if_false]
      exact back_at n { r with pushed := r.pushed ++ [((sync P C v.w v.v (args.head?.getD []) true r.u v.d.inp).sent,
        (sync P C v.w v.v (args.head?.getD []) true r.u v.d.inp).pushed)] } _
  · cases args with
    | nil => rfl
    | cons a l => exact back_at n r _

/-- With a current entry, a command on an entry does exactly what it does without one when the name of the entry is put before its
arguments, and all other commands but `cd` and `rm` do what they do without one. `login` does so only without arguments. -/
theorem C121_partial (P : Prims) (C : Codec) (v : Env) (line line' : Str) (r : Repl) (n : Str) (hn : n ≠ []) (h : SameButQuery n line line') :
    runLine P C v line (atEntry n r) = endsAt n (runLine P C v line' (atEntry [] r)) := by
  obtain ⟨cmd, args, args', h1, h2, h3⟩ := h
  unfold runLine
  simp only [h1, h2]
  cases hf : readOnlyFlag cmd with
  | none => rfl
  | some b =>
    cases b with
    | true =>
      simp only
      rcases h3 with ⟨hc, rfl⟩ | ⟨rfl, -⟩ | ⟨hq, hc, rfl⟩
      · refine execRead_at v cmd args r hn ?_
        simp only [queried, List.mem_cons, List.not_mem_nil, or_false] at hc
        rcases hc with rfl | rfl | rfl | rfl | rfl | rfl | rfl | rfl | rfl | rfl | rfl | rfl | rfl | rfl <;>
          first | (revert hf; decide) | decide
      · exact absurd hf (by decide)
      · exact execRead_free v cmd _ r n hq hc
    | false =>
      show (if r.u.readOnly = true then _ else _) = endsAt n (if r.u.readOnly = true then _ else _)
      by_cases hro : r.u.readOnly = true
      · rw [if_pos hro, if_pos hro]
        rfl
      · rw [if_neg hro, if_neg hro]
        rcases h3 with ⟨hc, rfl⟩ | ⟨rfl, rfl, rfl⟩ | ⟨hq, hc, rfl⟩
        · refine execWrite_at P C v cmd args r hn ?_
          simp only [queried, List.mem_cons, List.not_mem_nil, or_false] at hc
          rcases hc with rfl | rfl | rfl | rfl | rfl | rfl | rfl | rfl | rfl | rfl | rfl | rfl | rfl | rfl <;>
            first | decide | (revert hf; decide)
        · exact execLogin_at P C v r n hn
        · exact execWrite_free P C v cmd _ r n hq hc

/-- So do whole sessions. -/
theorem C121_session_partial (P : Prims) (C : Codec) (n : Str) (hn : n ≠ []) (turns turns' : List Turn) (h : SameTurns n turns turns') (r : Repl) :
    runRepl P C turns (atEntry n r) = (atEntry n (runRepl P C turns' (atEntry [] r)).1, (runRepl P C turns' (atEntry [] r)).2) ∧
      (runRepl P C turns' (atEntry [] r)).1.ctx = [] := by
  induction h generalizing r with
  | nil => exact ⟨rfl, rfl⟩
  | ended v rest rest' => exact ⟨rfl, rfl⟩
  | line line line' v rest rest' hl _ ih =>
    have h0 : ∀ x : Repl × Res AppErr Bool, endsAt n x = (atEntry n x.1, x.2) := fun _ => rfl
    simp only [runRepl]
    rw [C121_partial P C v line line' r n hn hl, h0]
    have hc : (runLine P C v line' (atEntry [] r)).1.ctx = [] := by
      obtain ⟨cmd, args, args', h1, h2, h3⟩ := hl
      have hcd : cmd ≠ b! "cd" := by
        rintro rfl
        rcases h3 with ⟨hc, -⟩ | ⟨hc, -⟩ | ⟨-, hc, -⟩
        · revert hc; decide
        · revert hc; decide
        · exact hc (by decide)
      have hrm : cmd ≠ b! "rm" := by
        rintro rfl
        rcases h3 with ⟨hc, -⟩ | ⟨hc, -⟩ | ⟨-, hc, -⟩
        · revert hc; decide
        · revert hc; decide
        · exact hc (by decide)
      unfold runLine
      simp only [h2]
      cases readOnlyFlag cmd with
      | none => rfl
      | some b =>
        cases b with
        | true => exact ctx_read v cmd args' _ hcd
        | false =>
          simp only
          split
          · rfl
          · exact ctx_write P C v cmd args' _ hrm
    generalize runLine P C v line' (atEntry [] r) = x at hc ⊢
    obtain ⟨r1, o⟩ := x
    have h1 : r1 = atEntry [] r1 := by
      cases r1; simp only at hc; subst hc; rfl
    cases o with
    | ok b =>
      cases b with
      | true => exact ⟨rfl, hc⟩
      | false =>
        simp only
        have := ih r1
        rw [h1]
        exact ih r1
    | err e => exact ⟨rfl, hc⟩
    | panic => exact ⟨rfl, hc⟩

/-- Typed with blanks between the words: the name of the current entry may be left out. -/
theorem C121_typed_partial (P : Prims) (C : Codec) (v : Env) (cmd : Str) (args : List Str) (r : Repl) (n : Str) (hc : cmd ∈ queried)
    (hn : Word n) (ha : ∀ a ∈ args, Word a) :
    runLine P C v (join 32 (cmd :: args)) (atEntry n r) = endsAt n (runLine P C v (join 32 (cmd :: n :: args)) (atEntry [] r)) := by
  have hw : Word cmd := by
    revert hc
    exact (show ∀ c ∈ queried, Word c by decide) cmd
  refine C121_partial P C v _ _ r n hn.1 ⟨cmd, args, n :: args, C102_parse cmd args hw ha, C102_parse cmd (n :: args) hw ?_, .inl ⟨hc, rfl⟩⟩
  intro a h
  rcases List.mem_cons.1 h with rfl | h
  · exact hn
  · exact ha a h

/-- `set` with any text as the value. -/
theorem C121_set_partial (P : Prims) (C : Codec) (v : Env) (k x : Str) (r : Repl) (n : Str) (hn : n ≠ []) (hn' : 32 ∉ n) (hk : k ≠ [])
    (hk' : 32 ∉ k) (hx : x ≠ []) (hx' : NoTrailingSpace x) :
    runLine P C v (b! "set " ++ k ++ b! " " ++ x) (atEntry n r) = endsAt n (runLine P C v (setLine n k x) (atEntry [] r)) := by
  obtain ⟨a, h1, h2⟩ := C61_parse_ctx n k x hn hk hk' hx hx'
  obtain ⟨a', h3, h4⟩ := C61_parse n k x hn hn' hk hk' hx hx'
  unfold runLine
  simp only [h1, h3, show readOnlyFlag (b! "set") = some false by decide]
  show (if r.u.readOnly = true then _ else _) = endsAt n (if r.u.readOnly = true then _ else _)
  by_cases hro : r.u.readOnly = true
  · rw [if_pos hro, if_pos hro]
    rfl
  · rw [if_neg hro, if_neg hro]
    unfold execWrite
    simp (decide := true) only [if_false, if_true, at_u, at_ctx, h2, h4]
    exact back_at n r _

/-- But a command that takes nothing but a query does not look at it with a current entry, whatever it says. -/
theorem C121_ignored (P : Prims) (C : Codec) (v : Env) (line line' cmd : Str) (args args' : List Str) (r : Repl) (n : Str) (hn : n ≠ [])
    (hc : cmd ∈ onlyQuery) (h : parseLine line = some (cmd, args)) (h' : parseLine line' = some (cmd, args')) :
    runLine P C v line (atEntry n r) = runLine P C v line' (atEntry n r) := by
  have hq : ∀ a a', queryArg n a = queryArg n a' := fun a a' => by simp [queryArg, hn]
  unfold runLine
  simp only [h, h']
  simp only [onlyQuery, List.mem_cons, List.not_mem_nil, or_false] at hc
  rcases hc with rfl | rfl | rfl | rfl | rfl | rfl | rfl
  all_goals
    first
    | simp only [show readOnlyFlag (b! "label") = some false by decide]
      unfold execWrite
      simp (decide := true) only [if_false, if_true, at_ctx, hq args args']
      done
    | simp only [show readOnlyFlag (b! "open") = some true by decide, show readOnlyFlag (b! "dump") = some true by decide,
        show readOnlyFlag keyPass = some true by decide, show readOnlyFlag keyUser = some true by decide,
        show readOnlyFlag keyEmail = some true by decide, show readOnlyFlag keyTwoFactor = some true by decide]
      unfold execRead
      simp (decide := true) only [if_false, if_true, at_ctx, hq args args']

/-- `login` is the other way round: with an argument it does not look at the current entry. -/
theorem C121_login (P : Prims) (C : Codec) (v : Env) (line q : Str) (args : List Str) (r : Repl) (n : Str)
    (h : parseLine line = some (b! "login", q :: args)) :
    runLine P C v line (atEntry n r) = endsAt n (runLine P C v line (atEntry [] r)) := by
  unfold runLine
  simp only [h, show readOnlyFlag (b! "login") = some false by decide]
  show (if r.u.readOnly = true then _ else _) = endsAt n (if r.u.readOnly = true then _ else _)
  by_cases hro : r.u.readOnly = true
  · rw [if_pos hro, if_pos hro]
    rfl
  · rw [if_neg hro, if_neg hro]
    unfold execWrite
    simp (decide := true) only [if_false, if_true, at_u]
    cases q with
    | nil => rfl
    | cons a q => exact backU_at n r _

/-- What is copied is the same, too. -/
theorem C121_copies_partial (date : Str → Str) (v : Env) (line line' : Str) (r : Repl) (n : Str) (hn : n ≠ []) (h : SameButQuery n line line') :
    lineCopies date v line (atEntry n r) = lineCopies date v line' (atEntry [] r) := by
  obtain ⟨cmd, args, args', h1, h2, h3⟩ := h
  unfold lineCopies
  simp only [h1, h2]
  cases readOnlyFlag cmd with
  | none => rfl
  | some b =>
    cases b with
    | true =>
      simp only
      rcases h3 with ⟨-, rfl⟩ | ⟨rfl, -⟩ | ⟨hq, -, rfl⟩
      · simp only [readCopies, at_u, at_ctx, ← queryArgs_at hn, ← queryArg_at hn]
      · rfl
      · simp only [queried, List.mem_cons, List.not_mem_nil, or_false, not_or] at hq
        simp only [readCopies, hq, if_false, or_self]
    | false =>
      show (if r.u.readOnly = true then _ else _) = (if r.u.readOnly = true then _ else _)
      by_cases hro : r.u.readOnly = true
      · rw [if_pos hro, if_pos hro]
      · rw [if_neg hro, if_neg hro]
        rcases h3 with ⟨hc, rfl⟩ | ⟨rfl, rfl, rfl⟩ | ⟨hq, hc, rfl⟩
        · have h4 : cmd ≠ b! "add" := by rintro rfl; revert hc; decide
          have h5 : cmd ≠ b! "login" := by rintro rfl; revert hc; decide
          have h6 : cmd ≠ b! "addsync" := by rintro rfl; revert hc; decide
          simp only [writeCopies, h4, h5, h6, if_false, at_u, at_ctx, ← setArgs_at hn]
        · simp only [writeCopies, at_u, at_ctx]
          simp (decide := true) only [if_false, if_true]
        · simp only [queried, List.mem_cons, List.not_mem_nil, or_false, not_or] at hq hc
          simp only [writeCopies, hq, hc, if_false, at_u]

namespace ContextDemo

/-- a file with a bank and a shop -/
def log : List Tx :=
  [⟨0, .add, [1], [], []⟩, ⟨0, .setk, [1], keyName, b! "bank"⟩, ⟨0, .setk, [1], keyPass, b! "p1"⟩,
   ⟨0, .add, [2], [], []⟩, ⟨0, .setk, [2], keyName, b! "shop"⟩, ⟨0, .setk, [2], keyPass, b! "p2"⟩]
def r : Repl := { u := { store := opened log } }

theorem r_wf : WellFormed r.u.store ∧
    ∀ w n, Blob.Spec.Named r.u.store w n ↔ (w, n) ∈ [(([1] : Str), b! "bank"), (([2] : Str), b! "shop")] :=
  wf_check (ok_opened _) _ (by decide +kernel) (by decide +kernel) (by decide) (by decide)

/-- A command that is given the name of an entry does not act on that entry if there is a current one. -/
theorem C121_false : ¬ ∀ (P : Prims) (C : Codec) (v : Env) (line cmd n : Str) (args : List Str) (r : Repl) (w : Str), WellFormed r.u.store →
    EnvOk v r.u.store → Blob.Spec.Named r.u.store w n → parseLine line = some (cmd, n :: args) → cmd ∈ queried →
    ∀ m, (∃ w', Blob.Spec.Named r.u.store w' m) → runLine P C v line (atEntry m r) = endsAt m (runLine P C v line (atEntry [] r)) := by
  intro h
  have h1 := h toy SyncDemo.C Demo.vV (b! "pass shop") keyPass (b! "shop") [] r [2] r_wf.1
    ⟨perm_id, perm_id', by decide, fresh_concrete r_wf.1.good (by decide +kernel)⟩ ((r_wf.2 _ _).2 (by simp)) (by decide +kernel) (by decide)
    (b! "bank") ⟨[1], (r_wf.2 _ _).2 (by simp)⟩
  have h2 := congrArg (fun x => x.1.out) h1
  revert h2
  decide +kernel

/-- With the bank as the current entry, `pass shop` copies the password of the bank, and `login shop` that of the shop. -/
theorem C121_pass_false : lineCopies id Demo.vV (b! "pass shop") (atEntry (b! "bank") r) = [b! "p1"] ∧
    lineCopies id Demo.vV (b! "pass shop") r = [b! "p2"] ∧
    lineCopies id Demo.vV (b! "login shop") (atEntry (b! "bank") r) = [b! "p2"] := by decide +kernel

/-- And `set shop pass p3` makes a key `shop` at the bank and leaves the password of the shop. -/
theorem C121_set_false : (runLine toy SyncDemo.C Demo.vV (b! "set shop pass p3") (atEntry (b! "bank") r)).2 = .ok false ∧
    (runLine toy SyncDemo.C Demo.vV (b! "set shop pass p3") (atEntry (b! "bank") r)).1.u.store.log.drop 6 =
      [⟨0, .setk, [1], keyUpdated, b! "0"⟩, ⟨0, .setk, [1], b! "shop", b! "pass p3"⟩] := by decide +kernel

/-- C121_partial, C121_copies_partial, C121_session_partial -/
example : SameButQuery (b! "bank") (b! "get pass") (b! "get bank pass") ∧
    SameTurns (b! "bank") [(some (b! "set note hi"), Demo.vV), (some (b! "login"), Demo.vV), (some (b! "ls"), Demo.vV), (none, Demo.vV)]
      [(some (b! "set bank note hi"), Demo.vV), (some (b! "login bank"), Demo.vV), (some (b! "ls"), Demo.vV), (none, Demo.vV)] ∧
    (runLine toy SyncDemo.C Demo.vV (b! "get pass") (atEntry (b! "bank") r)).1.out = [b! "p1"] := by
  refine ⟨⟨b! "get", [keyPass], [b! "bank", keyPass], by decide +kernel, by decide +kernel, .inl ⟨by decide, rfl⟩⟩,
    .line _ _ _ _ _ ⟨b! "set", [b! "note", b! "hi"], [b! "bank", b! "note", b! "hi"], by decide +kernel, by decide +kernel,
      .inl ⟨by decide, rfl⟩⟩ (.line _ _ _ _ _ ⟨b! "login", [], [b! "bank"], by decide +kernel, by decide +kernel, .inr (.inl ⟨rfl, rfl, rfl⟩)⟩
        (.line _ _ _ _ _ ⟨b! "ls", [], [], by decide +kernel, by decide +kernel, .inr (.inr ⟨by decide, by decide, rfl⟩)⟩ (.ended _ _ _))),
    by decide +kernel⟩

/-- C121_typed_partial, C121_set_partial, C121_ignored, C121_login -/
example : (b! "show") ∈ queried ∧ Word (b! "bank") ∧ (∀ a ∈ [b! "3"], Word a) ∧ NoTrailingSpace (b! "two words") ∧
    (b! "open") ∈ onlyQuery ∧ parseLine (b! "open shop") = some (b! "open", [b! "shop"]) ∧
    parseLine (b! "login shop") = some (b! "login", [b! "shop"]) := by decide +kernel

end ContextDemo

end Verif.App
