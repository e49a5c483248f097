import Verif.App.RecallLemmas
import Verif.App.ShowProps
import Verif.Json.Spec
/-!
# C127 What is shown depends on the entries only
-/
namespace Verif.App
open Verif Verif.Txlogs Verif.Blob Verif.Crypt Spec

/-- The session `w` (its user, keys and mode) with the store of `u`. -/
def Spec.inPlace (w u : Session) : Session := { w with store := u.store }

/-- The same at the prompt. -/
def Spec.inPlaceR (w : Session) (r : Repl) : Repl := { r with u := inPlace w r.u }

/-- A line that is refused in a read-only session. -/
def Spec.refused (line : Str) : Bool :=
  match parseLine line with
  | none => false
  | some (cmd, _) => readOnlyFlag cmd == some false

/-- Only commands for reading are typed. -/
def Spec.Reading (turns : List Turn) : Prop := ∀ line v, (some line, v) ∈ turns → refused line = false

/-- A command that treats all sessions with the same store alike. -/
def Blind {α : Type} (f : Session → Session × Res AppErr α) : Prop :=
  ∀ w u, f (inPlace w u) = (inPlace w (f u).1, (f u).2)

theorem blind_lift {α : Type} (f : DB → Out α) : Blind fun u => lift u (f u.store) := by
  intro w u
  simp only [inPlace]
  rcases f u.store with ⟨s, _ | _ | _⟩ <;> rfl

theorem blind_one {α : Type} (v : Env) (q : Str) (dflt : α) {k : Session → Str → Session × Res AppErr α}
    (hk : ∀ uuid, Blind fun u => k u uuid) : Blind fun u => one v u q dflt k := by
  intro w u
  have h := blind_lift (findOne v.lower v.ord v.ord' · q) w u
  dsimp only at h ⊢
  unfold one
  rw [h]
  rcases lift u (findOne v.lower v.ord v.ord' u.store q) with ⟨u1, a | a | _⟩
  · dsimp only
    by_cases ha : a = []
    · rw [if_pos ha, if_pos ha]
    · rw [if_neg ha, if_neg ha]
      exact hk a w u1
  · rfl
  · rfl

theorem blind_oneEntry {α : Type} (v : Env) (q : Str) (dflt : α) {k : Session → Str → Entry → Session × Res AppErr α}
    (hk : ∀ uuid e, Blind fun u => k u uuid e) : Blind fun u => oneEntry v u q dflt k := by
  refine blind_one v q dflt fun uuid w u => ?_
  have h := blind_lift (mustFind · uuid) w u
  dsimp only at h ⊢
  rw [h]
  rcases lift u (mustFind u.store uuid) with ⟨u1, a | a | _⟩
  · exact hk uuid a w u1
  · rfl
  · rfl

theorem blind_ite {α : Type} (c : Prop) [Decidable c] {f g : Session → Session × Res AppErr α} (hf : Blind f) (hg : Blind g) :
    Blind fun u => if c then f u else g u := by
  intro w u
  by_cases h : c
  · simp only [h, if_true]; exact hf w u
  · simp only [h, if_false]; exact hg w u

theorem blind_const {α : Type} (x : Res AppErr α) : Blind fun u => (u, x) := fun _ _ => rfl

theorem blind_get (v : Env) (q key : Str) : Blind fun u => getCmd v u q key := by
  refine blind_oneEntry v q none fun uuid e w u => ?_
  dsimp only
  repeat' split
  all_goals rfl

theorem blind_show (v : Env) (q : Str) (n : Int) : Blind fun u => showCmd v u q n := by
  refine blind_oneEntry v q none fun uuid e w u => ?_
  dsimp only
  have : (inPlace w u).store = u.store := rfl
  rw [this]
  repeat' split
  all_goals first | rfl | simp_all

theorem blind_open (v : Env) (q : Str) : Blind fun u => openurl v u q := by
  have hk : ∀ uuid e, Blind fun u => openLink v u uuid e := by
    intro uuid e w u
    unfold openLink
    repeat' split
    all_goals rfl
  intro w u
  have h := blind_lift (findOne v.lower v.ord v.ord' · q) w u
  dsimp only at h ⊢
  unfold openurl
  rw [h]
  rcases lift u (findOne v.lower v.ord v.ord' u.store q) with ⟨u1, a | a | _⟩
  · dsimp only
    by_cases ha : a = []
    · rw [if_pos ha, if_pos ha]
    · rw [if_neg ha, if_neg ha]
      have h := blind_lift (mustFind · a) w u1
      dsimp only at h ⊢
      rw [h]
      rcases lift u1 (mustFind u1.store a) with ⟨u2, b | b | _⟩
      · exact hk a b w u2
      · rfl
      · rfl
  · rfl
  · rfl

theorem blind_login (v : Env) (q : Str) : Blind fun u => login v u q := by
  refine blind_one v q [] fun uuid w u => ?_
  have h := blind_lift (find · uuid) w u
  dsimp only at h ⊢
  rw [h]
  rcases lift u (find u.store uuid) with ⟨u1, a | a | _⟩
  · dsimp only
    repeat' split
    all_goals first | rfl | simp_all
  · rfl
  · rfl

theorem blind_name (v : Env) (q : Str) : Blind fun u => entryName v u q := by
  refine blind_oneEntry v q none fun uuid e w u => ?_
  dsimp only
  split <;> rfl

theorem blind_list (v : Env) (q : Str) : Blind fun u => list v u q := blind_lift (search v.lower v.ord · q)

theorem blind_labels (v : Env) (ls : List Str) : Blind fun u => listByLabels v u ls := blind_lift (searchLabels v.ord · ls)

theorem blind_dump (v : Env) (q : Str) : Blind fun u => dump v u q := blind_oneEntry v q none fun _ _ _ _ => rfl

theorem blind_back_ {α : Type} {f : Session → Session × Res AppErr α} (hf : Blind f) (w : Session) (r : Repl) :
    back_ (inPlaceR w r) (f (inPlaceR w r).u) = (inPlaceR w (back_ r (f r.u)).1, (back_ r (f r.u)).2) := by
  have h : f (inPlaceR w r).u = (inPlace w (f r.u).1, (f r.u).2) := hf w r.u
  rw [h]
  rcases f r.u with ⟨u, _ | _ | _⟩ <;> rfl

theorem blind_backOut {f : Session → Session × Res AppErr (Option Str)} (hf : Blind f) (w : Session) (r : Repl) :
    backOut (inPlaceR w r) (f (inPlaceR w r).u) = (inPlaceR w (backOut r (f r.u)).1, (backOut r (f r.u)).2) := by
  have h : f (inPlaceR w r).u = (inPlace w (f r.u).1, (f r.u).2) := hf w r.u
  rw [h]
  rcases f r.u with ⟨u, (_ | _) | _ | _⟩ <;> rfl

/-- C127: Every reading command does and shows the same for everybody: only what is in the file counts, not who opened it, with
which keys, for writing or as of an earlier time. -/
theorem C127_command (v : Env) (cmd : Str) (args : List Str) (w : Session) (r : Repl) :
    execRead v cmd args (inPlaceR w r) = (inPlaceR w (execRead v cmd args r).1, (execRead v cmd args r).2) := by
  have hctx : (inPlaceR w r).ctx = r.ctx := rfl
  unfold execRead
  rw [hctx]
  by_cases h1 : cmd = b! "ls"
  · rw [if_pos h1, if_pos h1]
    exact blind_back_ (blind_list v _) w r
  rw [if_neg h1, if_neg h1]
  by_cases h2 : cmd = b! "cd"
  · rw [if_pos h2, if_pos h2]
    match args with
    | [] => rfl
    | [q] =>
      unfold cd
      dsimp only
      have h : entryName v (inPlaceR w r).u q = (inPlace w (entryName v r.u q).1, (entryName v r.u q).2) := blind_name v q w r.u
      rw [h]
      rcases entryName v r.u q with ⟨u, (_ | _) | _ | _⟩ <;> rfl
    | _ :: _ :: _ => rfl
  rw [if_neg h2, if_neg h2]
  by_cases h3 : cmd = b! "cp" ∨ cmd = b! "get"
  · rw [if_pos h3, if_pos h3]
    rcases queryArgs r.ctx args with _ | ⟨q, k, rest⟩
    · rfl
    · dsimp only
      by_cases h : rest ≠ [] ∧ (rest.head?.bind atoi).isNone
      · rw [if_pos h, if_pos h]
      · rw [if_neg h, if_neg h]
        exact blind_backOut (f := fun u => getCmd v u q k) (blind_get v q k) w r
  rw [if_neg h3, if_neg h3]
  by_cases h4 : cmd = keyUser ∨ cmd = keyPass ∨ cmd = keyEmail ∨ cmd = keyTwoFactor
  · rw [if_pos h4, if_pos h4]
    rcases queryArg r.ctx args with _ | q
    · rfl
    · exact blind_backOut (f := fun u => getCmd v u q cmd) (blind_get v q cmd) w r
  rw [if_neg h4, if_neg h4]
  by_cases h5 : cmd = b! "open"
  · rw [if_pos h5, if_pos h5]
    rcases queryArg r.ctx args with _ | q
    · rfl
    · exact blind_back_ (f := fun u => openurl v u q) (blind_open v q) w r
  rw [if_neg h5, if_neg h5]
  by_cases h6 : cmd = b! "labels"
  · rw [if_pos h6, if_pos h6]
    by_cases ha : args = []
    · rw [if_pos ha, if_pos ha]
    · rw [if_neg ha, if_neg ha]
      exact blind_back_ (blind_labels v args) w r
  rw [if_neg h6, if_neg h6]
  by_cases h7 : cmd = b! "show"
  · rw [if_pos h7, if_pos h7]
    generalize (if r.ctx = [] then (args.head?, args.drop 1) else (some r.ctx, args)) = x
    obtain ⟨_ | q, rest⟩ := x
    · rfl
    · exact blind_back_ (f := fun u => showCmd v u q ((rest.head?.bind atoi).getD 0)) (blind_show v q _) w r
  rw [if_neg h7, if_neg h7]
  by_cases h8 : cmd = b! "dump"
  · rw [if_pos h8, if_pos h8]
    rcases queryArg r.ctx args with _ | q
    · rfl
    · exact blind_back_ (blind_dump v q) w r
  rw [if_neg h8, if_neg h8]
  by_cases h9 : cmd = b! "exit"
  · rw [if_pos h9, if_pos h9]
  · rw [if_neg h9, if_neg h9]

/-- C127: In particular everybody is shown the same: entries, labels, values, old versions, links and what "login" copies. -/
theorem C127_shown (v : Env) (w u : Session) (q key : Str) (ls : List Str) (n : Int) :
    (list v (inPlace w u) q).2 = (list v u q).2 ∧ (listByLabels v (inPlace w u) ls).2 = (listByLabels v u ls).2 ∧
      (getCmd v (inPlace w u) q key).2 = (getCmd v u q key).2 ∧ (showCmd v (inPlace w u) q n).2 = (showCmd v u q n).2 ∧
      (openurl v (inPlace w u) q).2 = (openurl v u q).2 ∧ (dump v (inPlace w u) q).2 = (dump v u q).2 ∧
      (login v (inPlace w u) q).2 = (login v u q).2 :=
  ⟨congrArg (·.2) (blind_list v q w u), congrArg (·.2) (blind_labels v ls w u), congrArg (·.2) (blind_get v q key w u),
    congrArg (·.2) (blind_show v q n w u), congrArg (·.2) (blind_open v q w u), congrArg (·.2) (blind_dump v q w u),
    congrArg (·.2) (blind_login v q w u)⟩

theorem look_line (P : Prims) (C : Codec) (v : Env) (line : Str) (w : Session) (r : Repl) (h : refused line = false) :
    runLine P C v line (inPlaceR w r) = (inPlaceR w (runLine P C v line r).1, (runLine P C v line r).2) := by
  unfold runLine
  unfold refused at h
  split at h
  · rename_i hp
    rw [hp]
  · rename_i cmd args hp
    rw [hp]
    dsimp only
    cases hf : readOnlyFlag cmd with
    | none => rfl
    | some b =>
      cases b with
      | true => exact C127_command v cmd args w r
      | false => rw [hf] at h; cases h

/-- C127: A run in which things are only looked at shows everybody the same and ends in the same way. -/
theorem C127_run (P : Prims) (C : Codec) (w : Session) (turns : List Turn) (h : Reading turns) (r : Repl) :
    runRepl P C turns (inPlaceR w r) = (inPlaceR w (runRepl P C turns r).1, (runRepl P C turns r).2) := by
  induction turns generalizing r with
  | nil => rfl
  | cons t rest ih =>
    have ht : Reading rest := fun l v hm => h l v (List.mem_cons_of_mem _ hm)
    obtain ⟨_ | line, v⟩ := t
    · rfl
    · simp only [runRepl]
      rw [look_line P C v line w r (h line v List.mem_cons_self)]
      rcases runLine P C v line r with ⟨r1, (_ | _) | _ | _⟩
      · exact ih ht r1
      · rfl
      · rfl
      · rfl

/-- C127: In a session of an earlier time everything typed does what it does otherwise when the refused lines are left out. -/
theorem C127_past (P : Prims) (C : Codec) (w : Session) (turns : List Turn) (r : Repl) (hro : r.u.readOnly = true) :
    runRepl P C (turns.filter fun t => !(t.1.any refused)) (inPlaceR w r) =
      (inPlaceR w (runRepl P C turns r).1, (runRepl P C turns r).2) := by
  induction turns generalizing r with
  | nil => rfl
  | cons t rest ih =>
    obtain ⟨_ | line, v⟩ := t
    · rfl
    · by_cases hl : refused line = true
      · rw [List.filter_cons_of_neg (by simp [hl])]
        have h1 : runLine P C v line r = (r, .ok false) := by
          unfold refused at hl
          unfold runLine
          split at hl
          · cases hl
          · rename_i cmd args hp
            rw [hp]
            simp only [beq_iff_eq] at hl
            simp only [hl, hro, if_true]
        simp only [runRepl, h1]
        exact ih r hro
      · rw [List.filter_cons_of_pos (by simp [hl])]
        have hl' : refused line = false := by simpa using hl
        simp only [runRepl]
        rw [look_line P C v line w r hl']
        have hk : (runLine P C v line r).1.u.readOnly = true := by
          unfold runLine
          rcases parseLine line with _ | ⟨cmd, args⟩
          · exact hro
          · dsimp only
            rcases readOnlyFlag cmd with _ | _ | _
            · exact hro
            · rw [hro, if_pos rfl]; exact hro
            · exact (execRead_ro v cmd args r).trans hro
        rcases hx : runLine P C v line r with ⟨r1, (_ | _) | _ | _⟩
        · rw [hx] at hk
          exact ih r1 hk
        · rfl
        · rfl
        · rfl

/-- C127 is false of what is permitted: "login" only reads, in every session, and is refused when a file was opened as of an
earlier time. -/
theorem C127_login_false : ¬ ∀ cmd : Str, (∀ (P : Prims) (C : Codec) (v : Env) (args : List Str) (r : Repl),
    Same r.u (execWrite P C v cmd args r).1.u) → readOnlyFlag cmd ≠ some false := by
  intro h
  refine h (b! "login") (fun P C v args r => ?_) (by decide)
  unfold execWrite
  rw [if_neg (by decide), if_neg (by decide), if_neg (by decide), if_neg (by decide), if_neg (by decide), if_neg (by decide),
    if_neg (by decide), if_neg (by decide), if_pos rfl]
  split
  · exact ⟨rfl, rfl, rfl, rfl, rfl⟩
  · rw [back__u]
    exact same_login v r.u _

namespace LookDemo
open Verif.Crypt.Spec (toy)

/-- a file with an entry "shop" that has a password -/
def s : DB :=
  { log := [{ time := 1, kind := .add, uuid := [9] }, { time := 2, kind := .setk, uuid := [9], key := keyName, value := b! "shop" },
      { time := 3, kind := .setk, uuid := [9], key := keyPass, value := b! "secret" }] }

/-- opened for writing by somebody -/
def u : Session := { store := s, creds := { user := [97], pass := [1], key := List.replicate 80 1, salt := List.replicate 32 1 } }

/-- opened as of an earlier time by somebody else -/
def w : Session := { store := {}, creds := { user := [98], pass := [2] }, readOnly := true }

def turns : List Turn := [(some (b! "ls"), {}), (some (b! "get shop pass"), {})]

theorem turns_reading : Reading turns := by
  intro line v hm
  simp only [turns, List.mem_cons, Prod.mk.injEq, Option.some.injEq, List.not_mem_nil, or_false] at hm
  rcases hm with ⟨rfl, -⟩ | ⟨rfl, -⟩ <;> decide +kernel

theorem turns_out : (runRepl toy Json.Spec.codec turns { u := u }).1.out = [b! "secret"] := by decide +kernel

/-- both are shown the password -/
example : (runRepl toy Json.Spec.codec turns (inPlaceR w { u := u })).1.out = [b! "secret"] := by
  have h := C127_run toy Json.Spec.codec w turns turns_reading { u := u }
  rw [h]
  exact turns_out

/-- "set" is left out in a read-only session, the rest is done -/
example : (runRepl toy Json.Spec.codec ((some (b! "set shop pass x"), {}) :: turns) (inPlaceR w { u := u })).1.out = [b! "secret"] := by
  have h := C127_past toy Json.Spec.codec u ((some (b! "set shop pass x"), {}) :: turns) (inPlaceR w { u := u }) rfl
  have h2 : (((some (b! "set shop pass x"), {}) :: turns).filter fun t => !(t.1.any refused)) = turns := by
    rw [turns, List.filter_cons_of_neg (by decide +kernel), List.filter_cons_of_pos (by decide +kernel),
      List.filter_cons_of_pos (by decide +kernel), List.filter_nil]
  rw [h2] at h
  have h3 : inPlaceR u (inPlaceR w { u := u }) = { u := u } := rfl
  rw [h3] at h
  have h4 := turns_out
  rw [h] at h4
  exact h4

end LookDemo

end Verif.App
