import Verif.App.WholeSpec
import Verif.App.SharedProps
/-!
# C74 over the whole life of a file
-/
namespace Verif.App
open Verif Verif.Txlogs Verif.Blob Verif.Crypt Verif.App.Spec
open Verif.Crypt.Spec (toy toy_lawful)

theorem held_line {P : Prims} (hP : Crypt.Spec.Lawful P) {C : Codec} {v : Env} {line : Str} {r : Repl} {k : Keys} {b : Bool}
    (h : Held P r.u k) (h0 : r.u.store.txPoint = 0) (hw : WellFormed r.u.store) (hl : FileTurn P v line r)
    (ho : (runLine P C v line r).2 = .ok b) : Held P (runLine P C v line r).1.u (keysAfter v line r k) := by
  cases k with
  | shared t =>
    exact shared_line hP h hw ⟨hl.turn, hl.draw, hl.later (master_ne h.1.creds)⟩ ho
  | own pass =>
    have hm : r.u.creds.master = [] := h.creds.master
    have plain : (∀ nm l, parseLine line ≠ some (b! "adduser", nm :: l)) →
        OwnSession P (runLine P C v line r).1.u (passAfter v line pass) := by
      intro hno
      by_cases ha : parseLine line = some (b! "adduser", [])
      · unfold runLine passAfter
        rw [ha]
        have hro : readOnlyFlag (b! "adduser") = some false := by decide
        simp only [hro, if_neg (show ¬ (b! "adduser" = b! "passwd") by decide), h.writable, Bool.false_eq_true, if_false]
        exact h
      · refine own_line hP h ⟨hl.turn, hl.draw.salt_length, ?_⟩
        intro args
        cases args with
        | nil => exact ha
        | cons nm l => exact hno nm l
    unfold keysAfter
    cases hpl : parseLine line with
    | none => exact plain (by rw [hpl]; simp)
    | some p =>
      obtain ⟨cmd, args⟩ := p
      cases args with
      | nil => exact plain (by rw [hpl]; simp)
      | cons nm l =>
        dsimp only
        by_cases hc : cmd = b! "adduser"
        · rw [if_pos hc]
          subst hc
          obtain ⟨hn, hnone⟩ := hl.first hm nm l hpl
          obtain ⟨u', g1, g2, -, g4⟩ := C51_first_user P hP hl.turn.legal.env.ord hl.draw
            (u := r.u) (pass := pass) ⟨h.writable, hw.good, h0, h.creds, h.pass_ne, h.key⟩ hn hnone
          unfold runLine
          rw [hpl]
          have hro : readOnlyFlag (b! "adduser") = some false := by decide
          simp only [hro, h.writable, Bool.false_eq_true, if_false]
          have he : execWrite P C v (b! "adduser") (nm :: l) r = back r (adduser P v.ord v.d r.u nm) := rfl
          rw [he, back_fst, g1]
          exact ⟨g2, g4⟩
        · rw [if_neg hc]
          refine plain ?_
          intro nm' l' hh
          rw [hpl] at hh
          cases hh
          exact hc rfl

theorem held_session {P : Prims} (hP : Crypt.Spec.Lawful P) {C : Codec} (turns : List Turn) (r r' : Repl) (k : Keys)
    (h : Held P r.u k) (h0 : r.u.store.txPoint = 0) (hw : WellFormed r.u.store) (hl : Along P C (FileTurn P) turns r)
    (hr : runRepl P C turns r = (r', .ok ())) : Held P r'.u (lastKeys P C turns r k) := by
  induction turns generalizing r k with
  | nil => cases hr; exact h
  | cons x rest ih =>
    obtain ⟨o, v⟩ := x
    cases o with
    | none =>
      unfold runRepl at hr
      unfold lastKeys
      split at hr
      · cases hr
      · cases hr; exact h
    | some line =>
      obtain ⟨hl1, hl2⟩ := hl
      unfold runRepl at hr
      unfold lastKeys
      have key := fun b => held_line hP (C := C) (b := b) h h0 hw hl1
      have key' := C67_line_partial P C v line r h0 hw hl1.turn.legal
      cases hx : runLine P C v line r with
      | mk r1 o =>
        rw [hx] at hr key key' hl2
        cases o with
        | panic => cases hr
        | err e => cases hr
        | ok b =>
          cases b with
          | true => cases hr; exact key true rfl
          | false => exact ih r1 _ (key false rfl) (key' (by simp)).2 (key' (by simp)).1 hl2 hr

/-- A session, in a file with or without users, in which the user entries are left to the account commands, is saved when it ends
normally, and everything that opened it in the meantime's table opens it again, to exactly what the session left. -/
theorem C74_session_partial (P : Prims) (hP : Crypt.Spec.Lawful P) (turns : List Turn) (r r' : Repl) (k : Keys) (iv : Str)
    (ord : Order) (ord' : Results → Results) (hord : ∀ m, (ord m).Perm m) (hord' : ∀ m, (ord' m).Perm m) (hiv : iv.length = 40)
    (hk : Held P r.u k) (h0 : r.u.store.txPoint = 0) (h : WellFormed r.u.store) (hc : CleanLog r.u.store)
    (hl : Along P Json.Spec.codec (FileTurn P) turns r) (hr : runRepl P Json.Spec.codec turns r = (r', .ok ()))
    (hn : Counted r'.u.store) :
    ∃ f, saveBlob P Json.Spec.codec ord ord' iv r'.u = .ok (some f) ∧
      ∀ inp, (lastKeys P Json.Spec.codec turns r k).Opens inp →
        ∃ u, openFile P Json.Spec.codec none f inp = (.ok u, []) ∧ Held P u (lastKeys P Json.Spec.codec turns r k) ∧
          Spec.SameStore u.store r'.u.store ∧ WellFormed u.store ∧ CleanLog u.store := by
  have h1 := held_session hP turns r r' k hk h0 h hl hr
  have hl' := along_mono (fun _ _ _ h => h.turn) turns r hl
  have h3 := C67_session_partial P _ turns r h0 h (along_mono (fun _ _ _ h => h.legal) turns r hl') (by rw [hr]; simp)
  have h4 := C77_session_partial P _ turns r h0 h hc hl' (by rw [hr]; simp)
  rw [hr] at h3 h4
  generalize lastKeys P Json.Spec.codec turns r k = k' at h1 ⊢
  cases k' with
  | own pass =>
    obtain ⟨f, s', c, g1, g2, g3, g4, g5, g6⟩ := C74_single_partial P hP [] r' r' pass iv ord ord' hiv h1 h3.2 h3.1 h4 trivial rfl hn
    refine ⟨f, g1, ?_⟩
    rintro _ rfl
    exact ⟨_, g3, g4, g2, g5, g6⟩
  | shared t =>
    obtain ⟨f, s', g1, g2, g3, g4, g5⟩ := C74_multi_partial P hP [] r' r' t iv ord ord' hord hord' h1.1 h1.2 h3.1 h4 trivial rfl hn
    refine ⟨f, g1, ?_⟩
    rintro _ ⟨user, pass, hup, rfl⟩
    obtain ⟨u, k1, k2, k3, k4, k5⟩ := g5 user pass hup
    exact ⟨u, k1, ⟨k4, k5⟩, k2 ▸ g2, k2 ▸ g3, k2 ▸ g4⟩

/-- Over the whole life of a file, from its creation through the first user to any number of them: whoever should be able to open it
can, and finds exactly what the last session left. -/
theorem C74_file_partial (P : Prims) (hP : Crypt.Spec.Lawful P) (f : Str) (k : Keys) (s : DB) (h : FileLife P f k s) :
    ∀ inp, k.Opens inp → ∃ u, openFile P Json.Spec.codec none f inp = (.ok u, []) ∧ Held P u k ∧ Spec.SameStore u.store s ∧
      WellFormed u.store ∧ CleanLog u.store := by
  induction h with
  | new hs hcr hl hr hn ho ho' hiv hf =>
    obtain ⟨h1, h2⟩ := own_new hP hs hcr
    obtain ⟨f', g1, g2⟩ := C74_session_partial P hP _ { u := _ } _ (.own _) _ _ _ ho ho' hiv h1 (by rw [h2]; rfl)
      (by rw [h2]; exact wf_new_file) (by rw [h2]; intro t ht; cases ht) hl hr hn
    rw [g1] at hf
    cases hf
    exact g2
  | next _ hop hof hl hr hn ho ho' hiv hf ih =>
    obtain ⟨u, k1, k2, k3, k4, k5⟩ := ih _ hop
    rw [k1] at hof
    cases hof
    obtain ⟨f', g1, g2⟩ := C74_session_partial P hP _ _ _ _ _ _ _ ho ho' hiv k2 k3.txPoint k4 k5 hl hr hn
    rw [g1] at hf
    cases hf
    exact g2

/-! ## From one user to two -/

namespace Demo

/-- "adduser a" in a new file with the password "A" -/
def rU : Repl := after (b! "adduser a") { d := d0 } { u := uN }
/-- "a" opens the file -/
def uU : Session :=
  { creds := { user := b! "a", pass := b! "A", key := toy.kdf (b! "A") (List.replicate 32 1), salt := List.replicate 32 1
               master := d0.master, ivm := d0.ivm }
    store := loaded rU.u.store, startTx := rU.u.store.log.length }
/-- and adds an entry -/
def rV : Repl := after (b! "add x") vN { u := uU }

theorem uN_none : ∀ w n, ¬ IsUser uN.store w n := u0_none
theorem uN_new : NewOk toy uN.store d0.uuid [97] := u0_new

theorem turnU : FileTurn toy { d := d0 } (b! "adduser a") { u := uN } where
  turn := ⟨⟨valid_ascii _ (by decide), ⟨perm_id, perm_id', by decide, fresh0 _⟩,
    parse_ne (x := (b! "adduser", [b! "a"])) (by decide +kernel) (by decide)⟩,
    cleanEnv_mk (by decide) (by decide) (fun _ => rfl) (fun _ _ => rfl) rfl rfl rfl rfl rfl⟩
  draw := d0_ok
  first := by
    intro _ nm l h
    have hp : parseLine (b! "adduser a") = some (b! "adduser", [b! "a"]) := by decide +kernel
    rw [hp] at h
    cases h
    exact ⟨uN_new, uN_none⟩
  later := fun h => absurd rfl h

def kU : Keys := .shared (Txlogs.Spec.upd (fun _ => none) [97] (some (b! "A")))

theorem keysU : lastKeys toy Json.Spec.codec [(some (b! "adduser a"), { d := d0 })] { u := uN } (.own (b! "A")) = kU := by
  have hp : parseLine (b! "adduser a") = some (b! "adduser", [b! "a"]) := by decide +kernel
  have ht : keysAfter { d := d0 } (b! "adduser a") { u := uN } (.own (b! "A")) = kU := by
    unfold keysAfter
    rw [hp]
    rfl
  unfold lastKeys lastKeys
  rw [ht]
  split <;> rfl

theorem fileLife1 : FileLife toy (fileOf rU) kU rU.u.store := by
  rw [← keysU]
  exact FileLife.new (u := uN) (inp := []) (by decide)
    (show createFile toy none (List.replicate 32 1) _ = _ from by decide +kernel) ⟨turnU, trivial⟩ (Prod.ext rfl (by decide +kernel))
    (by unfold Counted; decide +kernel) perm_id perm_id' iv40 (ord := id) (ord' := id) (by decide +kernel)

theorem opensU : kU.Opens [some (b! "a"), some (b! "A")] := ⟨_, _, by decide, rfl⟩

theorem openU : openFile toy Json.Spec.codec none (fileOf rU) [some (b! "a"), some (b! "A")] = (.ok uU, []) := by decide +kernel

theorem uU_wf : WellFormed uU.store := by
  obtain ⟨u, k1, -, -, k4, -⟩ := C74_file_partial toy toy_lawful _ _ _ fileLife1 _ opensU
  have hu : uU = u := Res.ok.inj (Prod.mk.inj (openU.symm.trans k1)).1
  rw [hu]
  exact k4

theorem turnV : FileTurn toy vN (b! "add x") { u := uU } where
  turn := ⟨⟨valid_ascii _ (by decide), ⟨perm_id, perm_id', by decide, fresh_concrete uU_wf.good (by decide +kernel)⟩,
    parse_ne (x := (b! "add", [b! "x"])) (by decide +kernel) (by decide)⟩,
    cleanEnv_mk (by decide) (by decide) (fun _ => rfl) (fun _ _ => rfl) rfl rfl rfl rfl rfl⟩
  draw := ⟨by decide, by decide, by decide, by decide⟩
  first := by
    intro _ nm l h
    have hp : parseLine (b! "add x") = some (b! "add", [b! "x"]) := by decide +kernel
    rw [hp] at h
    cases h
  later := by
    intro _ cmd args h
    have hp : parseLine (b! "add x") = some (b! "add", [b! "x"]) := by decide +kernel
    rw [hp] at h
    cases h
    refine ⟨?_, fun h => absurd h (by decide), fun h => absurd h (by decide),
      fun h => absurd h (by decide), by decide, fun h => absurd h (by decide)⟩
    intro _ nm l h
    cases h
    decide

theorem keysV : lastKeys toy Json.Spec.codec [(some (b! "add x"), vN)] { u := uU } kU = kU := by
  have hp : parseLine (b! "add x") = some (b! "add", [b! "x"]) := by decide +kernel
  have ht : keysAfter vN (b! "add x") { u := uU } kU = kU := by
    unfold keysAfter kU tableAfter
    rw [hp]
    rfl
  unfold lastKeys lastKeys
  rw [ht]
  split <;> rfl

theorem runV : runRepl toy Json.Spec.codec [(some (b! "add x"), vN)] { u := uU } = (rV, .ok ()) := by
  unfold rV after
  exact run_eq (by decide +kernel)

theorem countV : Counted rV.u.store := by unfold Counted; decide +kernel
theorem saveV : saveBlob toy Json.Spec.codec id id (List.replicate 40 4) rV.u = .ok (some (fileOf rV)) := by
  obtain ⟨u, k1, k2, k3, k4, k5⟩ := C74_file_partial toy toy_lawful _ _ _ fileLife1 _ opensU
  have hu : uU = u := Res.ok.inj (Prod.mk.inj (openU.symm.trans k1)).1
  rw [← hu] at k2 k3 k4 k5
  obtain ⟨f, h, -⟩ := C74_session_partial toy toy_lawful [(some (b! "add x"), vN)] { u := uU } rV kU (List.replicate 40 4) id id
    perm_id perm_id' iv40 k2 k3.txPoint k4 k5 ⟨turnV, trivial⟩ runV countV
  exact file_ok h
theorem logV : rV.u.store.log ≠ [] := by decide +kernel

theorem fileLife2 : FileLife toy (fileOf rV) kU rV.u.store := by
  rw [← keysV]
  exact FileLife.next fileLife1 opensU openU ⟨turnV, trivial⟩ runV countV perm_id perm_id' iv40 saveV

end Demo

/-- not vacuous: a file is created with the password "A" and gets the first user "a"; then "a" opens it and adds an entry; then the
file opens for "a" with the password "A" -/
example : ∃ f s u, FileLife toy f Demo.kU s ∧ openFile toy Json.Spec.codec none f [some (b! "a"), some (b! "A")] = (.ok u, []) ∧
    u.store.log ≠ [] := by
  obtain ⟨u, k1, -, k3, -⟩ := C74_file_partial toy toy_lawful _ _ _ Demo.fileLife2 _ Demo.opensU
  exact ⟨_, _, u, Demo.fileLife2, k1, by rw [k3.log]; exact Demo.logV⟩

end Verif.App
