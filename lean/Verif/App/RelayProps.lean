import Verif.App.ResumeProps

/-!
# C131: a session may be cut into any number of runs

Lines typed in one run, and the same lines typed in several runs with saving and opening the file in between, give the same file,
the same keys and the same values printed. C129 is about leaving once; here the file is left and opened as often as one likes, by
its only user or by somebody with an account, and it may become a file with accounts in one of the runs.
-/

namespace Verif.App

open Verif Verif.Txlogs Verif.Blob Verif.Crypt Verif.App.Spec Verif.Blob.Spec
open Resume

namespace Spec

/-- what is typed in one run, and what saving meets at its end -/
structure Stint where
  turns : List Turn
  ord : Order := id
  ord' : Results → Results := id
  iv : Str

/-- all in one run, with one prompt after the other (repl.go:127-179) -/
def stay (P : Prims) (C : Codec) : List Stint → Repl → Repl
  | [], r => r
  | s :: rest, r => stay P C rest (runRepl P C s.turns r).1

/-- no line of the stint ends the run -/
def GoesOn (P : Prims) (C : Codec) : List Turn → Repl → Prop
  | [], _ => True
  | (none, _) :: _, _ => False
  | (some line, v) :: rest, r => (runLine P C v line r).2 = .ok false ∧ GoesOn P C rest (runLine P C v line r).1

/-- the same for all stints -/
def AllGoOn (P : Prims) (C : Codec) : List Stint → Repl → Prop
  | [], _ => True
  | s :: rest, r => GoesOn P C s.turns r ∧ AllGoOn P C rest (runRepl P C s.turns r).1

/-- what the user types to open the file (main.go:190-207): a name if there are accounts, and the password -/
def opening (c : Creds) : List (Option Str) := if c.user = [] then [some c.pass] else [some c.user, some c.pass]

/-- one run each, with saving and opening in between; the session at the end and all that was printed -/
def relay (P : Prims) (C : Codec) : List Stint → Session → Option (Session × List Str)
  | [], u => some (u, [])
  | s :: rest, u =>
    match runRepl P C s.turns { u := u } with
    | (r, .ok ()) =>
      match saveBlob P C s.ord s.ord' s.iv r.u with
      | .ok (some f) =>
        match openFile P C none f (opening r.u.creds) with
        | (.ok u', _) => (relay P C rest u').map fun x => (x.1, r.out ++ x.2)
        | _ => none
      | _ => none
    | _ => none

/-- The user can leave here: they know the password, which opens the file, and the log is text. -/
structure CanLeave (P : Prims) (u : Session) : Prop where
  writable : u.readOnly = false
  clean : CleanLog u.store
  counted : Counted u.store
  pass_ne : u.creds.pass ≠ []
  key : u.creds.key = P.kdf u.creds.pass u.creds.salt
  kind : (SingleCreds u.creds ∧ u.creds.user = [] ∧ u.creds.ivm = []) ∨
    (MultiCreds u.creds ∧ WfUsers P u.store ∧ Opens P u.store u.creds.master u.creds.user u.creds.pass u.creds.salt)

/-- Every stint consists of steady turns and ends at the prompt with no current entry, where the user can leave. -/
def Partings (P : Prims) (C : Codec) : List Stint → Repl → Prop
  | [], _ => True
  | s :: rest, r => Along P C SteadyTurn s.turns r ∧ (runRepl P C s.turns r).2 = .ok () ∧ (runRepl P C s.turns r).1.ctx = [] ∧
      CanLeave P (runRepl P C s.turns r).1.u ∧ (∀ m, (s.ord m).Perm m) ∧ (∀ m, (s.ord' m).Perm m) ∧ s.iv.length = 40 ∧
      Partings P C rest (runRepl P C s.turns r).1

end Spec

theorem visible_eq {s s' : DB} (h : s'.log = s.log) : Visible s' = Visible s := by
  funext u e; unfold Visible; rw [h]

theorem isUser_eq {s s' : DB} (h : s'.log = s.log) : IsUser s' = IsUser s := by
  funext u n; unfold IsUser Named; rw [visible_eq h]

/-- whether one can leave depends on the log and the keys only -/
theorem canLeave_alike {P : Prims} {u u' : Session} (h : CanLeave P u) (ha : Alike u u') : CanLeave P u' := by
  have hl := ha.log
  refine ⟨ha.readOnly.trans h.writable, ?_, ?_, ?_, ?_, ?_⟩
  · unfold CleanLog; rw [hl]; exact h.clean
  · unfold Counted; rw [hl]; exact h.counted
  · rw [ha.creds]; exact h.pass_ne
  · rw [ha.creds]; exact h.key
  · rw [ha.creds]
    rcases h.kind with k | ⟨k1, k2, k3⟩
    · exact Or.inl k
    · refine Or.inr ⟨k1, ⟨?_, ?_, ?_, ?_⟩, ?_⟩
      · rw [isUser_eq hl]; exact k2.exists_user
      · rw [isUser_eq hl]; exact k2.few
      · rw [visible_eq hl]; exact k2.complete
      · rw [isUser_eq hl]; exact k2.distinct
      · unfold Opens Account at k3 ⊢
        rw [visible_eq hl]; exact k3

/-- Somebody who can leave can come back to where they were. -/
theorem C131_back (P : Prims) (hP : Crypt.Spec.Lawful P) (ord : Order) (hord : ∀ m, (ord m).Perm m) (ord' : Results → Results)
    (hord' : ∀ m, (ord' m).Perm m) (iv : Str) (hiv : iv.length = 40) (u : Session) (h0 : u.store.txPoint = 0)
    (h : WellFormed u.store) (hc : CanLeave P u) :
    ∃ f u', saveBlob P Json.Spec.codec ord ord' iv u = .ok (some f) ∧
      openFile P Json.Spec.codec none f (opening u.creds) = (.ok u', []) ∧ Alike u u' ∧ WellFormed u'.store := by
  have hC := C77_saved u.store h hc.clean hc.counted
  rcases hc.kind with ⟨k1, k2, k3⟩ | ⟨k1, k2, k3⟩
  · obtain ⟨f, s', g1, g2, g3⟩ := C51_save_open_single P hP Json.Spec.codec ord ord' iv hiv u hc.writable h0 hC k1 u.creds.pass
      hc.pass_ne hc.key
    have ec : ({ pass := u.creds.pass, key := u.creds.key, salt := u.creds.salt } : Creds) = u.creds := by
      have := k1.master
      rcases he : u.creds with ⟨a, b, c, d, e, g⟩
      rw [he] at k2 k3 this
      change a = [] at k2
      change g = [] at k3
      change e = [] at this
      subst k2 k3 this
      rfl
    rw [← show opening u.creds = [some u.creds.pass] from if_pos k2] at g3
    exact ⟨f, _, g1, g3, ⟨g2.log, g2.txPoint.trans h0.symm, ec, hc.writable.symm⟩, wf_sameStore h g2⟩
  · obtain ⟨f, s', g1, g2, g3⟩ := C51_save_open_multi P hP Json.Spec.codec ord hord ord' hord' iv u hc.writable h0 h.good hC k1 k2
    have ec : (⟨u.creds.user, u.creds.pass, P.kdf u.creds.pass u.creds.salt, u.creds.salt, u.creds.master, u.creds.ivm⟩ : Creds)
        = u.creds := by rw [← hc.key]
    have e := g3 _ _ _ k3
    rw [← show opening u.creds = [some u.creds.user, some u.creds.pass] from if_neg k3.2.1] at e
    exact ⟨f, _, g1, e, ⟨g2.log, g2.txPoint.trans h0.symm, ec, hc.writable.symm⟩, wf_sameStore h g2⟩

theorem along_legal {P : Prims} {C : Codec} {turns : List Turn} {r : Repl} (h : Along P C SteadyTurn turns r) :
    Along P C LegalTurn turns r := along_mono (fun _ _ _ h => h.legal) turns r h

theorem along_alike {P : Prims} {C : Codec} (turns : List Turn) (po : List Str) (pp : List (Str × List (Str × Bool))) (r r' : Repl)
    (hr : Continues po pp r r') (h0 : r.u.store.txPoint = 0) (h : WellFormed r.u.store) (h' : WellFormed r'.u.store)
    (hl : Along P C SteadyTurn turns r) (hn : (runRepl P C turns r).2 ≠ .panic) :
    WellFormed (runRepl P C turns r').1.u.store := by
  induction turns generalizing r r' with
  | nil => exact h'
  | cons t rest ih =>
    obtain ⟨l, v⟩ := t
    cases l with
    | none => exact h'
    | some line =>
      obtain ⟨h1, h2⟩ := hl
      have k := C129_line_partial P C v line po pp r r' hr h h' h1
      have w := C67_line_partial P C v line r h0 h h1.legal
      have w' := C67_line_partial P C v line r' (hr.u.txPoint.trans h0) h' (legal_of_log h1.legal hr.u.log)
      unfold runRepl at hn ⊢
      change Along P C SteadyTurn rest (runLine P C v line r).1 at h2
      generalize runLine P C v line r = x at k w h2 hn ⊢
      generalize runLine P C v line r' = x' at k w' ⊢
      obtain ⟨x, o⟩ := x
      obtain ⟨x', o'⟩ := x'
      obtain ⟨a, b⟩ := k
      change o' = o at a
      subst a
      rcases o' with (_ | _) | e | _
      · exact ih x x' b (w (by simp)).2 (w (by simp)).1 (w' (by simp)).1 h2 hn
      · exact (w' (by simp)).1
      · exact (w' (by simp)).1
      · exact absurd rfl hn

/-- The lines of any number of runs, typed in one run, give the same. -/
theorem C131_relay_partial (P : Prims) (hP : Crypt.Spec.Lawful P) (stints : List Stint) (r : Repl) (u : Session) (ha : Alike r.u u)
    (hctx : r.ctx = []) (h0 : r.u.store.txPoint = 0) (h : WellFormed r.u.store) (h' : WellFormed u.store)
    (hl : Partings P Json.Spec.codec stints r) :
    ∃ u' out, relay P Json.Spec.codec stints u = some (u', out) ∧ Alike (stay P Json.Spec.codec stints r).u u' ∧
      (stay P Json.Spec.codec stints r).out = r.out ++ out := by
  induction stints generalizing r u with
  | nil => exact ⟨u, [], rfl, ha, (List.append_nil _).symm⟩
  | cons s rest ih =>
    obtain ⟨l1, l2, l3, l4, l5, l6, l7, l8⟩ := hl
    have hr : Continues r.out r.pushed r { u := u } := ⟨ha, hctx.symm, (List.append_nil _).symm, (List.append_nil _).symm⟩
    obtain ⟨k1, k2⟩ := C129_session_partial P Json.Spec.codec s.turns _ _ r { u := u } hr h0 h h' l1
    have hn : (runRepl P Json.Spec.codec s.turns r).2 ≠ .panic := by rw [l2]; exact fun h => by cases h
    have w := C67_session_partial P Json.Spec.codec s.turns r h0 h (along_legal l1) hn
    have w' := along_alike s.turns _ _ r { u := u } hr h0 h h' l1 hn
    obtain ⟨f, u2, g1, g2, g3, g4⟩ := C131_back P hP s.ord l5 s.ord' l6 s.iv l7 _ (k2.u.txPoint.trans w.2) w'
      (canLeave_alike l4 k2.u)
    have a2 : Alike (runRepl P Json.Spec.codec s.turns r).1.u u2 :=
      ⟨g3.log.trans k2.u.log, g3.txPoint.trans k2.u.txPoint, g3.creds.trans k2.u.creds, g3.readOnly.trans k2.u.readOnly⟩
    obtain ⟨u', out, i1, i2, i3⟩ := ih _ u2 a2 l3 w.2 w.1 g4 l8
    refine ⟨u', (runRepl P Json.Spec.codec s.turns { u := u }).1.out ++ out, ?_, i2, ?_⟩
    · unfold relay
      rw [l2] at k1
      generalize runRepl P Json.Spec.codec s.turns { u := u } = x at k1 g1 g2 ⊢
      obtain ⟨x, o⟩ := x
      change o = _ at k1
      subst k1
      dsimp only at g1 g2 ⊢
      rw [g1]
      dsimp only
      rw [g2]
      dsimp only
      rw [i1]
      rfl
    · change (stay P Json.Spec.codec rest _).out = _
      rw [i3, k2.out, List.append_assoc]

theorem goesOn_append {P : Prims} {C : Codec} (a b : List Turn) (r : Repl) (h : GoesOn P C a r) :
    runRepl P C (a ++ b) r = runRepl P C b (runRepl P C a r).1 := by
  induction a generalizing r with
  | nil => rfl
  | cons t rest ih =>
    obtain ⟨l, v⟩ := t
    cases l with
    | none => exact h.elim
    | some line =>
      obtain ⟨h1, h2⟩ := h
      have e : ∀ l : List Turn, runRepl P C ((some line, v) :: l) r = runRepl P C l (runLine P C v line r).1 := by
        intro l
        rw [runRepl]
        generalize runLine P C v line r = x at h1 ⊢
        obtain ⟨x, o⟩ := x
        change o = _ at h1
        subst h1
        rfl
      rw [List.cons_append, e, e]
      exact ih _ h2

/-- If no line ends a run, staying is typing all lines in one run. -/
theorem C131_stay (P : Prims) (C : Codec) (stints : List Stint) (r : Repl) (h : AllGoOn P C stints r) :
    stay P C stints r = (runRepl P C (stints.flatMap (·.turns)) r).1 := by
  induction stints generalizing r with
  | nil => rfl
  | cons s rest ih =>
    rw [List.flatMap_cons, goesOn_append _ _ _ h.1]
    exact ih _ h.2

/-- However the lines are cut into runs, the log, the keys and what is printed are the same. -/
theorem C131_cuts_partial (P : Prims) (hP : Crypt.Spec.Lawful P) (stints stints' : List Stint) (u : Session)
    (h0 : u.store.txPoint = 0) (h : WellFormed u.store) (hcut : stints.flatMap (·.turns) = stints'.flatMap (·.turns))
    (hl : Partings P Json.Spec.codec stints { u := u }) (hl' : Partings P Json.Spec.codec stints' { u := u })
    (hg : AllGoOn P Json.Spec.codec stints { u := u }) (hg' : AllGoOn P Json.Spec.codec stints' { u := u }) :
    ∃ u1 u2 out, relay P Json.Spec.codec stints u = some (u1, out) ∧ relay P Json.Spec.codec stints' u = some (u2, out) ∧
      Alike u1 u2 := by
  obtain ⟨u1, out, a1, a2, a3⟩ := C131_relay_partial P hP stints { u := u } u ⟨rfl, rfl, rfl, rfl⟩ rfl h0 h h hl
  obtain ⟨u2, out', b1, b2, b3⟩ := C131_relay_partial P hP stints' { u := u } u ⟨rfl, rfl, rfl, rfl⟩ rfl h0 h h hl'
  rw [C131_stay P _ stints _ hg, hcut, ← C131_stay P _ stints' _ hg'] at a2 a3
  have e : out = out' := List.append_cancel_left (a3.symm.trans b3)
  subst e
  exact ⟨u1, u2, out, a1, b1, b2.log.trans a2.log.symm, b2.txPoint.trans a2.txPoint.symm, b2.creds.trans a2.creds.symm,
    b2.readOnly.trans a2.readOnly.symm⟩

namespace RelayDemo
open Verif.Crypt.Spec (toy toy_lawful)
open ResumeDemo
open Demo (uM)

/-- an entry is renamed in one run and its password read in the next, after which the file is saved once more -/
def stints : List Stint :=
  [⟨[(some (b! "mv x y"), vY)], id, id, List.replicate 40 4⟩, ⟨[(some (b! "get y pass"), vY)], id, id, List.replicate 40 5⟩]

def rG : Repl := (runRepl toy Json.Spec.codec [(some (b! "get y pass"), vY)] rY).1

theorem first : runRepl toy Json.Spec.codec [(some (b! "mv x y"), vY)] { u := uM } = (rY, .ok ()) := by
  have h : (runLine toy Json.Spec.codec vY (b! "mv x y") { u := uM }).2 = .ok false := by decide +kernel
  unfold runRepl
  rw [show runLine toy Json.Spec.codec vY (b! "mv x y") { u := uM } = (rY, .ok false) from Prod.ext rfl h]
  rfl

theorem rY_clean : CleanLog rY.u.store :=
  C77_line_partial toy Json.Spec.codec vY (b! "mv x y") { u := uM } (by decide +kernel) uM_opened.1 uM_opened.2.1
    ⟨mv_legal, Demo.cleanEnv_mk (by decide) (by decide) (fun _ => rfl) (fun _ _ => rfl) rfl rfl rfl rfl rfl⟩ (by decide +kernel)

theorem rY_leave : CanLeave toy rY.u :=
  ⟨by decide +kernel, rY_clean, by unfold Counted; decide +kernel, by decide +kernel, by decide +kernel,
    Or.inl ⟨⟨by decide +kernel, by decide +kernel, by decide +kernel⟩, by decide +kernel, by decide +kernel⟩⟩

theorem rG_leave : CanLeave toy rG.u :=
  canLeave_alike rY_leave ⟨by decide +kernel, by decide +kernel, by decide +kernel, by decide +kernel⟩

theorem partings : Partings toy Json.Spec.codec stints { u := uM } := by
  have hp : parseLine (b! "mv x y") = some (b! "mv", [b! "x", b! "y"]) := by decide +kernel
  have hg : parseLine (b! "get y pass") = some (b! "get", [b! "y", b! "pass"]) := by decide +kernel
  refine ⟨⟨steady mv_legal hp (by decide), trivial⟩, ?_⟩
  rw [first]
  refine ⟨rfl, by decide +kernel, rY_leave, fun _ => .rfl, fun _ => .rfl, by decide, ?_⟩
  refine ⟨⟨steady (legal rY_wf.1.good (by decide +kernel) _ _ (by decide) hg (by decide) rfl rfl rfl) hg (by decide), trivial⟩, ?_⟩
  exact ⟨by decide +kernel, by decide +kernel, rG_leave, fun _ => .rfl, fun _ => .rfl, by decide, trivial⟩

/-- the password is printed by the second run -/
example : ∃ u', relay toy Json.Spec.codec stints uM = some (u', [[7]]) := by
  obtain ⟨u', out, h1, -, h2⟩ := C131_relay_partial toy toy_lawful stints { u := uM } uM ⟨rfl, rfl, rfl, rfl⟩ rfl (by decide +kernel)
    uM_opened.1 uM_opened.1 partings
  have e : (stay toy Json.Spec.codec stints { u := uM }).out = [[7]] := by decide +kernel
  rw [e] at h2
  exact ⟨u', by rw [h1, h2]; rfl⟩

/-- the same lines in one run -/
def whole : List Stint := [⟨[(some (b! "mv x y"), vY), (some (b! "get y pass"), vY)], id, id, List.replicate 40 6⟩]

theorem mv_on : (runLine toy Json.Spec.codec vY (b! "mv x y") { u := uM }).2 = .ok false := by decide +kernel

theorem get_on : (runLine toy Json.Spec.codec vY (b! "get y pass") rY).2 = .ok false := by decide +kernel

theorem whole_eq : runRepl toy Json.Spec.codec [(some (b! "mv x y"), vY), (some (b! "get y pass"), vY)] { u := uM } =
    runRepl toy Json.Spec.codec [(some (b! "get y pass"), vY)] rY := by
  have := goesOn_append (P := toy) (C := Json.Spec.codec) [(some (b! "mv x y"), vY)] [(some (b! "get y pass"), vY)] { u := uM } ⟨mv_on, trivial⟩
  rw [first] at this
  exact this

/-- cut in two or in one piece -/
example : ∃ u1 u2 out, relay toy Json.Spec.codec stints uM = some (u1, out) ∧ relay toy Json.Spec.codec whole uM = some (u2, out) ∧
    Alike u1 u2 := by
  refine C131_cuts_partial toy toy_lawful stints whole uM (by decide +kernel) uM_opened.1 rfl partings ?_ ?_ ?_
  · have p := partings
    obtain ⟨⟨p1, -⟩, p2⟩ := p
    rw [first] at p2
    obtain ⟨-, -, -, -, -, -, p3⟩ := p2
    obtain ⟨p4, p5, p6, p7, -⟩ := p3
    refine ⟨⟨p1, p4⟩, ?_⟩
    change (runRepl toy Json.Spec.codec [(some (b! "mv x y"), vY), (some (b! "get y pass"), vY)] { u := uM }).2 = _ ∧ _
    rw [whole_eq]
    refine ⟨p5, p6, p7, fun _ => .rfl, fun _ => .rfl, by decide, trivial⟩
  · refine ⟨⟨mv_on, trivial⟩, ?_⟩
    rw [first]
    exact ⟨⟨get_on, trivial⟩, trivial⟩
  · exact ⟨⟨mv_on, get_on, trivial⟩, trivial⟩

end RelayDemo

end Verif.App
