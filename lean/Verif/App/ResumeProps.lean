import Verif.App.ResumeLemmas
import Verif.App.AccessProps
import Verif.App.RenamedProps
import Verif.App.RevokeDemo

/-!
# C129: leaving and starting again in between changes nothing

Somebody who saves the file, opens it again and goes on sees what they would have seen had they stayed: the same outcome of every
command, the same values printed by `get`, and the same file, keys and current entry at the end.

The two runs differ in the snapshot: the one that stayed holds the map as it has grown, the other the one read from the file, and
in the mark for the transaction the run began with (main.go:88). What `ls`, `show` and `dump` print depends on the entries only
(C127).
-/

namespace Verif.App

open Verif Verif.Txlogs Verif.Blob Verif.Crypt Verif.App.Spec Verif.Blob.Spec
open Resume

theorem legal_of_log {v : Env} {line : Str} {r r' : Repl} (hl : LegalTurn v line r) (he : r'.u.store.log = r.u.store.log) :
    LegalTurn v line r' :=
  ⟨hl.utf8, ⟨hl.env.ord, hl.env.ord', hl.env.uuid_ne, fun ⟨e, h⟩ => hl.env.fresh ⟨e, (visible_log he _ _).1 h⟩⟩, hl.noSync⟩

/-- A line does the same in both runs. -/
theorem C129_line_partial (P : Prims) (C : Codec) (v : Env) (line : Str) (po : List Str) (pp : List (Str × List (Str × Bool)))
    (r r' : Repl) (hr : Continues po pp r r') (h : WellFormed r.u.store) (h' : WellFormed r'.u.store) (hl : SteadyTurn v line r) :
    (runLine P C v line r').2 = (runLine P C v line r).2 ∧ Continues po pp (runLine P C v line r).1 (runLine P C v line r').1 := by
  unfold runLine
  rcases hp : parseLine line with _ | ⟨cmd, args⟩
  · exact ⟨rfl, hr⟩
  · dsimp only
    rcases readOnlyFlag cmd with _ | _ | _
    · exact ⟨rfl, hr⟩
    · dsimp only
      rw [hr.u.readOnly]
      split
      · exact ⟨rfl, hr⟩
      · have := execWrite_sim hr hl.legal.env h h' P C cmd args (fun hc => hl.one args (by rw [hp, hc]))
          (fun hc => hl.legal.noSync args (by rw [hp, hc]))
        exact ⟨this.2, this.1⟩
    · have := execRead_sim hr hl.legal.env h h' cmd args
      exact ⟨this.2, this.1⟩

/-- Any number of lines does the same in both runs. -/
theorem C129_session_partial (P : Prims) (C : Codec) (turns : List Turn) (po : List Str) (pp : List (Str × List (Str × Bool)))
    (r r' : Repl) (hr : Continues po pp r r') (h0 : r.u.store.txPoint = 0) (h : WellFormed r.u.store) (h' : WellFormed r'.u.store)
    (hl : Along P C SteadyTurn turns r) :
    (runRepl P C turns r').2 = (runRepl P C turns r).2 ∧ Continues po pp (runRepl P C turns r).1 (runRepl P C turns r').1 := by
  induction turns generalizing r r' with
  | nil => exact ⟨rfl, hr⟩
  | cons t rest ih =>
    obtain ⟨l, v⟩ := t
    cases l with
    | none => exact ⟨rfl, hr⟩
    | some line =>
      obtain ⟨h1, h2⟩ := hl
      have k := C129_line_partial P C v line po pp r r' hr h h' h1
      have w := C67_line_partial P C v line r h0 h h1.legal
      have w' := C67_line_partial P C v line r' (hr.u.txPoint.trans h0) h' (legal_of_log h1.legal hr.u.log)
      unfold runRepl
      change Along P C SteadyTurn rest (runLine P C v line r).1 at h2
      generalize runLine P C v line r = x at k w h2 ⊢
      generalize runLine P C v line r' = x' at k w' ⊢
      obtain ⟨x, o⟩ := x
      obtain ⟨x', o'⟩ := x'
      obtain ⟨a, b⟩ := k
      change o' = o at a
      subst a
      rcases o' with (_ | _) | e | _
      · exact ih x x' b (w (by simp)).2 (w (by simp)).1 (w' (by simp)).1 h2
      · exact ⟨rfl, b⟩
      · exact ⟨rfl, b⟩
      · exact ⟨rfl, b⟩

/-- A run in a single-user file that stands at `r`, with no current entry, is saved, the file opened with the password, and the
run goes on as if nothing had happened. The session must know the password, as every session does that did not just create the
file. -/
theorem C129_reopen_partial (P : Prims) (hP : Crypt.Spec.Lawful P) (C : Codec) (ord : Order) (ord' : Results → Results) (iv : Str)
    (hiv : iv.length = 40) (r : Repl) (hro : r.u.readOnly = false) (h0 : r.u.store.txPoint = 0) (h : WellFormed r.u.store)
    (hC : Faithful C r.u.store) (hc : SingleCreds r.u.creds) (hu : r.u.creds.user = []) (hm : r.u.creds.ivm = [])
    (hp : r.u.creds.pass ≠ []) (hk : r.u.creds.key = P.kdf r.u.creds.pass r.u.creds.salt) (hctx : r.ctx = []) :
    ∃ f u', saveBlob P C ord ord' iv r.u = .ok (some f) ∧ openFile P C none f [some r.u.creds.pass] = (.ok u', []) ∧
      ∀ turns, Along P C SteadyTurn turns r → (runRepl P C turns { u := u' }).2 = (runRepl P C turns r).2 ∧
        Continues r.out r.pushed (runRepl P C turns r).1 (runRepl P C turns { u := u' }).1 := by
  obtain ⟨f, s', g1, g2, g3⟩ := C51_save_open_single P hP C ord ord' iv hiv r.u hro h0 hC hc r.u.creds.pass hp hk
  refine ⟨f, _, g1, g3, fun turns hl => ?_⟩
  have ec : ({ pass := r.u.creds.pass, key := r.u.creds.key, salt := r.u.creds.salt } : Creds) = r.u.creds := by
    have := hc.master
    rcases he : r.u.creds with ⟨a, b, c, d, e, g⟩
    rw [he] at hu hm this
    change a = [] at hu
    change g = [] at hm
    change e = [] at this
    subst hu hm this
    rfl
  refine C129_session_partial P C turns r.out r.pushed r _ ⟨⟨g2.log, g2.txPoint.trans h0.symm, ec, hro.symm⟩, hctx.symm, ?_, ?_⟩ h0 h
    (wf_sameStore h g2) hl
  · exact (List.append_nil _).symm
  · exact (List.append_nil _).symm

/-- The same in a file with accounts, for the user whose session it is. -/
theorem C129_account_partial (P : Prims) (hP : Crypt.Spec.Lawful P) (C : Codec) (ord : Order) (hord : ∀ m, (ord m).Perm m)
    (ord' : Results → Results) (hord' : ∀ m, (ord' m).Perm m) (iv : Str) (r : Repl) (hro : r.u.readOnly = false)
    (h0 : r.u.store.txPoint = 0) (h : WellFormed r.u.store) (hC : Faithful C r.u.store) (hc : MultiCreds r.u.creds)
    (hw : WfUsers P r.u.store) (ho : Opens P r.u.store r.u.creds.master r.u.creds.user r.u.creds.pass r.u.creds.salt)
    (hk : r.u.creds.key = P.kdf r.u.creds.pass r.u.creds.salt) (hctx : r.ctx = []) :
    ∃ f u', saveBlob P C ord ord' iv r.u = .ok (some f) ∧
      openFile P C none f [some r.u.creds.user, some r.u.creds.pass] = (.ok u', []) ∧
      ∀ turns, Along P C SteadyTurn turns r → (runRepl P C turns { u := u' }).2 = (runRepl P C turns r).2 ∧
        Continues r.out r.pushed (runRepl P C turns r).1 (runRepl P C turns { u := u' }).1 := by
  obtain ⟨f, s', g1, g2, g3⟩ := C51_save_open_multi P hP C ord hord ord' hord' iv r.u hro h0 h.good hC hc hw
  refine ⟨f, _, g1, g3 _ _ _ ho, fun turns hl => ?_⟩
  have ec : (⟨r.u.creds.user, r.u.creds.pass, P.kdf r.u.creds.pass r.u.creds.salt, r.u.creds.salt, r.u.creds.master,
      r.u.creds.ivm⟩ : Creds) = r.u.creds := by
    rw [← hk]
  refine C129_session_partial P C turns r.out r.pushed r _ ⟨⟨g2.log, g2.txPoint.trans h0.symm, ec, hro.symm⟩, hctx.symm, ?_, ?_⟩ h0 h
    (wf_sameStore h g2) hl
  · exact (List.append_nil _).symm
  · exact (List.append_nil _).symm

namespace ResumeDemo
open Verif.Crypt.Spec (toy toy_lawful)
open Demo (uN rN uM fileOf vN vP perm_id perm_id' fresh_concrete parse_ne openM)

/-- other salts -/
def vK : Env := { vP with d := { vP.d with salt := List.replicate 32 2 } }

/-- the run that created the file, after "rekey" -/
def stayed : Repl := (runLine toy Json.Spec.codec vK (b! "rekey") { rN with ctx := [] }).1

/-- the same, had it left and started again -/
def returned : Repl := (runLine toy Json.Spec.codec vK (b! "rekey") { u := uM }).1

theorem differ : returned.u.creds.salt ≠ stayed.u.creds.salt := by decide +kernel

theorem uM_opened : WellFormed uM.store ∧ CleanLog uM.store ∧ OwnSession toy uM (b! "A") := by
  obtain ⟨u, k1, k2, k3, k4, k5⟩ := C74_life_partial toy toy_lawful _ _ _ Demo.life1
  have hu : uM = u := Res.ok.inj (Prod.mk.inj (openM.symm.trans k1)).1
  rw [hu]
  exact ⟨k4, k5, k2⟩

def vY : Env := { d := { Demo.d0 with uuid := [6] } }

theorem legal {r : Repl} (hg : Good r.u.store) (hf : r.u.store.updateSnapshot.1.snapshot.get? [6] = none) (line : Str) (x : Str × List Str)
    (ha : line.all (fun b => b.toNat < 0x80) = true) (hp : parseLine line = some x) (hx : x.1 ≠ b! "sync") {v : Env} (h1 : v.ord = id)
    (h2 : v.ord' = id) (h3 : v.d.uuid = [6]) : LegalTurn v line r :=
  ⟨valid_ascii _ ha, ⟨h1 ▸ perm_id, h2 ▸ perm_id', by rw [h3]; decide, by rw [h3]; exact fresh_concrete hg hf⟩, parse_ne hp hx⟩

theorem steady {v : Env} {r : Repl} {line : Str} {x : Str × List Str} (hl : LegalTurn v line r) (hp : parseLine line = some x)
    (hx : x.1 ≠ b! "rekeyall") : SteadyTurn v line r :=
  ⟨hl, fun args h => by rw [hp] at h; cases h; exact absurd rfl hx⟩

/-- "mv x y" in the file that was opened -/
def rY : Repl := (runLine toy Json.Spec.codec vY (b! "mv x y") { u := uM }).1

theorem mv_legal : LegalTurn vY (b! "mv x y") { u := uM } :=
  legal (r := { u := uM }) uM_opened.1.good (by decide +kernel) (b! "mv x y") (b! "mv", [b! "x", b! "y"]) (by decide) (by decide +kernel) (by decide) rfl rfl rfl

theorem rY_wf : WellFormed rY.u.store ∧ rY.u.store.txPoint = 0 :=
  C67_line_partial toy Json.Spec.codec vY (b! "mv x y") { u := uM } (by decide +kernel) uM_opened.1 mv_legal (by decide +kernel)

theorem rY_faithful : Faithful Json.Spec.codec rY.u.store :=
  C77_saved _ rY_wf.1 (C77_line_partial toy Json.Spec.codec vY (b! "mv x y") { u := uM } (by decide +kernel) uM_opened.1 uM_opened.2.1
    ⟨mv_legal, Demo.cleanEnv_mk (by decide) (by decide) (fun _ => rfl) (fun _ _ => rfl) rfl rfl rfl rfl rfl⟩ (by decide +kernel))
    (by unfold Counted; decide +kernel)

def turns : List Turn := [(some (b! "get y pass"), vY)]

theorem turns_out : (runRepl toy Json.Spec.codec turns rY).1.out = [[7]] := by decide +kernel

/-- an entry is renamed, the program left and started again; the entry is there under its new name -/
example : ∃ f u', saveBlob toy Json.Spec.codec id id (List.replicate 40 4) rY.u = .ok (some f) ∧
    openFile toy Json.Spec.codec none f [some (b! "A")] = (.ok u', []) ∧
    (runRepl toy Json.Spec.codec turns { u := u' }).1.out = [[7]] := by
  have hp : parseLine (b! "get y pass") = some (b! "get", [b! "y", b! "pass"]) := by decide +kernel
  have hA : rY.u.creds.pass = b! "A" := by decide +kernel
  obtain ⟨f, u', h1, h2, h3⟩ := C129_reopen_partial toy toy_lawful Json.Spec.codec id id (List.replicate 40 4) (by decide) rY
    (by decide +kernel) rY_wf.2 rY_wf.1 rY_faithful ⟨by decide +kernel, by decide +kernel, by decide +kernel⟩ (by decide +kernel)
    (by decide +kernel) (by decide +kernel) (by decide +kernel) (by decide +kernel)
  rw [hA] at h2
  refine ⟨f, u', h1, h2, ?_⟩
  obtain ⟨-, hc⟩ := h3 turns ⟨steady (legal rY_wf.1.good (by decide +kernel) _ _ (by decide) hp (by decide) rfl rfl rfl) hp (by decide), trivial⟩
  have := hc.out
  rw [turns_out, show rY.out = [] by decide +kernel] at this
  exact this.symm

/-- the session of the second user -/
def uBob : Session :=
  { Demo.u2 with creds := ⟨[98], [7], toy.kdf [7] Demo.dBob.salt, Demo.dBob.salt, Demo.u2.creds.master, Demo.u2.creds.ivm⟩ }

def vBob : Env := { d := { Demo.d0 with uuid := [6], inp := [some (b! "m"), some (b! "B"), some (b! "B")] } }

def turnsBob : List Turn := [(some (b! "passwd b"), vBob)]

/-- the second user leaves, starts again and changes their password -/
example : ∃ f u', saveBlob toy Json.Spec.codec id id (List.replicate 40 4) uBob = .ok (some f) ∧
    openFile toy Json.Spec.codec none f [some [98], some [7]] = (.ok u', []) ∧
    (runRepl toy Json.Spec.codec turnsBob { u := u' }).1.u.creds.pass = b! "B" ∧
    (runRepl toy Json.Spec.codec turnsBob { u := u' }).1.u.store.log ≠ Demo.u2.store.log := by
  have hp : parseLine (b! "passwd b") = some (b! "passwd", [b! "b"]) := by decide +kernel
  have hm := Demo.u2_multi.1
  obtain ⟨f, u', h1, h2, h3⟩ := C129_account_partial toy toy_lawful Json.Spec.codec id perm_id id perm_id' (List.replicate 40 4)
    { u := uBob } hm.writable hm.idle MapOrderDemo.u2_sound.1 RevokeDemo.faithful
    ⟨hm.creds.master, hm.creds.ivm, toy_lawful.kdf_length [7] Demo.dBob.salt⟩ hm.users
    ⟨by decide, by
      have := Demo.u2_multi.2.2
      rw [← Demo.u2_multi.2.1] at this
      exact this⟩ rfl rfl
  refine ⟨f, u', h1, h2, ?_⟩
  obtain ⟨-, hc⟩ := h3 turnsBob ⟨steady (legal (r := { u := uBob }) hm.good (by decide +kernel) _ _ (by decide) hp (by decide) rfl rfl rfl) hp (by decide),
    trivial⟩
  rw [hc.u.creds, hc.u.log]
  constructor <;> decide +kernel

theorem rN_own : OwnSession toy rN.u (b! "A") ∧ WellFormed rN.u.store ∧ rN.u.store.txPoint = 0 := by
  have h1 := C67_line_partial toy Json.Spec.codec vN (b! "add x") { u := uN } rfl wf_new_file Demo.addN.turn.legal (by decide +kernel)
  have h2 : rN.u.store.log = (runLine toy Json.Spec.codec vN (b! "add x") { u := uN }).1.u.store.log := by decide +kernel
  have h3 : rN = (runLine toy Json.Spec.codec vN (b! "add x") { u := uN }).1 := by
    have hb : (runLine toy Json.Spec.codec vN (b! "add x") { u := uN }).2 = .ok false := by decide +kernel
    unfold rN Demo.after runRepl
    generalize runLine toy Json.Spec.codec vN (b! "add x") { u := uN } = y at hb
    obtain ⟨y, o⟩ := y
    change o = .ok false at hb
    subst hb
    rfl
  rw [← h3] at h1
  exact ⟨⟨by decide +kernel, by decide +kernel, ⟨by decide +kernel, by decide +kernel, by decide +kernel⟩, by decide, by decide +kernel,
    .inr (by decide +kernel)⟩, h1⟩

/-- the file with one account, renamed by the user whose session it is, as they open it again -/
def fR : Str := match saveBlob toy Json.Spec.codec id id (List.replicate 40 4) RenamedDemo.u1 with
  | .ok (some f) => f
  | _ => []

def uR : Session := match (openFile toy Json.Spec.codec none fR [some [98], some [1]]).1 with
  | .ok u => u
  | _ => {}

def isPanic : Res AppErr Bool → Bool
  | .panic => true
  | _ => false

theorem renamed_stayed : isPanic (runLine toy Json.Spec.codec vBob (b! "passwd") { u := RenamedDemo.u1 }).2 = true := by decide +kernel

theorem renamed_returned : isPanic (runLine toy Json.Spec.codec vBob (b! "passwd") { u := uR }).2 = false := by decide +kernel

theorem openR : openFile toy Json.Spec.codec none fR [some [98], some [1]] = (.ok uR, []) := by decide +kernel

theorem saveR : saveBlob toy Json.Spec.codec id id (List.replicate 40 4) RenamedDemo.u1 = .ok (some fR) := by decide +kernel

end ResumeDemo

/-- In the run that created the file the password is not kept, so that `rekey` refuses, for the password is empty (commands.go:160-163). -/
theorem C129_created (P : Prims) (ord : Order) (d : Draw) (u : Session) (hp : u.creds.pass = []) : rekey P ord d u [] = (u, .ok ()) := by
  unfold rekey
  simp [hp]

open ResumeDemo Verif.Crypt.Spec in
/-- C129 is false of the run that creates a file: there `rekey` does nothing, after leaving and starting again it takes a new salt. -/
theorem C129_created_false : ¬ ∀ (P : Prims) (C : Codec) (v : Env) (iv : Str) (r : Repl) (f pass : Str) (u' : Session), Lawful P →
    OwnSession P r.u pass → WellFormed r.u.store → LegalTurn v (b! "rekey") r → r.ctx = [] →
    saveBlob P C id id iv r.u = .ok (some f) → openFile P C none f [some pass] = (.ok u', []) →
    (runLine P C v (b! "rekey") { u := u' }).1.u.creds.salt = (runLine P C v (b! "rekey") r).1.u.creds.salt := by
  intro h
  have hs : saveBlob toy Json.Spec.codec id id (List.replicate 40 4) Demo.rN.u = .ok (some (Demo.fileOf Demo.rN)) := by decide +kernel
  exact differ (h toy Json.Spec.codec vK (List.replicate 40 4) { Demo.rN with ctx := [] } _ (b! "A") Demo.uM toy_lawful rN_own.1 rN_own.2.1
    (legal (r := { Demo.rN with ctx := [] }) rN_own.2.1.good (by decide +kernel) _ (b! "rekey", []) (by decide) (by decide +kernel) (by decide) rfl rfl rfl) rfl hs Demo.openM)

open ResumeDemo Verif.Crypt.Spec in
/-- C129 is false of a user who has renamed their own account: `passwd` ends the run, after leaving and starting again it works. -/
theorem C129_renamed_false : ¬ ∀ (P : Prims) (C : Codec) (v : Env) (iv : Str) (r : Repl) (f user : Str) (u' : Session), Lawful P →
    WellFormed r.u.store → LegalTurn v (b! "passwd") r → r.ctx = [] → saveBlob P C id id iv r.u = .ok (some f) →
    openFile P C none f [some user, some r.u.creds.pass] = (.ok u', []) →
    (runLine P C v (b! "passwd") { u := u' }).2 = (runLine P C v (b! "passwd") r).2 := by
  intro h
  have hw : WellFormed RenamedDemo.u1.store := by
    obtain ⟨u', h1, -, h2, -⟩ := C126_accounts toy RenamedDemo.v ImportedDemo.uA [97] [98] [9] RenamedDemo.env ImportedDemo.uA_sound.wf
      ((RenamedDemo.user_iff _ _).2 ⟨rfl, rfl⟩) (by decide) (by decide) (valid_ascii _ (by decide))
      fun w hw => by have := ((RenamedDemo.user_iff _ _).1 hw).2; revert this; decide
    rw [RenamedDemo.u1_eq] at h1
    cases h1
    exact h2
  have hp : RenamedDemo.u1.creds.pass = [1] := by decide +kernel
  have := h toy Json.Spec.codec vBob (List.replicate 40 4) { u := RenamedDemo.u1 } fR [98] uR toy_lawful hw
    (legal (r := { u := RenamedDemo.u1 }) hw.good (by decide +kernel) _ (b! "passwd", []) (by decide) (by decide +kernel) (by decide) rfl rfl rfl)
    rfl saveR (by rw [hp]; exact openR)
  have a := renamed_stayed
  rw [← this, renamed_returned] at a
  cases a

end Verif.App
