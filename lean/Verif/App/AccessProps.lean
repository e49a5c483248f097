import Verif.App.OwnLemmas
import Verif.App.SyncDemo
/-!
# C74, C77: what a session leaves is saved and opens again; text stays text
-/
namespace Verif.App
open Verif Verif.Txlogs Verif.Blob Verif.Crypt Verif.App.Spec
open Verif.Crypt.Spec (toy toy_lawful)

/-! ## C77 -/

/-- A line of well-formed text, answered with well-formed text, adds only operations made of well-formed text to the log. -/
theorem C77_line_partial (P : Prims) (C : Codec) (v : Env) (line : Str) (r : Repl) (h0 : r.u.store.txPoint = 0)
    (h : WellFormed r.u.store) (hc : CleanLog r.u.store) (hl : CleanTurn v line r)
    (hn : (runLine P C v line r).2 ≠ .panic) : CleanLog (runLine P C v line r).1.u.store :=
  clean_line h0 h hc hl hn

/-- So does any number of lines. -/
theorem C77_session_partial (P : Prims) (C : Codec) (turns : List Turn) (r : Repl) (h0 : r.u.store.txPoint = 0)
    (h : WellFormed r.u.store) (hc : CleanLog r.u.store) (hl : Along P C CleanTurn turns r)
    (hn : (runRepl P C turns r).2 ≠ .panic) : CleanLog (runRepl P C turns r).1.u.store := by
  induction turns generalizing r with
  | nil => exact hc
  | cons t rest ih =>
    obtain ⟨o, v⟩ := t
    cases o with
    | none => exact hc
    | some line =>
      obtain ⟨hl1, hl2⟩ := hl
      have key := C77_line_partial P C v line r h0 h hc hl1
      have key' := C67_line_partial P C v line r h0 h hl1.legal
      unfold runRepl at hn ⊢
      cases hx : runLine P C v line r with
      | mk r' o =>
        rw [hx] at hn key key' hl2
        cases o with
        | panic => exact absurd rfl hn
        | err e => exact key (by simp)
        | ok b =>
          cases b with
          | true => exact key (by simp)
          | false => exact ih r' (key' (by simp)).2 (key' (by simp)).1 (key (by simp)) hl2 hn

/-- Whatever the clock shows, the operations that any number of lines of well-formed text add are made of well-formed text. -/
theorem C77_text_session (P : Prims) (C : Codec) (turns : List Turn) (r : Repl) (h0 : r.u.store.txPoint = 0)
    (h : WellFormed r.u.store) (hc : ∀ t ∈ r.u.store.log, Json.Spec.CleanTx t) (hl : Along P C TextTurn turns r)
    (hn : (runRepl P C turns r).2 ≠ .panic) : ∀ t ∈ (runRepl P C turns r).1.u.store.log, Json.Spec.CleanTx t := by
  induction turns generalizing r with
  | nil => exact hc
  | cons t rest ih =>
    obtain ⟨o, v⟩ := t
    cases o with
    | none => exact hc
    | some line =>
      obtain ⟨hl1, hl2⟩ := hl
      have key : (runLine P C v line r).2 ≠ .panic → ∀ t ∈ (runLine P C v line r).1.u.store.log, Json.Spec.CleanTx t := fun hn t ht =>
        (text_line (T := fun _ => True) h0 h (fun t ht => ⟨hc t ht, trivial⟩) hl1 (fun _ => trivial) (fun _ _ => trivial) hn t ht).1
      have key' := C67_line_partial P C v line r h0 h hl1.legal
      unfold runRepl at hn ⊢
      cases hx : runLine P C v line r with
      | mk r' o =>
        rw [hx] at hn key key' hl2
        cases o with
        | panic => exact absurd rfl hn
        | err e => exact key (by simp)
        | ok b =>
          cases b with
          | true => exact key (by simp)
          | false => exact ih r' (key' (by simp)).2 (key' (by simp)).1 (key (by simp)) hl2 hn

/-- A file in order with a clean log is written to JSON and read back without loss. -/
theorem C77_saved (s : DB) (h : WellFormed s) (hc : CleanLog s) (hn : Counted s) : Faithful Json.Spec.codec s :=
  Json.C11_partial s (clean_of_log h.good.ok hc hn)

/-! ## C74 -/

theorem along_mono {P : Prims} {C : Codec} {Q Q' : Env → Str → Repl → Prop} (h : ∀ v l r, Q v l r → Q' v l r) :
    ∀ (turns : List Turn) (r : Repl), Along P C Q turns r → Along P C Q' turns r
  | [], _, _ => trivial
  | (none, _) :: _, _, _ => trivial
  | (some _, _) :: rest, _, hl => ⟨h _ _ _ hl.1, along_mono h rest _ hl.2⟩

/-- A session in a single-user file stays one, whose password is the one given last. -/
theorem own_session {P : Prims} (hP : Crypt.Spec.Lawful P) {C : Codec} (turns : List Turn) (r : Repl) (pass : Str)
    (h : OwnSession P r.u pass) (hl : Along P C OwnTurn turns r) :
    OwnSession P (runRepl P C turns r).1.u (lastPass P C turns r pass) := by
  induction turns generalizing r pass with
  | nil => exact h
  | cons t rest ih =>
    obtain ⟨o, v⟩ := t
    cases o with
    | none => exact h
    | some line =>
      obtain ⟨hl1, hl2⟩ := hl
      have key := own_line hP (C := C) h hl1
      unfold runRepl lastPass
      cases hx : runLine P C v line r with
      | mk r' o =>
        rw [hx] at key hl2
        cases o with
        | panic => exact key
        | err e => exact key
        | ok b =>
          cases b with
          | true => exact key
          | false => exact ih r' _ key hl2

/-- A session in a single-user file without `sync` and `adduser` that ends normally is saved, whatever was done in it, and the file
opens with the password given last and holds exactly what the session left. -/
theorem C74_single_partial (P : Prims) (hP : Crypt.Spec.Lawful P) (turns : List Turn) (r r' : Repl) (pass iv : Str) (ord : Order)
    (ord' : Results → Results) (hiv : iv.length = 40) (ho : OwnSession P r.u pass) (h0 : r.u.store.txPoint = 0)
    (h : WellFormed r.u.store) (hc : CleanLog r.u.store) (hl : Along P Json.Spec.codec OwnTurn turns r)
    (hr : runRepl P Json.Spec.codec turns r = (r', .ok ())) (hn : Counted r'.u.store) :
    ∃ f s' c, saveBlob P Json.Spec.codec ord ord' iv r'.u = .ok (some f) ∧ Spec.SameStore s' r'.u.store ∧
      openFile P Json.Spec.codec none f [some (lastPass P Json.Spec.codec turns r pass)] =
        (.ok { creds := c, store := s', readOnly := false, startTx := r'.u.store.log.length }, []) ∧
      OwnSession P { creds := c, store := s', readOnly := false, startTx := r'.u.store.log.length }
        (lastPass P Json.Spec.codec turns r pass) ∧ WellFormed s' ∧ CleanLog s' := by
  have hl' := along_mono (fun _ _ _ h => h.turn) turns r hl
  have h1 := own_session hP turns r pass ho hl
  have h2 := C67_session_partial P _ turns r h0 h (along_mono (fun _ _ _ h => h.legal) turns r hl') (by rw [hr]; simp)
  have h3 := C77_session_partial P _ turns r h0 h hc hl' (by rw [hr]; simp)
  rw [hr] at h1 h2 h3
  obtain ⟨f, s', g1, g2, g3⟩ := C51_save_open_single P hP Json.Spec.codec ord ord' iv hiv r'.u h1.writable h2.2
    (C77_saved _ h2.1 h3 hn) h1.creds _ h1.pass_ne h1.key
  refine ⟨f, s', _, g1, g2, g3, ⟨rfl, rfl, ⟨rfl, h1.creds.key, h1.creds.salt⟩, h1.pass_ne, h1.key, .inl rfl⟩,
    wf_sameStore h2.1 g2, ?_⟩
  intro t ht
  exact h3 t (g2.log ▸ ht)

theorem own_new {P : Prims} (hP : Crypt.Spec.Lawful P) {pass salt : Str} {inp : Input} {u : Session} (hs : salt.length = 32)
    (h : createFile P none salt (some pass :: some pass :: inp) = (.ok u, inp)) :
    OwnSession P u pass ∧ u.store = DB.new := by
  unfold createFile at h
  simp only [prompt] at h
  split at h
  · cases h
  · rename_i hp
    have hdk : deriveKey P 1 pass salt = .ok (P.kdf pass salt, salt) := rfl
    simp only [ne_eq, not_true, if_false, hdk, Prod.mk.injEq, Res.ok.injEq, and_true] at h
    subst h
    exact ⟨⟨rfl, rfl, ⟨rfl, hP.kdf_length _ _, hs⟩, hp, rfl, .inr rfl⟩, rfl⟩

/-- Over the whole life of a single-user file: after any number of such sessions, starting with the one that creates it, the file
opens with the password given last, and what it holds is what the last session left. The password that is asked for at the
beginning of a session is then the right one, so no session of a `Life` can fail to start. -/
theorem C74_life_partial (P : Prims) (hP : Crypt.Spec.Lawful P) (f pass : Str) (s : DB) (h : Life P f pass s) :
    ∃ u, openFile P Json.Spec.codec none f [some pass] = (.ok u, []) ∧ OwnSession P u pass ∧ Spec.SameStore u.store s ∧
      WellFormed u.store ∧ CleanLog u.store := by
  induction h with
  | new hs hc hl hr hn hiv hf =>
    obtain ⟨h1, h2⟩ := own_new hP hs hc
    obtain ⟨f', s', c, g1, g2, g3, g4, g5, g6⟩ := C74_single_partial P hP _ _ _ _ _ _ _ hiv h1 (by rw [h2]; rfl)
      (by rw [h2]; exact wf_new_file) (by rw [h2]; intro t ht; cases ht) hl hr hn
    rw [g1] at hf
    cases hf
    exact ⟨_, g3, g4, g2, g5, g6⟩
  | next _ ho hl hr hn hiv hf ih =>
    obtain ⟨u, k1, k2, k3, k4, k5⟩ := ih
    rw [k1] at ho
    cases ho
    obtain ⟨f', s', c, g1, g2, g3, g4, g5, g6⟩ := C74_single_partial P hP _ _ _ _ _ _ _ hiv k2 k3.txPoint k4 k5 hl hr hn
    rw [g1] at hf
    cases hf
    exact ⟨_, g3, g4, g2, g5, g6⟩

/-! ## Witnesses -/

namespace Demo

theorem cleanEnv_mk {v : Env} (h1 : ∀ x ∈ v.d.inp, ∀ y, x = some y → y.all (fun b => b.toNat < 0x80) = true)
    (h2 : v.d.uuid.all (fun b => b.toNat < 0x80) = true) (h3 : ∀ i, v.d.now i = 0) (h4 : ∀ j i, (v.ds j).now i = 0)
    (h5 : v.otpUri = fun _ k => k) (h6 : v.editor = fun s => some (some s)) (h7 : v.fileUrl = some)
    (h8 : v.scpUrl = fun _ _ _ p _ => p) (h9 : v.keys = none) : CleanEnv v where
  typed := fun x hx => valid_ascii _ (h1 _ hx _ rfl)
  uuid := valid_ascii _ h2
  now := fun i => by rw [h3]; unfold FitsInt64; omega
  nows := fun j i => by rw [h4]; unfold FitsInt64; omega
  otp := fun w x _ hx => by rw [h5]; exact hx
  editor := fun x y hx hy => by rw [h6] at hy; cases hy; exact hx
  fileUrl := fun x y hx hy => by rw [h7] at hy; cases hy; exact hx
  scpUrl := fun _ _ _ _ _ _ _ _ hd _ => by rw [h8]; exact hd
  keypair := fun a b h => by rw [h9] at h; cases h

theorem vT_clean : CleanEnv vT :=
  cleanEnv_mk (by decide) (by decide) (fun _ => rfl) (fun _ _ => rfl) rfl rfl rfl rfl rfl

/-- two people add an entry "x", with passwords that are not UTF-8 -/
def vBadA : Env := { d := { d0 with uuid := [8], inp := [some [], some [], some (b! "m"), some [0x61, 0xFF], some [0x61, 0xFF]] } }
def vBadB : Env := { d := { d0 with uuid := [8], inp := [some [], some [], some (b! "m"), some [0x61, 0xFE], some [0x61, 0xFE]] } }

def r0 : Repl := { u := u0 }

theorem u0_wf : WellFormed u0.store := wf_new_file

theorem fresh0 (w : Str) : ¬ Blob.Exists u0.store w := fresh_concrete good_new rfl

theorem bad_legal : LegalTurn vBadA (b! "add x") r0 ∧ LegalTurn vBadB (b! "add x") r0 :=
  ⟨⟨valid_ascii _ (by decide), ⟨perm_id, perm_id', by decide, fresh0 _⟩, parse_ne (x := (b! "add", [b! "x"]))
    (by decide +kernel) (by decide)⟩,
   ⟨valid_ascii _ (by decide), ⟨perm_id, perm_id', by decide, fresh0 _⟩, parse_ne (x := (b! "add", [b! "x"]))
    (by decide +kernel) (by decide)⟩⟩

theorem addUser_clean : CleanTurn vT (b! "add user/x") rS :=
  ⟨⟨valid_ascii _ (by decide), vT_ok u1_multi.1.good (by decide +kernel),
    parse_ne (x := (b! "add", [b! "user/x"])) (by decide +kernel) (by decide)⟩, vT_clean⟩

theorem rmk_clean : CleanTurn vT (b! "rmk user/a mkey") rS :=
  ⟨⟨valid_ascii _ (by decide), vT_ok u1_multi.1.good (by decide +kernel),
    parse_ne (x := (b! "rmk", [b! "user/a", b! "mkey"])) (by decide +kernel) (by decide)⟩, vT_clean⟩

/-- the file a session leaves -/
def fileOf (r : Repl) : Str :=
  match saveBlob toy Json.Spec.codec id id (List.replicate 40 4) r.u with
  | .ok (some f) => f
  | _ => []

/-- the run of one line -/
def after (line : Str) (v : Env) (r : Repl) : Repl := (runRepl toy Json.Spec.codec [(some line, v)] r).1

theorem file_ok {r : Repl} {f : Str} (h : saveBlob toy Json.Spec.codec id id (List.replicate 40 4) r.u = .ok (some f)) :
    saveBlob toy Json.Spec.codec id id (List.replicate 40 4) r.u = .ok (some (fileOf r)) := by
  unfold fileOf; rw [h]

/-- a map with its keys in order, as it is read from a file -/
def sorted {ν : Type} (m : GoMap Str ν) : GoMap Str ν :=
  (Verif.sortStr (m.map Prod.fst)).filterMap fun k => (m.get? k).map fun v => (k, v)

/-- the store as it is read from a file -/
def loaded (s : DB) : DB :=
  { s with snapshot := (sorted s.snapshot).map fun (k, e) => (k, sorted e) }

/-- creating a file with the password "A" -/
def uN : Session := { creds := { key := toy.kdf (b! "A") (List.replicate 32 1), salt := List.replicate 32 1 }, store := {} }
/-- what the turns in it meet -/
def vN : Env := { d := { d0 with uuid := [8], inp := [some [], some [], some (b! "m"), some [7], some [7]] } }
/-- a new password "B" -/
def vP : Env := { d := { d0 with uuid := [6], inp := [some (b! "m"), some (b! "B"), some (b! "B")] } }

def rN : Repl := after (b! "add x") vN { u := uN }
def uM : Session :=
  { creds := { pass := b! "A", key := toy.kdf (b! "A") (List.replicate 32 1), salt := List.replicate 32 1 }
    store := loaded rN.u.store, startTx := rN.u.store.log.length }
def rM : Repl := after (b! "passwd") vP { u := uM }

theorem noAdd {line : Str} {x : Str × List Str} (h : parseLine line = some x) (hx : x.1 ≠ b! "adduser") :
    ∀ args, parseLine line ≠ some (b! "adduser", args) := by
  intro args hh; rw [h] at hh; cases hh; exact hx rfl

theorem addN : OwnTurn vN (b! "add x") { u := uN } :=
  ⟨⟨⟨valid_ascii _ (by decide), ⟨perm_id, perm_id', by decide, fresh0 _⟩,
    parse_ne (x := (b! "add", [b! "x"])) (by decide +kernel) (by decide)⟩,
    cleanEnv_mk (by decide) (by decide) (fun _ => rfl) (fun _ _ => rfl) rfl rfl rfl rfl rfl⟩, by decide,
    noAdd (x := (b! "add", [b! "x"])) (by decide +kernel) (by decide)⟩

theorem life1 : Life toy (fileOf rN) (b! "A") rN.u.store :=
  Life.new (turns := [(some (b! "add x"), vN)]) (u := uN) (inp := []) (by decide)
    (show createFile toy none (List.replicate 32 1) _ = _ from by decide +kernel) ⟨addN, trivial⟩ (Prod.ext rfl (by decide +kernel))
    (by unfold Counted; decide +kernel) (by decide : (List.replicate 40 (4 : UInt8)).length = 40) (ord := id) (ord' := id)
    (by decide +kernel)

theorem openM : openFile toy Json.Spec.codec none (fileOf rN) [some (b! "A")] = (.ok uM, []) := by decide +kernel

theorem run_eq {x : Repl × Res AppErr Unit} (h : x.2 = .ok ()) : x = (x.1, .ok ()) := Prod.ext rfl h

theorem runM : runRepl toy Json.Spec.codec [(some (b! "passwd"), vP)] { u := uM } = (rM, .ok ()) := by
  unfold rM after
  exact run_eq (by decide +kernel)

end Demo

/-- not vacuous: a file is created with the password "A" and gets an entry; then the password is changed to "B" -/
example : ∃ f s u, Life toy f (b! "B") s ∧ openFile toy Json.Spec.codec none f [some (b! "B")] = (.ok u, []) ∧
    u.store.log ≠ [] := by
  obtain ⟨u, k1, k2, k3, k4, k5⟩ := C74_life_partial toy toy_lawful _ _ _ Demo.life1
  have hu : Demo.uM = u := Res.ok.inj (Prod.mk.inj (Demo.openM.symm.trans k1)).1
  rw [← hu] at k4
  have hM : OwnTurn Demo.vP (b! "passwd") { u := Demo.uM } :=
    ⟨⟨⟨valid_ascii _ (by decide), ⟨Demo.perm_id, Demo.perm_id', by decide, Demo.fresh_concrete k4.good (by decide +kernel)⟩,
      Demo.parse_ne (x := (b! "passwd", [])) (by decide +kernel) (by decide)⟩,
      Demo.cleanEnv_mk (by decide) (by decide) (fun _ => rfl) (fun _ _ => rfl) rfl rfl rfl rfl rfl⟩, by decide,
      Demo.noAdd (x := (b! "passwd", [])) (by decide +kernel) (by decide)⟩
  have hl : Life toy (Demo.fileOf Demo.rM)
      (lastPass toy Json.Spec.codec [(some (b! "passwd"), Demo.vP)] { u := Demo.uM } (b! "A")) Demo.rM.u.store :=
    Life.next (turns := [(some (b! "passwd"), Demo.vP)]) Demo.life1 Demo.openM ⟨hM, trivial⟩ Demo.runM
      (by unfold Counted; decide +kernel) (by decide : (List.replicate 40 (4 : UInt8)).length = 40) (ord := id) (ord' := id)
      (by decide +kernel)
  have hp : lastPass toy Json.Spec.codec [(some (b! "passwd"), Demo.vP)] { u := Demo.uM } (b! "A") = b! "B" := by decide +kernel
  rw [hp] at hl
  obtain ⟨u', g1, -, g3, -⟩ := C74_life_partial toy toy_lawful _ _ _ hl
  refine ⟨_, _, u', hl, g1, ?_⟩
  rw [g3.log]
  decide +kernel

/-- not vacuous: `add x` in a new file -/
example : CleanTurn Demo.vN (b! "add x") { u := Demo.uN } ∧
    CleanLog (runLine toy Json.Spec.codec Demo.vN (b! "add x") { u := Demo.uN }).1.u.store ∧
    (runLine toy Json.Spec.codec Demo.vN (b! "add x") { u := Demo.uN }).1.u.store.log ≠ [] :=
  ⟨Demo.addN.turn, C77_line_partial _ _ _ _ _ rfl wf_new_file (fun _ ht => by cases ht) Demo.addN.turn (by decide +kernel),
    by decide +kernel⟩

/-- As stated C77 is false: what is typed at a prompt need not be well-formed text. Here two sessions that store different
passwords leave the same file. -/
theorem C77_false : ∃ (v v' : Env) (r ra rb : Repl) (f : Str), WellFormed r.u.store ∧ r.u.store.txPoint = 0 ∧
    LegalTurn v (b! "add x") r ∧ LegalTurn v' (b! "add x") r ∧
    runRepl toy Json.Spec.codec [(some (b! "add x"), v)] r = (ra, .ok ()) ∧
    runRepl toy Json.Spec.codec [(some (b! "add x"), v')] r = (rb, .ok ()) ∧ ra.u.store.log ≠ rb.u.store.log ∧
    saveBlob toy Json.Spec.codec id id (List.replicate 40 4) ra.u = .ok (some f) ∧
    saveBlob toy Json.Spec.codec id id (List.replicate 40 4) rb.u = .ok (some f) := by
  refine ⟨Demo.vBadA, Demo.vBadB, Demo.r0, (runRepl toy Json.Spec.codec [(some (b! "add x"), Demo.vBadA)] Demo.r0).1,
    (runRepl toy Json.Spec.codec [(some (b! "add x"), Demo.vBadB)] Demo.r0).1,
    (match saveBlob toy Json.Spec.codec id id (List.replicate 40 4)
        (runRepl toy Json.Spec.codec [(some (b! "add x"), Demo.vBadA)] Demo.r0).1.u with
      | .ok (some f) => f
      | _ => []), Demo.u0_wf, rfl, Demo.bad_legal.1, Demo.bad_legal.2, Prod.ext rfl (by decide +kernel),
    Prod.ext rfl (by decide +kernel), by decide +kernel, by decide +kernel, by decide +kernel⟩

/-- As stated C74 is false for files with users: an entry added under "user/" (`add user/x`), or a field removed from a user entry
(`rmk user/a mkey`), makes the file impossible to save at the end of the session, which until then could be saved. Everything done
in the session is lost. -/
theorem C74_false : ∃ (v : Env) (r ra rb : Repl) (e e' : AppErr) (f : Str), WellFormed r.u.store ∧ r.u.store.txPoint = 0 ∧
    MultiSession toy r.u ∧ saveBlob toy Json.Spec.codec id id (List.replicate 40 4) r.u = .ok (some f) ∧
    CleanTurn v (b! "add user/x") r ∧ runRepl toy Json.Spec.codec [(some (b! "add user/x"), v)] r = (ra, .ok ()) ∧
    saveBlob toy Json.Spec.codec id id (List.replicate 40 4) ra.u = .err e ∧
    CleanTurn v (b! "rmk user/a mkey") r ∧ runRepl toy Json.Spec.codec [(some (b! "rmk user/a mkey"), v)] r = (rb, .ok ()) ∧
    saveBlob toy Json.Spec.codec id id (List.replicate 40 4) rb.u = .err e' :=
  ⟨Demo.vT, Demo.rS, Demo.after (b! "add user/x") Demo.vT Demo.rS, Demo.after (b! "rmk user/a mkey") Demo.vT Demo.rS,
    .crypt .badParams, .crypt .badParams, Demo.fileOf Demo.rS, Demo.u1_wf, by decide +kernel, Demo.u1_multi.1, by decide +kernel,
    Demo.addUser_clean, Prod.ext rfl (by decide +kernel), by decide +kernel, Demo.rmk_clean, Prod.ext rfl (by decide +kernel),
    by decide +kernel⟩

end Verif.App
