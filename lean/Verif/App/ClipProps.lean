import Verif.App.OtpProps
import Verif.App.ClipLemmas
/-!
# C104: the clipboard
-/
set_option linter.unusedSimpArgs false
namespace Verif.App
open Verif Verif.Txlogs Verif.Blob Verif.Crypt Verif.App.Spec
open Verif.Crypt.Spec (toy toy_lawful)

/-- `cp`, `user`, `pass`, `email`, `totp`, `login`, `add`, `set` and `addsync` are the only commands that write the clipboard, and
in a read-only session the first five. -/
theorem C104_only (date : Str → Str) (v : Env) (line : Str) (r : Repl) (h : lineCopies date v line r ≠ []) :
    ∃ cmd args, parseLine line = some (cmd, args) ∧ cmd ∈ copying ∧ (r.u.readOnly = true → cmd ∈ copying.take 5) := by
  unfold lineCopies at h
  cases hp : parseLine line with
  | none => simp [hp] at h
  | some p =>
    obtain ⟨cmd, args⟩ := p
    refine ⟨cmd, args, rfl, ?_⟩
    simp only [hp] at h
    cases hf : readOnlyFlag cmd with
    | none => simp [hf] at h
    | some b =>
      cases b with
      | true =>
        simp only [hf] at h
        have : cmd ∈ copying.take 5 := by
          unfold readCopies at h
          split at h
          · rename_i k; rw [k]; decide
          · split at h
            · rename_i k; rcases k with rfl | rfl | rfl | rfl <;> decide
            · exact absurd rfl h
        exact ⟨List.mem_of_mem_take this, fun _ => this⟩
      | false =>
        simp only [hf] at h
        cases hro : r.u.readOnly with
        | true => simp [hro] at h
        | false =>
          simp only [hro, Bool.false_eq_true, if_false] at h
          refine ⟨?_, fun k => by cases k⟩
          unfold writeCopies at h
          split at h
          · rename_i k; rw [k]; decide
          · split at h
            · rename_i k; rw [k]; decide
            · split at h
              · rename_i k; rw [k]; decide
              · split at h
                · rename_i k; rw [k]; decide
                · exact absurd rfl h

/-- Only what is meant to be copied gets into the clipboard: values of an entry, codes, dates and new passwords, but no two-factor
secrets, passphrases or keys. -/
theorem C104_what (date : Str → Str) (v : Env) (line : Str) (r : Repl) (hv : EnvOk v r.u.store) (h : WellFormed r.u.store) :
    ∀ x ∈ lineCopies date v line r, Copyable date v r.u.store x := by
  intro x hx
  unfold lineCopies at hx
  cases hp : parseLine line with
  | none => simp [hp] at hx
  | some p =>
    obtain ⟨cmd, args⟩ := p
    simp only [hp] at hx
    cases hf : readOnlyFlag cmd with
    | none => simp [hf] at hx
    | some b =>
      simp only [hf] at hx
      cases b with
      | true =>
        unfold readCopies at hx
        simp only at hx
        split at hx
        · split at hx
          · cases hx
          · split at hx
            · cases hx
            · exact getCopies_what hv h _ _ x hx
        · split at hx
          · split at hx
            · cases hx
            · exact getCopies_what hv h _ _ x hx
          · cases hx
      | false =>
        simp only at hx
        split at hx
        · cases hx
        · unfold writeCopies at hx
          split at hx
          · split at hx
            · cases hx
            · exact askCopies_what _ x hx
          · split at hx
            · split at hx
              · cases hx
              · exact loginCopies_what hv h _ x hx
            · split at hx
              · split at hx
                · cases hx
                · exact askCopies_what _ x hx
              · split at hx
                · split at hx
                  · cases hx
                  · exact askCopies_what _ x hx
                · cases hx

/-- `cp q k` copies the value of that key of the entry named so, if it has one; `get` copies nothing. -/
theorem C104_cp (date : Str → Str) (v : Env) (r : Repl) (line cmd q k uuid : Str) (args : List Str) (e : Str → Option Str)
    (hv : EnvOk v r.u.store) (h : WellFormed r.u.store) (hp : parseLine line = some (cmd, args)) (hq : queryArgs r.ctx args = some (q, k, []))
    (hn : Blob.Spec.Named r.u.store uuid q) (he : Blob.Spec.Visible r.u.store uuid e) (hk : k ≠ keyTwoFactor) (hk' : k ≠ keyUpdated) :
    (cmd = b! "cp" → lineCopies date v line r = (e k).toList) ∧ (cmd = b! "get" → lineCopies date v line r = []) := by
  obtain ⟨h1, -⟩ := C70_get v r.u q k uuid e hv h (picks_named hv h hn) he hk hk'
  refine ⟨?_, ?_⟩ <;> rintro rfl
  · have hf : readOnlyFlag (b! "cp") = some true := by decide
    unfold lineCopies
    simp only [hp, hf, readCopies, if_true, hq, ne_eq, not_true, false_and, if_false, getCopies, h1, hk']
    cases e k <;> rfl
  · have hf : readOnlyFlag (b! "get") = some true := by decide
    unfold lineCopies
    simp only [hp, hf]
    rfl

/-- `user q`, `pass q` and `email q` copy that value of the entry named so. -/
theorem C104_word (date : Str → Str) (v : Env) (r : Repl) (line cmd q uuid : Str) (args : List Str) (e : Str → Option Str)
    (hv : EnvOk v r.u.store) (h : WellFormed r.u.store) (hp : parseLine line = some (cmd, args)) (hc : cmd = keyUser ∨ cmd = keyPass ∨ cmd = keyEmail)
    (hq : queryArg r.ctx args = some q) (hn : Blob.Spec.Named r.u.store uuid q) (he : Blob.Spec.Visible r.u.store uuid e) :
    lineCopies date v line r = (e cmd).toList := by
  have hne : cmd ≠ keyTwoFactor ∧ cmd ≠ keyUpdated := by rcases hc with rfl | rfl | rfl <;> decide
  obtain ⟨h1, -⟩ := C70_get v r.u q cmd uuid e hv h (picks_named hv h hn) he hne.1 hne.2
  have hr : readCopies date v cmd args r = match queryArg r.ctx args with
      | none => []
      | some q => getCopies date v r.u q cmd := by rcases hc with rfl | rfl | rfl <;> rfl
  have hf : readOnlyFlag cmd = some true := by rcases hc with rfl | rfl | rfl <;> decide
  unfold lineCopies
  simp only [hp, hf, hr, hq, getCopies, h1, hne.2, if_false]
  cases e cmd <;> rfl

/-- The clipboard is written while `login` waits for the next prompt: with `n` prompts answered, the first `n + 1` of user, email
address, password and code were copied in this order, as far as the entry has them. -/
theorem C104_login (v : Env) (u : Session) (q uuid : Str) (e : Str → Option Str) (hv : EnvOk v u.store) (h : WellFormed u.store)
    (hp : Picks v u.store q uuid) (he : Blob.Spec.Visible u.store uuid e) (hc : CodeOk v e) (ans : List Str) (rest : Input)
    (hi : v.d.inp = ans.map some ++ rest) (hr : rest = [] ∨ rest.head? = some none) :
    loginCopies v u q = (loginKeys.filterMap (loginValue v e)).take (ans.length + 1) := by
  obtain ⟨en, rfl, hk⟩ := login_picks hv h hp he
  rw [hk, loginValues_eq v en hc]
  have key : ∀ (l : List (Str × Str)) (ans : List Str) (out : List (Str × Str)),
      (loginLoop l (ans.map some ++ rest) out).1 = out ++ l.take (ans.length + 1) := by
    intro l
    induction l with
    | nil => intro ans out; simp [loginLoop]
    | cons a l ih =>
      intro ans out
      cases l with
      | nil => simp [loginLoop]
      | cons b l =>
        cases ans with
        | nil =>
          simp only [List.map_nil, List.nil_append, loginLoop]
          rcases hr with rfl | hr
          · simp [prompt]
          · cases rest with
            | nil => cases hr
            | cons x rest =>
              simp at hr; subst hr
              simp [prompt]
        | cons x ans =>
          simp only [List.map_cons, List.cons_append, loginLoop, prompt, List.length_cons]
          rw [ih]
          simp
  simp only [hi, key, List.nil_append, List.map_take, List.map_filterMap]
  congr 2
  funext k
  cases loginValue v (fun k => en.get? k) k <;> rfl

/-- What `c` copies is what `y` takes. -/
theorem C104_accepted (ent : Nat → Nat → UInt8) (pre rest : Input) (c pw : Str) (hpre : ∀ x ∈ pre, Asks x)
    (hc : (fields c).head? = some (b! "c")) (h : getPassword ent (pre ++ some c :: some (b! "y") :: rest) = .ok pw) :
    (passwordCopies ent (pre ++ some c :: some (b! "y") :: rest)).getLast? = some pw :=
  pw_accepted ent hc pre _ _ _ _ hpre h

/-- ... and it is what is stored. -/
theorem C104_set (date : Str → Str) (v : Env) (r : Repl) (line q uuid : Str) (args : List Str) (e : Str → Option Str) (pre rest : Input)
    (c pw : Str) (hro : r.u.readOnly = false) (hv : EnvOk v r.u.store) (h : WellFormed r.u.store) (hp : parseLine line = some (b! "set", args))
    (hq : setArgs r.ctx args = some (q, keyPass, [])) (hpk : Picks v r.u.store q uuid) (he : Blob.Spec.Visible r.u.store uuid e)
    (hpre : ∀ x ∈ pre, Asks x) (hc : (fields c).head? = some (b! "c")) (hi : v.d.inp = pre ++ some c :: some (b! "y") :: rest)
    (hg : getPassword v.d.ent v.d.inp = .ok pw) :
    (lineCopies date v line r).getLast? = some pw ∧ KeyNow uuid keyPass (some pw) (v.d.now 0) e r.u (setCmd v r.u q keyPass []).1 := by
  refine ⟨?_, ((C79_set_pass v r.u q uuid e hv h hpk he).1 pw hg).2⟩
  have hf : readOnlyFlag (b! "set") = some false := by decide
  obtain ⟨hid, s', hs⟩ := hpk
  have hw : writeCopies v (b! "set") args r = match setArgs r.ctx args with
    | none => []
    | some (q, k, value) => askCopies v (setInput v r.u q k value) := rfl
  unfold lineCopies
  simp only [hp, hf, hro, Bool.false_eq_true, if_false, hw, hq, setInput, hs, ne_eq, hid, not_false_eq_true, and_self, if_true, askCopies]
  rw [hi] at hg ⊢
  exact C104_accepted v.d.ent pre rest c pw hpre hc hg

/-- Nothing copied stays in the clipboard after a run that does not crash. -/
theorem C104_cleared (P : Prims) (C : Codec) (date : Str → Str) (history : Option Int) (salt iv : Str) (v v' : Env) (job : Job)
    (inp : Input) (old : Disk) (clip : Str) (h : (main P C history salt iv v v' job inp old).2 ≠ .panic) :
    clipAfter P C date true true history salt iv v v' job inp old clip = [] := by
  unfold clipAfter clipAtExit
  split
  · rename_i k; exact absurd k h
  · rfl

/-- With `--no-clear-clip`, or if the clipboard cannot be written, a run in which nothing is copied leaves it alone. -/
theorem C104_alone (P : Prims) (C : Codec) (date : Str → Str) (clear works : Bool) (history : Option Int) (salt iv : Str) (v v' : Env)
    (job : Job) (inp : Input) (old : Disk) (clip : Str) (hc : clear = false ∨ works = false)
    (h : works = true → mainCopies P C date history salt v job inp old = []) :
    clipAfter P C date clear works history salt iv v v' job inp old clip = clip := by
  have h1 : copyAll works clip (mainCopies P C date history salt v job inp old) = clip := by
    unfold copyAll
    split
    · rename_i k; rw [h k]; rfl
    · rfl
  unfold clipAfter
  rw [h1]
  unfold clipAtExit
  split
  · rfl
  · rcases hc with rfl | rfl <;> simp

/-- In a whole session nothing else gets into the clipboard, and all of it was asked for. -/
theorem C104_session (P : Prims) (C : Codec) (date : Str → Str) (turns : List Turn) (r : Repl) (h0 : r.u.store.txPoint = 0)
    (h : WellFormed r.u.store) (hl : Along P C LegalTurn turns r) :
    ∀ x ∈ replCopies P C date turns r, ∃ line v s cmd args, (some line, v) ∈ turns ∧ parseLine line = some (cmd, args) ∧ cmd ∈ copying ∧
      WellFormed s ∧ Copyable date v s x := by
  induction turns generalizing r with
  | nil => intro x hx; cases hx
  | cons t rest ih =>
    obtain ⟨o, v⟩ := t
    cases o with
    | none => intro x hx; cases hx
    | some line =>
      intro x hx
      obtain ⟨hl1, hl2⟩ := hl
      simp only [replCopies, List.mem_append] at hx
      rcases hx with hx | hx
      · obtain ⟨cmd, args, h1, h2, -⟩ := C104_only date v line r (List.ne_nil_of_mem hx)
        exact ⟨line, v, r.u.store, cmd, args, List.mem_cons_self, h1, h2, h, C104_what date v line r hl1.env h x hx⟩
      · cases hr : runLine P C v line r with
        | mk r' o =>
          rw [hr] at hx hl2
          cases o with
          | err e => cases hx
          | panic => cases hx
          | ok b =>
            cases b with
            | true => cases hx
            | false =>
              have hw := C67_line_partial P C v line r h0 h hl1 (by rw [hr]; simp)
              rw [hr] at hw
              obtain ⟨line', v', s, cmd, args, k, k'⟩ := ih r' hw.2 hw.1 hl2 x hx
              exact ⟨line', v', s, cmd, args, List.mem_cons_of_mem _ k, k'⟩

/-- What `login` says it copied is what it copied. -/
theorem C104_login_says (v : Env) (u : Session) (q : Str) (l : List (Str × Str)) (h : (login v u q).2 = .ok l) :
    loginCopies v u q = l.map Prod.snd := by
  unfold login at h
  unfold loginCopies
  unfold one at h
  generalize lift u (findOne v.lower v.ord v.ord' u.store q) = f at h
  obtain ⟨u1, o⟩ := f
  cases o with
  | panic => cases h
  | err e => cases h
  | ok uuid =>
    simp only at h ⊢
    by_cases h1 : uuid = []
    · rw [if_pos h1] at h
      cases h
      simp [h1]
    · rw [if_neg h1] at h ⊢
      generalize lift u1 (find u1.store uuid) = f at h
      obtain ⟨u2, o⟩ := f
      cases o with
      | panic => cases h
      | err e => cases h
      | ok e =>
        simp only at h ⊢
        cases hl : loginValues v (e.getD []) with
        | none => simp [hl] at h
        | some l0 =>
          simp only [hl] at h ⊢
          generalize loginLoop l0 v.d.inp [] = z at h ⊢
          obtain ⟨out, b⟩ := z
          cases b <;> cases h
          rfl

/-- `totp` copies the code that is valid now. -/
theorem C104_code (date : Str → Str) (v : Env) (r : Repl) (line q uuid x : Str) (args : List Str) (e : Str → Option Str)
    (hv : EnvOk v r.u.store) (h : WellFormed r.u.store) (hp : parseLine line = some (keyTwoFactor, args)) (hq : queryArg r.ctx args = some q)
    (hn : Blob.Spec.Named r.u.store uuid q) (he : Blob.Spec.Visible r.u.store uuid e) (hx : e keyTwoFactor = some x) (hne : x ≠ [])
    (hc : v.totp x ≠ some []) : lineCopies date v line r = (v.totp x).toList := by
  have h1 := (C95_get v r.u q uuid x e hv h (picks_named hv h hn) he hx hne hc).1
  have hr : readCopies date v keyTwoFactor args r = match queryArg r.ctx args with
      | none => []
      | some q => getCopies date v r.u q keyTwoFactor := rfl
  have hf : readOnlyFlag keyTwoFactor = some true := by decide
  unfold lineCopies
  simp only [hp, hf, hr, hq, getCopies, h1]
  cases v.totp x <;> rfl

/-! ### where the password prompts are -/

/-- `v` with other random bytes for passwords -/
def withEnt (v : Env) (ent : Nat → Nat → UInt8) : Env := { v with d := { v.d with ent := ent } }

/-- `add` asks for a password exactly where `addInput` says: there a crash of the prompt is one of the command, and elsewhere no
random bytes are used. -/
theorem C104_add_asks (v : Env) (u : Session) (nm : Str) :
    (∀ inp, addInput v u nm = some inp → getPassword v.d.ent inp = .panic → (addNew v u nm).2 = .panic) ∧
    (addInput v u nm = none → ∀ ent, addNew (withEnt v ent) u nm = addNew v u nm) := by
  unfold addInput addNew doCmd withEnt
  dsimp only
  rcases Blob.new v.ord v.d.now v.d.uuid u.store.begin nm with ⟨s, x⟩
  cases x with
  | panic => exact ⟨fun inp h => (nomatch h), fun _ _ => rfl⟩
  | err e => exact ⟨fun inp h => (nomatch h), fun _ _ => by cases e <;> rfl⟩
  | ok uuid =>
    dsimp only
    rcases prompt v.d.inp with ⟨o, inp1⟩
    cases o with
    | none => exact ⟨fun inp h => (nomatch h), fun _ _ => rfl⟩
    | some a =>
      dsimp only
      rcases prompt inp1 with ⟨o, inp2⟩
      cases o with
      | none => exact ⟨fun inp h => (nomatch h), fun _ _ => rfl⟩
      | some b =>
        dsimp only
        refine ⟨fun inp h hg => ?_, fun h => by cases h⟩
        cases h
        rw [hg]

/-- The same for `set`. -/
theorem C104_set_asks (v : Env) (u : Session) (q k x : Str) :
    (∀ inp, setInput v u q k x = some inp → getPassword v.d.ent inp = .panic → (setCmd v u q k x).2 = .panic) ∧
    (setInput v u q k x = none → ∀ ent, setCmd (withEnt v ent) u q k x = setCmd v u q k x) := by
  unfold setInput setCmd one lift withEnt
  dsimp only
  rcases findOne v.lower v.ord v.ord' u.store q with ⟨s, o⟩
  cases o with
  | panic => exact ⟨fun inp h => (nomatch h), fun _ _ => rfl⟩
  | err e => exact ⟨fun inp h => (nomatch h), fun _ _ => rfl⟩
  | ok uuid =>
    dsimp only
    by_cases h1 : uuid = []
    · simp [h1]
    · simp only [h1, ne_eq, not_false_eq_true, true_and, if_false]
      by_cases h2 : k = keyPass
      · by_cases h3 : x = []
        · simp only [h2, h3, and_self, if_true, Option.some.injEq]
          exact ⟨fun inp h hg => by subst h; rw [hg], fun h => by cases h⟩
        · simp [h2, h3]
      · simp [h2]

/-- The same for `addsync`. -/
theorem C104_addsync_asks (v : Env) (u : Session) (kind : Str) :
    (∀ inp, addSyncInput v u kind = some inp → getPassword v.d.ent inp = .panic → (addSync v u kind).2 = .panic) ∧
    (addSyncInput v u kind = none → ∀ ent, addSync (withEnt v ent) u kind = addSync v u kind) := by
  have hscp : ∀ (u : Session) uuid, (∀ inp, scpInput v.d.inp = some inp → getPassword v.d.ent inp = .panic → (addSCPEntry v u uuid).2 = .panic) ∧
      (scpInput v.d.inp = none → ∀ ent, addSCPEntry (withEnt v ent) u uuid = addSCPEntry v u uuid) := by
    intro u uuid
    unfold scpInput addSCPEntry withEnt
    dsimp only
    rcases getString v.d.inp with ⟨o, inp1⟩
    cases o with
    | none => exact ⟨fun inp h => (nomatch h), fun _ _ => rfl⟩
    | some a =>
      dsimp only
      rcases getString inp1 with ⟨o, inp2⟩
      cases o with
      | none => exact ⟨fun inp h => (nomatch h), fun _ _ => rfl⟩
      | some a =>
        dsimp only
        rcases askPort inp2 with ⟨o, inp3⟩
        cases o with
        | none => exact ⟨fun inp h => (nomatch h), fun _ _ => rfl⟩
        | some a =>
          dsimp only
          rcases getString inp3 with ⟨o, inp4⟩
          cases o with
          | none => exact ⟨fun inp h => (nomatch h), fun _ _ => rfl⟩
          | some a =>
            dsimp only
            rcases getMenuChoice 3 inp4 with ⟨o, inp5⟩
            cases o with
            | none => exact ⟨fun inp h => (nomatch h), fun _ _ => rfl⟩
            | some c =>
              dsimp only
              by_cases hc : c = 2
              · simp only [hc, if_true, Option.some.injEq]
                exact ⟨fun inp h hg => by subst h; rw [hg], fun h => by cases h⟩
              · simp [hc]
  unfold addSyncInput addSync doCmd
  dsimp only
  by_cases h1 : kind = syncSCP
  · have h2 : ¬ syncSCP = syncFile := by decide
    simp only [h1, ne_eq, not_true, if_false, false_and, withEnt]
    generalize hn : newSync v.ord v.d.now v.d.uuid (u.store.begin.log.length + 1) u.store.begin syncSCP = n
    cases n with
    | none => exact ⟨fun inp h => (nomatch h), fun _ _ => rfl⟩
    | some p =>
      obtain ⟨s, o⟩ := p
      cases o with
      | panic => exact ⟨fun inp h => (nomatch h), fun _ _ => rfl⟩
      | err e => exact ⟨fun inp h => (nomatch h), fun _ _ => rfl⟩
      | ok uuid =>
        dsimp only [lift]
        simp only [h2, if_false]
        refine ⟨fun inp h hg => ?_, fun h ent => ?_⟩
        · have := (hscp { u with store := s } uuid).1 inp h hg
          generalize addSCPEntry v { u with store := s } uuid = z at this
          obtain ⟨z1, z2⟩ := z
          simp only at this
          subst this
          rfl
        · have := (hscp { u with store := s } uuid).2 h ent
          unfold withEnt at this
          rw [this]
  · by_cases h2 : kind = syncFile
    · have h3 : ¬ syncFile = syncSCP := by decide
      simp [h2, h3, withEnt]
    · simp [h1, h2]

end Verif.App
