import Verif.App.ResumeProps
import Verif.App.HistoryLemmas2

/-!
# C132: the system fields of an account cannot be set by hand

The help says so of the fields that hold the salt, the iv and the encrypted master key of an account (repl.go:94-95). Only the
commands for accounts write them: whatever else is typed, they stay as they are in all entries. It is true of setting. It is not
true of removing: `rmk`, and `edit` when the text is emptied, delete them.
-/

namespace Verif.App

open Verif Verif.Txlogs Verif.Blob Verif.Crypt Verif.App.Spec Verif.Blob.Spec

namespace Spec

/-- the value of a field of an entry, as the history tells it -/
def field (s : DB) (uuid k : Str) : Option Str := ((Txlogs.Spec.meaning Txlogs.Spec.empty s.log).bind (· uuid)).bind (· k)

/-- salt, iv and encrypted master key (constants.go:26-28) -/
def systemFields : List Str := [keySalt, keyIV, keyMKey]

/-- A line that is not about accounts as such: it is none of the commands for accounts, deletes no entry, does not synchronise, and
names no system field to `rmk` or `edit`. -/
structure OtherLine (line : Str) (r : Repl) : Prop where
  cmd : ∀ cmd args, parseLine line = some (cmd, args) → cmd ∉ [b! "adduser", b! "passwd", b! "rekey", b! "rekeyall", b! "rm"]
  cut : ∀ cmd args, parseLine line = some (cmd, args) → cmd = b! "rmk" ∨ cmd = b! "edit" →
    ∀ q k l, queryArgs r.ctx args = some (q, k, l) → k ∉ systemFields

/-- a turn of that kind -/
structure OtherTurn (v : Env) (line : Str) (r : Repl) : Prop where
  legal : LegalTurn v line r
  other : OtherLine line r

end Spec

namespace SystemFields

/-- an operation that leaves the system fields alone -/
def Harmless (t : Tx) : Prop := t.kind ≠ .del ∧ ((t.kind = .setk ∨ t.kind = .delk) → t.key ∉ systemFields)

theorem put {a : Int} {w k x : Str} (h : k ∉ systemFields) : Harmless ⟨a, .setk, w, k, x⟩ := ⟨by simp, fun _ => h⟩

theorem unprotected {k : Str} (h : protectedKeys.any (fun p => equalFold k p) = false) : k ∉ systemFields := by
  intro hk
  have : protectedKeys.any (fun p => equalFold k p) = true :=
    List.any_eq_true.2 ⟨k, (by decide : ∀ k ∈ systemFields, k ∈ protectedKeys) k hk, equalFold_refl k⟩
  rw [h] at this
  cases this

theorem lineRules {v : Env} {r : Repl} {line cmd : Str} {args : List Str} (ho : OtherLine line r)
    (hp : parseLine line = some (cmd, args)) : LineRules v r cmd args (fun _ => True) (· ∉ systemFields) Harmless := by
  have hc := ho.cmd cmd args hp
  have hname : keyName ∉ systemFields := by decide
  exact
    { rules :=
        { put := fun i w k x _ hk _ => put hk
          cut := fun i w k _ hk => ⟨by simp, fun _ => hk⟩
          add := fun i => ⟨by simp, by simp⟩
          touch := fun i w _ _ => put (by decide)
          keys := by decide
          ascii := fun _ _ => trivial
          inp := fun _ _ => trivial
          join := fun _ _ _ _ => trivial
          split := fun _ _ _ _ => trivial
          old := fun _ _ _ _ _ _ => trivial
          otp := fun _ _ _ _ => trivial
          editor := fun _ _ _ _ => trivial
          fileUrl := fun _ _ _ _ => trivial
          scpUrl := fun _ _ _ _ _ _ _ _ _ _ => trivial
          keypair := fun _ _ _ => ⟨trivial, trivial⟩ }
      value := fun _ _ _ _ _ => trivial
      setKey := fun _ q k x hx h => unprotected h
      editKey := fun _ q k l hx h => unprotected h
      cutKey := fun h q k l hx _ _ => ho.cut cmd args hp h q k l hx
      addName := fun _ nm l hx i => put hname
      syncName := fun _ kind l hx _ j => put hname
      mvName := fun _ src dst l hx w hw => put hname
      del := fun h => absurd (by subst h; decide) hc
      record := fun h => absurd (by rcases h with rfl | rfl | rfl <;> decide) hc
      userName := fun h => absurd (by subst h; decide) hc
      records := fun h => absurd (by subst h; decide) hc }

theorem meaning_field {k : Str} (hk : k ∈ systemFields) (w : Str) : ∀ (l : List Tx) (st st' : Txlogs.Spec.State),
    Txlogs.Spec.meaning st l = some st' → (∀ t ∈ l, Harmless t) → (st' w).bind (· k) = (st w).bind (· k)
  | [], st, st', h, _ => by cases h; rfl
  | t :: l, st, st', h, hq => by
    unfold Txlogs.Spec.meaning at h
    have ht := hq t (by simp)
    cases hap : Txlogs.Spec.apply st t with
    | none => rw [hap] at h; cases h
    | some st1 =>
      rw [hap] at h
      rw [meaning_field hk w l st1 st' h fun x hx => hq x (by simp [hx])]
      unfold Txlogs.Spec.apply at hap
      obtain ⟨time, kind, uuid, key, value⟩ := t
      obtain ⟨h1, h2⟩ := ht
      dsimp only at hap h1 h2
      cases kind <;> cases hst : st uuid <;> simp only [hst] at hap <;> try cases hap
      · by_cases hw : w = uuid
        · subst hw; simp [Txlogs.Spec.upd, hst]
        · simp [Txlogs.Spec.upd, hw]
      all_goals first
        | rfl
        | exact absurd rfl h1
        | (by_cases hw : w = uuid
           · subst hw
             have : k ≠ key := fun e => h2 (by simp) (e ▸ hk)
             simp [Txlogs.Spec.upd, hst, this]
           · simp [Txlogs.Spec.upd, hw])

end SystemFields

open SystemFields

/-- Whatever is typed, unless it is one of the commands for accounts, the system fields of all entries stay as they are. -/
theorem C132_line_partial (P : Prims) (C : Codec) (v : Env) (line : Str) (r : Repl) (h0 : r.u.store.txPoint = 0)
    (h : WellFormed r.u.store) (hl : OtherTurn v line r) (hn : (runLine P C v line r).2 ≠ .panic) (uuid k : Str)
    (hk : k ∈ systemFields) : field (runLine P C v line r).1.u.store uuid k = field r.u.store uuid k := by
  have hw := (C67_line_partial P C v line r h0 h hl.legal hn).1
  obtain ⟨l, hlog, hq, -⟩ := addsR_line (P := P) (C := C) h0 hl.legal.env h line hl.legal.utf8 hl.legal.noSync
    (fun _ _ _ hpl _ => lineRules hl.other hpl) hn
  obtain ⟨st', hm', -⟩ := hw.good.named
  obtain ⟨st, hm, -⟩ := h.good.named
  unfold field
  rw [hm', hm]
  rw [hlog, meaning_append, hm] at hm'
  exact meaning_field hk uuid l st st' hm' hq

/-- The same of any number of lines. -/
theorem C132_session_partial (P : Prims) (C : Codec) (turns : List Turn) (r : Repl) (h0 : r.u.store.txPoint = 0)
    (h : WellFormed r.u.store) (hl : Along P C OtherTurn turns r) (hn : (runRepl P C turns r).2 ≠ .panic) (uuid k : Str)
    (hk : k ∈ systemFields) : field (runRepl P C turns r).1.u.store uuid k = field r.u.store uuid k := by
  induction turns generalizing r with
  | nil => rfl
  | cons t rest ih =>
    obtain ⟨o, v⟩ := t
    cases o with
    | none => rfl
    | some line =>
      obtain ⟨h1, h2⟩ := hl
      have w := C67_line_partial P C v line r h0 h h1.legal
      have e := fun x => C132_line_partial P C v line r h0 h h1 x uuid k hk
      unfold runRepl at hn ⊢
      change Along P C OtherTurn rest (runLine P C v line r).1 at h2
      generalize runLine P C v line r = x at w e h2 hn ⊢
      obtain ⟨x, o⟩ := x
      rcases o with (_ | _) | y | _
      · exact (ih x (w (by simp)).2 (w (by simp)).1 h2 hn).trans (e (by simp))
      · exact e (by simp)
      · exact e (by simp)
      · exact absurd rfl hn

namespace SystemDemo
open Verif.Crypt.Spec (toy)
open ResumeDemo (uBob vBob legal)

def r0 : Repl := { u := uBob }

/-- the editor returns an empty text -/
def vE : Env := { vBob with editor := fun _ => some (some []) }

theorem wf : WellFormed r0.u.store := MapOrderDemo.u2_sound.1

theorem lawful {v : Env} (line : Str) (x : Str × List Str) (ha : line.all (fun b => b.toNat < 0x80) = true)
    (hp : parseLine line = some x) (hx : x.1 ≠ b! "sync") (h1 : v.ord = id) (h2 : v.ord' = id) (h3 : v.d.uuid = [6]) :
    LegalTurn v line r0 := legal (r := r0) wf.good (by decide +kernel) line x ha hp hx h1 h2 h3

/-- `set user/b note x` writes the note and leaves the salt -/
example : (runLine toy Json.Spec.codec vBob (b! "set user/b note x") r0).1.u.store.log ≠ r0.u.store.log ∧
    field r0.u.store [8] keySalt ≠ none ∧
    field (runLine toy Json.Spec.codec vBob (b! "set user/b note x") r0).1.u.store [8] keySalt = field r0.u.store [8] keySalt := by
  have hp : parseLine (b! "set user/b note x") = some (b! "set", [b! "user/b", b! "note", b! "x"]) := by decide +kernel
  refine ⟨by decide +kernel, by decide +kernel, ?_⟩
  refine C132_line_partial toy Json.Spec.codec vBob _ r0 (by decide +kernel) wf
    ⟨lawful _ _ (by decide) hp (by decide) rfl rfl rfl, ⟨?_, ?_⟩⟩ (by decide +kernel) [8] keySalt (by decide)
  · intro cmd args h
    rw [hp] at h
    cases h
    decide
  · intro cmd args h hc
    rw [hp] at h
    cases h
    exact absurd hc (by decide)

/-- `set user/b salt x` is refused, `rmk` and `edit` are not -/
theorem removed : field r0.u.store [8] keySalt ≠ none ∧
    field (runLine toy Json.Spec.codec vBob (b! "set user/b salt x") r0).1.u.store [8] keySalt = field r0.u.store [8] keySalt ∧
    field (runLine toy Json.Spec.codec vBob (b! "rmk user/b salt") r0).1.u.store [8] keySalt = none ∧
    field (runLine toy Json.Spec.codec vE (b! "edit user/b salt") r0).1.u.store [8] keySalt = none := by decide +kernel

end SystemDemo

open SystemDemo in
/-- C132 is false of `rmk`: it removes the salt of an account (blobs.go:372-382 does not follow the rule of `Set`). -/
theorem C132_rmk_false : ¬ ∀ (P : Prims) (C : Codec) (v : Env) (line : Str) (args : List Str) (r : Repl), r.u.store.txPoint = 0 →
    WellFormed r.u.store → LegalTurn v line r → parseLine line = some (b! "rmk", args) → (runLine P C v line r).2 ≠ .panic →
    ∀ uuid k, k ∈ systemFields → field (runLine P C v line r).1.u.store uuid k = field r.u.store uuid k := by
  intro h
  have hp : parseLine (b! "rmk user/b salt") = some (b! "rmk", [b! "user/b", b! "salt"]) := by decide +kernel
  have := h Crypt.Spec.toy Json.Spec.codec ResumeDemo.vBob _ _ r0 (by decide +kernel) wf (lawful _ _ (by decide) hp (by decide) rfl rfl rfl) hp
    (by decide +kernel) [8] keySalt (by decide)
  rw [removed.2.2.1] at this
  exact removed.1 this.symm

open SystemDemo in
/-- C132 is false of `edit`: saving an empty text removes the salt of an account. -/
theorem C132_edit_false : ¬ ∀ (P : Prims) (C : Codec) (v : Env) (line : Str) (args : List Str) (r : Repl), r.u.store.txPoint = 0 →
    WellFormed r.u.store → LegalTurn v line r → parseLine line = some (b! "edit", args) → (runLine P C v line r).2 ≠ .panic →
    ∀ uuid k, k ∈ systemFields → field (runLine P C v line r).1.u.store uuid k = field r.u.store uuid k := by
  intro h
  have hp : parseLine (b! "edit user/b salt") = some (b! "edit", [b! "user/b", b! "salt"]) := by decide +kernel
  have := h Crypt.Spec.toy Json.Spec.codec vE _ _ r0 (by decide +kernel) wf (lawful _ _ (by decide) hp (by decide) rfl rfl rfl) hp
    (by decide +kernel) [8] keySalt (by decide)
  rw [removed.2.2.2] at this
  exact removed.1 this.symm

end Verif.App
