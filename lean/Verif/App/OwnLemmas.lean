import Verif.App.AccessLemmas
import Verif.App.MetaLemmas
import Verif.App.SoundProps
import Verif.App.SessionProps
/-!
# The password of a single-user file
-/
set_option linter.unusedSimpArgs false
namespace Verif.App
open Verif Verif.Txlogs Verif.Blob Verif.Crypt Verif.App.Spec

theorem own_meta {P : Prims} {u u' : Session} {pass : Str} (h : OwnSession P u pass) (hm : Meta u u') : OwnSession P u' pass :=
  ⟨hm.readOnly.trans h.writable, by rw [hm.creds]; exact h.user, by rw [hm.creds]; exact h.creds, h.pass_ne,
    by rw [hm.creds]; exact h.key, by rw [hm.creds]; exact h.typed⟩

theorem own_back {P : Prims} {r : Repl} {x : Session × Res AppErr Unit} {pass : Str} (h : OwnSession P x.1 pass) :
    OwnSession P (back r x).1.u pass := by
  obtain ⟨u, o⟩ := x
  cases o <;> exact h

theorem own_passwd {P : Prims} (hP : Crypt.Spec.Lawful P) {ord : Order} {d : Draw} {u : Session} {pass user : Str}
    (h : OwnSession P u pass) (hd : d.salt.length = 32) :
    OwnSession P (passwd P ord d u user).1
      (match getPassword d.ent d.inp with
      | .ok p => if p = [] then pass else p
      | _ => pass) := by
  unfold passwd
  cases hg : getPassword d.ent d.inp with
  | panic => exact h
  | err e => exact h
  | ok p =>
    dsimp only
    by_cases hp : p = []
    · rw [if_pos hp, if_pos hp]; exact h
    · rw [if_neg hp, if_neg hp]
      have hdk : deriveKey P 1 p d.salt = .ok (P.kdf p d.salt, d.salt) := rfl
      simp only [hdk, h.user, true_or, if_true, h.creds.master]
      exact ⟨h.writable, rfl, ⟨rfl, hP.kdf_length _ _, hd⟩, hp, rfl, .inl rfl⟩

theorem own_rekey {P : Prims} (hP : Crypt.Spec.Lawful P) {ord : Order} {d : Draw} {u : Session} {pass user : Str}
    (h : OwnSession P u pass) (hd : d.salt.length = 32) : OwnSession P (rekey P ord d u user).1 pass := by
  unfold rekey
  dsimp only
  by_cases hu : user = []
  · simp only [hu, if_true]
    by_cases hp : u.creds.pass = []
    · rw [if_pos hp]; exact h
    · have hpp : u.creds.pass = pass := h.typed.resolve_right hp
      have hdk : deriveKey P 1 u.creds.pass d.salt = .ok (P.kdf u.creds.pass d.salt, d.salt) := rfl
      simp only [hp, if_false, hdk, h.creds.master, if_true]
      exact ⟨h.writable, h.user, ⟨rfl, hP.kdf_length _ _, hd⟩, h.pass_ne, by simp [hpp], .inl hpp⟩
  · simp only [hu, if_false]
    cases hg : getPassword d.ent d.inp with
    | panic => exact h
    | err e => exact h
    | ok p =>
      dsimp only
      by_cases hp : p = []
      · rw [if_pos hp]; exact h
      · have hdk : deriveKey P 1 p d.salt = .ok (P.kdf p d.salt, d.salt) := rfl
        simp only [hp, if_false, hdk, h.creds.master, if_true]
        exact h

/-- One line in a single-user file other than `adduser` and `sync`. -/
theorem own_line_of {P : Prims} (hP : Crypt.Spec.Lawful P) {C : Codec} {v : Env} {line : Str} {r : Repl} {pass : Str}
    (h : OwnSession P r.u pass) (hsalt : v.d.salt.length = 32) (hadd : ∀ args, parseLine line ≠ some (b! "adduser", args))
    (hsync : ∀ args, parseLine line ≠ some (b! "sync", args)) : OwnSession P (runLine P C v line r).1.u (passAfter v line pass) := by
  unfold runLine passAfter
  cases hpl : parseLine line with
  | none => exact h
  | some p =>
    obtain ⟨cmd, args⟩ := p
    dsimp only
    cases hro : readOnlyFlag cmd with
    | none =>
      have : cmd ≠ b! "passwd" := by rintro rfl; exact absurd hro (by decide)
      rw [if_neg this]; exact h
    | some b =>
      cases b with
      | true =>
        have : cmd ≠ b! "passwd" := by rintro rfl; exact absurd hro (by decide)
        rw [if_neg this]
        have hs := (execRead_same v cmd args r).1
        exact own_meta h ⟨hs.creds, hs.readOnly, hs.startTx⟩
      | false =>
        dsimp only
        rw [h.writable]
        simp only [Bool.false_eq_true, if_false]
        by_cases h1 : cmd = b! "passwd"
        · rw [if_pos h1]
          subst h1
          have he : execWrite P C v (b! "passwd") args r = back r (passwd P v.ord v.d r.u (args.head?.getD [])) := rfl
          rw [he]
          exact own_back (own_passwd hP h hsalt)
        rw [if_neg h1]
        by_cases h3 : cmd = b! "rekey"
        · subst h3
          have he : execWrite P C v (b! "rekey") args r = back r (rekey P v.ord v.d r.u (args.head?.getD [])) := rfl
          rw [he]
          exact own_back (own_rekey hP h hsalt)
        by_cases h4 : cmd = b! "rekeyall"
        · subst h4
          have he : execWrite P C v (b! "rekeyall") args r = back_ r (rekeyAll P v.ord v.ord' v.d v.ds r.u) := rfl
          rw [he, back__u]
          unfold rekeyAll
          rw [if_pos h.creds.master]
          exact h
        have h2 : cmd ≠ b! "adduser" := by rintro rfl; exact hadd _ hpl
        have h5 : cmd ≠ b! "sync" := by rintro rfl; exact hsync _ hpl
        refine own_meta h (meta_write cmd args h1 h2 h3 h4 h5 (fun _ nm l _ => ?_))
        rw [h.user]
        exact Classical.em _

/-- One line in a single-user file. -/
theorem own_line {P : Prims} (hP : Crypt.Spec.Lawful P) {C : Codec} {v : Env} {line : Str} {r : Repl} {pass : Str}
    (h : OwnSession P r.u pass) (hl : OwnTurn v line r) : OwnSession P (runLine P C v line r).1.u (passAfter v line pass) :=
  own_line_of hP h hl.salt hl.noAdd hl.turn.legal.noSync

end Verif.App
