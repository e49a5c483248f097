import Verif.App.CrashSpec
import Verif.App.RevokeProps
/-!
# The credentials of a session keep their sizes
-/
set_option linter.unusedSimpArgs false
namespace Verif.App
open Verif Verif.Txlogs Verif.Blob Verif.Crypt Verif.App.Spec

theorem passwd_sizes {P : Prims} (hP : Crypt.Spec.Lawful P) {ord : Order} {d : Draw} {u : Session} {user : Str} (hd : DrawOk d)
    (h : SomeCreds u.creds) : SomeCreds (passwd P ord d u user).1.creds := by
  unfold passwd
  split
  · exact h
  · exact h
  · split
    · exact h
    · simp only [deriveKey, ne_eq, not_true, if_false]
      split
      · split
        · exact ⟨hP.kdf_length _ _, hd.salt_length, h.master⟩
        · rw [storeUser_master]; exact ⟨hP.kdf_length _ _, hd.salt_length, h.master⟩
      · split
        · exact h
        · rw [storeUser_master]; exact h

theorem rekey_sizes {P : Prims} (hP : Crypt.Spec.Lawful P) {ord : Order} {d : Draw} {u : Session} {user : Str} (hd : DrawOk d)
    (h : SomeCreds u.creds) : SomeCreds (rekey P ord d u user).1.creds := by
  unfold rekey
  dsimp only
  split
  · exact h
  · exact h
  · split
    · exact h
    · simp only [deriveKey, ne_eq, not_true, if_false]
      split
      · split
        · exact ⟨hP.kdf_length _ _, hd.salt_length, h.master⟩
        · rw [storeUser_master]; exact ⟨hP.kdf_length _ _, hd.salt_length, h.master⟩
      · split
        · exact h
        · rw [storeUser_master]; exact h

theorem adduser_sizes {P : Prims} {ord : Order} {d : Draw} {u : Session} {user : Str} (hd : DrawOk d)
    (h : SomeCreds u.creds) : SomeCreds (adduser P ord d u user).1.creds := by
  unfold adduser
  split
  · exact h
  · exact h
  · exact h
  · dsimp only
    split
    · rw [finishUser_master]; exact ⟨h.key, h.salt, .inr ⟨hd.master_length, hd.ivm_length⟩⟩
    · split
      · exact h
      · exact h
      · simp only [deriveKey, ne_eq, not_true, if_false]
        rw [finishUser_master]; exact h

theorem rekeyLoop_sizes {P : Prims} (hP : Crypt.Spec.Lawful P) (l : List (Str × Str)) (ds : Nat → Draw) (u : Session) (out : List (Str × Str))
    (hd : ∀ i, (ds i).salt.length = 32) (h : SomeCreds u.creds) : SomeCreds (rekeyLoop P l ds u out).1.creds := by
  induction l generalizing ds u out with
  | nil => exact h
  | cons e l ih =>
    obtain ⟨uuid, nm⟩ := e
    unfold rekeyLoop
    dsimp only
    split
    · exact h
    · exact h
    · simp only [deriveKey, ne_eq, not_true, if_false]
      by_cases hu : splitUsername nm = u.creds.user
      · simp only [if_pos hu]
        have h' : ∀ pass, SomeCreds { u.creds with pass := pass, key := P.kdf pass (ds 0).salt, salt := (ds 0).salt } :=
          fun pass => ⟨hP.kdf_length _ _, hd 0, h.master⟩
        split
        · exact h' _
        · exact h' _
        · exact ih _ _ _ (fun i => hd _) (h' _)
      · simp only [if_neg hu]
        split
        · exact h
        · exact h
        · exact ih _ _ _ (fun i => hd _) h

theorem rekeyAll_sizes {P : Prims} (hP : Crypt.Spec.Lawful P) {ord : Order} {ord' : Results → Results} {d : Draw} {ds : Nat → Draw} {u : Session}
    (hd : DrawOk d) (hs : ∀ i, (ds i).salt.length = 32) (h : SomeCreds u.creds) : SomeCreds (rekeyAll P ord ord' d ds u).1.creds := by
  unfold rekeyAll
  split
  · exact h
  · split
    · exact h
    · exact h
    · split
      · exact h
      · exact h
      · rename_i s us _
        have hl := rekeyLoop_sizes hP (ord' us) ds { u with store := s } [] hs h
        cases hx : rekeyLoop P (ord' us) ds { u with store := s } [] with
        | mk u' o =>
          rw [hx] at hl
          cases o with
          | panic => exact hl
          | err e => exact hl
          | ok x => exact ⟨hl.key, hl.salt, .inr ⟨hd.master_length, hd.ivm_length⟩⟩

theorem deleteEntry_sizes {ord : Order} {now : Int} {inp : Input} {u : Session} {nm : Str}
    (h : SomeCreds u.creds) : SomeCreds (deleteEntry ord now inp u nm).1.creds := by
  have h' : SomeCreds { u.creds with master := [], ivm := [] } := ⟨h.key, h.salt, .inl rfl⟩
  unfold deleteEntry
  repeat' (first | split | dsimp only)
  all_goals first
    | exact h
    | exact h'

theorem back__creds {α : Type} {r : Repl} {x : Session × Res AppErr α} : (back_ r x).1.u = x.1 := by
  obtain ⟨u, o⟩ := x
  cases o <;> rfl

/-- Every line but `sync` keeps the credentials' sizes, whatever comes of it. -/
theorem line_sizes {P : Prims} (hP : Crypt.Spec.Lawful P) {C : Codec} {v : Env} {line : Str} {r : Repl} (hd : DrawsOk v)
    (hns : ∀ args, parseLine line ≠ some (b! "sync", args)) (h : SomeCreds r.u.creds) :
    SomeCreds (runLine P C v line r).1.u.creds := by
  unfold runLine
  cases hpl : parseLine line with
  | none => exact h
  | some p =>
    obtain ⟨cmd, args⟩ := p
    dsimp only
    cases hro : readOnlyFlag cmd with
    | none => exact h
    | some b =>
      cases b with
      | true =>
        have hs := (execRead_same v cmd args r).1
        dsimp only
        rw [hs.creds]
        exact h
      | false =>
        dsimp only
        split
        · exact h
        by_cases h1 : cmd = b! "passwd"
        · subst h1
          have he : execWrite P C v (b! "passwd") args r = back r (passwd P v.ord v.d r.u (args.head?.getD [])) := rfl
          rw [he, back_u]
          exact passwd_sizes hP hd.draw h
        by_cases h3 : cmd = b! "rekey"
        · subst h3
          have he : execWrite P C v (b! "rekey") args r = back r (rekey P v.ord v.d r.u (args.head?.getD [])) := rfl
          rw [he, back_u]
          exact rekey_sizes hP hd.draw h
        by_cases h2 : cmd = b! "adduser"
        · subst h2
          cases args with
          | nil =>
            have he : (execWrite P C v (b! "adduser") [] r).1 = r := rfl
            rw [he]; exact h
          | cons a l =>
            have he : execWrite P C v (b! "adduser") (a :: l) r = back r (adduser P v.ord v.d r.u a) := rfl
            rw [he, back_u]
            exact adduser_sizes hd.draw h
        by_cases h4 : cmd = b! "rekeyall"
        · subst h4
          have he : execWrite P C v (b! "rekeyall") args r = back_ r (rekeyAll P v.ord v.ord' v.d v.ds r.u) := rfl
          rw [he, back__creds]
          exact rekeyAll_sizes hP hd.draw hd.salts h
        have h5 : cmd ≠ b! "sync" := by rintro rfl; exact hns _ hpl
        by_cases h6 : cmd = b! "rm"
        · subst h6
          cases args with
          | nil =>
            have he : (execWrite P C v (b! "rm") [] r).1 = r := rfl
            rw [he]; exact h
          | cons nm l =>
            have he : execWrite P C v (b! "rm") (nm :: l) r = match back r (deleteEntry v.ord (v.d.now 0) v.d.inp r.u nm) with
              | (r, .ok b) => (if r.ctx = nm then { r with ctx := [] } else r, .ok b)
              | x => x := rfl
            rw [he]
            have hk := deleteEntry_sizes (ord := v.ord) (now := v.d.now 0) (inp := v.d.inp) (nm := nm) h
            rw [← back_u (r := r)] at hk
            generalize back r (deleteEntry v.ord (v.d.now 0) v.d.inp r.u nm) = x at hk ⊢
            obtain ⟨r', o⟩ := x
            cases o with
            | panic => exact hk
            | err e => exact hk
            | ok b =>
              dsimp only
              split
              · exact hk
              · exact hk
        have hw := meta_write (P := P) (C := C) (v := v) (r := r) cmd args h1 h2 h3 h4 h5 (fun hh => absurd hh h6)
        rw [hw.creds]
        exact h

end Verif.App
