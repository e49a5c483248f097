import Verif.App.ClipProps
import Verif.App.FileProps
import Verif.App.ShowProps

namespace Verif.App
open Verif.Blob Verif.Txlogs Verif.Crypt Verif.App.Spec
open Verif.Crypt.Spec (toy toy_lawful)

/-! C104: what does stay in the clipboard, and that the hypotheses can be met -/

namespace ClipDemo

/-- what a new file is made with -/
def newPass : Input := [some [1], some [1]]

/-- An entry is added with a password entered by hand, the password is copied, and then the password prompt is answered with a blank. -/
def turns : List Turn :=
  [(some (b! "add a"), { d := { uuid := b! "u", inp := [some [], some [], some (b! "m"), some [7], some [7]] } }),
   (some (b! "pass a"), {}),
   (some (b! "set a pass"), { d := { now := fun n => 10 + n, inp := [some (b! " ")] } })]

end ClipDemo
open ClipDemo

/-- False without the hypothesis of `C104_cleared`: the program crashes and the password stays in the clipboard. -/
theorem C104_crash_false : ¬ ∀ (P : Prims) (C : Codec) (date : Str → Str) (history : Option Int) (salt iv : Str) (v v' : Env) (job : Job)
    (inp : Input) (old : Disk) (clip : Str), clipAfter P C date true true history salt iv v v' job inp old clip = [] := by
  intro hall
  have := hall toy (Demo.codec {}) id none (List.replicate 32 1) (List.replicate 40 2) {} {} (.prompt false turns) newPass none []
  revert this
  decide +kernel

example : (main toy (Demo.codec {}) none (List.replicate 32 1) (List.replicate 40 2) {} {} (.prompt false turns) newPass none).2 = .panic ∧
    clipAfter toy (Demo.codec {}) id true true none (List.replicate 32 1) (List.replicate 40 2) {} {} (.prompt false turns) newPass none [] =
      [7] := by decide +kernel

/-- `bpass gen` leaves the password it copied in the clipboard. -/
theorem C104_gen (ent : Nat → Nat → UInt8) (pre rest : Input) (c pw clip : Str) (hpre : ∀ x ∈ pre, Asks x)
    (hc : (fields c).head? = some (b! "c")) (h : getPassword ent (pre ++ some c :: some (b! "y") :: rest) = .ok pw) :
    clipAfterGen ent true (pre ++ some c :: some (b! "y") :: rest) clip = pw := by
  unfold clipAfterGen copyAll
  rw [C104_accepted ent pre rest c pw hpre hc h]
  rfl

theorem C104_gen_false : ¬ ∀ (ent : Nat → Nat → UInt8) (inp : Input) (clip : Str), clipAfterGen ent true inp clip = [] := by
  intro hall
  have := hall (fun _ _ => 0) [some (b! "c"), some (b! "y")] []
  revert this
  decide +kernel

/-- False: a run that copies nothing leaves the clipboard alone. (It loses what the user had in it.) -/
theorem C104_erased_false : ¬ ∀ (P : Prims) (C : Codec) (date : Str → Str) (history : Option Int) (salt iv : Str) (v v' : Env) (job : Job)
    (inp : Input) (old : Disk) (clip : Str), mainCopies P C date history salt v job inp old = [] →
    clipAfter P C date true true history salt iv v v' job inp old clip = clip := by
  intro hall
  have := hall toy (Demo.codec {}) id none [] [] {} {} (.prompt false []) [] none [5] (by decide +kernel)
  revert this
  decide +kernel

/-! ## Not vacuous -/

namespace ClipDemo
open ShowDemo (u r0 e u_wf u_env u_picks u_entry)

/-- C104_only, C104_what, C104_word: `pass bank` copies the password. -/
example : lineCopies id Demo.vV (b! "pass bank") r0 = [b! "p"] :=
  C104_word id Demo.vV r0 (b! "pass bank") keyPass (b! "bank") [1] [b! "bank"] e (u_env _ rfl rfl rfl) u_wf.1 (by decide +kernel) (by simp)
    rfl ((u_wf.2 _ _).2 (by simp)) u_entry

/-- C104_cp: `cp bank url` copies, `get bank url` does not. -/
example : lineCopies id Demo.vV (b! "cp bank url") r0 = [b! "http://b"] ∧ lineCopies id Demo.vV (b! "get bank url") r0 = [] :=
  ⟨(C104_cp id Demo.vV r0 (b! "cp bank url") (b! "cp") (b! "bank") keyURL [1] [b! "bank", keyURL] e (u_env _ rfl rfl rfl) u_wf.1
      (by decide +kernel) rfl ((u_wf.2 _ _).2 (by simp)) u_entry (by decide) (by decide)).1 rfl,
   (C104_cp id Demo.vV r0 (b! "get bank url") (b! "get") (b! "bank") keyURL [1] [b! "bank", keyURL] e (u_env _ rfl rfl rfl) u_wf.1
      (by decide +kernel) rfl ((u_wf.2 _ _).2 (by simp)) u_entry (by decide) (by decide)).2 rfl⟩

/-- C104_login: without an answer only the user is copied, with one the password too. -/
example : loginCopies Demo.vV u (b! "bank") = [b! "me"] ∧ loginCopies (Demo.vL [some []]) u (b! "bank") = [b! "me", b! "p"] := by
  have hc : ∀ v, CodeOk v e := by
    intro v x h
    rw [show e keyTwoFactor = none from by decide] at h
    cases h
  exact ⟨(C104_login Demo.vV u (b! "bank") [1] e (u_env _ rfl rfl rfl) u_wf.1 (u_picks _ rfl rfl rfl) u_entry (hc _) [] [] rfl (.inl rfl)).trans
      (by decide +kernel),
    (C104_login (Demo.vL [some []]) u (b! "bank") [1] e (u_env _ rfl rfl rfl) u_wf.1 (u_picks _ rfl rfl rfl) u_entry (hc _) [[]] [] rfl
      (.inl rfl)).trans (by decide +kernel)⟩

/-- C104_login_says -/
example : ∃ l, (login (Demo.vL [some []]) u (b! "bank")).2 = .ok l ∧ l ≠ [] := ⟨[(keyUser, b! "me"), (keyPass, b! "p")], by decide +kernel, by decide⟩

/-- an entry with a key for codes -/
def rT : Repl := { u := { store := opened [⟨0, .add, [1], [], []⟩, ⟨0, .setk, [1], keyName, b! "bank"⟩, ⟨0, .setk, [1], keyTwoFactor, b! "k"⟩] } }
def vT : Env := { Demo.vV with totp := fun _ => some (b! "123456") }
def eT : Str → Option Str := Txlogs.Spec.upd (Txlogs.Spec.upd (fun _ => none) keyName (some (b! "bank"))) keyTwoFactor (some (b! "k"))

theorem rT_wf : WellFormed rT.u.store ∧ ∀ w n, Blob.Spec.Named rT.u.store w n ↔ (w, n) ∈ [(([1] : Str), b! "bank")] :=
  wf_check (ok_opened _) _ (by decide +kernel) (by decide +kernel) (by decide) (by decide)

/-- C104_code -/
example : lineCopies id vT (b! "totp bank") rT = [b! "123456"] :=
  C104_code id vT rT (b! "totp bank") (b! "bank") [1] (b! "k") [b! "bank"] eT
    ⟨Demo.perm_id, Demo.perm_id', by decide, Demo.fresh_concrete rT_wf.1.good (by decide +kernel)⟩ rT_wf.1 (by decide +kernel) rfl
    ((rT_wf.2 _ _).2 (by simp)) ⟨_, rfl, rfl⟩ (by decide) (by decide) (by decide)

/-- C104_accepted, C104_gen: the first password is copied after one change of its length. -/
example : ∃ pw, pw ≠ [] ∧ getPassword (fun _ _ => 0) ([some (b! "l 10")] ++ some (b! "c") :: some (b! "y") :: []) = .ok pw ∧
    ∀ x ∈ [some (b! "l 10")], Asks x :=
  ⟨match getPassword (fun _ _ => 0) [some (b! "l 10"), some (b! "c"), some (b! "y")] with | .ok x => x | _ => [], by decide +kernel,
    by decide +kernel, by
      intro x hx
      rw [List.mem_singleton.1 hx]
      exact ⟨_, rfl, by decide, by decide⟩⟩

/-- C104_set -/
example : ∃ pw, (lineCopies id (Demo.vL [some (b! "c"), some (b! "y")]) (b! "set bank pass") r0).getLast? = some pw ∧
    KeyNow [1] keyPass (some pw) 0 e u (setCmd (Demo.vL [some (b! "c"), some (b! "y")]) u (b! "bank") keyPass []).1 := by
  refine ⟨match getPassword Demo.vV.d.ent [some (b! "c"), some (b! "y")] with | .ok x => x | _ => [], ?_⟩
  exact C104_set id (Demo.vL [some (b! "c"), some (b! "y")]) r0 (b! "set bank pass") (b! "bank") [1] [b! "bank", keyPass] e [] [] (b! "c") _ rfl
    (u_env _ rfl rfl rfl) u_wf.1 (by decide +kernel) rfl (u_picks _ rfl rfl rfl) u_entry (fun _ h => by cases h) (by decide +kernel) rfl
    (by decide +kernel)

/-- C104_session: the value that was set is what is copied. -/
example : Along toy SyncDemo.C LegalTurn [(some (b! "set bank note hi"), Demo.vV), (some (b! "cp bank note"), Demo.vV)] r0 ∧
    replCopies toy SyncDemo.C id [(some (b! "set bank note hi"), Demo.vV), (some (b! "cp bank note"), Demo.vV)] r0 = [b! "hi"] :=
  ⟨⟨ShowDemo.r0_legal, Demo.legal_of (x := (b! "cp", [b! "bank", b! "note"])) rfl rfl (by decide) ShowDemo.r1_wf.1.good (by decide +kernel)
      (by decide) (by decide +kernel) (by decide), trivial⟩, by decide +kernel⟩

/-- C104_cleared: the run before its third line. -/
example : (main toy (Demo.codec {}) none (List.replicate 32 1) (List.replicate 40 2) {} {} (.prompt false (turns.take 2)) newPass none).2 ≠ .panic ∧
    mainCopies toy (Demo.codec {}) id none (List.replicate 32 1) {} (.prompt false (turns.take 2)) newPass none = [[7]] := by decide +kernel

/-- C104_alone -/
example : mainCopies toy (Demo.codec {}) id none (List.replicate 32 1) {} (.prompt false (turns.take 1)) newPass none = [] := by decide +kernel

/-- C104_add_asks, C104_set_asks, C104_addsync_asks: places where the password is asked for, and where it is not -/
example : (addInput (Demo.vL [some [], some [], some (b! " ")]) u (b! "x")).isSome = true ∧
    getPassword Demo.vV.d.ent [some (b! " ")] = .panic ∧ (addInput (Demo.vL [some []]) u (b! "x")).isSome = false ∧
    (setInput Demo.vV u (b! "bank") keyPass []).isSome = true ∧ (setInput Demo.vV u (b! "bank") keyPass (b! "x")).isSome = false ∧
    (addSyncInput (Demo.vL [some (b! "u"), some (b! "h"), some (b! "22"), some (b! "f"), some (b! "3")]) u syncSCP).isSome = true ∧
    (addSyncInput (Demo.vL [some (b! "u"), some (b! "h"), some (b! "22"), some (b! "f"), some (b! "1")]) u syncSCP).isSome = false := by
  decide +kernel

end ClipDemo

end Verif.App
