import Verif.App.KeyYearsProps
import Verif.App.LockoutDemo
/-!
# C88 over the life of a file: the hypotheses can be met

The primitives are `Crypt.Spec.toy`.
-/
set_option linter.unusedSimpArgs false
namespace Verif.App
open Verif Verif.Txlogs Verif.Blob Verif.Crypt Verif.App.Spec
open Verif.Crypt.Spec (toy toy_lawful)

namespace KeyYearsDemo
open Verif.App.SyncDemo (iv)
open LockDemo (u env here keyed user_a rs0 turn env_draw isUser_concrete)

/-- only "a" is a user -/
theorem roomy {l : List Tx} (h : ∀ t ∈ l, t.kind = .setk → t.key = keyName → hasPrefix t.value userPrefix = true →
    t.uuid = [9] ∧ t.value = userPrefix ++ [97]) : Roomy toy l := by
  refine ⟨?_, ?_⟩
  · intro us hnd hus
    have hall : ∀ x ∈ us, x = [9] := by
      intro x hx
      obtain ⟨t, ht, a, b, c, d⟩ := hus x hx
      rw [← b]
      exact (h t ht a c d).1
    cases us with
    | nil => simp
    | cons a us =>
      cases us with
      | nil => simp
      | cons b us =>
        rw [hall a (by simp), hall b (by simp)] at hnd
        simp at hnd
  · intro t ht t' ht' n n' a a' b b' c c' _
    have h1 := (h t ht a b (by rw [c]; exact user_prefix _)).2
    have h2 := (h t' ht' a' b' (by rw [c']; exact user_prefix _)).2
    rw [c] at h1
    rw [c'] at h2
    rw [List.append_cancel_left h1, List.append_cancel_left h2]

theorem clean {l : List Tx} (h : ∀ t ∈ l, Json.kindOf (Json.kindStr t.kind) = t.kind ∧
      (Json.kindStr t.kind).all (fun b => b.toNat < 0x80) = true ∧
      t.uuid.all (fun b => b.toNat < 0x80) = true ∧ t.key.all (fun b => b.toNat < 0x80) = true ∧
      t.value.all (fun b => b.toNat < 0x80) = true) : ∀ t ∈ l, Json.Spec.CleanTx t := by
  intro t ht
  obtain ⟨h1, h2, h3, h4, h5⟩ := h t ht
  exact ⟨h1, valid_ascii _ h2, valid_ascii _ h3, valid_ascii _ h4, valid_ascii _ h5⟩

theorem clean_u : ∀ t ∈ u.store.log, Json.Spec.CleanTx t := clean (by decide +kernel)

theorem writable_u : Writable toy u.store :=
  ⟨by unfold FitsInt64; decide +kernel, by unfold Counted; decide +kernel, roomy (by decide +kernel), _, _, user_a⟩

/-- the file of the session `LockDemo.u` -/
def file : Str :=
  match saveBlob toy Json.Spec.codec id id iv u with
  | .ok (some f) => f
  | _ => []

theorem file_saved : saveBlob toy Json.Spec.codec id id iv u = .ok (some file) := by decide +kernel

theorem start : KeyYears toy file rs0 u.store :=
  .saved (fun m => List.Perm.refl m) (fun m => List.Perm.refl m) keyed clean_u writable_u file_saved

-- C88: "a" opens the file with the password set last
example := C88_life_partial toy toy_lawful file rs0 _ start [9] [97] user_a

/-- the file opened by "a" -/
def opened : Session := { u with startTx := here.length }

theorem opened_eq : openFile toy Json.Spec.codec none file [some [97], some [1]] = (.ok opened, []) := by decide +kernel

attribute [irreducible] file

theorem same {α : Type} {o : Res AppErr α × Input} {a b : α} (h : o = (.ok a, [])) (h' : o = (.ok b, [])) : a = b := by
  subst h; cases h'; rfl

theorem autoSync_off {C : Codec} {v : Env} {r : Repl} : autoSync toy C v false r = (r, .ok ()) := by simp [autoSync]

theorem newest : Newest rs0 (LockDemo.rec [1] 1 8 9 10) := by
  refine ⟨by simp [rs0], fun r hr _ => ?_⟩
  simp only [rs0, List.mem_singleton] at hr
  exact .inl hr

theorem opened_keyed : Keyed toy opened rs0 := by
  obtain ⟨x, u', k1, k2, k3, k4, -⟩ := C88_life_partial toy toy_lawful file rs0 _ start [9] [97] user_a
  have he := newest_unique keyed.ring k1 newest (by rw [k2]; rfl)
  subst he
  exact same k3 opened_eq ▸ k4

theorem opened_log : opened.store.log = here := by decide +kernel

/-- the password is changed -/
theorem turn_passwd : KeyTurn env (b! "passwd") { u := opened } := by
  have hp : parseLine (b! "passwd") = some (b! "passwd", []) := by decide +kernel
  refine ⟨turn opened_keyed.sound (valid_ascii _ (by decide)) hp (by decide) (by rw [opened_log]; decide +kernel)
    (by rw [opened_log]; decide +kernel) (by decide +kernel), env_draw, fun cmd args h => ?_⟩
  rw [hp] at h
  cases h
  exact ⟨fun h => absurd h (by decide), fun h => absurd h (by decide), fun h => absurd h (by decide), by decide,
    fun h => absurd h (by decide), fun h => absurd h (by decide)⟩

theorem env_text : TextEnv env where
  typed := fun x hx => by
    have : ∀ x, some x ∈ ([some (b! "m"), some [2], some [2]] : Input) → x.all (fun b => b.toNat < 0x80) = true := by
      intro x hx
      simp only [List.mem_cons, Option.some.injEq, List.not_mem_nil, or_false] at hx
      rcases hx with rfl | rfl | rfl <;> decide
    exact valid_ascii _ (this x hx)
  uuid := valid_ascii [8] (by decide)
  otp := fun w x _ hx => hx
  editor := fun x y hx hy => by cases hy; exact hx
  fileUrl := fun x y hx hy => by cases hy; exact hx
  scpUrl := fun _ _ _ _ _ _ _ _ hd _ => hd
  keypair := fun a b h => by cases h

def run : Repl × Res AppErr (Option Str) := session toy Json.Spec.codec false env env iv [(some (b! "passwd"), env)] opened

theorem run_eq : session toy Json.Spec.codec false env env iv [(some (b! "passwd"), env)] opened = run := rfl

def newFile : Str :=
  match run.2 with
  | .ok (some f) => f
  | _ => []

attribute [irreducible] run newFile

theorem run_log : run.1.u.store.log = here ++ (LockDemo.rec [2] 2 100 101 102).ops := by decide +kernel

theorem run_user : IsUser run.1.u.store [9] [97] := by
  have hw : Good run.1.u.store := by
    have h := C88_session_partial toy toy_lawful Json.Spec.codec [(some (b! "passwd"), env)] { u := opened } rs0 opened_keyed
      ⟨.inl turn_passwd, trivial⟩ (by decide +kernel)
    obtain ⟨⟨rs', h1, -⟩, -⟩ := h
    have : run.1.u = (runRepl toy Json.Spec.codec [(some (b! "passwd"), env)] { u := opened }).1.u := by decide +kernel
    rw [this]
    exact h1.sound.wf.good
  refine (Demo.named_concrete hw [9] _).2 ?_
  exact ⟨[(keyName, userPrefix ++ [97]), (keySalt, hexEncode (List.replicate 32 2)),
    (keyIV, hexEncode (List.replicate 40 2)), (keyMKey, hexEncode (LockDemo.wrap [2] (List.replicate 40 2)))],
    by decide +kernel, by decide +kernel⟩

theorem run_ok : KeyRun toy false env env iv [(some (b! "passwd"), env)] opened := by
  refine ⟨fun m => List.Perm.refl m, fun m => List.Perm.refl m, by simp, ?_, by simp, ?_⟩
  · rw [autoSync_off]
    exact ⟨⟨.inl turn_passwd, .inl ⟨turn_passwd.turn.legal, env_text⟩⟩, trivial⟩
  rw [run_eq]
  refine ⟨?_, ?_, ?_, _, _, run_user⟩
  · rw [run_log]; unfold FitsInt64; decide +kernel
  · unfold Counted; rw [run_log]; decide +kernel
  · rw [run_log]; exact roomy (by decide +kernel)

-- C88: the next run, in which the password is changed
example := C88_next_partial toy toy_lawful file rs0 _ start [9] [97] _ user_a newest rfl false env env iv [(some (b! "passwd"), env)] opened
  run.1 newFile opened_eq run_ok (run_eq.trans (Prod.ext rfl (by decide +kernel)))

end KeyYearsDemo
end Verif.App
