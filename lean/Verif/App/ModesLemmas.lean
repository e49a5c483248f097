import Verif.App.ModesSpec
/-! # Lemmas for C113 -/
namespace Verif.App
open Verif Verif.Txlogs
open Modes

theorem newMode_private (umask : Nat) : newMode umask 0o600 &&& 0o77 = 0 := by
  unfold newMode
  rw [Nat.and_assoc, Nat.and_comm (0x1ff ^^^ (umask &&& 0x1ff)), ← Nat.and_assoc]
  have : 0o600 &&& 0o77 = 0 := by decide
  rw [this, Nat.zero_and]

theorem not_seen {fs : Fs} {path : Str} (h : ∀ n, fs path = some n → Private n) : seen fs path = none := by
  unfold seen
  cases hf : fs path with
  | none => rfl
  | some n =>
    have hp := h n hf
    unfold Private at hp
    have : n.mode &&& 4 = 0 := by
      have e : (4 : Nat) = 0o77 &&& 4 := by decide
      rw [e, ← Nat.and_assoc, hp, Nat.zero_and]
    simp [this]

theorem act_private (umask : Nat) (a : Act) (fs : Fs) (path : Str) (ha : Unexported path a) (h : ∀ n, fs path = some n → Private n) :
    ∀ n, act umask a fs path = some n → Private n := by
  have hput : ∀ p d, ∀ n, put umask 0o600 p d fs path = some n → Private n := by
    intro p d n hn
    unfold put setNode at hn
    split at hn
    · rename_i he
      subst he
      cases hn
      unfold Private
      cases hf : fs path with
      | none => exact newMode_private umask
      | some m => exact h m hf
    · exact h n hn
  cases a with
  | save p d => exact hput p d
  | push p d => exact hput p d
  | edit p d =>
    intro n hn
    cases hf : fs p with
    | some m =>
      simp only [act, putNew, hf] at hn
      exact h n hn
    | none =>
      simp only [act, putNew, hf] at hn
      unfold setNode at hn
      split at hn
      · cases hn
        exact newMode_private umask
      · exact h n hn
  | wipe p d =>
    intro n hn
    cases hm : fs p with
    | none =>
      simp only [act, hm] at hn
      exact h n hn
    | some m =>
      simp only [act, hm] at hn
      unfold setNode at hn
      split at hn
      · rename_i he
        subst he
        cases hn
        exact h m hm
      · exact h n hn
  | remove p =>
    intro n hn
    simp only [act, setNode] at hn
    split at hn
    · cases hn
    · exact h n hn
  | exportTo p d =>
    intro n hn
    simp only [act, put, setNode] at hn
    split at hn
    · rename_i he
      subst he
      exact absurd rfl (ha d)
    · exact h n hn

theorem run_private (umask : Nat) (as : List Act) (fs : Fs) (path : Str) (ha : ∀ a ∈ as, Unexported path a)
    (h : ∀ n, fs path = some n → Private n) : ∀ n, run umask as fs path = some n → Private n := by
  induction as generalizing fs with
  | nil => exact h
  | cons a as ih => exact ih _ (fun b hb => ha b (.tail _ hb)) (act_private umask a fs path (ha a (.head _)) h)

end Verif.App
