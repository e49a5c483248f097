import Verif.Txlogs.MergeProps
/-!
# C13 without conditions on what the logs have in common
-/
namespace Verif.Txlogs
open Verif Spec

theorem chrono_sublist : ∀ (l c : List Tx), Chrono l → Chrono c → (∀ t ∈ l, t ∈ c) → l.Sublist c
  | [], c, _, _, _ => List.nil_sublist c
  | t :: l, [], _, _, h => absurd (h t (List.mem_cons_self ..)) (by simp)
  | t :: l, s :: c, hl, hc, h => by
    have hl' := List.pairwise_cons.1 hl
    have hc' := List.pairwise_cons.1 hc
    rcases List.mem_cons.1 (h t (List.mem_cons_self ..)) with rfl | ht
    · refine (chrono_sublist l c hl'.2 hc'.2 fun x hx => ?_).cons_cons _
      rcases List.mem_cons.1 (h x (List.mem_cons_of_mem _ hx)) with rfl | hm
      · exact absurd (hl'.1 _ hx) (by omega)
      · exact hm
    · refine (chrono_sublist (t :: l) c hl hc'.2 fun x hx => ?_).cons _
      rcases List.mem_cons.1 (h x hx) with rfl | hm
      · exfalso
        have h1 := hc'.1 _ ht
        rcases List.mem_cons.1 hx with rfl | hx
        · omega
        · have := hl'.1 _ hx; omega
      · exact hm

/-- The log of this machine is in the merged one, in its order, whatever the logs are. -/
theorem C13_local (a b c : List Tx) (h : merge a b [] = .log c) : a.Sublist c := by
  by_cases hne : a ≠ [] ∨ b ≠ []
  · rcases merge_nil a b hne with ⟨h1, h2⟩ | ⟨-, st', -, -, -, -, h2⟩
    · rw [h2] at h; cases h; exact List.Sublist.refl _
    · rw [h2] at h
      split at h
      · cases h; exact mt_sublist_left 0 a b
      · cases h
  · simp at hne
    rw [hne.1]; exact List.nil_sublist _

/-- For chronological logs, whatever else they have in common: the operations of either side that are in the merged log are there
in the order they had. -/
theorem C13_order (a b c : List Tx) (ha : Chrono a) (hb : Chrono b) (h : merge a b [] = .log c) :
    (a.filter (· ∈ c)).Sublist c ∧ (b.filter (· ∈ c)).Sublist c := by
  have hc := (C13_chronological a b c ha hb h).1
  exact ⟨chrono_sublist _ _ (List.Pairwise.filter _ ha) hc fun t ht => by simpa using (List.mem_filter.1 ht).2,
    chrono_sublist _ _ (List.Pairwise.filter _ hb) hc fun t ht => by simpa using (List.mem_filter.1 ht).2⟩

def swapA : List Tx := [⟨1, .add, b! "u", [], []⟩, ⟨2, .setk, b! "u", b! "k", b! "v"⟩, ⟨3, .setk, b! "u", b! "k", b! "w"⟩,
  ⟨5, .setk, b! "u", b! "j", b! "x"⟩]
def swapB : List Tx := [⟨1, .add, b! "u", [], []⟩, ⟨3, .setk, b! "u", b! "k", b! "w"⟩, ⟨2, .setk, b! "u", b! "k", b! "v"⟩,
  ⟨5, .setk, b! "u", b! "j", b! "x"⟩]

/-- For logs that are not chronological it is false: logs of equal length with the same first and last operation are taken for
identical (txlogs.go:339-347), and if the other side's clock was set back in between, its operations lose their order; here the
value that was written last there is not the one that is read after the merge. -/
theorem C13_false : ¬ ∀ (a b c : List Tx), SameIds a b → Replays a → Replays b → merge a b [] = .log c →
    (b.filter (· ∈ c)).Sublist c := by
  intro h
  have hc := h swapA swapB swapA (by simp [SameIds, swapA, swapB]) (by unfold Replays; decide) (by unfold Replays; decide) (by decide)
  revert hc
  decide

/-- Non-vacuity: two chronological logs with something of their own each. -/
example : (exA.filter (· ∈ exAB)).Sublist exAB ∧ (exB.filter (· ∈ exAB)).Sublist exAB ∧ exA.Sublist exAB :=
  ⟨(C13_order exA exB exAB (by simp [Chrono, exA]) (by simp [Chrono, exB]) exAB_merge).1,
    (C13_order exA exB exAB (by simp [Chrono, exA]) (by simp [Chrono, exB]) exAB_merge).2, C13_local exA exB exAB exAB_merge⟩

end Verif.Txlogs
