import Verif.Go.Basic
/-!
# Sorting strings

`slices.Sort` on `[]string` orders by bytes. The result for a given multiset of strings is unique, so insertion sort stands for
whatever algorithm the library uses.
-/
namespace Verif

/-- `a <= b` on strings -/
def strLe : Str → Str → Bool
  | [], _ => true
  | _ :: _, [] => false
  | a :: s, b :: t => if a = b then strLe s t else decide (a.toNat < b.toNat)

def insertStr (x : Str) : List Str → List Str
  | [] => [x]
  | y :: l => if strLe x y then x :: y :: l else y :: insertStr x l

/-- `slices.Sort` -/
def sortStr : List Str → List Str
  | [] => []
  | x :: l => insertStr x (sortStr l)

/-- the keys of the set `map[string]struct{}` filled from a list -/
def dedup : List Str → List Str
  | [] => []
  | x :: l => if x ∈ dedup l then dedup l else x :: dedup l

theorem mem_dedup {l : List Str} {x : Str} : x ∈ dedup l ↔ x ∈ l := by
  induction l with
  | nil => exact Iff.rfl
  | cons y l ih =>
    unfold dedup
    split
    · rename_i h
      rw [List.mem_cons]
      constructor
      · exact fun h' => .inr (ih.1 h')
      · rintro (rfl | h')
        · exact h
        · exact ih.2 h'
    · rw [List.mem_cons, List.mem_cons, ih]

theorem nodup_dedup (l : List Str) : (dedup l).Nodup := by
  induction l with
  | nil => exact List.nodup_nil
  | cons y l ih =>
    unfold dedup
    split
    · exact ih
    · rename_i h
      exact List.nodup_cons.2 ⟨h, ih⟩

theorem strLe_refl (a : Str) : strLe a a = true := by
  induction a with
  | nil => rfl
  | cons x s ih => simp [strLe, ih]

theorem strLe_total (a b : Str) : strLe a b = true ∨ strLe b a = true := by
  induction a generalizing b with
  | nil => left; rfl
  | cons x s ih =>
    cases b with
    | nil => right; rfl
    | cons y t =>
      simp only [strLe]
      by_cases h : x = y
      · subst h; simpa using ih t
      · have hn : x.toNat ≠ y.toNat := fun hh => h (UInt8.toNat_inj.1 hh)
        simp only [h, Ne.symm h, if_false, decide_eq_true_eq]
        omega

theorem strLe_trans {a b c : Str} (h1 : strLe a b = true) (h2 : strLe b c = true) : strLe a c = true := by
  induction a generalizing b c with
  | nil => rfl
  | cons x s ih =>
    cases b with
    | nil => simp [strLe] at h1
    | cons y t =>
      cases c with
      | nil => simp [strLe] at h2
      | cons z r =>
        simp only [strLe] at h1 h2 ⊢
        by_cases h : x = y
        · subst h
          rw [if_pos rfl] at h1
          by_cases h' : x = z
          · subst h'; rw [if_pos rfl] at h2 ⊢; exact ih h1 h2
          · rw [if_neg h'] at h2 ⊢; exact h2
        · rw [if_neg h] at h1
          by_cases h' : y = z
          · subst h'; rw [if_neg h]; exact h1
          · rw [if_neg h'] at h2
            have : x ≠ z := by
              rintro rfl
              simp only [decide_eq_true_eq] at h1 h2
              omega
            rw [if_neg this]
            simp only [decide_eq_true_eq] at h1 h2 ⊢
            omega

theorem strLe_antisymm {a b : Str} (h1 : strLe a b = true) (h2 : strLe b a = true) : a = b := by
  induction a generalizing b with
  | nil => cases b with
    | nil => rfl
    | cons y t => simp [strLe] at h2
  | cons x s ih =>
    cases b with
    | nil => simp [strLe] at h1
    | cons y t =>
      simp only [strLe] at h1 h2
      by_cases h : x = y
      · subst h
        rw [if_pos rfl] at h1 h2
        rw [ih h1 h2]
      · rw [if_neg h] at h1
        rw [if_neg (Ne.symm h)] at h2
        simp only [decide_eq_true_eq] at h1 h2
        omega

theorem insertStr_perm (x : Str) (l : List Str) : (insertStr x l).Perm (x :: l) := by
  induction l with
  | nil => exact List.Perm.refl _
  | cons y l ih =>
    unfold insertStr
    split
    · exact List.Perm.refl _
    · exact ((List.Perm.cons y ih).trans (List.Perm.swap x y l))

theorem sortStr_perm (l : List Str) : (sortStr l).Perm l := by
  induction l with
  | nil => exact List.Perm.refl _
  | cons x l ih => exact (insertStr_perm x _).trans (List.Perm.cons x ih)

theorem insertStr_sorted (x : Str) (l : List Str) (h : l.Pairwise (fun a b => strLe a b = true)) :
    (insertStr x l).Pairwise (fun a b => strLe a b = true) := by
  induction l with
  | nil => simp [insertStr]
  | cons y l ih =>
    have h' := List.pairwise_cons.1 h
    unfold insertStr
    split
    · rename_i hxy
      refine List.pairwise_cons.2 ⟨?_, h⟩
      intro z hz
      rcases List.mem_cons.1 hz with rfl | hz
      · exact hxy
      · exact strLe_trans hxy (h'.1 z hz)
    · rename_i hxy
      refine List.pairwise_cons.2 ⟨?_, ih h'.2⟩
      intro z hz
      rcases List.mem_cons.1 ((insertStr_perm x l).mem_iff.1 hz) with rfl | hz
      · exact (strLe_total z y).resolve_left hxy
      · exact h'.1 z hz

theorem sortStr_sorted (l : List Str) : (sortStr l).Pairwise (fun a b => strLe a b = true) := by
  induction l with
  | nil => exact List.Pairwise.nil
  | cons x l ih => exact insertStr_sorted x _ ih

theorem mem_sortStr {l : List Str} {x : Str} : x ∈ sortStr l ↔ x ∈ l := (sortStr_perm l).mem_iff

theorem nodup_sortStr {l : List Str} : (sortStr l).Nodup ↔ l.Nodup := (sortStr_perm l).nodup_iff

/-- Two sorted lists with the same elements are equal: the result of sorting does not depend on the order met. -/
theorem sorted_unique {l m : List Str} (hl : l.Pairwise (fun a b => strLe a b = true))
    (hm : m.Pairwise (fun a b => strLe a b = true)) (h : l.Perm m) : l = m :=
  h.eq_of_pairwise (fun _ _ _ _ h1 h2 => strLe_antisymm h1 h2) hl hm

theorem sortStr_congr {l m : List Str} (h : l.Perm m) : sortStr l = sortStr m :=
  sorted_unique (sortStr_sorted l) (sortStr_sorted m) (((sortStr_perm l).trans h).trans (sortStr_perm m).symm)

end Verif
