import Verif.Txlogs.MergeSpec
import Verif.Txlogs.Lemmas
/-! Helper lemmas about `Merge`. -/
set_option linter.unusedSimpArgs false
namespace Verif.Txlogs
open Verif Spec

/-- Two-pointer union with a tag: `some i` = taken from both sides, at position `i` of the first. -/
def mt (i : Nat) (a b : List Tx) : List (Tx × Option Nat) :=
  match a, b with
  | [], b => b.map (fun x => (x, none))
  | x :: a, [] => (x :: a).map (fun x => (x, none))
  | x :: a, y :: b =>
    if x.time = y.time then (x, some i) :: mt (i + 1) a b
    else if x.time < y.time then (x, none) :: mt (i + 1) a (y :: b)
    else (y, none) :: mt i (x :: a) b
termination_by a.length + b.length

/-- The merged list. -/
def mu (a b : List Tx) : List Tx := (mt 0 a b).map Prod.fst

def procStep (R : List Conflict) (st : MState) (p : Tx × Option Nat) : Option MState :=
  match p.2 with
  | some i => some { st with
      deleted := if p.1.kind = .del then st.deleted.set p.1.uuid i else st.deleted
      c := st.c ++ [p.1] }
  | none => checkConflict R (st.push p.1)

def proc (R : List Conflict) : List (Tx × Option Nat) → MState → Option MState
  | [], st => some st
  | p :: L, st =>
    match procStep R st p with
    | none => none
    | some st' => proc R L st'

theorem appendRest_eq (R : List Conflict) (l : List Tx) (st : MState) :
    appendRest R l st = proc R (l.map (fun x => (x, none))) st := by
  induction l generalizing st with
  | nil => rfl
  | cons x l ih =>
    simp only [appendRest, List.map_cons, proc, procStep]
    cases checkConflict R (st.push x) with
    | none => rfl
    | some st' => exact ih st'

theorem mergeLoop_eq_pos (R : List Conflict) (i j : Nat) (a b : List Tx) (st : MState)
    (h : ¬ (i = 0 ∧ j = 0)) : mergeLoop R i j a b st = proc R (mt i a b) st := by
  fun_induction mergeLoop R i j a b st with
  | case1 i j b st => simp [mt, appendRest_eq]
  | case2 i j x a st => simp [mt, appendRest_eq]
  | case3 i j st x a y b hxy deleted ih =>
    rw [ih (by omega)]
    conv => rhs; unfold mt
    simp only [hxy, if_true, proc, procStep, deleted, dite_eq_ite]
  | case4 i j st x a y b hxy conflicts st2 hlt hcc =>
    conv => rhs; unfold mt
    have hst : st2 = st := by
      have : ¬ (i = 0 ∧ j = 0 ∧ rootForced R = false) := fun h' => h ⟨h'.1, h'.2.1⟩
      simp [st2, conflicts, this]
    rw [hst] at hcc
    simp only [hxy, if_false, hlt, if_true, proc, procStep, hcc]
  | case5 i j st x a y b hxy conflicts st2 hlt st' hcc ih =>
    conv => rhs; unfold mt
    have hst : st2 = st := by
      have : ¬ (i = 0 ∧ j = 0 ∧ rootForced R = false) := fun h' => h ⟨h'.1, h'.2.1⟩
      simp [st2, conflicts, this]
    rw [hst] at hcc
    rw [ih (by omega)]
    simp only [hxy, if_false, hlt, if_true, proc, procStep, hcc]
  | case6 i j st x a y b hxy conflicts st2 hlt hcc =>
    conv => rhs; unfold mt
    have hst : st2 = st := by
      have : ¬ (i = 0 ∧ j = 0 ∧ rootForced R = false) := fun h' => h ⟨h'.1, h'.2.1⟩
      simp [st2, conflicts, this]
    rw [hst] at hcc
    simp only [hxy, if_false, hlt, proc, procStep, hcc]
  | case7 i j st x a y b hxy conflicts st2 hlt st' hcc ih =>
    conv => rhs; unfold mt
    have hst : st2 = st := by
      have : ¬ (i = 0 ∧ j = 0 ∧ rootForced R = false) := fun h' => h ⟨h'.1, h'.2.1⟩
      simp [st2, conflicts, this]
    rw [hst] at hcc
    rw [ih (by omega)]
    simp only [hxy, if_false, hlt, proc, procStep, hcc]

/-- The root conflict `Merge` records first. -/
def rootConf (R : List Conflict) (a b : List Tx) : List Conflict :=
  match a, b with
  | x :: _, y :: _ =>
    if x.time ≠ y.time ∧ rootForced R = false then
      [{ kind := .root, initial := x, conflict := y }]
    else []
  | _, _ => []

theorem mergeLoop_eq (R : List Conflict) (a b : List Tx) :
    mergeLoop R 0 0 a b {} = proc R (mt 0 a b) { conflicts := rootConf R a b } := by
  unfold mergeLoop mt
  match a, b with
  | [], b => simp [appendRest_eq, rootConf]
  | x :: a, [] => simp [appendRest_eq, rootConf]
  | x :: a, y :: b =>
    simp only
    by_cases hxy : x.time = y.time
    · simp only [hxy, if_true, rootConf, proc, procStep]
      rw [mergeLoop_eq_pos _ _ _ _ _ _ (by omega)]
      simp
    · have hrc : (if (True ∧ True ∧ rootForced R = false) then
            ([] : List Conflict) ++ [{ kind := .root, initial := x, conflict := y }] else [])
          = rootConf R (x :: a) (y :: b) := by
        simp [rootConf, hxy]
      simp only [hxy, if_false, proc, procStep]
      by_cases hlt : x.time < y.time
      · simp only [hlt, if_true, proc, procStep]
        rw [hrc]
        cases checkConflict R (MState.push
            { c := [], deleted := [], conflicts := rootConf R (x :: a) (y :: b) } x) with
        | none => rfl
        | some st' => exact mergeLoop_eq_pos _ _ _ _ _ _ (by omega)
      · simp only [hlt, if_false, proc, procStep]
        rw [hrc]
        cases checkConflict R (MState.push
            { c := [], deleted := [], conflicts := rootConf R (x :: a) (y :: b) } y) with
        | none => rfl
        | some st' => exact mergeLoop_eq_pos _ _ _ _ _ _ (by omega)

/-! ## The union -/

theorem mt_sublist_left (i : Nat) (a b : List Tx) : a.Sublist ((mt i a b).map Prod.fst) := by
  fun_induction mt i a b with
  | case1 i b => simp
  | case2 i x a => simp [Function.comp_def]
  | case3 i x a y b h ih => simpa using ih
  | case4 i x a y b h hlt ih => simpa using ih
  | case5 i x a y b h hlt ih => exact List.Sublist.cons _ ih

theorem mt_sublist_right (i : Nat) (a b : List Tx) (hc : SameIds a b) :
    b.Sublist ((mt i a b).map Prod.fst) := by
  fun_induction mt i a b with
  | case1 i b => simp [Function.comp_def]
  | case2 i x a => simp
  | case3 i x a y b h ih =>
    have hxy : x = y := hc x (by simp) y (by simp) h
    subst hxy
    simpa using ih (fun u hu v hv => hc u (List.mem_cons_of_mem _ hu) v (List.mem_cons_of_mem _ hv))
  | case4 i x a y b h hlt ih =>
    exact List.Sublist.cons _ (ih (fun u hu v hv => hc u (List.mem_cons_of_mem _ hu) v hv))
  | case5 i x a y b h hlt ih =>
    simpa using ih (fun u hu v hv => hc u hu v (List.mem_cons_of_mem _ hv))

theorem mt_mem (i : Nat) (a b : List Tx) (p : Tx × Option Nat) (h : p ∈ mt i a b) :
    p.1 ∈ a ∨ p.1 ∈ b := by
  fun_induction mt i a b with
  | case1 i b => simp at h; obtain ⟨x, hx, rfl⟩ := h; simp [hx]
  | case2 i x a =>
    simp at h
    rcases h with rfl | ⟨y, hy, rfl⟩
    · simp
    · simp [hy]
  | case3 i x a y b hxy ih =>
    rcases List.mem_cons.1 h with rfl | h
    · simp
    · rcases ih h with h | h <;> simp [h]
  | case4 i x a y b hxy hlt ih =>
    rcases List.mem_cons.1 h with rfl | h
    · simp
    · rcases ih h with h | h
      · simp [h]
      · exact Or.inr h
  | case5 i x a y b hxy hlt ih =>
    rcases List.mem_cons.1 h with rfl | h
    · simp
    · rcases ih h with h | h
      · exact Or.inl h
      · simp [h]

theorem mem_mu {a b : List Tx} (hc : SameIds a b) (t : Tx) : t ∈ mu a b ↔ t ∈ a ∨ t ∈ b := by
  constructor
  · intro h
    obtain ⟨p, hp, rfl⟩ := List.mem_map.1 h
    exact mt_mem 0 a b p hp
  · rintro (h | h)
    · exact (mt_sublist_left 0 a b).subset h
    · exact (mt_sublist_right 0 a b hc).subset h

theorem chrono_cons {x : Tx} {l : List Tx} :
    Chrono (x :: l) ↔ (∀ y ∈ l, x.time < y.time) ∧ Chrono l := List.pairwise_cons

theorem mt_chrono (i : Nat) (a b : List Tx) (ha : Chrono a) (hb : Chrono b) :
    Chrono ((mt i a b).map Prod.fst) := by
  fun_induction mt i a b with
  | case1 i b => simpa [Function.comp_def] using hb
  | case2 i x a => simpa [Function.comp_def] using ha
  | case3 i x a y b h ih =>
    rw [chrono_cons] at ha hb
    rw [List.map_cons, chrono_cons]
    refine ⟨?_, ih ha.2 hb.2⟩
    intro t ht
    obtain ⟨p, hp, rfl⟩ := List.mem_map.1 ht
    rcases mt_mem _ _ _ p hp with h' | h'
    · exact ha.1 _ h'
    · have := hb.1 _ h'; simp only; omega
  | case4 i x a y b h hlt ih =>
    have hb' := hb
    rw [chrono_cons] at ha hb'
    rw [List.map_cons, chrono_cons]
    refine ⟨?_, ih ha.2 hb⟩
    intro t ht
    obtain ⟨p, hp, rfl⟩ := List.mem_map.1 ht
    rcases mt_mem _ _ _ p hp with h' | h'
    · exact ha.1 _ h'
    · rcases List.mem_cons.1 h' with h' | h'
      · simp only [h']; omega
      · have := hb'.1 _ h'; simp only; omega
  | case5 i x a y b h hlt ih =>
    have ha' := ha
    rw [chrono_cons] at ha' hb
    rw [List.map_cons, chrono_cons]
    refine ⟨?_, ih ha hb.2⟩
    intro t ht
    obtain ⟨p, hp, rfl⟩ := List.mem_map.1 ht
    rcases mt_mem _ _ _ p hp with h' | h'
    · rcases List.mem_cons.1 h' with h' | h'
      · simp only [h']; omega
      · have := ha'.1 _ h'; simp only; omega
    · exact hb.1 _ h'

/-- Chronological lists with the same members are equal. -/
theorem chrono_ext {l1 l2 : List Tx} (h1 : Chrono l1) (h2 : Chrono l2)
    (h : ∀ t, t ∈ l1 ↔ t ∈ l2) : l1 = l2 := by
  induction l1 generalizing l2 with
  | nil =>
    cases l2 with
    | nil => rfl
    | cons y l2 => have := (h y).2 (by simp); simp at this
  | cons x l1 ih =>
    cases l2 with
    | nil => have := (h x).1 (by simp); simp at this
    | cons y l2 =>
      rw [chrono_cons] at h1 h2
      have hx : x = y := by
        rcases List.mem_cons.1 ((h x).1 (by simp)) with hx | hx
        · exact hx
        · rcases List.mem_cons.1 ((h y).2 (by simp)) with hy | hy
          · exact hy.symm
          · have := h2.1 _ hx; have := h1.1 _ hy; omega
      subst hx
      congr 1
      refine ih h1.2 h2.2 (fun t => ?_)
      constructor
      · intro ht
        rcases List.mem_cons.1 ((h t).1 (by simp [ht])) with rfl | h'
        · have := h1.1 _ ht; omega
        · exact h'
      · intro ht
        rcases List.mem_cons.1 ((h t).2 (by simp [ht])) with rfl | h'
        · have := h2.1 _ ht; omega
        · exact h'

theorem sameIds_symm {a b : List Tx} (h : SameIds a b) : SameIds b a :=
  fun x hx y hy hxy => (h y hy x hx hxy.symm).symm

/-! Tags. -/

theorem mt_shared (i : Nat) (a b : List Tx) (x : Tx) (k : Nat) (h : (x, some k) ∈ mt i a b) :
    x ∈ a ∧ ∃ y ∈ b, y.time = x.time := by
  fun_induction mt i a b with
  | case1 i b => simp at h
  | case2 i y a => simp at h
  | case3 i z a y b hxy ih =>
    rcases List.mem_cons.1 h with h | h
    · cases h; exact ⟨by simp, y, by simp, hxy.symm⟩
    · obtain ⟨h1, w, h2, h3⟩ := ih h
      exact ⟨by simp [h1], w, by simp [h2], h3⟩
  | case4 i z a y b hxy hlt ih =>
    rcases List.mem_cons.1 h with h | h
    · cases h
    · obtain ⟨h1, w, h2, h3⟩ := ih h
      exact ⟨by simp [h1], w, h2, h3⟩
  | case5 i z a y b hxy hlt ih =>
    rcases List.mem_cons.1 h with h | h
    · cases h
    · obtain ⟨h1, w, h2, h3⟩ := ih h
      exact ⟨h1, w, by simp [h2], h3⟩

theorem mt_unshared (i : Nat) (a b : List Tx) (ha : Chrono a) (hb : Chrono b) (x : Tx)
    (h : (x, none) ∈ mt i a b) : ¬ ((∃ y ∈ a, y.time = x.time) ∧ ∃ y ∈ b, y.time = x.time) := by
  fun_induction mt i a b with
  | case1 i b => simp
  | case2 i y a => simp
  | case3 i z a y b hxy ih =>
    rw [chrono_cons] at ha hb
    rcases List.mem_cons.1 h with h | h
    · cases h
    · have hx := ih ha.2 hb.2 h
      have hgt : z.time < x.time := by
        rcases mt_mem _ _ _ _ h with h' | h'
        · exact ha.1 _ h'
        · have := hb.1 _ h'; simp only at this; omega
      rintro ⟨⟨u, hu, hut⟩, v, hv, hvt⟩
      apply hx
      constructor
      · rcases List.mem_cons.1 hu with rfl | hu
        · omega
        · exact ⟨u, hu, hut⟩
      · rcases List.mem_cons.1 hv with rfl | hv
        · omega
        · exact ⟨v, hv, hvt⟩
  | case4 i z a y b hxy hlt ih =>
    have hb' := hb
    rw [chrono_cons] at ha hb'
    rcases List.mem_cons.1 h with h | h
    · cases h
      rintro ⟨-, v, hv, hvt⟩
      rcases List.mem_cons.1 hv with rfl | hv
      · omega
      · have := hb'.1 _ hv; omega
    · have hx := ih ha.2 hb h
      have hgt : z.time < x.time := by
        rcases mt_mem _ _ _ _ h with h' | h'
        · exact ha.1 _ h'
        · rcases List.mem_cons.1 h' with h' | h'
          · simp only at h'; subst h'; exact hlt
          · have := hb'.1 _ h'; simp only at this; omega
      rintro ⟨⟨u, hu, hut⟩, v, hv, hvt⟩
      apply hx
      refine ⟨?_, v, hv, hvt⟩
      rcases List.mem_cons.1 hu with rfl | hu
      · omega
      · exact ⟨u, hu, hut⟩
  | case5 i z a y b hxy hlt ih =>
    have ha' := ha
    rw [chrono_cons] at ha' hb
    rcases List.mem_cons.1 h with h | h
    · cases h
      rintro ⟨⟨v, hv, hvt⟩, -⟩
      rcases List.mem_cons.1 hv with rfl | hv
      · omega
      · have := ha'.1 _ hv; omega
    · have hx := ih ha hb.2 h
      have hgt : y.time < x.time := by
        rcases mt_mem _ _ _ _ h with h' | h'
        · rcases List.mem_cons.1 h' with h' | h'
          · simp only at h'; subst h'; omega
          · have := ha'.1 _ h'; simp only at this; omega
        · exact hb.1 _ h'
      rintro ⟨⟨u, hu, hut⟩, v, hv, hvt⟩
      apply hx
      refine ⟨⟨u, hu, hut⟩, ?_⟩
      rcases List.mem_cons.1 hv with rfl | hv
      · omega
      · exact ⟨v, hv, hvt⟩

/-- tags never point past the current position -/
def TagsOk : Nat → List (Tx × Option Nat) → Prop
  | _, [] => True
  | p, (_, t) :: L => (∀ k, t = some k → k ≤ p) ∧ TagsOk (p + 1) L

theorem mt_tagsOk (i p : Nat) (a b : List Tx) (h : i ≤ p) : TagsOk p (mt i a b) := by
  have hnone : ∀ (l : List Tx) (p : Nat), TagsOk p (l.map (fun x => (x, none))) := by
    intro l
    induction l with
    | nil => intro p; trivial
    | cons x l ih => intro p; exact ⟨by simp, ih _⟩
  fun_induction mt i a b generalizing p with
  | case1 i b => exact hnone _ _
  | case2 i x a => exact hnone _ _
  | case3 i x a y b hxy ih => exact ⟨by simpa using h, ih _ (by omega)⟩
  | case4 i x a y b hxy hlt ih => exact ⟨by simp, ih _ (by omega)⟩
  | case5 i x a y b hxy hlt ih => exact ⟨by simp, ih _ (by omega)⟩

/-- Symmetry of the union. -/
theorem mt_comm_unindexed (i j : Nat) (a b : List Tx) (hc : SameIds a b) :
    (mt i a b).map (fun p => (p.1, p.2.isSome)) = (mt j b a).map (fun p => (p.1, p.2.isSome)) := by
  fun_induction mt i a b generalizing j with
  | case1 i b => cases b <;> simp [mt]
  | case2 i x a => simp [mt]
  | case3 i x a y b h ih =>
    have hxy : x = y := hc x (by simp) y (by simp) h
    subst hxy
    conv => rhs; unfold mt
    simp only [if_true, List.map_cons, Option.isSome_some, List.cons.injEq, true_and]
    exact ih _ (fun u hu v hv => hc u (List.mem_cons_of_mem _ hu) v (List.mem_cons_of_mem _ hv))
  | case4 i x a y b h hlt ih =>
    conv => rhs; unfold mt
    have h1 : ¬ y.time = x.time := by omega
    have h2 : ¬ y.time < x.time := by omega
    simp only [h1, h2, if_false, List.map_cons, Option.isSome_none, List.cons.injEq, true_and]
    exact ih _ (fun u hu v hv => hc u (List.mem_cons_of_mem _ hu) v hv)
  | case5 i x a y b h hlt ih =>
    conv => rhs; unfold mt
    have h1 : ¬ y.time = x.time := by omega
    have h2 : y.time < x.time := by omega
    simp only [h1, h2, if_false, if_true, List.map_cons, Option.isSome_none, List.cons.injEq,
      true_and]
    exact ih _ (fun u hu v hv => hc u hu v (List.mem_cons_of_mem _ hv))

/-! ## The pass without resolutions -/

/-- Some one-sided operation follows a delete of the same entry (`P` = what came before). -/
def Late : List Tx → List (Tx × Option Nat) → Prop
  | _, [] => False
  | P, (x, t) :: L => (t = none ∧ ∃ d ∈ P, d.kind = .del ∧ d.uuid = x.uuid) ∨ Late (P ++ [x]) L

structure Inv0 (P : List Tx) (st : MState) : Prop where
  c : st.c = P
  none_iff : ∀ u, st.deleted.get? u = none ↔ ∀ d ∈ P, d.kind = .del → d.uuid ≠ u
  lt : ∀ u ind, st.deleted.get? u = some ind → ind < st.c.length

theorem procStep_nil {P : List Tx} {st : MState} (h : Inv0 P st) (p : Tx × Option Nat)
    (ht : ∀ k, p.2 = some k → k ≤ P.length) :
    ∃ st', procStep [] st p = some st' ∧ Inv0 (P ++ [p.1]) st' ∧
      (st'.conflicts = [] ↔ st.conflicts = [] ∧
        ¬ (p.2 = none ∧ ∃ d ∈ P, d.kind = .del ∧ d.uuid = p.1.uuid)) ∧
      (∀ con ∈ st.conflicts, con ∈ st'.conflicts) := by
  obtain ⟨x, tag⟩ := p
  cases tag with
  | some k =>
    simp only [procStep]
    refine ⟨_, rfl, ⟨by simp [h.c], ?_, ?_⟩, by simp, by simp⟩
    · intro u
      simp only [List.mem_append, List.mem_singleton]
      by_cases hk : x.kind = .del
      · simp only [hk, if_true, GoMap.get?_set]
        by_cases hu : u = x.uuid
        · subst hu
          simp only [if_true, reduceCtorEq, false_iff]
          intro hh
          exact hh x (Or.inr rfl) hk rfl
        · simp only [hu, if_false, h.none_iff]
          constructor
          · rintro h1 d (hd | rfl) hdk
            · exact h1 d hd hdk
            · exact fun e => hu e.symm
          · intro h1 d hd hdk; exact h1 d (Or.inl hd) hdk
      · simp only [hk, if_false, h.none_iff]
        constructor
        · rintro h1 d (hd | rfl) hdk
          · exact h1 d hd hdk
          · exact absurd hdk hk
        · intro h1 d hd hdk; exact h1 d (Or.inl hd) hdk
    · intro u ind
      simp only [List.length_append, List.length_singleton]
      have hk' := ht k rfl
      split
      · simp only [GoMap.get?_set]
        split
        · intro h'; cases h'; rw [h.c]; omega
        · intro h'; have := h.lt u ind h'; omega
      · intro h'; have := h.lt u ind h'; omega
  | none =>
    simp only [procStep, checkConflict, MState.push, List.getLast?_append, List.getLast?_singleton,
      Option.some_or]
    cases hg : st.deleted.get? x.uuid with
    | none =>
      have hno := (h.none_iff x.uuid).1 hg
      have hno' : ¬ ∃ d ∈ P, d.kind = .del ∧ d.uuid = x.uuid := by
        rintro ⟨d, hd, h1, h2⟩; exact hno d hd h1 h2
      by_cases hk : x.kind = .del
      · simp only [hk, ne_eq, not_true_eq_false, if_false, List.any_nil, Bool.false_eq_true]
        refine ⟨_, rfl, ⟨by simp [h.c], ?_, ?_⟩, by simp [hno'], by simp⟩
        · intro u
          simp only [List.mem_append, List.mem_singleton, GoMap.get?_set]
          by_cases hu : u = x.uuid
          · subst hu
            simp only [if_true, reduceCtorEq, false_iff]
            intro hh; exact hh x (Or.inr rfl) hk rfl
          · simp only [hu, if_false, h.none_iff]
            constructor
            · rintro h1 d (hd | rfl) hdk
              · exact h1 d hd hdk
              · exact fun e => hu e.symm
            · intro h1 d hd hdk; exact h1 d (Or.inl hd) hdk
        · intro u ind
          simp only [GoMap.get?_set, List.length_append, List.length_singleton]
          split
          · intro h'; cases h'; omega
          · intro h'; have := h.lt u ind h'; omega
      · simp only [ne_eq, hk, not_false_eq_true, if_true]
        refine ⟨_, rfl, ⟨by simp [h.c], ?_, ?_⟩, by simp [hno'], by simp⟩
        · intro u
          simp only [List.mem_append, List.mem_singleton, h.none_iff]
          constructor
          · rintro h1 d (hd | rfl) hdk
            · exact h1 d hd hdk
            · exact absurd hdk hk
          · intro h1 d hd hdk; exact h1 d (Or.inl hd) hdk
        · intro u ind h'
          have := h.lt u ind h'
          simp; omega
    | some ind =>
      have hlt := h.lt _ _ hg
      have hyes : ∃ d ∈ P, d.kind = .del ∧ d.uuid = x.uuid := by
        have : ¬ (∀ d ∈ P, d.kind = .del → d.uuid ≠ x.uuid) := by
          rw [← h.none_iff, hg]; simp
        simpa using this
      obtain ⟨dtx, hget⟩ : ∃ d, (st.c ++ [x])[ind]? = some d :=
        ⟨_, List.getElem?_eq_getElem (by simp; omega)⟩
      simp only [hget, List.find?_nil]
      have hcoh : ∀ cs, Inv0 (P ++ [x])
          { c := st.c ++ [x], deleted := st.deleted, conflicts := cs } := by
        intro cs
        refine ⟨by simp [h.c], ?_, ?_⟩
        · intro u
          simp only [List.mem_append, List.mem_singleton]
          by_cases hu : u = x.uuid
          · subst hu
            simp only [hg, reduceCtorEq, false_iff]
            intro hh
            obtain ⟨d, hd, h1, h2⟩ := hyes
            exact hh d (Or.inl hd) h1 h2
          · rw [h.none_iff]
            constructor
            · rintro h1 d (hd | rfl) hdk
              · exact h1 d hd hdk
              · exact fun e => hu e.symm
            · intro h1 d hd hdk; exact h1 d (Or.inl hd) hdk
        · intro u i h'
          have := h.lt u i h'
          simp; omega
      by_cases hany : (st.conflicts.any fun r => decide (r.initial.time = dtx.time)) = true
      · simp only [hany, if_true]
        refine ⟨_, rfl, hcoh _, ?_, by simp⟩
        have : st.conflicts ≠ [] := by rintro h0; simp [h0] at hany
        simp [this]
      · simp only [hany, if_false]
        refine ⟨_, rfl, hcoh _, ?_, ?_⟩
        · have hy := hyes
          simp [hy]
        · intro con hc; simp [hc]

theorem proc_nil (L : List (Tx × Option Nat)) (P : List Tx) (st : MState) (h : Inv0 P st)
    (ht : TagsOk P.length L) :
    ∃ st', proc [] L st = some st' ∧ st'.c = P ++ L.map Prod.fst ∧
      (st'.conflicts = [] ↔ st.conflicts = [] ∧ ¬ Late P L) ∧
      (∀ con ∈ st.conflicts, con ∈ st'.conflicts) := by
  induction L generalizing P st with
  | nil => exact ⟨st, rfl, by simp [h.c], by simp [Late], fun _ h => h⟩
  | cons p L ih =>
    obtain ⟨x, t⟩ := p
    obtain ⟨st1, h1, h2, h3, h4⟩ := procStep_nil h (x, t) ht.1
    obtain ⟨st2, h5, h6, h7, h8⟩ := ih (P ++ [x]) st1 h2 (by simpa using ht.2)
    refine ⟨st2, ?_, ?_, ?_, fun c hc => h8 c (h4 c hc)⟩
    · simp only [proc, h1, h5]
    · simp [h6]
    · rw [h7, h3]
      simp only [Late]
      constructor
      · rintro ⟨⟨a, b⟩, c⟩; exact ⟨a, fun h => h.elim b c⟩
      · rintro ⟨a, b⟩; exact ⟨⟨a, fun h => b (Or.inl h)⟩, fun h => b (Or.inr h)⟩

/-- `Late` in terms of positions-free order, for a chronological list. -/
theorem late_iff (P : List Tx) (L : List (Tx × Option Nat)) (hch : Chrono (P ++ L.map Prod.fst)) :
    Late P L ↔ ∃ d ∈ P ++ L.map Prod.fst, ∃ x, (x, none) ∈ L ∧ d.kind = .del ∧ d.uuid = x.uuid ∧
      d.time < x.time := by
  induction L generalizing P with
  | nil => simp [Late]
  | cons p L ih =>
    obtain ⟨y, t⟩ := p
    simp only [Late]
    have e : P ++ ((y, t) :: L).map Prod.fst = (P ++ [y]) ++ L.map Prod.fst := by simp
    rw [ih (P ++ [y]) (by rw [← e]; exact hch), ← e]
    have hch' := hch
    unfold Chrono at hch'
    rw [List.pairwise_append] at hch'
    simp only [List.map_cons, List.pairwise_cons] at hch'
    obtain ⟨-, ⟨hy, -⟩, hP⟩ := hch'
    constructor
    · rintro (⟨rfl, d, hd, h1, h2⟩ | ⟨d, hd, x, hx, h⟩)
      · exact ⟨d, by simp [hd], y, by simp, h1, h2, hP d hd y (by simp)⟩
      · exact ⟨d, hd, x, by simp [hx], h⟩
    · rintro ⟨d, hd, x, hx, h1, h2, h3⟩
      rcases List.mem_cons.1 hx with hx | hx
      · cases hx
        left
        refine ⟨rfl, d, ?_, h1, h2⟩
        rcases List.mem_append.1 hd with hd | hd
        · exact hd
        · simp only [List.map_cons, List.mem_cons] at hd
          rcases hd with rfl | hd
          · omega
          · have := hy d hd; omega
      · right; exact ⟨d, hd, x, hx, h1, h2, h3⟩

/-- All of `Merge` without resolutions. -/
theorem merge_nil (a b : List Tx) (hne : a ≠ [] ∨ b ≠ []) :
    (LooksSame a b ∧ merge a b [] = .log a) ∨
    (¬ LooksSame a b ∧ ∃ st', proc [] (mt 0 a b) { conflicts := rootConf [] a b } = some st' ∧
      st'.c = mu a b ∧
      (st'.conflicts = [] ↔ rootConf [] a b = [] ∧ ¬ Late [] (mt 0 a b)) ∧
      (∀ con ∈ rootConf [] a b, con ∈ st'.conflicts) ∧
      merge a b [] = if st'.conflicts = [] then .log (mu a b) else .conflicts st'.conflicts) := by
  have hfp : ∀ v, fastPath a b = some v → (v = true ↔ LooksSame a b) := by
    intro v
    unfold fastPath LooksSame
    split
    · rename_i hl
      cases a with
      | nil => cases b <;> simp at hl hne
      | cons x a =>
        cases b with
        | nil => simp at hl
        | cons y b =>
          simp only [List.head?_cons, List.getLast?_cons]
          intro h; cases h
          simp at hl
          simp [hl]
    · rename_i hl
      intro h; cases h; simp [hl]
  have hsome : ∃ v, fastPath a b = some v := by
    unfold fastPath
    split
    · rename_i hl
      cases a with
      | nil => cases b <;> simp at hl hne
      | cons x a =>
        cases b with
        | nil => simp at hl
        | cons y b => simp only [List.head?_cons, List.getLast?_cons]; exact ⟨_, rfl⟩
    · exact ⟨_, rfl⟩
  obtain ⟨v, hv⟩ := hsome
  have := hfp v hv
  cases v with
  | true => left; exact ⟨this.1 rfl, by simp [merge, hv]⟩
  | false =>
    right
    refine ⟨fun h => by simpa using this.2 h, ?_⟩
    obtain ⟨st', h1, h2, h3, h4⟩ := proc_nil (mt 0 a b) [] { conflicts := rootConf [] a b }
      ⟨rfl, by simp, by simp⟩ (mt_tagsOk 0 0 a b (Nat.le_refl _))
    refine ⟨st', h1, by simpa [mu] using h2, by simpa using h3, h4, ?_⟩
    simp only [merge, hv, mergeLoop_eq, h1]
    simp [h2, mu]

end Verif.Txlogs
