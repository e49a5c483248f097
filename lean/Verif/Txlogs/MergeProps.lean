import Verif.Txlogs.MergeValid
/-!
# Properties of `Merge` (C12–C21)

The vocabulary (`Chrono`, `SameIds`, `GoodHistory`, …) is in `MergeSpec.lean`.
-/
set_option linter.unusedSimpArgs false
namespace Verif.Txlogs
open Verif Spec

/-! ## C12 Merging loses nothing and invents nothing -/

/-- False in general: logs of equal length with the same first and last operation are taken for identical
(txlogs.go:339-347), so the middle operation of the second log is lost. Both logs are well-formed. -/
theorem C12_false : ¬ ∀ (a b c : List Tx), Chrono a → Chrono b → SameIds a b →
    merge a b [] = .log c → ∀ t, t ∈ c ↔ t ∈ a ∨ t ∈ b := by
  intro h
  have := h
    [⟨1, .add, b! "u", [], []⟩, ⟨2, .setk, b! "u", b! "k", b! "v"⟩, ⟨5, .setk, b! "u", b! "k", b! "x"⟩]
    [⟨1, .add, b! "u", [], []⟩, ⟨3, .setk, b! "u", b! "j", b! "w"⟩, ⟨5, .setk, b! "u", b! "k", b! "x"⟩]
    [⟨1, .add, b! "u", [], []⟩, ⟨2, .setk, b! "u", b! "k", b! "v"⟩, ⟨5, .setk, b! "u", b! "k", b! "x"⟩]
    (by simp [Chrono]) (by simp [Chrono]) (by simp [SameIds]) (by decide)
    ⟨3, .setk, b! "u", b! "j", b! "w"⟩
  simp at this

/-- For every pair of logs that `Merge` does not take for identical (or that are identical): the result has
exactly the operations of both. Missing for the full property: the case refuted by `C12_false`. -/
theorem C12_merge_is_union_partial (a b c : List Tx) (hids : SameIds a b)
    (hd : Distinguishable a b) (h : merge a b [] = .log c) (t : Tx) : t ∈ c ↔ t ∈ a ∨ t ∈ b := by
  by_cases hne : a ≠ [] ∨ b ≠ []
  · rcases merge_nil a b hne with ⟨h1, h2⟩ | ⟨-, st', -, -, -, -, h2⟩
    · rw [h2] at h; cases h
      rw [← hd h1]; simp
    · rw [h2] at h
      split at h
      · cases h; exact mem_mu hids t
      · cases h
  · simp at hne
    obtain ⟨rfl, rfl⟩ := hne
    simp [merge, fastPath] at h

/-! ## C13 Merged history is chronological and preserves each side's order -/

/-- A conflict-free merge of chronological logs is chronological and has no duplicates. -/
theorem C13_chronological (a b c : List Tx) (ha : Chrono a) (hb : Chrono b)
    (h : merge a b [] = .log c) : Chrono c ∧ c.Nodup := by
  have : Chrono c := by
    by_cases hne : a ≠ [] ∨ b ≠ []
    · rcases merge_nil a b hne with ⟨h1, h2⟩ | ⟨-, st', -, -, -, -, h2⟩
      · rw [h2] at h; cases h; exact ha
      · rw [h2] at h
        split at h
        · cases h; exact mt_chrono 0 a b ha hb
        · cases h
    · simp at hne
      obtain ⟨rfl, rfl⟩ := hne
      simp [merge, fastPath] at h
  refine ⟨this, ?_⟩
  refine List.Pairwise.imp ?_ this
  intro x y hlt hxy
  subst hxy; omega

/-- For arbitrary logs (not necessarily chronological) each side's operations keep their order. -/
theorem C13_order_preserved_partial (a b c : List Tx) (hids : SameIds a b) (hd : Distinguishable a b)
    (h : merge a b [] = .log c) : a.Sublist c ∧ b.Sublist c := by
  by_cases hne : a ≠ [] ∨ b ≠ []
  · rcases merge_nil a b hne with ⟨h1, h2⟩ | ⟨-, st', -, -, -, -, h2⟩
    · rw [h2] at h; cases h; rw [← hd h1]; simp
    · rw [h2] at h
      split at h
      · cases h; exact ⟨mt_sublist_left 0 a b, mt_sublist_right 0 a b hids⟩
      · cases h
  · simp at hne
    obtain ⟨rfl, rfl⟩ := hne
    simp [merge, fastPath] at h

/-- two concrete logs with a common start, used by the examples below -/
def exA : List Tx := [⟨1, .add, b! "u", [], []⟩, ⟨3, .setk, b! "u", b! "k", b! "v"⟩]
def exB : List Tx := [⟨1, .add, b! "u", [], []⟩, ⟨2, .add, b! "w", [], []⟩, ⟨4, .del, b! "w", [], []⟩]
def exAB : List Tx := [⟨1, .add, b! "u", [], []⟩, ⟨2, .add, b! "w", [], []⟩,
  ⟨3, .setk, b! "u", b! "k", b! "v"⟩, ⟨4, .del, b! "w", [], []⟩]

theorem exAB_merge : merge exA exB [] = .log exAB := by
  simp [merge, fastPath, exA, exB, mergeLoop, appendRest, checkConflict, MState.push, exAB,
    GoMap.get?, GoMap.set]

example : SameIds exA exB ∧ Distinguishable exA exB ∧ Chrono exA ∧ Chrono exB ∧
    merge exA exB [] = .log exAB := by
  refine ⟨by simp [SameIds, exA, exB], ?_, by simp [Chrono, exA], by simp [Chrono, exB], exAB_merge⟩
  intro h; have := h.1; simp [exA, exB] at this

/-! ## C14 Merging with oneself or with one's own past changes nothing -/

theorem C14_self (a : List Tx) (h : a ≠ []) : merge a a [] = .log a := by
  rcases merge_nil a a (Or.inl h) with ⟨-, h2⟩ | ⟨h1, -⟩
  · exact h2
  · exact absurd ⟨rfl, rfl, rfl⟩ h1

theorem mt_prefix_left (i : Nat) (a e : List Tx) :
    (mt i (a ++ e) a).map (fun p => (p.1, p.2.isSome)) =
      a.map (fun x => (x, true)) ++ e.map (fun x => (x, false)) := by
  induction a generalizing i with
  | nil => cases e <;> simp [mt]
  | cons x a ih => rw [List.cons_append]; unfold mt; simp [ih]

theorem late_congr (P : List Tx) (L L' : List (Tx × Option Nat))
    (h : L.map (fun p => (p.1, p.2.isSome)) = L'.map (fun p => (p.1, p.2.isSome))) :
    Late P L ↔ Late P L' := by
  induction L generalizing P L' with
  | nil =>
    cases L' with
    | nil => rfl
    | cons => simp at h
  | cons p L ih =>
    cases L' with
    | nil => simp at h
    | cons p' L' =>
      obtain ⟨x, t⟩ := p
      obtain ⟨x', t'⟩ := p'
      simp only [List.map_cons, List.cons.injEq, Prod.mk.injEq] at h
      obtain ⟨⟨rfl, ht⟩, h2⟩ := h
      simp only [Late, ih _ _ h2]
      have : t = none ↔ t' = none := by
        cases t <;> cases t' <;> simp at ht ⊢
      rw [this]

/-- If the extension `e` never touches an entry deleted before, merging a log with its own past returns the
longer log, on either side. -/
theorem C14_own_past (a e : List Tx) (hne : a ++ e ≠ [])
    (hok : ∀ e1 x e2, e = e1 ++ x :: e2 → ∀ d ∈ a ++ e1, d.kind = .del → d.uuid ≠ x.uuid) :
    merge (a ++ e) a [] = .log (a ++ e) ∧
    (SameIds (a ++ e) a → merge a (a ++ e) [] = .log (a ++ e)) := by
  have hlate0 : ∀ (P : List Tx) (a : List Tx) (L : List (Tx × Option Nat)),
      Late P (a.map (fun x => (x, some 0)) ++ L) ↔ Late (P ++ a) L := by
    intro P a
    induction a generalizing P with
    | nil => simp
    | cons x a ih => intro L; simp [Late, ih]
  have hlate1 : ∀ (e : List Tx) (P : List Tx),
      (∀ e1 x e2, e = e1 ++ x :: e2 → ∀ d ∈ P ++ e1, d.kind = .del → d.uuid ≠ x.uuid) →
      ¬ Late P (e.map (fun x => (x, none))) := by
    intro e
    induction e with
    | nil => simp [Late]
    | cons x e ih =>
      intro P hP
      simp only [List.map_cons, Late, not_or, true_and]
      refine ⟨?_, ih (P ++ [x]) ?_⟩
      · rintro ⟨d, hd, h1, h2⟩
        exact hP [] x e rfl d (by simpa using hd) h1 h2
      · intro e1 y e2 he d hd
        exact hP (x :: e1) y e2 (by simp [he]) d (by simpa using hd)
  have hmap : (mt 0 (a ++ e) a).map (fun p => (p.1, p.2.isSome)) =
      (a.map (fun x => (x, some 0)) ++ e.map (fun x => (x, none)) : List (Tx × Option Nat)).map
        (fun p => (p.1, p.2.isSome)) := by
    rw [mt_prefix_left]; simp [Function.comp_def]
  have hlate : ¬ Late [] (mt 0 (a ++ e) a) := by
    rw [late_congr _ _ _ hmap, hlate0]
    simpa using hlate1 e a hok
  have hmu : mu (a ++ e) a = a ++ e := by
    have := congrArg (List.map Prod.fst) hmap
    simpa [mu, Function.comp_def] using this
  have hroot : rootConf [] (a ++ e) a = [] ∧ rootConf [] a (a ++ e) = [] := by
    cases a <;> cases e <;> simp [rootConf]
  constructor
  · rcases merge_nil (a ++ e) a (Or.inl hne) with ⟨h1, h2⟩ | ⟨-, st', -, -, h3, -, h4⟩
    · exact h2
    · rw [h4, if_pos (h3.2 ⟨hroot.1, hlate⟩), hmu]
  · intro hids
    have hcomm := mt_comm_unindexed 0 0 (a ++ e) a hids
    rcases merge_nil a (a ++ e) (Or.inr hne) with ⟨h1, h2⟩ | ⟨-, st', -, -, h3, -, h4⟩
    · have hl := h1.1
      have : e = [] := by simpa using hl
      subst this; simpa using h2
    · have hl2 : ¬ Late [] (mt 0 a (a ++ e)) := by rw [← late_congr _ _ _ hcomm]; exact hlate
      rw [h4, if_pos (h3.2 ⟨hroot.2, hl2⟩)]
      have := congrArg (List.map Prod.fst) hcomm
      simp only [List.map_map] at this
      congr 1
      refine Eq.trans ?_ hmu
      simpa [mu, Function.comp_def] using this.symm

/-- In particular for every history written by bpass. -/
theorem C14_own_past_good (a e : List Tx) (hne : a ++ e ≠ []) (hg : GoodHistory (a ++ e)) :
    merge (a ++ e) a [] = .log (a ++ e) ∧ merge a (a ++ e) [] = .log (a ++ e) := by
  have hl := life_of_good hg
  have hok : ∀ e1 x e2, e = e1 ++ x :: e2 → ∀ d ∈ a ++ e1, d.kind = .del → d.uuid ≠ x.uuid := by
    intro e1 x e2 he d hd hk hu
    have hc := hg.chrono
    rw [he, ← List.append_assoc] at hc
    unfold Chrono at hc
    rw [List.pairwise_append] at hc
    have hlt := hc.2.2 d hd x (by simp)
    refine hl.noAfterDel d ?_ x ?_ hk hu hlt
    · rw [he, ← List.append_assoc]; exact List.mem_append_left _ hd
    · rw [he]; simp
  have hids : SameIds (a ++ e) a := by
    intro x hx y hy ht
    exact chrono_time_inj hg.chrono hx (List.mem_append_left _ hy) ht
  have := C14_own_past a e hne hok
  exact ⟨this.1, this.2 hids⟩

example : GoodHistory exAB := by
  refine ⟨by simp [Chrono, exAB], ?_, by simp [KnownKinds, exAB], by simp [AddsOnce, exAB]⟩
  unfold Replays
  rw [← view_nil, ← replay_spec]
  decide

/-! ## C15 Merge does not depend on which side is local -/

theorem C15_commutative_partial (a b : List Tx) (hids : SameIds a b) (hd : Distinguishable a b) :
    (∀ c, merge a b [] = .log c ↔ merge b a [] = .log c) ∧
    ((∃ cs, merge a b [] = .conflicts cs) ↔ ∃ cs, merge b a [] = .conflicts cs) := by
  by_cases hne : a ≠ [] ∨ b ≠ []
  · have hcomm := mt_comm_unindexed 0 0 a b hids
    have hmu : mu a b = mu b a := by
      have := congrArg (List.map Prod.fst) hcomm
      simpa [mu, Function.comp_def] using this
    have hroot : rootConf [] a b = [] ↔ rootConf [] b a = [] := by
      cases a <;> cases b <;> simp [rootConf, rootForced, eq_comm]
    have hlate := late_congr [] _ _ hcomm
    have hls : LooksSame a b ↔ LooksSame b a := by
      simp only [LooksSame, eq_comm]
    rcases merge_nil a b hne with ⟨h1, h2⟩ | ⟨h1, s1, -, -, h2, -, h3⟩
    · have := hd h1; subst this; simp
    · rcases merge_nil b a hne.symm with ⟨h4, -⟩ | ⟨h4, s2, -, -, h5, -, h6⟩
      · exact absurd (hls.2 h4) h1
      · rw [h3, h6, ← hmu]
        have : s1.conflicts = [] ↔ s2.conflicts = [] := by rw [h2, h5, hroot, hlate]
        by_cases hs : s1.conflicts = []
        · simp [hs, this.1 hs]
        · have hs' : ¬ s2.conflicts = [] := fun h => hs (this.2 h)
          simp [hs, hs']
  · simp at hne
    obtain ⟨rfl, rfl⟩ := hne
    simp

/-- Without `Distinguishable` it does depend on the side (same two logs as in `C12_false`). -/
theorem C15_false_fast_path :
    ∃ a b : List Tx, Chrono a ∧ Chrono b ∧ SameIds a b ∧ merge a b [] = .log a ∧
      merge b a [] = .log b ∧ a ≠ b :=
  ⟨[⟨1, .add, b! "u", [], []⟩, ⟨2, .setk, b! "u", b! "k", b! "v"⟩, ⟨5, .setk, b! "u", b! "k", b! "x"⟩],
   [⟨1, .add, b! "u", [], []⟩, ⟨3, .setk, b! "u", b! "j", b! "w"⟩, ⟨5, .setk, b! "u", b! "k", b! "x"⟩],
   by simp [Chrono], by simp [Chrono], by simp [SameIds], by decide, by decide, by decide⟩

/-! ## C16 Replicas converge whatever the order of syncing -/

/-- An order of merging: leaves are the replicas' logs. -/
inductive MTree where
  | leaf (l : List Tx)
  | node (l r : MTree)

/-- The replicas that take part. -/
def MTree.logs : MTree → List (List Tx)
  | .leaf l => [l]
  | .node l r => l.logs ++ r.logs

/-- Every merge of the tree is conflict-free, never hits the look-alike fast path, and ends in `c`. -/
inductive MTree.Yields : MTree → List Tx → Prop where
  | leaf (l : List Tx) : Yields (.leaf l) l
  | node {l r : MTree} {a b c : List Tx} (hl : Yields l a) (hr : Yields r b)
      (hd : Distinguishable a b) (hm : merge a b [] = .log c) : Yields (.node l r) c

theorem yields_union {t : MTree} {c : List Tx} (h : t.Yields c)
    (hch : ∀ l ∈ t.logs, Chrono l) (hids : ∀ l ∈ t.logs, ∀ l' ∈ t.logs, SameIds l l') :
    Chrono c ∧ ∀ x, x ∈ c ↔ ∃ l ∈ t.logs, x ∈ l := by
  induction h with
  | leaf l => simp [MTree.logs] at *; exact hch
  | @node _ _ a b _ hl hr hd hm ih1 ih2 =>
    simp only [MTree.logs, List.mem_append] at hch hids
    obtain ⟨c1, m1⟩ := ih1 (fun l hl => hch l (Or.inl hl))
      (fun l hl l' hl' => hids l (Or.inl hl) l' (Or.inl hl'))
    obtain ⟨c2, m2⟩ := ih2 (fun l hl => hch l (Or.inr hl))
      (fun l hl l' hl' => hids l (Or.inr hl) l' (Or.inr hl'))
    have hids' : SameIds a b := by
      intro x hx y hy hxy
      obtain ⟨l, hl, hxl⟩ := (m1 x).1 hx
      obtain ⟨l', hl', hyl⟩ := (m2 y).1 hy
      exact hids l (Or.inl hl) l' (Or.inr hl') x hxl y hyl hxy
    refine ⟨(C13_chronological _ _ _ c1 c2 hm).1, ?_⟩
    intro x
    rw [C12_merge_is_union_partial _ _ _ hids' hd hm x, m1, m2]
    simp only [MTree.logs, List.mem_append]
    constructor
    · rintro (⟨l, h1, h2⟩ | ⟨l, h1, h2⟩)
      · exact ⟨l, Or.inl h1, h2⟩
      · exact ⟨l, Or.inr h1, h2⟩
    · rintro ⟨l, h1 | h1, h2⟩
      · exact Or.inl ⟨l, h1, h2⟩
      · exact Or.inr ⟨l, h1, h2⟩

/-- Any two conflict-free orders of merging the same replicas, any number of times each, in any bracketing, end
in the same log. -/
theorem C16_convergence_partial (t1 t2 : MTree) (c1 c2 : List Tx) (h1 : t1.Yields c1) (h2 : t2.Yields c2)
    (hsame : ∀ l, l ∈ t1.logs ↔ l ∈ t2.logs)
    (hch : ∀ l ∈ t1.logs, Chrono l) (hids : ∀ l ∈ t1.logs, ∀ l' ∈ t1.logs, SameIds l l') :
    c1 = c2 := by
  obtain ⟨a1, b1⟩ := yields_union h1 hch hids
  obtain ⟨a2, b2⟩ := yields_union h2 (fun l hl => hch l ((hsame l).2 hl))
    (fun l hl l' hl' => hids l ((hsame l).2 hl) l' ((hsame l').2 hl'))
  refine chrono_ext a1 a2 (fun t => ?_)
  rw [b1, b2]
  constructor
  · rintro ⟨l, hl, ht⟩; exact ⟨l, (hsame l).1 hl, ht⟩
  · rintro ⟨l, hl, ht⟩; exact ⟨l, (hsame l).2 hl, ht⟩

/-- Three replicas: (a+b)+c = a+(b+c). -/
theorem C16_associative_partial (a b c ab bc x y : List Tx)
    (ha : Chrono a) (hb : Chrono b) (hc : Chrono c)
    (hab : SameIds a b) (hac : SameIds a c) (hbc : SameIds b c)
    (d1 : Distinguishable a b) (d2 : Distinguishable ab c) (d3 : Distinguishable b c)
    (d4 : Distinguishable a bc)
    (m1 : merge a b [] = .log ab) (m2 : merge ab c [] = .log x)
    (m3 : merge b c [] = .log bc) (m4 : merge a bc [] = .log y) : x = y := by
  have hself : ∀ l, Chrono l → SameIds l l := fun l hl u hu v hv h => chrono_time_inj hl hu hv h
  refine C16_convergence_partial (.node (.node (.leaf a) (.leaf b)) (.leaf c))
    (.node (.leaf a) (.node (.leaf b) (.leaf c))) x y
    (.node (.node (.leaf a) (.leaf b) d1 m1) (.leaf c) d2 m2)
    (.node (.leaf a) (.node (.leaf b) (.leaf c) d3 m3) d4 m4) ?_ ?_ ?_
  · intro l; simp [MTree.logs]
  · intro l hl; simp [MTree.logs] at hl; rcases hl with rfl | rfl | rfl <;> assumption
  · intro l hl l' hl'
    simp [MTree.logs] at hl hl'
    rcases hl with rfl | rfl | rfl <;> rcases hl' with rfl | rfl | rfl <;>
      first | exact hself _ ‹_› | assumption | exact sameIds_symm ‹_›

example : (MTree.node (.leaf exA) (.leaf exB)).Yields exAB ∧
    (MTree.node (.leaf exB) (.node (.leaf exA) (.leaf exB))).Yields exAB := by
  have hd : Distinguishable exA exB := by intro h; have := h.1; simp [exA, exB] at this
  refine ⟨.node (.leaf _) (.leaf _) hd exAB_merge,
    .node (.leaf _) (.node (.leaf _) (.leaf _) hd exAB_merge) ?_ ?_⟩
  · intro h; have := h.1; simp [exB, exAB] at this
  · simp [merge, fastPath, exAB, exB, mergeLoop, appendRest, checkConflict, MState.push,
      GoMap.get?, GoMap.set]

/-- Without the look-alike hypothesis convergence fails: a+b is taken to be a. -/
theorem C16_false : ∃ a b c ab bc x y : List Tx,
    Chrono a ∧ Chrono b ∧ Chrono c ∧ SameIds a b ∧ SameIds a c ∧ SameIds b c ∧
    merge a b [] = .log ab ∧ merge ab c [] = .log x ∧
    merge b c [] = .log bc ∧ merge a bc [] = .log y ∧ x ≠ y := by
  let t1 : Tx := ⟨1, .add, b! "u", [], []⟩
  let s : Int → Tx := fun i => ⟨i, .setk, b! "u", b! "k", b! "v"⟩
  refine ⟨[t1, s 2, s 5], [t1, s 3, s 5], [t1, s 4], [t1, s 2, s 5], [t1, s 3, s 4, s 5],
    [t1, s 2, s 4, s 5], [t1, s 2, s 3, s 4, s 5], by simp [Chrono, t1, s], by simp [Chrono, t1, s],
    by simp [Chrono, t1, s], by simp [SameIds, t1, s], by simp [SameIds, t1, s],
    by simp [SameIds, t1, s], ?_, ?_, ?_, ?_, by simp [s]⟩ <;>
  simp [merge, fastPath, mergeLoop, appendRest, checkConflict, MState.push, GoMap.get?, t1, s]

/-! ## C17 A conflict-free merge of two good histories is a good history -/

theorem C17_merge_replays (a b c : List Tx) (ha : GoodHistory a) (hb : GoodHistory b)
    (hs : SameFile a b) (h : merge a b [] = .log c) : GoodHistory c := by
  by_cases hne : a ≠ [] ∨ b ≠ []
  · rcases merge_nil a b hne with ⟨h1, h2⟩ | ⟨-, st', -, -, h2, -, h3⟩
    · rw [h2] at h; cases h; exact ha
    · rw [h3] at h
      split at h
      · rename_i hcf
        cases h
        have hnl := (h2.1 hcf).2
        have hT := tok_of_good ha hb hs 0
        have hch : Chrono (mu a b) := hT.chrono
        rw [late_iff [] _ (by simpa using hT.chrono)] at hnl
        have la := life_of_good ha
        have lb := life_of_good hb
        have hm := mem_mu hs.ids
        have hadd : AddsOnce (mu a b) := by
          intro x hx y hy hxa hya hu
          rcases (hm x).1 hx with h | h <;> rcases (hm y).1 hy with h' | h'
          · exact ha.addsOnce x h y h' hxa hya hu
          · exact hs.adds x h y h' hxa hya hu
          · exact (hs.adds y h' x h hya hxa hu.symm).symm
          · exact hb.addsOnce x h y h' hxa hya hu
        have hlife : Life (mu a b) := by
          refine ⟨?_, hadd, ?_⟩
          · intro x hx hk
            rcases (hm x).1 hx with h | h
            · obtain ⟨y, y1, y2⟩ := la.addFirst x h hk
              exact ⟨y, (hm y).2 (Or.inl y1), y2⟩
            · obtain ⟨y, y1, y2⟩ := lb.addFirst x h hk
              exact ⟨y, (hm y).2 (Or.inr y1), y2⟩
          · intro d hd x hx hk hu hlt
            obtain ⟨⟨x', t⟩, hx', rfl⟩ := List.mem_map.1 hx
            cases t with
            | none =>
              exact hnl ⟨d, by simpa [mu] using hd, x', hx', hk, hu, hlt⟩
            | some k => exact hT.sharedNotAfter x' k hx' d hd hk hu hlt
        refine ⟨hch, replays_of_life hch hlife, ?_, hadd⟩
        intro t ht s
        rcases (hm t).1 ht with h | h
        · exact ha.kinds t h s
        · exact hb.kinds t h s
      · cases h
  · simp at hne
    obtain ⟨rfl, rfl⟩ := hne
    simp [merge, fastPath] at h

/-- non-vacuity: two good histories of one file that diverged. -/
theorem exA_good : GoodHistory exA := by
  refine ⟨by simp [Chrono, exA], ?_, by simp [KnownKinds, exA], by simp [AddsOnce, exA]⟩
  unfold Replays; rw [← view_nil, ← replay_spec]; decide
theorem exB_good : GoodHistory exB := by
  refine ⟨by simp [Chrono, exB], ?_, by simp [KnownKinds, exB], by simp [AddsOnce, exB]⟩
  unfold Replays; rw [← view_nil, ← replay_spec]; decide
theorem exAB_same : SameFile exA exB := ⟨by simp [SameIds, exA, exB], by simp [exA, exB]⟩
example : GoodHistory exA ∧ GoodHistory exB ∧ SameFile exA exB ∧ merge exA exB [] = .log exAB :=
  ⟨exA_good, exB_good, exAB_same, exAB_merge⟩

/-! ## C18 When conflicts are reported -/

theorem rootConf_iff (a b : List Tx) : rootConf [] a b ≠ [] ↔ NoCommonRoot a b := by
  unfold NoCommonRoot
  cases a <;> cases b <;> simp [rootConf, rootForced]

/-- A conflict is reported iff the logs have no common first operation, or an entry is touched (by an operation
known to one side only) after a delete of it. -/
theorem C18_conflict_iff_partial (a b : List Tx) (hne : a ≠ [] ∨ b ≠ []) (ha : Chrono a) (hb : Chrono b)
    (hids : SameIds a b) (hd : Distinguishable a b) :
    (∃ cs, merge a b [] = .conflicts cs) ↔
      NoCommonRoot a b ∨ ∃ d x, TouchedAfterDelete a b d x := by
  have hlate : Late [] (mt 0 a b) ↔ ∃ d x, TouchedAfterDelete a b d x := by
    rw [late_iff [] _ (by simpa using mt_chrono 0 a b ha hb)]
    constructor
    · rintro ⟨d, hd, x, hx, h1, h2, h3⟩
      refine ⟨d, x, ?_, ?_, h1, h2, h3, ?_⟩
      · exact (mem_mu hids d).1 (by simpa [mu] using hd)
      · exact mt_mem _ _ _ _ hx
      · rintro ⟨h4, h5⟩
        exact mt_unshared 0 a b ha hb x hx ⟨⟨x, h4, rfl⟩, x, h5, rfl⟩
    · rintro ⟨d, x, h1, h2, h3, h4, h5, h6⟩
      have hx := (mem_mu hids x).2 h2
      obtain ⟨⟨x', t⟩, hx', rfl⟩ := List.mem_map.1 hx
      refine ⟨d, by simpa [mu] using (mem_mu hids d).2 h1, x', ?_, h3, h4, h5⟩
      cases t with
      | none => exact hx'
      | some k =>
        exfalso
        obtain ⟨g1, y, g2, g3⟩ := mt_shared _ _ _ _ _ hx'
        have := hids x' g1 y g2 g3.symm
        subst this
        exact h6 ⟨g1, g2⟩
  rcases merge_nil a b hne with ⟨h1, h2⟩ | ⟨-, st', -, -, h2, -, h3⟩
  · have := hd h1; subst this
    rw [h2]
    simp only [reduceCtorEq, exists_false, false_iff, not_or]
    constructor
    · rintro ⟨x, a', y, b', e1, e2, e3⟩
      rw [e1] at e2; cases e2; exact e3 rfl
    · rintro ⟨d, x, h1, h2, -, -, -, h6⟩
      simp at h2; exact h6 ⟨h2, h2⟩
  · rw [h3, ← hlate, ← rootConf_iff]
    by_cases hs : st'.conflicts = []
    · have := h2.1 hs
      simp [hs, this]
    · have : ¬ (rootConf [] a b = [] ∧ ¬ Late [] (mt 0 a b)) := fun h => hs (h2.2 h)
      simp only [hs, if_false, MergeRes.conflicts.injEq, exists_eq', true_iff]
      by_cases hr : rootConf [] a b = []
      · right
        by_cases hl : Late [] (mt 0 a b)
        · exact hl
        · exact absurd ⟨hr, hl⟩ this
      · exact Or.inl hr

/-- Without `Distinguishable` a touched-after-delete goes unreported. -/
theorem C18_false_fast_path : ∃ (a b c : List Tx) (d x : Tx), GoodHistory a ∧ GoodHistory b ∧
    SameFile a b ∧ TouchedAfterDelete a b d x ∧ merge a b [] = .log c := by
  refine ⟨[⟨1, .add, b! "u", [], []⟩, ⟨2, .del, b! "u", [], []⟩, ⟨5, .add, b! "w", [], []⟩],
    [⟨1, .add, b! "u", [], []⟩, ⟨3, .setk, b! "u", b! "k", b! "v"⟩, ⟨5, .add, b! "w", [], []⟩], _,
    ⟨2, .del, b! "u", [], []⟩, ⟨3, .setk, b! "u", b! "k", b! "v"⟩, ?_, ?_,
    ⟨by simp [SameIds], by simp⟩, by simp [TouchedAfterDelete], by simp [merge, fastPath]; rfl⟩
  all_goals
    refine ⟨by simp [Chrono], ?_, by simp [KnownKinds], by simp [AddsOnce]⟩
    unfold Replays
    rw [← view_nil, ← replay_spec]
    decide

theorem head_notdel {x : Tx} {l : List Tx} (h : GoodHistory (x :: l)) : x.kind ≠ .del := by
  intro hk
  have hl := life_of_good h
  obtain ⟨y, h1, h2, h3, h4⟩ := hl.addFirst x (by simp) (by simp [hk])
  have hc := h.chrono
  rw [chrono_cons] at hc
  rcases List.mem_cons.1 h1 with rfl | h1
  · omega
  · have := hc.1 y h1; omega

theorem rootConf_facts {R : List Conflict} {a b : List Tx} (ha : GoodHistory a) (i : Nat) :
    ∀ r ∈ rootConf R a b, r.kind = .root ∧ r.resolution = .none ∧
      (∃ x a' y b', a = x :: a' ∧ b = y :: b' ∧ r.initial = x ∧ r.conflict = y ∧
        x.time ≠ y.time) ∧ r.initial.kind ≠ .del ∧ r.initial ∈ (mt i a b).map Prod.fst := by
  intro r hr
  cases a with
  | nil => simp [rootConf] at hr
  | cons x a =>
    cases b with
    | nil => simp [rootConf] at hr
    | cons y b =>
      simp only [rootConf] at hr
      split at hr
      · rename_i hc
        simp at hr; subst hr
        exact ⟨rfl, rfl, ⟨x, a, y, b, rfl, rfl, rfl, rfl, hc.1⟩, head_notdel ha,
          (mt_sublist_left i (x :: a) (y :: b)).subset (by simp)⟩
      · simp at hr

/-- the first pass on good histories -/
theorem first_pass {a b : List Tx} (ha : GoodHistory a) (hb : GoodHistory b) (hs : SameFile a b)
    {cs : List Conflict} (h : merge a b [] = .conflicts cs) :
    fastPath a b = some false ∧ ∃ ds, cs = rootConf [] a b ++ ds ∧
      (∀ con ∈ ds, ConfOk (mt 0 a b) con) ∧
      ∀ x, (x, none) ∈ mt 0 a b → ∀ d, IsFirstDel ((mt 0 a b).map Prod.fst) d → d.uuid = x.uuid →
        d.time < x.time → ∃ con ∈ ds, con.initial = d := by
  have hT := tok_of_good ha hb hs 0
  obtain ⟨st', h1, h2⟩ := inv1_proc (root := rootConf [] a b) hT
    (fun r hr => (rootConf_facts ha 0 r hr).2.2.2) (mt 0 a b) [] (by simp)
    (st := { conflicts := rootConf [] a b })
    ⟨⟨rfl, by simp, by simp⟩, by simp, [], by simp, by simp, by simp⟩ (mt_tagsOk 0 0 a b (Nat.le_refl _))
  simp only [merge, List.any_nil, Bool.false_eq_true, if_false] at h
  cases hf : fastPath a b with
  | none => simp [hf] at h
  | some v =>
    cases v with
    | true => simp [hf] at h
    | false =>
      refine ⟨rfl, ?_⟩
      simp only [hf, mergeLoop_eq, h1] at h
      split at h
      · cases h
      · cases h
        obtain ⟨ds, hds⟩ := h2.conf
        exact ⟨ds, hds⟩

/-- Every reported conflict says what it is about: a root conflict names the two different first operations; a
delete conflict names a delete and a later one-sided operation on the same entry. All are unresolved. -/
theorem C18_conflicts_named (a b : List Tx) (ha : GoodHistory a) (hb : GoodHistory b)
    (hs : SameFile a b) (cs : List Conflict) (h : merge a b [] = .conflicts cs) :
    ∀ con ∈ cs, con.resolution = .none ∧
      (con.kind = .root → NoCommonRoot a b ∧ a.head? = some con.initial ∧ b.head? = some con.conflict) ∧
      (con.kind = .deleteSet → TouchedAfterDelete a b con.initial con.conflict) := by
  obtain ⟨-, ds, rfl, hds, -⟩ := first_pass ha hb hs h
  intro con hcon
  rcases List.mem_append.1 hcon with hcon | hcon
  · obtain ⟨h1, h2, ⟨x, a', y, b', rfl, rfl, h3, h4, h5⟩, -⟩ := rootConf_facts ha 0 con hcon
    exact ⟨h2, fun _ => ⟨⟨x, a', y, b', rfl, rfl, h5⟩, by simp [h3], by simp [h4]⟩, by simp [h1]⟩
  · have hc := hds con hcon
    refine ⟨hc.res, by simp [hc.kind], fun _ => ⟨?_, ?_, hc.first.2.1, hc.uuid.symm, hc.later, ?_⟩⟩
    · exact (mem_mu hs.ids _).1 hc.first.1
    · exact mt_mem _ _ _ _ hc.mem
    · rintro ⟨h4, h5⟩
      exact mt_unshared 0 a b ha.chrono hb.chrono _ hc.mem ⟨⟨_, h4, rfl⟩, _, h5, rfl⟩

/-- Conversely every entry that one side touched after a delete of it is named by a delete conflict. -/
theorem C18_every_entry_named (a b : List Tx) (ha : GoodHistory a) (hb : GoodHistory b)
    (hs : SameFile a b) (cs : List Conflict) (h : merge a b [] = .conflicts cs)
    (d x : Tx) (htd : TouchedAfterDelete a b d x) :
    ∃ con ∈ cs, con.kind = .deleteSet ∧ con.initial.uuid = x.uuid := by
  obtain ⟨-, ds, rfl, hds, hcomp⟩ := first_pass ha hb hs h
  obtain ⟨h1, h2, h3, h4, h5, h6⟩ := htd
  have hT := tok_of_good ha hb hs 0
  have hdT := (mem_mu hs.ids d).2 h1
  obtain ⟨⟨x', t⟩, hx', hxe⟩ := List.mem_map.1 ((mem_mu hs.ids x).2 h2)
  simp only at hxe; subst hxe
  cases t with
  | some k => exact absurd h5 (hT.sharedNotAfter x' k hx' d hdT h3 h4)
  | none =>
    obtain ⟨d0, hf0, hu0, hle0⟩ := exists_firstDel hT.chrono hdT h3
    obtain ⟨con, hc, hci⟩ := hcomp x' hx' d0 hf0 (hu0.trans h4) (by omega)
    exact ⟨con, by simp [hc], (hds con hc).kind, by rw [hci]; exact hu0.trans h4⟩

/-- concrete conflict: one side deletes the entry, the other edits it later. -/
def exDel : List Tx := [⟨1, .add, b! "u", [], []⟩, ⟨2, .del, b! "u", [], []⟩]
def exEdit : List Tx := [⟨1, .add, b! "u", [], []⟩, ⟨3, .setk, b! "u", b! "k", b! "v"⟩,
  ⟨4, .setk, b! "u", b! "k", b! "w"⟩]
def exConf : Conflict :=
  { kind := .deleteSet, initial := ⟨2, .del, b! "u", [], []⟩,
    conflict := ⟨3, .setk, b! "u", b! "k", b! "v"⟩ }
theorem exDel_good : GoodHistory exDel := by
  refine ⟨by simp [Chrono, exDel], ?_, by simp [KnownKinds, exDel], by simp [AddsOnce, exDel]⟩
  unfold Replays; rw [← view_nil, ← replay_spec]; decide
theorem exEdit_good : GoodHistory exEdit := by
  refine ⟨by simp [Chrono, exEdit], ?_, by simp [KnownKinds, exEdit], by simp [AddsOnce, exEdit]⟩
  unfold Replays; rw [← view_nil, ← replay_spec]; decide
theorem exDE_same : SameFile exDel exEdit := ⟨by simp [SameIds, exDel, exEdit], by simp [exDel, exEdit]⟩
theorem exDE_merge : merge exDel exEdit [] = .conflicts [exConf] := by
  simp [merge, fastPath, exDel, exEdit, mergeLoop, appendRest, checkConflict, MState.push, exConf,
    GoMap.get?, GoMap.set]

/-! ## C19 Resolving the reported conflicts completes the merge in one round with the chosen outcome -/

/-- The user's answer to a conflict: force an unrelated root, and per deleted entry either keep the delete (drop
the later edits) or drop the delete. -/
def answer (keepDelete : Tx → Bool) (con : Conflict) : Conflict :=
  match con.kind with
  | .root => con.force
  | .deleteSet => if keepDelete con.initial then con.discardConflict else con.discardInitial

/-- What the answers throw away: a dropped delete itself, or everything on the entry after a kept delete. -/
def Discarded (keepDelete : Tx → Bool) (cs : List Conflict) (t : Tx) : Prop :=
  ∃ con ∈ cs, con.kind = .deleteSet ∧
    if keepDelete con.initial then t.uuid = con.initial.uuid ∧ con.initial.time < t.time
    else t = con.initial

/-- One round of answers completes the merge: no panic, no further conflicts; the result has exactly the
operations of both sides that were not thrown away, is chronological and replays. -/
theorem C19_one_round (a b : List Tx) (ha : GoodHistory a) (hb : GoodHistory b) (hs : SameFile a b)
    (cs : List Conflict) (h : merge a b [] = .conflicts cs) (keepDelete : Tx → Bool) :
    ∃ c, merge a b (cs.map (answer keepDelete)) = .log c ∧ GoodHistory c ∧
      ∀ t, t ∈ c ↔ (t ∈ a ∨ t ∈ b) ∧ ¬ Discarded keepDelete cs t := by
  obtain ⟨hfp, ds, hcs, hds, hcomp⟩ := first_pass ha hb hs h
  have hT := tok_of_good ha hb hs 0
  generalize hRdef : cs.map (answer keepDelete) = R
  have hRmem : ∀ r, r ∈ R ↔ ∃ con ∈ cs, answer keepDelete con = r := by
    intro r; rw [← hRdef]; simp
  have hroot := rootConf_facts (R := []) (b := b) ha 0
  have hkind : ∀ con, (answer keepDelete con).kind = con.kind ∧
      (answer keepDelete con).initial = con.initial ∧ (answer keepDelete con).resolution ≠ .none := by
    intro con
    unfold answer
    cases hk : con.kind with
    | root => simp [Conflict.force, hk]
    | deleteSet => simp only; split <;> simp [Conflict.discardConflict, Conflict.discardInitial, hk]
  have hresd : ∀ con, con.kind = .deleteSet → (answer keepDelete con).resolution =
      if keepDelete con.initial then .discardConflict else .discardInitial := by
    intro con hk
    unfold answer
    simp only [hk]
    split <;> rfl
  have hdsk : ∀ con ∈ cs, con.kind = .deleteSet → ConfOk (mt 0 a b) con := by
    intro con hc hk
    rw [hcs] at hc
    rcases List.mem_append.1 hc with hc | hc
    · have := (hroot con hc).1; rw [hk] at this; cases this
    · exact hds con hc
  have hR : ROk (mt 0 a b) R := by
    refine ⟨?_, ?_, ?_, ?_⟩
    · intro r hr hk
      obtain ⟨con, hc, rfl⟩ := (hRmem r).1 hr
      obtain ⟨k1, k2, k3⟩ := hkind con
      rw [k1] at hk
      rw [hcs] at hc
      rcases List.mem_append.1 hc with hc | hc
      · obtain ⟨-, -, -, g1, g2⟩ := hroot con hc
        refine ⟨?_, by rw [k2]; exact g1, by rw [k2]; exact g2⟩
        unfold answer; simp [hk, Conflict.force]
      · have := (hds con hc).kind; rw [hk] at this; cases this
    · intro r hr hk
      obtain ⟨con, hc, rfl⟩ := (hRmem r).1 hr
      obtain ⟨k1, k2, k3⟩ := hkind con
      rw [k1] at hk
      have hok := hdsk con hc hk
      refine ⟨?_, by rw [k2]; exact hok.first, con.conflict, hok.mem, by rw [k2]; exact hok.uuid,
        by rw [k2]; exact hok.later⟩
      rw [hresd con hk]
      cases keepDelete con.initial <;> simp
    · intro r hr r' hr' hk hk' hi
      obtain ⟨con, hc, rfl⟩ := (hRmem r).1 hr
      obtain ⟨con', hc', rfl⟩ := (hRmem r').1 hr'
      rw [(hkind con).1] at hk
      rw [(hkind con').1] at hk'
      rw [(hkind con).2.1, (hkind con').2.1] at hi
      rw [hresd con hk, hresd con' hk', hi]
    · intro x hx d hd hu hlt
      obtain ⟨con, hc, hci⟩ := hcomp x hx d hd hu hlt
      refine ⟨answer keepDelete con, (hRmem _).2 ⟨con, by rw [hcs]; simp [hc], rfl⟩, ?_, ?_⟩
      · rw [(hkind con).1]; exact (hds con hc).kind
      · rw [(hkind con).2.1]; exact hci
  have hrc : rootConf R a b = [] := by
    by_cases hr : rootConf [] a b = []
    · cases ha' : a with
      | nil => simp [rootConf]
      | cons x a' =>
        cases hb' : b with
        | nil => simp [rootConf]
        | cons y b' =>
          simp only [ha', hb', rootConf, rootForced] at hr ⊢
          split at hr
          · simp at hr
          · rename_i hh
            have : x.time = y.time := by simpa using hh
            simp [this]
    · have : rootForced R = true := by
        cases hrr : rootConf [] a b with
        | nil => exact absurd hrr hr
        | cons r rs =>
          have hrk := (hroot r (by rw [hrr]; simp)).1
          rw [← hRdef, hcs, hrr]
          simp only [List.cons_append, List.map_cons, rootForced]
          unfold answer; simp [hrk, Conflict.force]
      cases a <;> cases b <;> simp [rootConf, this]
  have hdropiff : ∀ t, Dropped R t ↔ Discarded keepDelete cs t := by
    intro t
    constructor
    · rintro ⟨r, hr, hk, hh⟩
      obtain ⟨con, hc, rfl⟩ := (hRmem r).1 hr
      obtain ⟨k1, k2, k3⟩ := hkind con
      rw [k1] at hk
      rw [k2, hresd con hk] at hh
      refine ⟨con, hc, hk, ?_⟩
      cases hkd : keepDelete con.initial <;> simpa [hkd] using hh
    · rintro ⟨con, hc, hk, hh⟩
      obtain ⟨k1, k2, k3⟩ := hkind con
      refine ⟨answer keepDelete con, (hRmem _).2 ⟨con, hc, rfl⟩, by rw [k1]; exact hk, ?_⟩
      rw [k2, hresd con hk]
      cases hkd : keepDelete con.initial <;> simpa [hkd] using hh
  obtain ⟨st', h1, h2⟩ := inv2_proc hT hR (mt 0 a b) [] (by simp) (st := {})
    ⟨by simp, rfl, by simp, by simp⟩
  have hany : R.any (fun r => decide (r.resolution = .none)) = false := by
    rw [List.any_eq_false]
    intro r hr
    obtain ⟨con, hc, rfl⟩ := (hRmem r).1 hr
    simp [(hkind con).2.2]
  have hmem : ∀ t, t ∈ st'.c ↔ (t ∈ a ∨ t ∈ b) ∧ ¬ Discarded keepDelete cs t := by
    intro t
    rw [h2.c, List.mem_filter, ← mem_mu hs.ids, ← hdropiff]
    simp [mu]
  refine ⟨st'.c, ?_, ?_, hmem⟩
  · simp only [merge, hany, Bool.false_eq_true, if_false, hfp, mergeLoop_eq, hrc]
    rw [show ({ conflicts := [] } : MState) = {} from rfl, h1]
    simp [h2.conf]
  · have hch : Chrono st'.c := by
      rw [h2.c]; exact chrono_filter hT.chrono _
    have la := life_of_good ha
    have lb := life_of_good hb
    have hadd : AddsOnce st'.c := by
      intro x hx y hy hxa hya hu
      rcases ((hmem x).1 hx).1 with h | h <;> rcases ((hmem y).1 hy).1 with h' | h'
      · exact ha.addsOnce x h y h' hxa hya hu
      · exact hs.adds x h y h' hxa hya hu
      · exact (hs.adds y h' x h hya hxa hu.symm).symm
      · exact hb.addsOnce x h y h' hxa hya hu
    -- adds are never thrown away
    have haddkeep : ∀ y, (y ∈ a ∨ y ∈ b) → y.kind = .add → ¬ Discarded keepDelete cs y := by
      rintro y hy hya ⟨con, hc, hk, hh⟩
      have hok := hdsk con hc hk
      have hid := (mem_mu hs.ids _).1 hok.first.1
      split at hh
      · -- a delete before the add: the delete needs an earlier add, which is the same add
        have hfirst : ∃ z, (z ∈ a ∨ z ∈ b) ∧ z.kind = .add ∧ z.uuid = con.initial.uuid ∧
            z.time < con.initial.time := by
          rcases hid with h | h
          · obtain ⟨z, z1, z2⟩ := la.addFirst _ h (by rw [hok.first.2.1]; simp)
            exact ⟨z, Or.inl z1, z2⟩
          · obtain ⟨z, z1, z2⟩ := lb.addFirst _ h (by rw [hok.first.2.1]; simp)
            exact ⟨z, Or.inr z1, z2⟩
        obtain ⟨z, z1, z2, z3, z4⟩ := hfirst
        have hzy : z = y := by
          rcases z1 with z1 | z1 <;> rcases hy with hy | hy
          · exact ha.addsOnce z z1 y hy z2 hya (z3.trans hh.1.symm)
          · exact hs.adds z z1 y hy z2 hya (z3.trans hh.1.symm)
          · exact (hs.adds y hy z z1 hya z2 (hh.1.trans z3.symm)).symm
          · exact hb.addsOnce z z1 y hy z2 hya (z3.trans hh.1.symm)
        subst hzy
        have := hh.2
        omega
      · subst hh
        rw [hok.first.2.1] at hya; cases hya
    have hlife : Life st'.c := by
      refine ⟨?_, hadd, ?_⟩
      · intro x hx hk
        have hxm := ((hmem x).1 hx).1
        rcases hxm with h | h
        · obtain ⟨y, y1, y2, y3⟩ := la.addFirst x h hk
          exact ⟨y, (hmem y).2 ⟨Or.inl y1, haddkeep y (Or.inl y1) y2⟩, y2, y3⟩
        · obtain ⟨y, y1, y2, y3⟩ := lb.addFirst x h hk
          exact ⟨y, (hmem y).2 ⟨Or.inr y1, haddkeep y (Or.inr y1) y2⟩, y2, y3⟩
      · intro d hd x hx hk hu hlt
        obtain ⟨hdm, hdk⟩ := (hmem d).1 hd
        obtain ⟨hxm, hxk⟩ := (hmem x).1 hx
        have hdT := (mem_mu hs.ids d).2 hdm
        have hxT := (mem_mu hs.ids x).2 hxm
        obtain ⟨⟨x', t⟩, hx', hxe⟩ := List.mem_map.1 hxT
        simp only at hxe; subst hxe
        cases t with
        | some k => exact hT.sharedNotAfter x' k hx' d hdT hk hu hlt
        | none =>
          obtain ⟨d0, hf0, hu0, hle0⟩ := exists_firstDel hT.chrono hdT hk
          have hd0 : d0 = d := by
            by_cases he : d0.time = d.time
            · exact chrono_time_inj hT.chrono hf0.1 hdT he
            · exfalso
              exact hT.twoDels d0 hf0.1 d hdT x' hxT hf0.2.1 hk (hu0.trans hu) hu (by omega) hlt
          subst hd0
          obtain ⟨con, hc, hci⟩ := hcomp x' hx' d0 hf0 hu hlt
          have hc' : con ∈ cs := by rw [hcs]; simp [hc]
          cases hkd : keepDelete con.initial with
          | true =>
            exact hxk ⟨con, hc', (hds con hc).kind, by
              rw [if_pos hkd, hci]; exact ⟨hu.symm, hlt⟩⟩
          | false =>
            exact hdk ⟨con, hc', (hds con hc).kind, by
              rw [if_neg (by simp [hkd]), hci]⟩
    refine ⟨hch, replays_of_life hch hlife, ?_, hadd⟩
    intro t ht s
    rcases ((hmem t).1 ht).1 with h | h
    · exact ha.kinds t h s
    · exact hb.kinds t h s

/-- In terms of what the user sees afterwards: an entry whose delete was kept is gone; an entry whose delete was
dropped is there, unless the other side deleted it as well. -/
theorem C19_outcome (a b : List Tx) (ha : GoodHistory a) (hb : GoodHistory b) (hs : SameFile a b)
    (cs : List Conflict) (h : merge a b [] = .conflicts cs) (keepDelete : Tx → Bool) :
    ∃ c st, merge a b (cs.map (answer keepDelete)) = .log c ∧ meaning empty c = some st ∧
      ∀ con ∈ cs, con.kind = .deleteSet →
        (keepDelete con.initial = true → st con.initial.uuid = none) ∧
        (keepDelete con.initial = false →
          (∀ d, (d ∈ a ∨ d ∈ b) → d.kind = .del → d.uuid = con.initial.uuid → d = con.initial) →
          (st con.initial.uuid).isSome = true) := by
  obtain ⟨c, h1, h2, h3⟩ := C19_one_round a b ha hb hs cs h keepDelete
  obtain ⟨st, hst⟩ := Option.isSome_iff_exists.1 h2.replays
  refine ⟨c, st, h1, hst, ?_⟩
  intro con hcon hk
  have hvis := visible_iff h2 hst con.initial.uuid
  have htad := ((C18_conflicts_named a b ha hb hs cs h con hcon).2.2 hk)
  obtain ⟨t1, t2, t3, t4, t5, t6⟩ := htad
  have hfirst := first_pass ha hb hs h
  obtain ⟨-, ds, hcs, hds, -⟩ := hfirst
  have hokof : ∀ con' ∈ cs, con'.kind = .deleteSet → ConfOk (mt 0 a b) con' := by
    intro con' hc' hk'
    rw [hcs] at hc'
    rcases List.mem_append.1 hc' with hc' | hc'
    · have := (rootConf_facts ha 0 con' hc').1; rw [hk'] at this; cases this
    · exact hds con' hc'
  have hsame : ∀ con' ∈ cs, con'.kind = .deleteSet → con'.initial.uuid = con.initial.uuid →
      con'.initial = con.initial := by
    intro con' hc' hk' hu'
    exact isFirstDel_unique (mt_chrono 0 a b ha.chrono hb.chrono) (hokof con' hc' hk').first
      (hokof con hcon hk).first hu'
  constructor
  · intro hkd
    have hin : con.initial ∈ c := by
      refine (h3 _).2 ⟨t1, ?_⟩
      rintro ⟨con', hc', hk', hh⟩
      have hu : con'.initial.uuid = con.initial.uuid := by
        split at hh
        · exact hh.1.symm
        · rw [hh]
      have := hsame con' hc' hk' hu
      rw [this, hkd] at hh
      simp at hh
    have : ¬ (st con.initial.uuid).isSome = true := by
      rw [hvis]; rintro ⟨-, hh⟩; exact hh _ hin rfl t3
    simpa using this
  · intro hkd hone
    rw [hvis]
    constructor
    · refine ⟨con.conflict, (h3 _).2 ⟨t2, ?_⟩, t4.symm⟩
      rintro ⟨con', hc', hk', hh⟩
      have hu : con'.initial.uuid = con.initial.uuid := by
        split at hh
        · exact hh.1.symm.trans t4.symm
        · rw [← hh]; exact t4.symm
      have := hsame con' hc' hk' hu
      rw [this, hkd] at hh
      simp only [Bool.false_eq_true, if_false] at hh
      rw [hh] at t5; omega
    · intro d hd hu hdk
      obtain ⟨hd1, hd2⟩ := (h3 d).1 hd
      have := hone d hd1 hdk hu
      exact hd2 ⟨con, hcon, hk, by rw [hkd]; simpa using this⟩

/-- non-vacuity of C18/C19: the hypotheses hold for a concrete delete/edit conflict. -/
example : GoodHistory exDel ∧ GoodHistory exEdit ∧ SameFile exDel exEdit ∧
    merge exDel exEdit [] = .conflicts [exConf] ∧
    merge exDel exEdit [exConf.discardConflict] = .log exDel ∧
    merge exDel exEdit [exConf.discardInitial] = .log exEdit :=
  ⟨exDel_good, exEdit_good, exDE_same, exDE_merge, by
    simp [merge, fastPath, exDel, exEdit, mergeLoop, appendRest, checkConflict, MState.push, exConf,
      GoMap.get?, GoMap.set, Conflict.discardConflict], by
    simp [merge, fastPath, exDel, exEdit, mergeLoop, appendRest, checkConflict, MState.push, exConf,
      GoMap.get?, GoMap.set, Conflict.discardInitial]⟩

/-- For logs bpass never writes (an edit after a delete inside one log) resolving can crash: "impossible
situation" (txlogs.go:404). -/
theorem C19_panics_on_bad_logs : ∃ (a b : List Tx) (cs : List Conflict),
    Chrono a ∧ Chrono b ∧ SameFile a b ∧ merge a b [] = .conflicts cs ∧
    merge a b (cs.map (answer (fun _ => false))) = .panic :=
  ⟨[⟨1, .add, b! "u", [], []⟩, ⟨2, .del, b! "u", [], []⟩],
   [⟨1, .add, b! "u", [], []⟩, ⟨2, .del, b! "u", [], []⟩, ⟨3, .setk, b! "u", b! "k", b! "v"⟩],
   [{ kind := .deleteSet, initial := ⟨2, .del, b! "u", [], []⟩,
      conflict := ⟨3, .setk, b! "u", b! "k", b! "v"⟩ }],
   by simp [Chrono], by simp [Chrono], ⟨by simp [SameIds], by simp⟩,
   by simp [merge, fastPath, mergeLoop, appendRest, checkConflict, MState.push, GoMap.get?, GoMap.set],
   by simp [merge, fastPath, mergeLoop, appendRest, checkConflict, MState.push, GoMap.get?, GoMap.set,
        answer, Conflict.discardInitial]⟩

/-! ## C20 Unrelated files are never merged silently -/

theorem checkConflict_conflicts {R : List Conflict} {st st' : MState}
    (h : checkConflict R st = some st') : ∃ more, st'.conflicts = st.conflicts ++ more := by
  unfold checkConflict at h
  repeat' split at h
  all_goals first
    | (cases h; exact ⟨[], (List.append_nil _).symm⟩)
    | (cases h; exact ⟨_, rfl⟩)
    | cases h

theorem proc_conflicts {R : List Conflict} (L : List (Tx × Option Nat)) {st st' : MState}
    (h : proc R L st = some st') : ∃ more, st'.conflicts = st.conflicts ++ more := by
  induction L generalizing st with
  | nil => simp [proc] at h; subst h; exact ⟨[], by simp⟩
  | cons p L ih =>
    simp only [proc] at h
    cases hp : procStep R st p with
    | none => simp [hp] at h
    | some s1 =>
      simp only [hp] at h
      obtain ⟨m1, h1⟩ := ih h
      have : ∃ m, s1.conflicts = st.conflicts ++ m := by
        unfold procStep at hp
        split at hp
        · cases hp; exact ⟨[], by simp⟩
        · obtain ⟨m, hm⟩ := checkConflict_conflicts hp
          exact ⟨m, hm⟩
      obtain ⟨m2, h2⟩ := this
      exact ⟨m2 ++ m1, by rw [h1, h2, List.append_assoc]⟩

/-- Without a Force in first place, two logs without a common root are never merged, whatever other resolutions
are passed in. -/
theorem C20_never_silent (a b : List Tx) (R : List Conflict) (hroot : NoCommonRoot a b)
    (hR : ∀ r rs, R = r :: rs → r.resolution ≠ .force) (c : List Tx) : merge a b R ≠ .log c := by
  obtain ⟨x, a', y, b', rfl, rfl, hne⟩ := hroot
  intro h
  unfold merge at h
  split at h
  · cases h
  · have hfp : fastPath (x :: a') (y :: b') = some false := by
      unfold fastPath
      split
      · simp [hne, List.getLast?_cons]
      · rfl
    simp only [hfp, mergeLoop_eq] at h
    have hf : rootForced R = false := by
      cases R with
      | nil => rfl
      | cons r rs => simpa [rootForced] using hR r rs rfl
    cases hp : proc R (mt 0 (x :: a') (y :: b'))
        { conflicts := rootConf R (x :: a') (y :: b') } with
    | none => simp [hp] at h
    | some st' =>
      obtain ⟨m, hm⟩ := proc_conflicts _ hp
      simp [rootConf, hne, hf] at hm
      simp [hp, hm] at h

/-- and without resolutions the root conflict is reported, first, naming the two first operations. -/
theorem C20_root_reported (x y : Tx) (a b : List Tx) (hne : x.time ≠ y.time) :
    ∃ cs, merge (x :: a) (y :: b) [] =
      .conflicts ({ kind := .root, initial := x, conflict := y } :: cs) := by
  rcases merge_nil (x :: a) (y :: b) (by simp) with ⟨h1, -⟩ | ⟨-, st', h0, -, -, -, h4⟩
  · exact absurd (by simpa using h1.2.1) hne
  · obtain ⟨m, hm⟩ := proc_conflicts _ h0
    simp [rootConf, hne, rootForced] at hm
    rw [h4, hm]
    exact ⟨m, by simp⟩

example : NoCommonRoot [⟨1, .add, b! "u", [], []⟩] [⟨2, .add, b! "w", [], []⟩] :=
  ⟨_, _, _, _, rfl, rfl, by decide⟩

/-! ## C21 Merge refuses half-resolved conflicts and is total -/

theorem C21_unresolved (a b : List Tx) (R : List Conflict) (r : Conflict) (hr : r ∈ R)
    (hn : r.resolution = .none) : merge a b R = .conflicts R := by
  have : R.any (fun r => decide (r.resolution = .none)) = true := by
    rw [List.any_eq_true]; exact ⟨r, hr, by simpa using hn⟩
  simp [merge, this]

/-- Merge without resolutions does not panic … -/
theorem C21_total_partial (a b : List Tx) (hne : a ≠ [] ∨ b ≠ []) : merge a b [] ≠ .panic := by
  rcases merge_nil a b hne with ⟨-, h2⟩ | ⟨-, st', -, -, -, -, h2⟩
  · rw [h2]; simp
  · rw [h2]; split <;> simp

/-- … except for two empty logs, where it does: "never panics" is false as stated. -/
theorem C21_false : merge [] [] [] = .panic := by decide

end Verif.Txlogs
