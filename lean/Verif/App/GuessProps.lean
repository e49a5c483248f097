import Verif.App.GuessLemmas
import Verif.App.Input

namespace Verif.App
open Verif Verif.App.Spec

/-! # C105 Generated passwords are hard to guess -/

/-- If no character is picked by more than one in `K` of the bytes (for a required character) or pairs of bytes (for the others), then
no password is made from more than one in `K ^ length` of the contents of the buffer. -/
theorem C105_bound (length : Int) (c : Classes) (K : Nat) (h1 : ∀ p ∈ c.pairs, 0 < p.2 → ∀ x, picks p.1 x * K ≤ 256)
    (h2 : c.needLen < length → ∀ x, picks2 c.pairs x * K ≤ 256 ^ 2) (pw : Str) :
    ways length c pw * K ^ length.toNat ≤ 256 ^ bufferSize length c := by
  refine ways_le K ?_ pw
  intro p hp x
  rcases List.mem_append.1 hp with hp | hp
  · obtain ⟨q, hq, hp⟩ := List.mem_flatMap.1 hp
    obtain ⟨hn, rfl⟩ := List.mem_replicate.1 hp
    rw [onePick_ways]
    exact h1 q hq (by omega) x
  · obtain ⟨hn, rfl⟩ := List.mem_replicate.1 hp
    rw [twoPick_ways]
    exact h2 (by omega) x

theorem picks_other {a : Str} {x : UInt8} (h : x ∉ a) : picks a x = 0 := by
  unfold picks
  rw [List.countP_eq_zero]
  intro b _ k
  exact h (pickFrom_mem (of_decide_eq_true k))

/-- the most bytes that pick one character of each alphabet -/
theorem picks_most : (∀ x, picks alphabetUppercase x ≤ 10) ∧ (∀ x, picks alphabetLowercase x ≤ 10) ∧ (∀ x, picks alphabetNumbers x ≤ 26) ∧
    (∀ x, picks alphabetBasicSymbols x ≤ 32) ∧ (∀ x, picks alphabetExtraSymbols x ≤ 22) := by
  have key : ∀ (a : Str) (n : Nat), (a.all fun x => picks a x ≤ n) = true → ∀ x, picks a x ≤ n := by
    intro a n h x
    by_cases hx : x ∈ a
    · exact of_decide_eq_true (List.all_eq_true.1 h x hx)
    · rw [picks_other hx]; exact Nat.zero_le _
  exact ⟨key _ _ (by decide +kernel), key _ _ (by decide +kernel), key _ _ (by decide +kernel), key _ _ (by decide +kernel),
    key _ _ (by decide +kernel)⟩

theorem picks_any (c : Classes) : ∀ p ∈ c.pairs, ∀ x, picks p.1 x ≤ 32 := by
  intro p hp x
  obtain ⟨h1, h2, h3, h4, h5⟩ := picks_most
  have hp := (List.mem_filter.1 hp).1
  simp only [Classes.all, List.mem_cons, List.not_mem_nil, or_false] at hp
  rcases hp with rfl | rfl | rfl | rfl | rfl
  · exact Nat.le_trans (h1 x) (by decide)
  · exact Nat.le_trans (h2 x) (by decide)
  · exact Nat.le_trans (h3 x) (by decide)
  · exact h4 x
  · exact Nat.le_trans (h5 x) (by decide)

/-- For all settings: no password is made from more than one in `8 ^ length` of the contents of the buffer. -/
theorem C105_any (length : Int) (c : Classes) (pw : Str) : ways length c pw * 8 ^ length.toNat ≤ 256 ^ bufferSize length c := by
  refine C105_bound length c 8 (fun p hp _ x => ?_) (fun _ x => ?_) pw
  · have := picks_any c p hp x; omega
  · have : picks2 c.pairs x ≤ bytes.length * 32 := by
      unfold picks2
      refine sum_map_le _ _ _ fun a _ => ?_
      cases hp : pickFrom c.pairs a with
      | none => exact Nat.zero_le _
      | some p => exact picks_any c p (pickFrom_mem hp) x
    rw [bytes_length] at this
    omega

/-- how often each class is picked if all are allowed -/
theorem picks_class (p : Str × Int) (hp : p ∈ ({} : Classes).pairs) :
    (bytes.countP fun a => pickFrom ({} : Classes).pairs a = some p) ≤ if p.1 = alphabetUppercase then 52 else 51 :=
  of_decide_eq_true (List.all_eq_true.1 (by decide +kernel :
    (({} : Classes).pairs.all fun p => decide ((bytes.countP fun a => pickFrom ({} : Classes).pairs a = some p) ≤
      if p.1 = alphabetUppercase then 52 else 51)) = true) p hp)

/-- With the settings the prompt starts with, and every length: no password is made from more than one in `40 ^ length` of the contents
of the buffer; for the 32 characters it starts with, that is one in `2 ^ 170`. -/
theorem C105_default (length : Int) (pw : Str) : ways length {} pw * 40 ^ length.toNat ≤ 256 ^ bufferSize length {} := by
  refine C105_bound length {} 40 (fun p hp h0 => ?_) (fun _ x => ?_) pw
  · exact absurd h0 ((by decide +kernel : ∀ p ∈ ({} : Classes).pairs, ¬ 0 < p.2) p hp)
  · obtain ⟨h1, h2, h3, h4, h5⟩ := picks_most
    have hdis : ({} : Classes).pairs.Pairwise fun p q => ∀ x ∈ p.1, x ∉ q.1 := by decide +kernel
    have hone : ∀ p ∈ ({} : Classes).pairs, x ∈ p.1 → picks2 ({} : Classes).pairs x ≤
        (bytes.countP fun a => pickFrom ({} : Classes).pairs a = some p) * picks p.1 x := by
      intro p hp hx
      unfold picks2
      rw [countP_sum, ← sum_map_mul]
      refine sum_le_sum fun a _ => ?_
      cases hq : pickFrom ({} : Classes).pairs a with
      | none => exact Nat.zero_le _
      | some q =>
        by_cases hpq : q = p
        · simp [hpq]
        · have hxq : x ∉ q.1 := fun k => disjoint_pairs hdis (pickFrom_mem hq) hp hpq k hx
          exact Nat.le_trans (Nat.le_of_eq (picks_other hxq)) (Nat.zero_le _)
    by_cases hx : ∃ p ∈ ({} : Classes).pairs, x ∈ p.1
    · obtain ⟨p, hp, hx⟩ := hx
      have k1 := hone p hp hx
      have k2 := picks_class p hp
      have hp' : p = (alphabetUppercase, 0) ∨ p = (alphabetLowercase, 0) ∨ p = (alphabetNumbers, 0) ∨ p = (alphabetBasicSymbols, 0) ∨
          p = (alphabetExtraSymbols, 0) := by
        have := (List.mem_filter.1 hp).1
        simpa [Classes.all] using this
      have fin : ∀ m n : Nat, (bytes.countP fun a => pickFrom ({} : Classes).pairs a = some p) ≤ m → picks p.1 x ≤ n → m * n * 40 ≤ 256 ^ 2 →
          picks2 ({} : Classes).pairs x * 40 ≤ 256 ^ 2 := fun m n a b c =>
        Nat.le_trans (Nat.mul_le_mul_right _ (Nat.le_trans k1 (Nat.mul_le_mul a b))) c
      rcases hp' with rfl | rfl | rfl | rfl | rfl
      · exact fin 52 10 (Nat.le_trans k2 (by decide)) (h1 x) (by decide)
      · exact fin 51 10 (Nat.le_trans k2 (by decide)) (h2 x) (by decide)
      · exact fin 51 26 (Nat.le_trans k2 (by decide)) (h3 x) (by decide)
      · exact fin 51 32 (Nat.le_trans k2 (by decide)) (h4 x) (by decide)
      · exact fin 51 22 (Nat.le_trans k2 (by decide)) (h5 x) (by decide)
    · have : picks2 ({} : Classes).pairs x ≤ bytes.length * 0 := by
        unfold picks2
        refine sum_map_le _ _ _ fun a _ => ?_
        cases hq : pickFrom ({} : Classes).pairs a with
        | none => exact Nat.le_refl _
        | some q => exact Nat.le_of_eq (picks_other fun k => hx ⟨q, pickFrom_mem hq, k⟩)
      omega

/-- Every password that meets the request can come out, and no other, for lengths up to 255. -/
theorem C105_every_partial (length : Int) (c : Classes) (h0 : 0 ≤ length) (hl : length < 256) (hc : ¬ Impossible length c) (pw : Str) :
    0 < ways length c pw ↔ Meets length c pw := by
  constructor
  · intro h
    unfold ways count at h
    obtain ⟨l, -, h2⟩ := List.countP_pos_iff.1 h
    obtain ⟨pw', h3, h4⟩ := (C54_meets_partial (entOf l) length c (by omega)).2 hc
    rw [of_decide_eq_true h2] at h3
    cases h3
    exact h4
  · intro h
    have hn : c.needLen ≤ length := by
      unfold Impossible at hc
      omega
    have hdis : c.pairs.Pairwise fun p q => ∀ x ∈ p.1, x ∉ q.1 := by
      refine List.Pairwise.filter _ ?_
      have : (([alphabetUppercase, alphabetLowercase, alphabetNumbers, alphabetBasicSymbols, alphabetExtraSymbols] : List Str)).Pairwise
          fun p q => ∀ x ∈ p, x ∉ q := by decide +kernel
      have h2 := (List.pairwise_map (f := fun p : Str × Int => p.1) (l := c.all)).1 this
      exact h2
    obtain ⟨v, w, h1, h2⟩ := take_required c.pairs (pairs_sized c) hdis pw fun p hp => h.enough p (List.mem_filter.1 hp).1
    obtain ⟨k1, k2⟩ := planOf_size hn
    have hwl : w.length = (length - c.needLen).toNat := by
      have a1 := canPlan_length h2
      have a2 := h1.length_eq
      have a3 := (reqPlan_width c.pairs).2
      have a4 := needLen_eq c
      have a5 := h.len
      rw [List.length_append] at a2
      omega
    have h3 : CanPlan (planOf length c) (v ++ w) := by
      refine canPlan_append h2 ?_
      rw [← hwl]
      refine canPlan_replicate fun x hx => ?_
      obtain ⟨p, hp, hp0, hxp⟩ := h.only x (h1.mem_iff.1 (List.mem_append_right _ hx))
      have hp : p ∈ c.pairs := List.mem_filter.2 ⟨hp, decide_eq_true hp0⟩
      exact twoPick_can hp hxp (pairs_sized c p hp).2 (Nat.lt_of_le_of_lt (pairs_length c) (by decide))
    have hlen : (v ++ w).length = length.toNat := by rw [h1.length_eq]; have := h.len; omega
    obtain ⟨s, h4, h5⟩ := shuffle_reach length.toNat (by omega) length.toNat 0 (planWidth (planOf length c)) (by omega) (v ++ w) pw hlen h1 rfl
    obtain ⟨l, h6, h7⟩ := canPlan_reach h3 s
    refine List.countP_pos_iff.2 ⟨l ++ s, mem_strings.2 (by rw [List.length_append, h6, h4, k2]), decide_eq_true ?_⟩
    refine (gen_plan hn _ _).2 ⟨v ++ w, h7, ?_⟩
    rw [← h6, shuffle_end, h6]
    exact h5

/-! ### not all passwords are as likely -/

theorem ways_one (c : Classes) (hc : c.needLen = 0) (x : UInt8) : ways 1 c [x] = 256 * picks2 c.pairs x := by
  obtain ⟨k1, k2⟩ := planOf_size (length := 1) (c := c) (by omega)
  unfold ways
  rw [← k2, count_add]
  have hr : reqPlan c.pairs = [] := by
    have := (reqPlan_width c.pairs).2
    have h2 := needLen_eq c
    exact List.length_eq_zero_iff.1 (by omega)
  have hp : planOf 1 c = [twoPick c.pairs] := by
    unfold planOf
    rw [hr, hc]
    rfl
  have hs : ∀ s ∈ strings (1 : Int).toNat, (count (planWidth (planOf 1 c)) fun a => genPassword (entOf (a ++ s)) 1 c = .ok [x]) =
      picks2 c.pairs x := by
    intro s _
    rw [← twoPick_ways]
    have := plan_count (planOf 1 c) [x] s
    rw [k1, if_pos (show [x].length = (1 : Int).toNat from rfl), hp] at this
    simp only [List.zip_cons_cons, List.zip_nil_right, List.map_cons, List.map_nil, List.foldr_cons, List.foldr_nil, Nat.mul_one] at this
    rw [← this, hp]
    refine count_congr fun a ha => decide_eq_decide.2 ?_
    rw [gen_plan (by omega), hp]
    have hsh : ∀ (ent : Nat → UInt8) e y, shuffle ent 1 1 0 e [y] = some [y] := by
      intro ent e y
      have : (ent e % UInt8.ofNat 1).toNat = 0 := by
        rw [UInt8.toNat_mod]
        exact Nat.mod_one _
      unfold shuffle
      dsimp only
      rw [this]
      rfl
    constructor
    · rintro ⟨w, h1, h2⟩
      have hw : ∃ y, w = [y] := by
        rw [runPlan_cons] at h1
        split at h1
        · cases h1
        · cases h1; exact ⟨_, rfl⟩
      obtain ⟨y, rfl⟩ := hw
      have h3 : shuffle (entOf (a ++ s)) 1 1 0 (planWidth [twoPick c.pairs]) [y] = some [x] := h2
      rw [hsh] at h3
      cases h3
      exact h1
    · intro h1
      exact ⟨[x], h1, hsh _ _ _⟩
  rw [List.map_congr_left hs]
  have : ∀ (l : List Str) (n : Nat), (l.map fun _ => n).sum = l.length * n := by
    intro l n
    induction l with
    | nil => simp
    | cons a l ih => simp only [List.map_cons, List.sum_cons, ih, List.length_cons, Nat.add_mul]; omega
  rw [this, strings_length]
  rfl

/-- False: all passwords that meet the request are as likely. Of the digits, those up to 5 are likelier than those from 6 on. -/
theorem C105_uniform_false : ¬ ∀ (length : Int) (c : Classes) (pw pw' : Str), Meets length c pw → Meets length c pw' →
    ways length c pw = ways length c pw' := by
  intro hall
  have hm : ∀ x ∈ alphabetNumbers, Meets 1 { upper := -1, lower := -1, basic := -1, extra := -1 } [x] := by
    intro x hx
    refine ⟨rfl, ?_, ?_⟩
    · intro p hp
      simp only [Classes.all, List.mem_cons, List.not_mem_nil, or_false] at hp
      rcases hp with rfl | rfl | rfl | rfl | rfl <;> dsimp only <;> omega
    · intro b hb
      rw [List.mem_singleton.1 hb]
      exact ⟨(alphabetNumbers, 0), by simp [Classes.all], by decide, hx⟩
  have := hall 1 _ (b! "0") (b! "6") (hm 48 (by decide)) (hm 54 (by decide))
  rw [show b! "0" = [48] from rfl, show b! "6" = [54] from rfl, ways_one _ rfl, ways_one _ rfl] at this
  revert this
  decide +kernel

/-- The backslash is in its alphabet twice, and so twice as likely as most of its neighbours. -/
theorem C105_backslash_false : ways 1 { upper := -1, lower := -1, numbers := -1, basic := -1 } (b! "\\") =
    2 * ways 1 { upper := -1, lower := -1, numbers := -1, basic := -1 } (b! "+") := by
  rw [show b! "\\" = [92] from rfl, show b! "+" = [43] from rfl, ways_one _ rfl, ways_one _ rfl]
  decide +kernel

/-- A digit is likelier than a letter. -/
theorem C105_digit_false : ways 1 {} (b! "A") < ways 1 {} (b! "0") := by
  rw [show b! "A" = [65] from rfl, show b! "0" = [48] from rfl, ways_one _ rfl, ways_one _ rfl]
  decide +kernel

/-! ## Not vacuous -/

/-- C105_bound, C105_any, C105_default: passwords do come out. -/
example : 0 < ways 1 {} (b! "A") ∧ ways 1 {} (b! "A") * 40 ≤ 256 ^ 3 := by
  have h : ways 1 {} (b! "A") = 133120 := by
    rw [show b! "A" = [65] from rfl, ways_one _ rfl]
    decide +kernel
  rw [h]
  decide

/-- what the prompt starts with -/
example : ({} : PwState).length = 32 ∧ ({} : PwState).classes = {} ∧ bufferSize 32 {} = 96 ∧ (2 : Nat) ^ 170 < 40 ^ 32 := by decide +kernel

/-- C105_every_partial: a password with a digit and a letter, where a digit and a letter are required -/
example : 0 < ways 3 { upper := 1, numbers := 1, lower := 0, basic := -1, extra := -1 } (b! "a7Q") := by
  refine (C105_every_partial 3 _ (by decide) (by decide) ?_ _).2 ⟨rfl, ?_, ?_⟩
  · unfold Impossible; decide +kernel
  · decide +kernel
  · decide +kernel

/-- ... and one that does not meet it -/
example : ways 3 { upper := 1, numbers := 1, lower := 0, basic := -1, extra := -1 } (b! "a77") = 0 := by
  have := mt (C105_every_partial 3 { upper := 1, numbers := 1, lower := 0, basic := -1, extra := -1 } (by decide) (by decide)
    (by unfold Impossible; decide +kernel) (b! "a77")).1 (fun h => absurd (h.enough (alphabetUppercase, 1) (by decide +kernel)) (by decide +kernel))
  omega

end Verif.App
