import Verif.App.PassGen
/-!
# C54 Generated passwords meet the request
-/
namespace Verif.App
open Verif

/-! ## helper lemmas -/

theorem pickFrom_some {α : Type} (l : List α) (b : UInt8) (h0 : 0 < l.length) (h1 : l.length < 256) :
    ∃ x ∈ l, pickFrom l b = some x := by
  have hn : (UInt8.ofNat l.length).toNat = l.length := by
    simp [UInt8.toNat_ofNat']; omega
  have hne : UInt8.ofNat l.length ≠ 0 := by
    intro h; rw [h] at hn; simp at hn; omega
  have hlt : (b % UInt8.ofNat l.length).toNat < l.length := by
    rw [UInt8.toNat_mod, hn]; exact Nat.mod_lt _ h0
  refine ⟨l[(b % UInt8.ofNat l.length).toNat], List.getElem_mem _, ?_⟩
  simp only [pickFrom, hne, if_false]
  exact List.getElem?_eq_getElem hlt

theorem pickN_some (ent : Nat → UInt8) (a : Str) (h0 : 0 < a.length) (h1 : a.length < 256) (n e : Nat) :
    ∃ s, pickN ent a n e = some s ∧ s.length = n ∧ ∀ c ∈ s, c ∈ a := by
  induction n generalizing e with
  | zero => exact ⟨[], rfl, rfl, by simp⟩
  | succ n ih =>
    obtain ⟨x, hx, hp⟩ := pickFrom_some a (ent e) h0 h1
    obtain ⟨s, hs, hl, hm⟩ := ih (e + 1)
    refine ⟨x :: s, by simp [pickN, hp, hs], by simp [hl], ?_⟩
    intro c hc
    rcases List.mem_cons.1 hc with rfl | hc
    · exact hx
    · exact hm c hc

/-- sizes for which `byte(len)` is exact -/
def Sized (pairs : List (Str × Int)) : Prop := ∀ p ∈ pairs, 0 < p.1.length ∧ p.1.length < 256

theorem required_some (ent : Nat → UInt8) (pairs : List (Str × Int)) (hs : Sized pairs) (e : Nat) :
    ∃ s, required ent pairs e = some (s, e + (pairs.map (fun p => p.2.toNat)).sum) ∧
      s.length = (pairs.map (fun p => p.2.toNat)).sum ∧
      (∀ c ∈ s, ∃ p ∈ pairs, c ∈ p.1) ∧
      ∀ p ∈ pairs, p.2.toNat ≤ s.countP (fun c => c ∈ p.1) := by
  induction pairs generalizing e with
  | nil => exact ⟨[], by simp [required], rfl, by simp, by simp⟩
  | cons p rest ih =>
    obtain ⟨a, num⟩ := p
    have ha := hs (a, num) (by simp)
    obtain ⟨s, h1, h2, h3⟩ := pickN_some ent a ha.1 ha.2 num.toNat e
    obtain ⟨t, h4, h5, h6, h7⟩ := ih (fun p hp => hs p (by simp [hp])) (e + num.toNat)
    refine ⟨s ++ t, ?_, by simp [h2, h5], ?_, ?_⟩
    · simp [required, h1, h4, Nat.add_assoc]
    · intro c hc
      rcases List.mem_append.1 hc with hc | hc
      · exact ⟨(a, num), by simp, h3 c hc⟩
      · obtain ⟨p, hp, hcp⟩ := h6 c hc
        exact ⟨p, by simp [hp], hcp⟩
    · intro p hp
      rw [List.countP_append]
      rcases List.mem_cons.1 hp with rfl | hp
      · have : s.countP (fun c => decide (c ∈ a)) = s.length := by
          rw [List.countP_eq_length]; intro c hc; simpa using h3 c hc
        simp only [this, h2]; omega
      · have := h7 p hp; omega

theorem randomPicks_some (ent : Nat → UInt8) (pairs : List (Str × Int)) (hs : Sized pairs)
    (h0 : 0 < pairs.length) (h1 : pairs.length < 256) (n e : Nat) :
    ∃ s, randomPicks ent pairs n e = some s ∧ s.length = n ∧ ∀ c ∈ s, ∃ p ∈ pairs, c ∈ p.1 := by
  induction n generalizing e with
  | zero => exact ⟨[], rfl, rfl, by simp⟩
  | succ n ih =>
    obtain ⟨p, hp, hpp⟩ := pickFrom_some pairs (ent e) h0 h1
    obtain ⟨x, hx, hxp⟩ := pickFrom_some p.1 (ent (e + 1)) (hs p hp).1 (hs p hp).2
    obtain ⟨s, h2, h3, h4⟩ := ih (e + 2)
    refine ⟨x :: s, by simp [randomPicks, hpp, hxp, h2], by simp [h3], ?_⟩
    intro c hc
    rcases List.mem_cons.1 hc with rfl | hc
    · exact ⟨p, hp, hx⟩
    · exact h4 c hc

theorem swap_perm (l : Str) (i j : Nat) (hi : i < l.length) (hj : j < l.length) :
    ∃ l', swap l i j = some l' ∧ l'.Perm l := by
  refine ⟨(l.set i l[j]).set j l[i], ?_, List.set_set_perm hi hj⟩
  simp [swap, List.getElem?_eq_getElem hi, List.getElem?_eq_getElem hj]

theorem shuffle_perm (ent : Nat → UInt8) (length : Nat) (hm : length % 256 ≠ 0) (n i e : Nat) (l : Str)
    (hl : l.length = length) (hi : i + n ≤ length) :
    ∃ l', shuffle ent length n i e l = some l' ∧ l'.Perm l := by
  induction n generalizing i e l with
  | zero => exact ⟨l, rfl, List.Perm.refl _⟩
  | succ n ih =>
    have hn : (UInt8.ofNat length).toNat = length % 256 := by simp [UInt8.toNat_ofNat']
    have hne : UInt8.ofNat length ≠ 0 := by
      intro h; rw [h] at hn; simp at hn; omega
    have hlt : (ent e % UInt8.ofNat length).toNat < l.length := by
      rw [UInt8.toNat_mod, hn, hl]
      exact Nat.lt_of_lt_of_le (Nat.mod_lt _ (by omega)) (Nat.mod_le _ _)
    obtain ⟨l1, h1, h2⟩ := swap_perm l i _ (by omega) hlt
    obtain ⟨l2, h3, h4⟩ := ih (i + 1) (e + 1) l1 (by rw [h2.length_eq, hl]) (by omega)
    exact ⟨l2, by simp only [shuffle, hne, if_false, h1, h3], h4.trans h2⟩

theorem classes_sized (c : Classes) : Sized c.all := by
  intro p hp
  simp only [Classes.all, List.mem_cons, List.not_mem_nil, or_false] at hp
  rcases hp with rfl | rfl | rfl | rfl | rfl <;> (dsimp only; decide)

theorem pairs_sized (c : Classes) : Sized c.pairs := fun p hp => classes_sized c p (List.mem_filter.1 hp).1

theorem pairs_length (c : Classes) : c.pairs.length ≤ 5 :=
  Nat.le_trans (List.length_filter_le _ _) (by simp [Classes.all])

theorem sum_filter (l : List (Str × Int)) :
    ((((l.filter (fun p => p.2 ≥ 0)).map (fun p => p.2.toNat)).sum : Nat) : Int) =
      (l.map (fun p => if p.2 > 0 then p.2 else 0)).sum := by
  induction l with
  | nil => rfl
  | cons p l ih =>
    rw [List.filter_cons]
    by_cases h : p.2 ≥ 0
    · simp only [h, decide_true, if_true, List.map_cons, List.sum_cons, ← ih]
      by_cases h' : p.2 > 0
      · simp only [h', if_true]; omega
      · simp only [h', if_false]; omega
    · have h' : ¬ p.2 > 0 := by omega
      simp only [h, decide_false, Bool.false_eq_true, if_false, List.map_cons, List.sum_cons, ← ih, h']; omega

theorem needLen_eq (c : Classes) : (((c.pairs.map (fun p => p.2.toNat)).sum : Nat) : Int) = c.needLen :=
  sum_filter c.all

/-! ## C54 -/

/-- what the request demands of a password -/
structure Meets (length : Int) (c : Classes) (pw : Str) : Prop where
  /-- exactly `length` characters -/
  len : (pw.length : Int) = length
  /-- each class with a positive setting occurs at least that often -/
  enough : ∀ p ∈ c.all, p.2 ≤ (pw.countP (fun b => b ∈ p.1) : Int)
  /-- every character belongs to a class that is not switched off -/
  only : ∀ b ∈ pw, ∃ p ∈ c.all, 0 ≤ p.2 ∧ b ∈ p.1

/-- no password can meet the request -/
def Impossible (length : Int) (c : Classes) : Prop :=
  c.needLen > length ∨ (0 < length ∧ ∀ p ∈ c.all, p.2 < 0)

/-- For every length that is not a positive multiple of 256, every setting of the classes and all random bytes:
an impossible request is reported, any other is answered by a password that meets it. Missing for the full property: the lengths of `C54_false`. -/
theorem C54_meets_partial (ent : Nat → UInt8) (length : Int) (c : Classes)
    (hlen : length ≤ 0 ∨ length % 256 ≠ 0) :
    (Impossible length c → genPassword ent length c = .err .impossible) ∧
    (¬ Impossible length c → ∃ pw, genPassword ent length c = .ok pw ∧ Meets length c pw) := by
  have hneed := needLen_eq c
  obtain ⟨req, h1, h2, h3, h4⟩ := required_some ent c.pairs (pairs_sized c) 0
  have hnil : c.pairs = [] ↔ ∀ p ∈ c.all, p.2 < 0 := by
    simp [Classes.pairs, List.filter_eq_nil_iff]
  have h0 : c.pairs = [] → c.needLen = 0 := by intro h; rw [← hneed, h]; rfl
  have hpos : 0 ≤ c.needLen := by rw [← hneed]; omega
  unfold genPassword
  constructor
  · rintro (h | ⟨h, h'⟩)
    · simp [h]
    · have h5 := hnil.2 h'
      have h6 := h0 h5
      rw [if_neg (by omega)]
      simp only [h1]
      rw [if_pos ⟨by omega, h5⟩]
  · intro hp
    have hle : ¬ c.needLen > length := fun h => hp (Or.inl h)
    have hnp : ¬ ((length - c.needLen).toNat > 0 ∧ c.pairs = []) := by
      rintro ⟨h5, h6⟩
      exact hp (Or.inr ⟨by have := h0 h6; omega, hnil.1 h6⟩)
    rw [if_neg hle]
    simp only [h1]
    rw [if_neg hnp]
    have hrnd : ∃ s, randomPicks ent c.pairs (length - c.needLen).toNat
        (0 + (c.pairs.map (fun p => p.2.toNat)).sum) = some s ∧ s.length = (length - c.needLen).toNat ∧
        ∀ b ∈ s, ∃ p ∈ c.pairs, b ∈ p.1 := by
      by_cases hz : (length - c.needLen).toNat = 0
      · rw [hz]; exact ⟨[], rfl, rfl, by simp⟩
      · have hne : c.pairs ≠ [] := fun h => hnp ⟨by omega, h⟩
        exact randomPicks_some ent c.pairs (pairs_sized c) (List.length_pos_iff.2 hne)
          (by have := pairs_length c; omega) _ _
    obtain ⟨rnd, h5, h6, h7⟩ := hrnd
    simp only [h5]
    have htot : (req ++ rnd).length = length.toNat := by
      rw [List.length_append, h2, h6]; omega
    have hsh : ∃ l', shuffle ent length.toNat length.toNat 0
        (0 + (c.pairs.map (fun p => p.2.toNat)).sum + 2 * (length - c.needLen).toNat) (req ++ rnd) = some l' ∧
        l'.Perm (req ++ rnd) := by
      by_cases hz : length.toNat = 0
      · rw [hz]; exact ⟨_, rfl, List.Perm.refl _⟩
      · exact shuffle_perm ent _ (by omega) _ _ _ _ htot (by omega)
    obtain ⟨pw, h8, h9⟩ := hsh
    refine ⟨pw, by simp only [h8], ⟨?_, ?_, ?_⟩⟩
    · rw [h9.length_eq, htot]; omega
    · intro p hp
      by_cases hneg : p.2 < 0
      · omega
      · have := h4 p (List.mem_filter.2 ⟨hp, by simp; omega⟩)
        rw [h9.countP_eq, List.countP_append]
        omega
    · intro b hb
      have : ∃ p ∈ c.pairs, b ∈ p.1 := by
        rcases List.mem_append.1 (h9.mem_iff.1 hb) with h | h
        · exact h3 b h
        · exact h7 b h
      obtain ⟨p, hp, hbp⟩ := this
      obtain ⟨hp1, hp2⟩ := List.mem_filter.1 hp
      exact ⟨p, hp1, by simpa using hp2, hbp⟩

/-- `Impossible` is exact: no byte string at all meets an impossible request. (The alphabets are disjoint, so the
demands of the classes add up.) -/
theorem C54_impossible_exact (length : Int) (c : Classes) (pw : Str) (h : Meets length c pw) :
    ¬ Impossible length c := by
  obtain ⟨hl, he, ho⟩ := h
  have key : c.needLen ≤ (pw.length : Int) := by
    have hsum : ∀ s : Str, s.countP (fun b => b ∈ alphabetUppercase) + s.countP (fun b => b ∈ alphabetLowercase) +
        s.countP (fun b => b ∈ alphabetNumbers) + s.countP (fun b => b ∈ alphabetBasicSymbols) +
        s.countP (fun b => b ∈ alphabetExtraSymbols) ≤ s.length := by
      intro s
      induction s with
      | nil => simp
      | cons b s ih =>
        simp only [List.countP_cons, List.length_cons]
        have : (if decide (b ∈ alphabetUppercase) = true then 1 else 0) +
          (if decide (b ∈ alphabetLowercase) = true then 1 else 0) +
          (if decide (b ∈ alphabetNumbers) = true then 1 else 0) +
          (if decide (b ∈ alphabetBasicSymbols) = true then 1 else 0) +
          (if decide (b ∈ alphabetExtraSymbols) = true then 1 else 0) ≤ 1 := by
          have h : ∀ i : Fin 256, (if decide (UInt8.ofNat i.val ∈ alphabetUppercase) = true then 1 else 0) +
            (if decide (UInt8.ofNat i.val ∈ alphabetLowercase) = true then 1 else 0) +
            (if decide (UInt8.ofNat i.val ∈ alphabetNumbers) = true then 1 else 0) +
            (if decide (UInt8.ofNat i.val ∈ alphabetBasicSymbols) = true then 1 else 0) +
            (if decide (UInt8.ofNat i.val ∈ alphabetExtraSymbols) = true then 1 else 0) ≤ 1 := by
            set_option maxRecDepth 100000 in decide
          have := h ⟨b.toNat, UInt8.toNat_lt b⟩
          simpa using this
        omega
    have := hsum pw
    have e1 := he (alphabetUppercase, c.upper) (by simp [Classes.all])
    have e2 := he (alphabetLowercase, c.lower) (by simp [Classes.all])
    have e3 := he (alphabetNumbers, c.numbers) (by simp [Classes.all])
    have e4 := he (alphabetBasicSymbols, c.basic) (by simp [Classes.all])
    have e5 := he (alphabetExtraSymbols, c.extra) (by simp [Classes.all])
    simp only at e1 e2 e3 e4 e5
    simp only [Classes.needLen, List.map_cons, List.map_nil, List.sum_cons, List.sum_nil]
    have hm : ∀ i : Int, ∀ n : Nat, i ≤ n → (if i > 0 then i else 0) ≤ (n : Int) := by
      intro i n h; split <;> omega
    have f1 := hm _ _ e1
    have f2 := hm _ _ e2
    have f3 := hm _ _ e3
    have f4 := hm _ _ e4
    have f5 := hm _ _ e5
    omega
  rintro (h | ⟨h, h'⟩)
  · omega
  · cases pw with
    | nil => simp at hl; omega
    | cons b pw =>
      obtain ⟨p, hp, hp', -⟩ := ho b (by simp)
      have := h' p hp
      omega

/-- For every positive multiple of 256 a possible request panics (`entropy[eOffset] % byte(length)` divides by zero). -/
theorem C54_false (ent : Nat → UInt8) (length : Int) (c : Classes) (h0 : 0 < length) (hm : length % 256 = 0)
    (hp : ¬ Impossible length c) : genPassword ent length c = .panic := by
  have hneed := needLen_eq c
  obtain ⟨req, h1, h2, h3, h4⟩ := required_some ent c.pairs (pairs_sized c) 0
  have hnil : c.pairs = [] → ∀ p ∈ c.all, p.2 < 0 := by
    simp [Classes.pairs, List.filter_eq_nil_iff]
  have hne : c.pairs ≠ [] := fun h => hp (Or.inr ⟨h0, hnil h⟩)
  obtain ⟨rnd, h5, -⟩ := randomPicks_some ent c.pairs (pairs_sized c) (List.length_pos_iff.2 hne)
    (by have := pairs_length c; omega) (length - c.needLen).toNat (0 + (c.pairs.map (fun p => p.2.toNat)).sum)
  unfold genPassword
  rw [if_neg (fun h => hp (Or.inl h))]
  simp only [h1]
  rw [if_neg (fun h => hne h.2)]
  simp only [h5]
  have hz : UInt8.ofNat length.toNat = 0 := by
    apply UInt8.toNat_inj.1
    simp [UInt8.toNat_ofNat']; omega
  obtain ⟨n, hn⟩ : ∃ n, length.toNat = n + 1 := ⟨length.toNat - 1, by omega⟩
  rw [hn]; rw [hn] at hz
  simp [shuffle, hz]

/-- A request with length 3, two digits and no letters. -/
example : genPassword (fun i => UInt8.ofNat (7 * i)) 3 { upper := -1, lower := -1, numbers := 2, basic := 0, extra := -1 }
    = .ok (b! "017") := by decide
example : ¬ Impossible 256 {} := by simp [Impossible, Classes.needLen, Classes.all]
example : Impossible 3 { numbers := 4 } := by simp [Impossible, Classes.needLen]

end Verif.App
