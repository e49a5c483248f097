import Verif.Json.StrLemmas
/-!
# Helper lemmas: the parser reads what the writer wrote
-/
namespace Verif.Json
open Verif Verif.Txlogs

/-- what can follow a value: nothing, a comma, a closing bracket or a line break -/
def Delim (rest : Str) : Prop := rest = [] ∨ ∃ c r, rest = c :: r ∧ (c = 44 ∨ c = 93 ∨ c = 125 ∨ c = 10)

theorem takeWhile_digits (d rest : Str) (h : d.all isDigit = true) (hr : ∀ c r, rest = c :: r → isDigit c = false) :
    (d ++ rest).takeWhile isDigit = d ∧ (d ++ rest).dropWhile isDigit = rest := by
  induction d with
  | nil =>
    cases rest with
    | nil => exact ⟨rfl, rfl⟩
    | cons c r => simp [hr c r rfl]
  | cons b d ih =>
    simp only [List.all_cons, Bool.and_eq_true] at h
    simp [h.1, ih h.2]

theorem delim_nondigit {rest : Str} (h : Delim rest) : ∀ c r, rest = c :: r → isDigit c = false := by
  intro c r e
  rcases h with h | ⟨c', r', h, hc⟩
  · rw [h] at e; exact absurd e (by simp)
  · rw [h] at e
    obtain ⟨rfl, _⟩ := List.cons.inj e
    rcases hc with rfl | rfl | rfl | rfl <;> decide

theorem fmtNat_head_ne {n : Nat} (h : n ≠ 0) : ∃ b s, fmtNat n = b :: s ∧ b ≠ 48 := by
  induction n using Nat.strongRecOn with
  | _ n ih =>
    by_cases h10 : n < 10
    · refine ⟨_, _, fmtNat_lt n h10, ?_⟩
      intro e
      have := congrArg UInt8.toNat e
      rw [toNat_ofNat_lt (by omega)] at this
      simp at this
      omega
    · obtain ⟨b, s, h1, h2⟩ := ih (n / 10) (by omega) (by omega)
      refine ⟨b, s ++ [UInt8.ofNat (48 + n % 10)], ?_, h2⟩
      rw [fmtNat_ge n (by omega), h1]
      rfl

theorem fraction_delim {rest : Str} (h : Delim rest) : fraction rest = some ([], rest) := by
  unfold fraction
  split
  · rename_i r
    rcases h with h | ⟨c, r', h, hc⟩
    · cases h
    · obtain ⟨rfl, _⟩ := List.cons.inj h
      rcases hc with h | h | h | h <;> exact absurd h (by decide)
  · rfl

theorem exponent_delim {rest : Str} (h : Delim rest) : exponent rest = some ([], rest) := by
  unfold exponent
  rcases h with rfl | ⟨c, r, rfl, hc⟩
  · rfl
  · have : ¬ (c = 101 ∨ c = 69) := by rcases hc with rfl | rfl | rfl | rfl <;> decide
    simp only [this, if_false]

theorem unsigned_fmtNat (n : Nat) {rest : Str} (h : Delim rest) :
    unsigned (fmtNat n ++ rest) = some (fmtNat n, rest) := by
  have key : ∀ i : Str, i ≠ [] → (if i = [] then none
      else match fraction rest with
        | none => none
        | some (f, r) => match exponent r with
          | none => none
          | some (e, r) => some (i ++ f ++ e, r)) = some (i, rest) := by
    intro i hi
    rw [if_neg hi, fraction_delim h]
    simp only [exponent_delim h, List.append_nil]
  by_cases hn : n = 0
  · subst hn
    exact key [48] (by simp)
  · obtain ⟨b, s, hb, hne⟩ := fmtNat_head_ne hn
    have hf := fmtNat_facts n
    have hd := takeWhile_digits (fmtNat n) rest hf.2.1 (delim_nondigit h)
    have hu : unsigned (fmtNat n ++ rest) = (fun p : Str × Str => if p.1 = [] then none
      else match fraction p.2 with
        | none => none
        | some (f, r) => match exponent r with
          | none => none
          | some (e, r) => some (p.1 ++ f ++ e, r)) (digits (fmtNat n ++ rest)) := by
      unfold unsigned
      rw [hb, List.cons_append]
      split
      rename_i heq
      split at heq
      · rename_i h48
        exact absurd (List.cons.inj h48).1 hne
      · rw [heq]
        rfl
    rw [hu]
    unfold digits
    simp only [hd.1, hd.2]
    exact key _ hf.1

theorem number_fmtNat (n : Nat) {rest : Str} (h : Delim rest) :
    number (fmtNat n ++ rest) = some (fmtNat n, rest) := by
  obtain ⟨b, s, hb, hd⟩ := fmtNat_head n
  have : number (fmtNat n ++ rest) = unsigned (fmtNat n ++ rest) := by
    unfold number
    rw [hb, List.cons_append]
    split
    · rename_i h45
      rw [(List.cons.inj h45).1] at hd
      exact absurd hd (by decide)
    · rfl
  rw [this, unsigned_fmtNat n h]

theorem number_fmtInt (i : Int) {rest : Str} (h : Delim rest) :
    number (fmtInt i ++ rest) = some (fmtInt i, rest) := by
  unfold fmtInt
  split
  · rw [List.cons_append]
    unfold number
    simp only [unsigned_fmtNat _ h]
  · exact number_fmtNat _ h

/-! ## Values -/

/-- The text is read as the value `v` with `n` nested calls, whatever follows. -/
structure Reads (n : Nat) (text : Str) (v : JVal) : Prop where
  head : ∃ c t, text = c :: t ∧ isWs c = false ∧ c ≠ 93
  read : ∀ f rest, n ≤ f → Delim rest → parseVal f (text ++ rest) = some (v, rest)

theorem Reads.mono {n m : Nat} {text : Str} {v : JVal} (h : Reads n text v) (hm : n ≤ m) : Reads m text v :=
  ⟨h.head, fun f rest hf hd => h.read f rest (by omega) hd⟩

theorem skipWs_cons {c : UInt8} (h : isWs c = false) (r : Str) : skipWs (c :: r) = c :: r := by
  simp [skipWs, h]

theorem reads_quote (s : Str) : Reads 1 (quote s) (.str (sanitize s)) := by
  refine ⟨⟨34, _, rfl, by decide, by decide⟩, ?_⟩
  intro f rest hf _
  obtain ⟨f, rfl⟩ : ∃ k, f = k + 1 := ⟨f - 1, by omega⟩
  have : quote s ++ rest = 34 :: (escape s ++ 34 :: rest) := by simp [quote]
  rw [this, parseVal, skipWs_cons (by decide)]
  simp only [if_true, parseStr_escape]

/-- a byte that can start a number -/
theorem parseVal_number {c : UInt8} {t rest l : Str} (hc : isDigit c = true ∨ c = 45)
    (h : number (c :: t ++ rest) = some (l, rest)) (f : Nat) :
    parseVal (f + 1) (c :: t ++ rest) = some (.num l, rest) := by
  have hcases : isWs c = false ∧ c ≠ 34 ∧ c ≠ 91 ∧ c ≠ 123 ∧ c ≠ 116 ∧ c ≠ 102 ∧ c ≠ 110 := by
    rcases hc with hc | rfl
    · simp only [isDigit, Bool.and_eq_true, decide_eq_true_eq] at hc
      refine ⟨?_, ?_, ?_, ?_, ?_, ?_, ?_⟩
      · simp only [isWs, Bool.or_eq_false_iff, decide_eq_false_iff_not]
        refine ⟨⟨⟨?_, ?_⟩, ?_⟩, ?_⟩ <;> rintro rfl <;> simp at hc
      all_goals rintro rfl; simp at hc
    · decide
  obtain ⟨h0, h1, h2, h3, h4, h5, h6⟩ := hcases
  rw [List.cons_append] at *
  rw [parseVal, skipWs_cons h0]
  simp only [h1, h2, h3, h4, h5, h6, if_false, h]

theorem reads_fmtInt (i : Int) : Reads 1 (fmtInt i) (.num (fmtInt i)) := by
  have hh : ∃ c t, fmtInt i = c :: t ∧ (isDigit c = true ∨ c = 45) := by
    unfold fmtInt
    split
    · exact ⟨_, _, rfl, .inr rfl⟩
    · obtain ⟨b, s, hb, hd⟩ := fmtNat_head i.natAbs
      exact ⟨b, s, hb, .inl hd⟩
  obtain ⟨c, t, hc, hd⟩ := hh
  refine ⟨⟨c, t, hc, ?_, ?_⟩, ?_⟩
  · rcases hd with hd | rfl
    · simp only [isDigit, Bool.and_eq_true, decide_eq_true_eq] at hd
      simp only [isWs, Bool.or_eq_false_iff, decide_eq_false_iff_not]
      refine ⟨⟨⟨?_, ?_⟩, ?_⟩, ?_⟩ <;> rintro rfl <;> simp at hd
    · decide
  · rintro rfl
    rcases hd with hd | hd <;> exact absurd hd (by decide)
  · intro f rest hf hdl
    obtain ⟨f, rfl⟩ : ∃ k, f = k + 1 := ⟨f - 1, by omega⟩
    have := number_fmtInt i hdl
    rw [hc] at this ⊢
    exact parseVal_number hd this f

theorem fmtNat_eq (n : Nat) : fmtNat n = fmtInt (n : Int) := by
  unfold fmtInt
  rw [if_neg (by omega)]
  rfl

theorem reads_fmtNat (n : Nat) : Reads 1 (fmtNat n) (.num (fmtNat n)) := by
  rw [fmtNat_eq]; exact reads_fmtInt _

theorem delim_comma (r : Str) : Delim (44 :: r) := .inr ⟨44, r, rfl, .inl rfl⟩
theorem delim_bracket (r : Str) : Delim (93 :: r) := .inr ⟨93, r, rfl, .inr (.inl rfl)⟩
theorem delim_brace (r : Str) : Delim (125 :: r) := .inr ⟨125, r, rfl, .inr (.inr (.inl rfl))⟩

theorem parseElems_join {n : Nat} (l : List (Str × JVal)) (hne : l ≠ []) (h : ∀ p ∈ l, Reads n p.1 p.2)
    (f : Nat) (hf : n + l.length ≤ f) (rest : Str) :
    parseElems f (join 44 (l.map Prod.fst) ++ 93 :: rest) = some (l.map Prod.snd, rest) := by
  induction l generalizing f with
  | nil => exact absurd rfl hne
  | cons p l ih =>
    simp only [List.length_cons] at hf
    obtain ⟨f, rfl⟩ : ∃ k, f = k + 1 := ⟨f - 1, by omega⟩
    have hp := h p (by simp)
    cases l with
    | nil =>
      simp only [List.map_cons, List.map_nil, join]
      rw [parseElems, hp.read f _ (by omega) (delim_bracket rest)]
      simp only [skipWs_cons (show isWs 93 = false by decide), if_true]
    | cons q l =>
      simp only [List.map_cons, join, List.append_assoc, List.cons_append]
      rw [parseElems, hp.read f _ (by omega) (delim_comma _)]
      simp only [skipWs_cons (show isWs 44 = false by decide), if_true]
      have := ih (by simp) (fun x hx => h x (by simp [hx])) f (by simp only [List.length_cons] at *; omega)
      simp only [List.map_cons] at this
      rw [this]
      rfl

theorem reads_array {n : Nat} (l : List (Str × JVal)) (h : ∀ p ∈ l, Reads n p.1 p.2) :
    Reads (n + l.length + 1) (array (l.map Prod.fst)) (.arr (l.map Prod.snd)) := by
  refine ⟨⟨91, _, rfl, by decide, by decide⟩, ?_⟩
  intro f rest hf _
  obtain ⟨f, rfl⟩ : ∃ k, f = k + 1 := ⟨f - 1, by omega⟩
  have ht : array (l.map Prod.fst) ++ rest = 91 :: (join 44 (l.map Prod.fst) ++ 93 :: rest) := by simp [array]
  rw [ht, parseVal, skipWs_cons (by decide)]
  simp only [show ((91 : UInt8) = 34) = False from by simp, if_false, if_true]
  cases l with
  | nil =>
    simp only [List.map_nil, join, List.nil_append, skipWs_cons (show isWs 93 = false by decide), if_true]
  | cons p l =>
    have hel := parseElems_join (p :: l) (by simp) h f (by simp only [List.length_cons] at *; omega) rest
    obtain ⟨c, t, hc, hw, h93⟩ := (h p (by simp)).head
    have hj : ∃ u, join 44 ((p :: l).map Prod.fst) ++ 93 :: rest = c :: u := by
      cases l with
      | nil => exact ⟨_, by simp only [List.map_cons, List.map_nil, join, hc]; rfl⟩
      | cons q l => exact ⟨_, by simp only [List.map_cons, join, hc]; rfl⟩
    obtain ⟨u, hu⟩ := hj
    rw [hu] at hel ⊢
    simp only [skipWs_cons hw, h93, if_false, hel]

theorem parseMembers_join {n : Nat} (l : List (Str × Str × JVal)) (hne : l ≠ [])
    (h : ∀ p ∈ l, Reads n p.2.1 p.2.2) (f : Nat) (hf : n + l.length ≤ f) (rest : Str) :
    parseMembers f (join 44 (l.map fun p => member p.1 p.2.1) ++ 125 :: rest) =
      some (l.map (fun p => (sanitize p.1, p.2.2)), rest) := by
  induction l generalizing f with
  | nil => exact absurd rfl hne
  | cons p l ih =>
    simp only [List.length_cons] at hf
    obtain ⟨f, rfl⟩ : ∃ k, f = k + 1 := ⟨f - 1, by omega⟩
    have hp := h p (by simp)
    have hm : ∀ r, member p.1 p.2.1 ++ r = 34 :: (escape p.1 ++ 34 :: (58 :: (p.2.1 ++ r))) := by
      intro r; simp [member, quote]
    cases l with
    | nil =>
      simp only [List.map_cons, List.map_nil, join, hm]
      rw [parseMembers, skipWs_cons (by decide)]
      simp only [if_true, parseStr_escape, skipWs_cons (show isWs 58 = false by decide),
        hp.read f _ (show n ≤ f by omega) (delim_brace rest), skipWs_cons (show isWs 125 = false by decide)]
    | cons q l =>
      have := ih (by simp) (fun x hx => h x (by simp [hx])) f (by simp only [List.length_cons] at *; omega)
      simp only [List.map_cons] at this
      simp only [List.map_cons, join, List.append_assoc, List.cons_append, hm]
      rw [parseMembers, skipWs_cons (by decide)]
      simp only [if_true, parseStr_escape, skipWs_cons (show isWs 58 = false by decide),
        hp.read f _ (show n ≤ f by omega) (delim_comma _), skipWs_cons (show isWs 44 = false by decide),
        show ((44 : UInt8) = 125) = False from by simp, if_false]
      rw [this]

theorem reads_object {n : Nat} (l : List (Str × Str × JVal)) (h : ∀ p ∈ l, Reads n p.2.1 p.2.2) :
    Reads (n + l.length + 1) (object (l.map fun p => member p.1 p.2.1))
      (.obj (l.map fun p => (sanitize p.1, p.2.2))) := by
  refine ⟨⟨123, _, rfl, by decide, by decide⟩, ?_⟩
  intro f rest hf _
  obtain ⟨f, rfl⟩ : ∃ k, f = k + 1 := ⟨f - 1, by omega⟩
  have ht : object (l.map fun p => member p.1 p.2.1) ++ rest =
      123 :: (join 44 (l.map fun p => member p.1 p.2.1) ++ 125 :: rest) := by simp [object]
  rw [ht, parseVal, skipWs_cons (by decide)]
  simp only [show ((123 : UInt8) = 34) = False from by simp, show ((123 : UInt8) = 91) = False from by simp,
    if_false, if_true]
  cases l with
  | nil =>
    simp only [List.map_nil, join, List.nil_append, skipWs_cons (show isWs 125 = false by decide), if_true]
  | cons p l =>
    have hel := parseMembers_join (p :: l) (by simp) h f (by simp only [List.length_cons] at *; omega) rest
    have hj : ∃ u, join 44 ((p :: l).map fun p => member p.1 p.2.1) ++ 125 :: rest = 34 :: u := by
      cases l with
      | nil => exact ⟨_, by simp only [List.map_cons, List.map_nil, join, member, quote]; rfl⟩
      | cons q l => exact ⟨_, by simp only [List.map_cons, join, member, quote]; rfl⟩
    obtain ⟨u, hu⟩ := hj
    rw [hu] at hel ⊢
    simp only [skipWs_cons (show isWs 34 = false by decide), show ((34 : UInt8) = 125) = False from by simp,
      if_false, hel]

/-! ## The bound on nested calls is large enough -/

theorem length_join_ge (l : List Str) (k : Nat) (h : ∀ x ∈ l, k ≤ x.length) : k * l.length ≤ (join 44 l).length := by
  induction l with
  | nil => simp
  | cons x l ih =>
    have hx := h x (by simp)
    have := ih (fun y hy => h y (by simp [hy]))
    cases l with
    | nil => simp [join]; exact hx
    | cons y l =>
      simp only [join, List.length_cons, List.length_append, Nat.mul_add, Nat.mul_one] at *
      omega

theorem parse_of_reads {n : Nat} {text : Str} {v : JVal} (h : Reads n text v) (hn : n ≤ 2 * text.length + 2) :
    parse text = some v := by
  unfold parse
  have := h.read (2 * text.length + 2) [] hn (.inl rfl)
  rw [List.append_nil] at this
  rw [this]
  rfl

end Verif.Json
