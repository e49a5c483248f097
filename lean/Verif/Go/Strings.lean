import Verif.Go.Utf8
/-!
# `strings` and `strconv` functions used by bpass

All separators used by bpass are single ASCII bytes.
-/
namespace Verif

/-- `strings.Split(s, sep)` for a one-byte separator; never returns an empty slice. -/
def split (sep : UInt8) : Str → List Str
  | [] => [[]]
  | c :: s =>
    if c = sep then [] :: split sep s
    else
      match split sep s with
      | [] => [[c]]
      | h :: t => (c :: h) :: t

/-- `strings.Join(l, sep)` for a one-byte separator. -/
def join (sep : UInt8) : List Str → Str
  | [] => []
  | [x] => x
  | x :: y :: l => x ++ sep :: join sep (y :: l)

/-- `strings.HasPrefix`. -/
def hasPrefix (s p : Str) : Bool := p.isPrefixOf s

/-- `strings.Index`: offset of the first occurrence. -/
def indexOf (s sub : Str) : Option Nat :=
  match s with
  | [] => if sub = [] then some 0 else none
  | c :: s' => if hasPrefix (c :: s') sub then some 0 else (indexOf s' sub).map (· + 1)

/-- `strings.TrimSpace`/`Fields` white space restricted to ASCII (`asciiSpace` in Go). -/
def isSpace (b : UInt8) : Bool :=
  b = 9 || b = 10 || b = 11 || b = 12 || b = 13 || b = 32

/-- Simple case folding to the lower-case ASCII letter where there is one. U+017F and U+212A are the only
non-ASCII runes whose simple fold orbit contains an ASCII letter. -/
def foldAscii (r : Nat) : Nat :=
  if 0x41 ≤ r ∧ r ≤ 0x5A then r + 32
  else if r = 0x17F then 0x73
  else if r = 0x212A then 0x6B
  else r

/-- `strings.EqualFold(s, t)` where `t` is an ASCII constant (the only use in bpass). -/
def equalFold (s t : Str) : Bool := (runes s).map foldAscii = (runes t).map foldAscii

/-- `unicode.ToLower` on ASCII; the identity elsewhere. Used for examples only: the model takes the
lower-casing function as a parameter. -/
def asciiLower (r : Nat) : Nat := if 0x41 ≤ r ∧ r ≤ 0x5A then r + 32 else r

/-- decimal digits, most significant first; `fuel` bounds the number of digits. -/
def digitsAux : Nat → Nat → Str → Str
  | 0, _, acc => acc
  | fuel + 1, n, acc =>
    let acc' := UInt8.ofNat (48 + n % 10) :: acc
    if n / 10 = 0 then acc' else digitsAux fuel (n / 10) acc'

/-- `strconv.Itoa`/`%d` of a non-negative number. -/
def fmtNat (n : Nat) : Str := digitsAux (n + 1) n []

/-- `strconv.FormatInt(i, 10)`. -/
def fmtInt (i : Int) : Str := if i < 0 then 45 :: fmtNat i.natAbs else fmtNat i.natAbs

def isDigit (b : UInt8) : Bool := 48 ≤ b.toNat && b.toNat ≤ 57

/-- value of a digit string, `none` if empty or not all digits -/
def parseDigits (s : Str) : Option Nat :=
  if s = [] then none
  else if s.all isDigit then some (s.foldl (fun n b => n * 10 + (b.toNat - 48)) 0)
  else none

/-- optional sign, decimal digits -/
def parseSigned (s : Str) : Option Int :=
  match s with
  | [] => none
  | c :: d =>
    if c = 45 then
      match parseDigits d with
      | some n => some (-(n : Int))
      | none => none
    else
      match parseDigits (if c = 43 then d else c :: d) with
      | some n => some (n : Int)
      | none => none

/-- `strconv.Atoi`/`ParseInt(s, 10, 64)`: optional sign, decimal digits, must fit in 64 bits. -/
def atoi (s : Str) : Option Int :=
  match parseSigned s with
  | some i => if -9223372036854775808 ≤ i ∧ i ≤ 9223372036854775807 then some i else none
  | none => none

/-! ## Split and join -/

theorem split_ne_nil (sep : UInt8) (s : Str) : split sep s ≠ [] := by
  cases s with
  | nil => simp [split]
  | cons c s =>
    simp only [split]
    split
    · simp
    · split <;> simp

@[simp] theorem join_cons_ne (sep : UInt8) (x : Str) {l : List Str} (h : l ≠ []) :
    join sep (x :: l) = x ++ sep :: join sep l := by
  cases l with
  | nil => exact absurd rfl h
  | cons y l => rfl

theorem join_split (sep : UInt8) (s : Str) : join sep (split sep s) = s := by
  induction s with
  | nil => rfl
  | cons c s ih =>
    simp only [split]
    split
    · rename_i h
      rw [join_cons_ne _ _ (split_ne_nil _ _), ih, h]; rfl
    · cases hs : split sep s with
      | nil => exact absurd hs (split_ne_nil _ _)
      | cons h t =>
        rw [hs] at ih
        cases t with
        | nil => simp [join] at ih ⊢; exact ih
        | cons y t => simp [join] at ih ⊢; exact ih

theorem split_append_sep (sep : UInt8) (a b : Str) :
    split sep (a ++ sep :: b) = split sep a ++ split sep b := by
  induction a with
  | nil => simp [split]
  | cons c a ih =>
    simp only [List.cons_append, split]
    split
    · simp [ih]
    · rw [ih]
      cases hs : split sep a with
      | nil => exact absurd hs (split_ne_nil _ _)
      | cons h t => simp

theorem split_of_notMem (sep : UInt8) (s : Str) (h : sep ∉ s) : split sep s = [s] := by
  induction s with
  | nil => rfl
  | cons c s ih =>
    simp at h
    simp [split, ih h.2, Ne.symm h.1]

theorem split_join (sep : UInt8) (l : List Str) (hne : l ≠ []) (h : ∀ x ∈ l, sep ∉ x) :
    split sep (join sep l) = l := by
  induction l with
  | nil => exact absurd rfl hne
  | cons x l ih =>
    cases l with
    | nil => simpa [join] using split_of_notMem sep x (h x (by simp))
    | cons y l =>
      rw [join_cons_ne _ _ (by simp), split_append_sep, split_of_notMem sep x (h x (by simp)),
        ih (by simp) (fun z hz => h z (by simp [hz]))]
      rfl

theorem split_notMem (sep : UInt8) (s : Str) : ∀ x ∈ split sep s, sep ∉ x := by
  induction s with
  | nil => simp [split]
  | cons c s ih =>
    intro x hx
    simp only [split] at hx
    split at hx
    · rcases List.mem_cons.1 hx with rfl | hx
      · simp
      · exact ih x hx
    · rename_i hc
      cases hs : split sep s with
      | nil => exact absurd hs (split_ne_nil _ _)
      | cons h t =>
        rw [hs] at hx ih
        simp at hx
        rcases hx with rfl | hx
        · have := ih h (by simp)
          simp [this, Ne.symm hc]
        · exact ih x (by simp [hx])

theorem split_append_notMem (sep : UInt8) (x s : Str) (h : sep ∉ x) :
    ∃ hd tl, split sep s = hd :: tl ∧ split sep (x ++ s) = (x ++ hd) :: tl := by
  cases hs : split sep s with
  | nil => exact absurd hs (split_ne_nil _ _)
  | cons hd tl =>
    refine ⟨hd, tl, rfl, ?_⟩
    induction x with
    | nil => simpa using hs
    | cons c x ih =>
      simp at h
      simp only [List.cons_append, split, Ne.symm h.1, if_false, ih h.2]

theorem encodeRune_notMem {r : Nat} (h : Scalar r) (sep : UInt8) (hsep : sep.toNat < 0x80)
    (hr : r ≠ sep.toNat) : sep ∉ encodeRune r := by
  have hne : ∀ n, n < 256 → n ≠ sep.toNat → sep ≠ UInt8.ofNat n := by
    intro n hn hne heq
    rw [heq, toNat_ofNat_lt hn] at hne
    exact hne rfl
  rcases scalar_cases h with ⟨h1, h2, h3⟩ | ⟨h0, h1, h2, h3⟩ | ⟨h0, h1, h2, h3⟩ | ⟨h0, h1, h2, h3⟩ <;>
    rw [h3] <;> simp only [List.mem_cons, List.not_mem_nil, or_false, not_or]
  · exact hne _ (by omega) hr
  · exact ⟨hne _ (by omega) (by omega), hne _ (by omega) (by omega)⟩
  · exact ⟨hne _ (by omega) (by omega), hne _ (by omega) (by omega), hne _ (by omega) (by omega)⟩
  · exact ⟨hne _ (by omega) (by omega), hne _ (by omega) (by omega), hne _ (by omega) (by omega),
      hne _ (by omega) (by omega)⟩

/-- splitting well-formed UTF-8 at an ASCII byte gives well-formed pieces -/
theorem split_valid (sep : UInt8) (hsep : sep.toNat < 0x80) (s : Str) (h : ValidUtf8 s) :
    ∀ x ∈ split sep s, ValidUtf8 x := by
  obtain ⟨rs, h1, rfl⟩ := h
  induction rs with
  | nil =>
    intro x hx
    simp [encodeRunes, split] at hx
    subst hx; exact ⟨[], by simp, rfl⟩
  | cons r rs ih =>
    have ih' := ih (fun x hx => h1 x (by simp [hx]))
    have hr := h1 r (by simp)
    have hcat : encodeRunes (r :: rs) = encodeRune r ++ encodeRunes rs := by simp [encodeRunes]
    intro x hx
    rw [hcat] at hx
    by_cases hrs : r = sep.toNat
    · have : encodeRune r = [sep] := by subst hrs; simp [encodeRune, hsep]
      rw [this] at hx
      simp only [List.cons_append, List.nil_append, split, if_true] at hx
      rcases List.mem_cons.1 hx with rfl | hx
      · exact ⟨[], by simp, rfl⟩
      · exact ih' x hx
    · obtain ⟨hd, tl, h2, h3⟩ := split_append_notMem sep (encodeRune r) (encodeRunes rs)
        (encodeRune_notMem hr sep hsep hrs)
      rw [h3] at hx
      rw [h2] at ih'
      rcases List.mem_cons.1 hx with rfl | hx
      · obtain ⟨ts, h4, h5⟩ := ih' hd (by simp)
        refine ⟨r :: ts, ?_, by simp [encodeRunes] at h5 ⊢; rw [h5]⟩
        intro y hy
        rcases List.mem_cons.1 hy with rfl | hy
        · exact hr
        · exact h4 y hy
      · exact ih' x (by simp [hx])

theorem hasPrefix_iff (s p : Str) : hasPrefix s p = true ↔ ∃ t, s = p ++ t := by
  unfold hasPrefix
  rw [List.isPrefixOf_iff_prefix]
  constructor
  · rintro ⟨t, h⟩; exact ⟨t, h.symm⟩
  · rintro ⟨t, h⟩; exact ⟨t, h.symm⟩

/-! ## Numbers -/

theorem digitsAux_acc (fuel n : Nat) (acc : Str) (h : n < fuel) :
    digitsAux fuel n acc = digitsAux fuel n [] ++ acc := by
  induction fuel generalizing n acc with
  | zero => omega
  | succ fuel ih =>
    simp only [digitsAux]
    split
    · simp
    · rw [ih (n / 10) (UInt8.ofNat (48 + n % 10) :: acc) (by omega),
        ih (n / 10) [UInt8.ofNat (48 + n % 10)] (by omega)]
      simp

theorem digitsAux_fuel (fuel fuel' n : Nat) (acc : Str) (h : n < fuel) (h' : n < fuel') :
    digitsAux fuel n acc = digitsAux fuel' n acc := by
  induction fuel generalizing n acc fuel' with
  | zero => omega
  | succ fuel ih =>
    cases fuel' with
    | zero => omega
    | succ fuel' =>
      simp only [digitsAux]
      split
      · rfl
      · exact ih _ _ _ (by omega) (by omega)

theorem fmtNat_lt (n : Nat) (h : n < 10) : fmtNat n = [UInt8.ofNat (48 + n)] := by
  have h1 : n / 10 = 0 := by omega
  have h2 : n % 10 = n := by omega
  simp [fmtNat, digitsAux, h1, h2]

theorem fmtNat_ge (n : Nat) (h : 10 ≤ n) :
    fmtNat n = fmtNat (n / 10) ++ [UInt8.ofNat (48 + n % 10)] := by
  have h1 : ¬ n / 10 = 0 := by omega
  simp only [fmtNat]
  conv => lhs; unfold digitsAux
  simp only [h1, if_false]
  rw [digitsAux_acc _ _ _ (by omega), digitsAux_fuel n (n / 10 + 1) _ _ (by omega) (by omega)]

theorem fmtNat_facts (n : Nat) : fmtNat n ≠ [] ∧ (fmtNat n).all isDigit = true ∧
    (fmtNat n).foldl (fun n b => n * 10 + (b.toNat - 48)) 0 = n := by
  induction n using Nat.strongRecOn with
  | _ n ih =>
    by_cases h : n < 10
    · rw [fmtNat_lt n h]
      have := toNat_ofNat_lt (show 48 + n < 256 by omega)
      simp only [ne_eq, List.cons_ne_self, not_false_eq_true, List.all_cons, List.all_nil,
        Bool.and_true, List.foldl_cons, List.foldl_nil, isDigit, this]
      refine ⟨by simp, ?_, by omega⟩
      simp; omega
    · rw [fmtNat_ge n (by omega)]
      obtain ⟨h1, h2, h3⟩ := ih (n / 10) (by omega)
      have := toNat_ofNat_lt (show 48 + n % 10 < 256 by omega)
      refine ⟨by simp, ?_, ?_⟩
      · simp only [List.all_append, h2, Bool.true_and, List.all_cons, List.all_nil, isDigit, this]
        simp; omega
      · simp only [List.foldl_append, h3, List.foldl_cons, List.foldl_nil, this]
        omega

theorem parseDigits_fmtNat (n : Nat) : parseDigits (fmtNat n) = some n := by
  obtain ⟨h1, h2, h3⟩ := fmtNat_facts n
  simp [parseDigits, h1, h2, h3]

theorem fmtNat_head (n : Nat) : ∃ b s, fmtNat n = b :: s ∧ isDigit b = true := by
  obtain ⟨h1, h2, -⟩ := fmtNat_facts n
  cases h : fmtNat n with
  | nil => exact absurd h h1
  | cons b s => rw [h] at h2; simp at h2; exact ⟨b, s, rfl, h2.1⟩

theorem parseSigned_fmtInt (i : Int) : parseSigned (fmtInt i) = some i := by
  unfold fmtInt
  split
  · simp only [parseSigned, if_true, parseDigits_fmtNat]
    simp; omega
  · obtain ⟨b, s, hb, hd⟩ := fmtNat_head i.natAbs
    have h45 : b ≠ 45 := by rintro rfl; simp [isDigit] at hd
    have h43 : b ≠ 43 := by rintro rfl; simp [isDigit] at hd
    have hp := parseDigits_fmtNat i.natAbs
    rw [hb] at hp ⊢
    simp only [parseSigned, h45, h43, if_false, hp]
    simp; omega

/-- `Atoi` inverts `FormatInt` on 64-bit integers. -/
theorem atoi_fmtInt (i : Int) (h : -9223372036854775808 ≤ i ∧ i ≤ 9223372036854775807) :
    atoi (fmtInt i) = some i := by
  simp [atoi, parseSigned_fmtInt, h]

end Verif
