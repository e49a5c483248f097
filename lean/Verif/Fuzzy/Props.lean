import Verif.Fuzzy.Model
/-!
# Fuzzy matching is subsequence matching (C34)
-/
namespace Verif.Fuzzy
open Verif

/-- Specification: the characters of `q` occur in `s` in order; each matches itself or a character whose lower
case it is. -/
inductive Occurs (lower : Nat → Nat) : List Nat → List Nat → Prop where
  | done (s : List Nat) : Occurs lower [] s
  | take (c d : Nat) (q s : List Nat) (h : c = d ∨ c = lower d) (hr : Occurs lower q s) :
      Occurs lower (c :: q) (d :: s)
  | skip (d : Nat) (q s : List Nat) (hr : Occurs lower q s) : Occurs lower q (d :: s)

theorem occurs_refl (lower : Nat → Nat) (s : List Nat) : Occurs lower s s := by
  induction s with
  | nil => exact .done _
  | cons c s ih => exact .take c c s s (Or.inl rfl) ih

theorem occurs_tail {lower : Nat → Nat} {c : Nat} {q s : List Nat} (h : Occurs lower (c :: q) s) :
    Occurs lower q s := by
  generalize hcq : c :: q = cq at h
  induction h with
  | done => cases hcq
  | take c d q' s h hr _ => cases hcq; exact .skip d _ _ hr
  | skip d q' s hr ih => exact .skip d _ _ (ih hcq)

/-- greedy: matching the first possible character loses nothing -/
theorem occurs_cons_iff {lower : Nat → Nat} {c d : Nat} {q s : List Nat} :
    Occurs lower (c :: q) (d :: s) ↔
      if charMatch lower c d then Occurs lower q s else Occurs lower (c :: q) s := by
  constructor
  · intro h
    cases h with
    | take _ _ _ _ h hr =>
      have : charMatch lower c d = true := by simpa [charMatch] using h
      simpa [this] using hr
    | skip _ _ _ hr =>
      split
      · exact occurs_tail hr
      · exact hr
  · intro h
    split at h
    · rename_i hc
      exact .take c d q s (by simpa [charMatch] using hc) h
    · exact .skip d _ _ h

theorem advance_encode (lower : Nat → Nat) (c : Nat) (pre rs : List Nat)
    (hp : ∀ r ∈ pre, Scalar r) (h : ∀ r ∈ rs, Scalar r) (q : List Nat) :
    (advance lower c (encodeRunes (pre ++ rs)) (offsets rs (encodeRunes pre).length) = none ∧
      ¬ Occurs lower (c :: q) rs) ∨
    ∃ rs', (∀ r ∈ rs', Scalar r) ∧
      advance lower c (encodeRunes (pre ++ rs)) (offsets rs (encodeRunes pre).length) =
        some (some (encodeRunes rs')) ∧
      (Occurs lower (c :: q) rs ↔ Occurs lower q rs') := by
  induction rs generalizing pre with
  | nil => left; exact ⟨rfl, by intro h; cases h⟩
  | cons r rs ih =>
    have hr := h r (by simp)
    have hlen := encodeRune_length hr
    have hcat : encodeRunes (pre ++ r :: rs) = encodeRunes (pre ++ [r]) ++ encodeRunes rs := by
      simp [encodeRunes]
    have hoff : (encodeRunes pre).length + runeLen r = (encodeRunes (pre ++ [r])).length := by
      simp [encodeRunes, hlen]
    simp only [offsets, advance]
    by_cases hc : charMatch lower c r = true
    · right
      refine ⟨rs, fun x hx => h x (by simp [hx]), ?_, ?_⟩
      · simp only [hc, if_true]
        have hle : runeLen r + (encodeRunes pre).length ≤ (encodeRunes (pre ++ r :: rs)).length := by
          rw [hcat, List.length_append]; omega
        rw [if_pos hle, hcat]
        have : runeLen r + (encodeRunes pre).length = (encodeRunes (pre ++ [r])).length := by omega
        rw [this]; simp
      · rw [occurs_cons_iff, if_pos hc]
    · simp only [hc]
      have := ih (pre ++ [r]) (by
        intro x hx
        rcases List.mem_append.1 hx with hx | hx
        · exact hp x hx
        · simp at hx; subst hx; exact hr) (fun x hx => h x (by simp [hx]))
      rw [hoff]
      rw [show pre ++ r :: rs = pre ++ [r] ++ rs by simp]
      rw [occurs_cons_iff, if_neg hc]
      simpa using this

theorem matchLoop_encode (lower : Nat → Nat) (q rs : List Nat) (h : ∀ r ∈ rs, Scalar r) :
    ∃ b, matchLoop lower q (encodeRunes rs) = some b ∧ (b = true ↔ Occurs lower q rs) := by
  induction q generalizing rs with
  | nil => exact ⟨true, rfl, by simp [Occurs.done]⟩
  | cons c q ih =>
    have hadv := advance_encode lower c [] rs (by simp) h q
    simp only [List.nil_append, show encodeRunes [] = [] from rfl, List.length_nil,
      ← rangeStr_encode rs h] at hadv
    rcases hadv with ⟨h1, h2⟩ | ⟨rs', h1, h2, h3⟩
    · exact ⟨false, by simp [matchLoop, h1], by simp [h2]⟩
    · obtain ⟨b, h4, h5⟩ := ih rs' h1
      exact ⟨b, by simp [matchLoop, h2, h4], by rw [h5, h3]⟩

/-- `Match` on a well-formed name `s`, any search string: never panics, and holds iff the characters of the
search string occur in order **and** the search string is not longer in bytes. The byte-length condition is
what is missing for the full property (see `C34_false`). -/
theorem C34_match_partial (lower : Nat → Nat) (s q : Str) (hs : ValidUtf8 s) :
    ∃ b, fuzzyMatch lower s q = some b ∧
      (b = true ↔ q.length ≤ s.length ∧ Occurs lower (runes q) (runes s)) := by
  unfold fuzzyMatch
  split
  · exact ⟨false, rfl, by simp; omega⟩
  · split
    · rename_i h1 h2
      have : Occurs lower (runes q) (runes s) := by rw [h2.2]; exact occurs_refl _ _
      exact ⟨true, rfl, by simp [this]; omega⟩
    · rename_i h1 h2
      obtain ⟨h3, h4⟩ := hs.encode_runes
      obtain ⟨b, h5, h6⟩ := matchLoop_encode lower (runes q) (runes s) h3
      rw [← h4] at h5
      exact ⟨b, h5, by rw [h6]; simp; omega⟩

/-- occurring implies not longer when lower-casing never lengthens a character -/
theorem occurs_length {lower : Nat → Nat} (hl : ∀ r, Scalar r → runeLen (lower r) ≤ runeLen r)
    {q s : List Nat} (h : Occurs lower q s) (hq : ∀ r ∈ q, Scalar r) (hs : ∀ r ∈ s, Scalar r) :
    (encodeRunes q).length ≤ (encodeRunes s).length := by
  induction h with
  | done => simp [encodeRunes]
  | take c d q s h hr ih =>
    have ih' := ih (fun r hr => hq r (by simp [hr])) (fun r hr => hs r (by simp [hr]))
    have hc := hq c (by simp)
    have hd := hs d (by simp)
    have e1 := encodeRune_length hc
    have e2 := encodeRune_length hd
    have : runeLen c ≤ runeLen d := by
      rcases h with rfl | rfl
      · exact Nat.le_refl _
      · exact hl d hd
    simp only [encodeRunes, List.flatMap_cons, List.length_append] at ih' ⊢
    omega
  | skip d q s hr ih =>
    have ih' := ih hq (fun r hr => hs r (by simp [hr]))
    simp only [encodeRunes, List.flatMap_cons, List.length_append] at ih' ⊢
    omega

/-- The full property for well-formed strings, for every lower-casing that never lengthens the encoding of a
character (U+023A breaks this, see `C34_false`). -/
theorem C34_exact_partial (lower : Nat → Nat) (hl : ∀ r, Scalar r → runeLen (lower r) ≤ runeLen r)
    (s q : Str) (hs : ValidUtf8 s) (hq : ValidUtf8 q) :
    ∃ b, fuzzyMatch lower s q = some b ∧ (b = true ↔ Occurs lower (runes q) (runes s)) := by
  obtain ⟨b, h1, h2⟩ := C34_match_partial lower s q hs
  refine ⟨b, h1, ?_⟩
  rw [h2]
  constructor
  · exact fun h => h.2
  · intro h
    refine ⟨?_, h⟩
    obtain ⟨h3, h4⟩ := hs.encode_runes
    obtain ⟨h5, h6⟩ := hq.encode_runes
    rw [h4, h6]; exact occurs_length hl h h5 h3

/-- False in general: with `ToLower('Ⱥ') = 'ⱥ'` (U+023A, two bytes; U+2C65, three bytes) the search "ⱥ" does not
find "Ⱥ". -/
theorem C34_false (lower : Nat → Nat) (hl : lower 0x23A = 0x2C65) :
    ∃ s q : Str, ValidUtf8 s ∧ ValidUtf8 q ∧ Occurs lower (runes q) (runes s) ∧
      fuzzyMatch lower s q = some false := by
  refine ⟨encodeRunes [0x23A], encodeRunes [0x2C65], ⟨_, by simp [Scalar], rfl⟩,
    ⟨_, by simp [Scalar], rfl⟩, ?_, by simp [fuzzyMatch, encodeRunes, encodeRune]⟩
  rw [runes_encode _ (by simp [Scalar]), runes_encode _ (by simp [Scalar])]
  exact .take _ _ _ _ (Or.inr hl.symm) (.done _)

/-- And a name that is not well-formed UTF-8 can crash the search: the code skips three bytes for U+FFFD although
an ill-formed byte is one byte wide (fuzzy.go:31). -/
theorem C34_panics (lower : Nat → Nat) (hl : lower 0x61 = 0x61) :
    fuzzyMatch lower [0x61, 0xFF] [0xFF] = none := by
  simp [fuzzyMatch, runes, rangeStr, rangeAux, decodeRune, runeError, matchLoop, advance, charMatch,
    hl, runeLen]

/-- non-vacuity: `Match("Github", "gtb")` holds, `Match("github", "G")` does not. -/
example : fuzzyMatch asciiLower (b! "Github") (b! "gtb") = some true := by decide
example : fuzzyMatch asciiLower (b! "github") (b! "G") = some false := by decide
example : ValidUtf8 (b! "Github") := (validUtf8_ascii _ (by decide)).1
example : ∀ r, Scalar r → runeLen (asciiLower r) ≤ runeLen r := by
  intro r _
  unfold asciiLower
  split
  · rename_i h
    have h1 : r + 32 < 0x80 := by omega
    have h2 : r < 0x80 := by omega
    simp [runeLen, h1, h2]
  · exact Nat.le_refl _

end Verif.Fuzzy
