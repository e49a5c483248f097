import Verif.Go.Basic
/-!
# UTF-8 as Go decodes it

Runes are natural numbers. `decodeRune` is `utf8.DecodeRuneInString`; `rangeStr` is what `for i, c := range s`
visits. An ill-formed byte decodes to U+FFFD with width 1.
-/
namespace Verif

/-- `utf8.RuneError`. -/
def runeError : Nat := 0xFFFD

/-- continuation byte 80..BF -/
def isCont (b : UInt8) : Bool := 0x80 ≤ b.toNat && b.toNat ≤ 0xBF

/-- `utf8.DecodeRuneInString`: rune and width. The accepted second-byte ranges are those of the table
`acceptRanges` in Go's `unicode/utf8`. -/
def decodeRune : Str → Nat × Nat
  | [] => (runeError, 0)
  | b0 :: rest =>
    let n0 := b0.toNat
    if n0 < 0x80 then (n0, 1)
    else if n0 < 0xC2 then (runeError, 1)
    else if n0 < 0xE0 then
      match rest with
      | b1 :: _ => if isCont b1 then ((n0 - 0xC0) * 64 + (b1.toNat - 0x80), 2) else (runeError, 1)
      | _ => (runeError, 1)
    else if n0 < 0xF0 then
      match rest with
      | b1 :: b2 :: _ =>
        let lo := if n0 = 0xE0 then 0xA0 else 0x80
        let hi := if n0 = 0xED then 0x9F else 0xBF
        if lo ≤ b1.toNat ∧ b1.toNat ≤ hi ∧ isCont b2 then
          ((n0 - 0xE0) * 4096 + (b1.toNat - 0x80) * 64 + (b2.toNat - 0x80), 3)
        else (runeError, 1)
      | _ => (runeError, 1)
    else if n0 < 0xF5 then
      match rest with
      | b1 :: b2 :: b3 :: _ =>
        let lo := if n0 = 0xF0 then 0x90 else 0x80
        let hi := if n0 = 0xF4 then 0x8F else 0xBF
        if lo ≤ b1.toNat ∧ b1.toNat ≤ hi ∧ isCont b2 ∧ isCont b3 then
          ((n0 - 0xF0) * 262144 + (b1.toNat - 0x80) * 4096 + (b2.toNat - 0x80) * 64 + (b3.toNat - 0x80), 4)
        else (runeError, 1)
      | _ => (runeError, 1)
    else (runeError, 1)

/-- `for i, c := range s`: the visited (offset, rune) pairs, `s` being the rest at offset `off`. `fuel` bounds
the number of runes (the length of the string is enough: every rune is at least one byte wide). -/
def rangeAux : Nat → Str → Nat → List (Nat × Nat)
  | 0, _, _ => []
  | _ + 1, [], _ => []
  | fuel + 1, s, off =>
    let d := decodeRune s
    (off, d.1) :: rangeAux fuel (s.drop d.2) (off + d.2)

def rangeStr (s : Str) : List (Nat × Nat) := rangeAux s.length s 0

/-- the runes of a string, `[]rune(s)` -/
def runes (s : Str) : List Nat := (rangeStr s).map Prod.snd

/-- `utf8.RuneLen`; -1 for invalid runes becomes 0 (never reached: decoded runes are valid). -/
def runeLen (r : Nat) : Nat :=
  if r < 0x80 then 1
  else if r < 0x800 then 2
  else if 0xD800 ≤ r ∧ r < 0xE000 then 0
  else if r < 0x10000 then 3
  else if r ≤ 0x10FFFF then 4
  else 0

/-- Unicode scalar values. -/
def Scalar (r : Nat) : Prop := r < 0xD800 ∨ (0xE000 ≤ r ∧ r ≤ 0x10FFFF)

instance (r : Nat) : Decidable (Scalar r) := by unfold Scalar; infer_instance

/-- UTF-8 encoding of one scalar value (`utf8.EncodeRune`, `string(r)`). -/
def encodeRune (r : Nat) : Str :=
  if r < 0x80 then [UInt8.ofNat r]
  else if r < 0x800 then [UInt8.ofNat (0xC0 + r / 64), UInt8.ofNat (0x80 + r % 64)]
  else if r < 0x10000 then
    [UInt8.ofNat (0xE0 + r / 4096), UInt8.ofNat (0x80 + r / 64 % 64), UInt8.ofNat (0x80 + r % 64)]
  else
    [UInt8.ofNat (0xF0 + r / 262144), UInt8.ofNat (0x80 + r / 4096 % 64),
      UInt8.ofNat (0x80 + r / 64 % 64), UInt8.ofNat (0x80 + r % 64)]

def encodeRunes (rs : List Nat) : Str := rs.flatMap encodeRune

/-- Well-formed UTF-8. -/
def ValidUtf8 (s : Str) : Prop := ∃ rs, (∀ r ∈ rs, Scalar r) ∧ s = encodeRunes rs

/-! ## Facts -/

theorem toNat_ofNat_lt {n : Nat} (h : n < 256) : (UInt8.ofNat n).toNat = n := by
  simp [UInt8.toNat_ofNat']; omega

theorem isCont_ofNat {n : Nat} (h1 : 0x80 ≤ n) (h2 : n ≤ 0xBF) : isCont (UInt8.ofNat n) = true := by
  simp only [isCont, toNat_ofNat_lt (show n < 256 by omega)]; simp [h1, h2]

/-- the four classes of scalar values -/
theorem scalar_cases {r : Nat} (h : Scalar r) :
    (r < 0x80 ∧ runeLen r = 1 ∧ encodeRune r = [UInt8.ofNat r]) ∨
    (0x80 ≤ r ∧ r < 0x800 ∧ runeLen r = 2 ∧
      encodeRune r = [UInt8.ofNat (0xC0 + r / 64), UInt8.ofNat (0x80 + r % 64)]) ∨
    (0x800 ≤ r ∧ r < 0x10000 ∧ runeLen r = 3 ∧ encodeRune r =
      [UInt8.ofNat (0xE0 + r / 4096), UInt8.ofNat (0x80 + r / 64 % 64), UInt8.ofNat (0x80 + r % 64)]) ∨
    (0x10000 ≤ r ∧ r ≤ 0x10FFFF ∧ runeLen r = 4 ∧ encodeRune r =
      [UInt8.ofNat (0xF0 + r / 262144), UInt8.ofNat (0x80 + r / 4096 % 64),
        UInt8.ofNat (0x80 + r / 64 % 64), UInt8.ofNat (0x80 + r % 64)]) := by
  unfold Scalar at h
  unfold runeLen encodeRune
  by_cases h1 : r < 0x80
  · simp [h1]
  · by_cases h2 : r < 0x800
    · right; left; simp [h1, h2]; omega
    · have h3 : ¬ (0xD800 ≤ r ∧ r < 0xE000) := by omega
      by_cases h4 : r < 0x10000
      · right; right; left; simp only [h1, h2, h3, h4, if_true, if_false]; simp; omega
      · have h5 : r ≤ 0x10FFFF := by omega
        right; right; right; simp only [h1, h2, h3, h4, h5, if_true, if_false]; simp; omega

theorem encodeRune_length {r : Nat} (h : Scalar r) : (encodeRune r).length = runeLen r := by
  rcases scalar_cases h with ⟨_, h2, h3⟩ | ⟨_, _, h2, h3⟩ | ⟨_, _, h2, h3⟩ | ⟨_, _, h2, h3⟩ <;>
    rw [h2, h3] <;> rfl

theorem decodeRune_encodeRune {r : Nat} (h : Scalar r) (rest : Str) :
    decodeRune (encodeRune r ++ rest) = (r, runeLen r) := by
  have hsc := h
  unfold Scalar at hsc
  rcases scalar_cases h with ⟨h1, h2, h3⟩ | ⟨h0, h1, h2, h3⟩ | ⟨h0, h1, h2, h3⟩ | ⟨h0, h1, h2, h3⟩
  · rw [h2, h3]
    simp only [List.cons_append, List.nil_append, decodeRune, toNat_ofNat_lt (show r < 256 by omega),
      h1, if_true]
  · rw [h2, h3]
    simp only [List.cons_append, List.nil_append, decodeRune,
      toNat_ofNat_lt (show 0xC0 + r / 64 < 256 by omega),
      toNat_ofNat_lt (show 0x80 + r % 64 < 256 by omega),
      isCont_ofNat (show 0x80 ≤ 0x80 + r % 64 by omega) (by omega)]
    rw [if_neg (by omega), if_neg (by omega), if_pos (by omega)]
    simp only [if_true, Prod.mk.injEq, and_true]
    omega
  · rw [h2, h3]
    have e1 := toNat_ofNat_lt (show 0xE0 + r / 4096 < 256 by omega)
    have e2 := toNat_ofNat_lt (show 0x80 + r / 64 % 64 < 256 by omega)
    have e3 := toNat_ofNat_lt (show 0x80 + r % 64 < 256 by omega)
    have e4 := isCont_ofNat (show 0x80 ≤ 0x80 + r % 64 by omega) (by omega)
    simp only [List.cons_append, List.nil_append, decodeRune, e1, e2, e3, e4]
    rw [if_neg (by omega), if_neg (by omega), if_neg (by omega), if_pos (by omega), if_pos]
    · simp only [Prod.mk.injEq, and_true]
      omega
    · refine ⟨?_, ?_, trivial⟩
      · split <;> omega
      · split <;> omega
  · rw [h2, h3]
    have e1 := toNat_ofNat_lt (show 0xF0 + r / 262144 < 256 by omega)
    have e2 := toNat_ofNat_lt (show 0x80 + r / 4096 % 64 < 256 by omega)
    have e3 := toNat_ofNat_lt (show 0x80 + r / 64 % 64 < 256 by omega)
    have e5 := toNat_ofNat_lt (show 0x80 + r % 64 < 256 by omega)
    have e4 := isCont_ofNat (show 0x80 ≤ 0x80 + r % 64 by omega) (by omega)
    have e6 := isCont_ofNat (show 0x80 ≤ 0x80 + r / 64 % 64 by omega) (by omega)
    simp only [List.cons_append, List.nil_append, decodeRune, e1, e2, e3, e4, e5, e6]
    rw [if_neg (by omega), if_neg (by omega), if_neg (by omega), if_neg (by omega),
      if_pos (by omega), if_pos]
    · simp only [Prod.mk.injEq, and_true]
      omega
    · refine ⟨?_, ?_, trivial, trivial⟩
      · split <;> omega
      · split <;> omega

theorem runeLen_pos {r : Nat} (h : Scalar r) : 1 ≤ runeLen r := by
  rcases scalar_cases h with ⟨_, h2, _⟩ | ⟨_, _, h2, _⟩ | ⟨_, _, h2, _⟩ | ⟨_, _, h2, _⟩ <;> omega

theorem encodeRune_ne_nil {r : Nat} (h : Scalar r) : encodeRune r ≠ [] := by
  intro hn
  have := encodeRune_length h
  rw [hn] at this
  have := runeLen_pos h
  simp at *; omega

/-- offsets of the runes of an encoded string -/
def offsets : List Nat → Nat → List (Nat × Nat)
  | [], _ => []
  | r :: rs, off => (off, r) :: offsets rs (off + runeLen r)

theorem rangeAux_encode (rs : List Nat) (h : ∀ r ∈ rs, Scalar r) (fuel off : Nat)
    (hf : (encodeRunes rs).length ≤ fuel) :
    rangeAux fuel (encodeRunes rs) off = offsets rs off := by
  induction rs generalizing fuel off with
  | nil => cases fuel <;> simp [encodeRunes, rangeAux, offsets]
  | cons r rs ih =>
    have hr := h r (by simp)
    have hlen := encodeRune_length hr
    have hpos := runeLen_pos hr
    have hcat : encodeRunes (r :: rs) = encodeRune r ++ encodeRunes rs := by simp [encodeRunes]
    have hl2 : (encodeRunes (r :: rs)).length = runeLen r + (encodeRunes rs).length := by
      rw [hcat]; simp [hlen]
    cases fuel with
    | zero => omega
    | succ fuel =>
      have hne : encodeRunes (r :: rs) ≠ [] := by
        rw [hcat]; simp [encodeRune_ne_nil hr]
      have hd := decodeRune_encodeRune hr (encodeRunes rs)
      rw [← hcat] at hd
      have hdrop : (encodeRunes (r :: rs)).drop (runeLen r) = encodeRunes rs := by
        rw [hcat, ← hlen]; simp
      cases hs : encodeRunes (r :: rs) with
      | nil => exact absurd hs hne
      | cons b s =>
        simp only [rangeAux]
        rw [← hs, hd]
        simp only [offsets, hdrop]
        rw [ih (fun x hx => h x (by simp [hx])) fuel (off + runeLen r) (by omega)]

theorem rangeStr_encode (rs : List Nat) (h : ∀ r ∈ rs, Scalar r) :
    rangeStr (encodeRunes rs) = offsets rs 0 := rangeAux_encode rs h _ 0 (Nat.le_refl _)

theorem offsets_snd (rs : List Nat) (off : Nat) : (offsets rs off).map Prod.snd = rs := by
  induction rs generalizing off with
  | nil => rfl
  | cons r rs ih => simp [offsets, ih]

theorem runes_encode (rs : List Nat) (h : ∀ r ∈ rs, Scalar r) : runes (encodeRunes rs) = rs := by
  simp [runes, rangeStr_encode rs h, offsets_snd]

/-- a valid string is the encoding of its runes -/
theorem ValidUtf8.encode_runes {s : Str} (h : ValidUtf8 s) :
    (∀ r ∈ runes s, Scalar r) ∧ s = encodeRunes (runes s) := by
  obtain ⟨rs, h1, rfl⟩ := h
  rw [runes_encode rs h1]; exact ⟨h1, rfl⟩

theorem validUtf8_ascii (s : Str) (h : ∀ b ∈ s, b.toNat < 0x80) :
    ValidUtf8 s ∧ runes s = s.map UInt8.toNat := by
  have hs : s = encodeRunes (s.map UInt8.toNat) := by
    induction s with
    | nil => rfl
    | cons b s ih =>
      have h1 := h b (by simp)
      have h2 := ih (fun x hx => h x (by simp [hx]))
      simp only [encodeRunes, List.map_cons, List.flatMap_cons]
      simp only [encodeRunes] at h2
      rw [← h2]
      simp [encodeRune, h1]
  have hsc : ∀ r ∈ s.map UInt8.toNat, Scalar r := by
    intro r hr
    obtain ⟨b, hb, rfl⟩ := List.mem_map.1 hr
    have := h b hb
    unfold Scalar; omega
  refine ⟨⟨_, hsc, hs⟩, ?_⟩
  conv => lhs; rw [hs]
  exact runes_encode _ hsc

end Verif
