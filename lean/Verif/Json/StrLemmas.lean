import Verif.Json.Model
import Verif.Go.Utf8Decode
/-!
# Helper lemmas: string literals
-/
namespace Verif.Json
open Verif Verif.Txlogs

theorem pieces_encodeRune {r : Nat} (h : Scalar r) (rest : Str) :
    pieces (encodeRune r ++ rest) = (r, encodeRune r) :: pieces rest := by
  have hne : encodeRune r ++ rest ≠ [] := by simp [encodeRune_ne_nil h]
  rw [pieces_cons _ hne, decodeRune_encodeRune h, ← encodeRune_length h]
  simp

theorem pieces_encode (rs : List Nat) (h : ∀ r ∈ rs, Scalar r) :
    pieces (encodeRunes rs) = rs.map fun r => (r, encodeRune r) := by
  induction rs with
  | nil => rfl
  | cons r rs ih =>
    have : encodeRunes (r :: rs) = encodeRune r ++ encodeRunes rs := by simp [encodeRunes]
    rw [this, pieces_encodeRune (h r (by simp)), ih (fun x hx => h x (by simp [hx]))]
    rfl

theorem sanitize_valid {s : Str} (h : ValidUtf8 s) : sanitize s = s := by
  obtain ⟨rs, hr, rfl⟩ := h
  unfold sanitize
  rw [pieces_encode rs hr, List.flatMap_map]
  rfl

theorem scalar_error : Scalar runeError := by decide

/-- a decoded character: a rune with its encoding, or one byte that is not UTF-8 -/
def PieceOk (p : Nat × Str) : Prop := (Scalar p.1 ∧ p.2 = encodeRune p.1) ∨ (p.1 = runeError ∧ p.2.length = 1)

theorem pieces_ok (s : Str) : ∀ p ∈ pieces s, PieceOk p := by
  generalize hn : s.length = n
  induction n using Nat.strongRecOn generalizing s with
  | _ n ih =>
    by_cases hs : s = []
    · subst hs; simp
    · have hw := decodeRune_width s hs
      rw [pieces_cons s hs]
      intro p hp
      rcases List.mem_cons.1 hp with rfl | hp
      · rcases decodeRune_cases s hs with h | h
        · right
          rw [h]
          refine ⟨rfl, ?_⟩
          cases s with
          | nil => exact absurd rfl hs
          | cons b s => rfl
        · exact .inl h
      · exact ih (s.drop (decodeRune s).2).length (by simp only [List.length_drop]; omega) _ rfl p hp

theorem pieces_scalar (s : Str) : ∀ p ∈ pieces s, Scalar p.1 := by
  intro p hp
  rcases pieces_ok s p hp with h | h
  · exact h.1
  · rw [h.1]; decide

theorem sanitize_eq (s : Str) : sanitize s = encodeRunes ((pieces s).map Prod.fst) := by
  unfold sanitize encodeRunes
  rw [List.flatMap_map]

theorem valid_sanitize (s : Str) : ValidUtf8 (sanitize s) := by
  refine ⟨(pieces s).map Prod.fst, ?_, sanitize_eq s⟩
  intro r hr
  obtain ⟨p, hp, rfl⟩ := List.mem_map.1 hr
  exact pieces_scalar s p hp

theorem unitBytes_esc {u : Nat} (h : isSurrogate u = false) (l : List Unit1) :
    unitBytes (.esc u :: l) = encodeRune u ++ unitBytes l := by
  cases l with
  | nil => simp [unitBytes, h]
  | cons x l => cases x <;> simp [unitBytes, h]

theorem scanStr_plain {c : UInt8} (h1 : c ≠ 34) (h2 : c ≠ 92) (h3 : 0x20 ≤ c.toNat) (r : Str) :
    scanStr (c :: r) = consUnit (.byte c) (scanStr r) := by
  have : ¬ c.toNat < 0x20 := by omega
  rw [scanStr.eq_def]
  simp only [h1, h2, this, if_false]

theorem scanStr_u {x y z w : UInt8} {u : Nat} (h : hex4 x y z w = some u) (r : Str) :
    scanStr (92 :: 117 :: x :: y :: z :: w :: r) = consUnit (.esc u) (scanStr r) := by
  rw [scanStr.eq_def]
  simp [h]

theorem scanStr_short {e b : UInt8} (he : e ≠ 117) (h : shortEsc e = some b) (r : Str) :
    scanStr (92 :: e :: r) = consUnit (.byte b) (scanStr r) := by
  rw [scanStr.eq_def]
  simp [h, he]

/-- the units `us` are read before what follows -/
def before (us : List Unit1) : Option (List Unit1 × Str) → Option (List Unit1 × Str)
  | some (l, r) => some (us ++ l, r)
  | none => none

theorem before_nil (x : Option (List Unit1 × Str)) : before [] x = x := by
  cases x <;> rfl

theorem before_cons (u : Unit1) (us : List Unit1) (x : Option (List Unit1 × Str)) :
    before (u :: us) x = consUnit u (before us x) := by
  cases x <;> rfl

theorem before_single (u : Unit1) (x : Option (List Unit1 × Str)) : before [u] x = consUnit u x := by
  cases x <;> rfl

/-- bytes that stand for themselves -/
theorem scanStr_bytes (bs : Str) (h : ∀ b ∈ bs, 0x80 ≤ b.toNat) (r : Str) :
    scanStr (bs ++ r) = before (bs.map .byte) (scanStr r) := by
  induction bs with
  | nil => rw [List.map_nil, before_nil]; rfl
  | cons b bs ih =>
    have hb := h b (by simp)
    rw [List.cons_append, scanStr_plain _ _ (by omega), ih (fun x hx => h x (by simp [hx])), List.map_cons, before_cons]
    · rintro rfl; simp at hb
    · rintro rfl; simp at hb

theorem unitBytes_bytes (bs : Str) (l : List Unit1) : unitBytes (bs.map .byte ++ l) = bs ++ unitBytes l := by
  induction bs with
  | nil => rfl
  | cons b bs ih => simp only [List.map_cons, List.cons_append, unitBytes, ih]

/-- what one written character is read as -/
def unitsOf (r : Nat) : List Unit1 :=
  if r < 0x80 then
    if r = 60 ∨ r = 62 ∨ r = 38 ∨ (r < 0x20 ∧ r ≠ 10 ∧ r ≠ 13 ∧ r ≠ 9) then [.esc r] else [.byte (UInt8.ofNat r)]
  else if r = 0x2028 ∨ r = 0x2029 then [.esc r]
  else (encodeRune r).map .byte

theorem encodeRune_high {r : Nat} (h : Scalar r) (hr : 0x80 ≤ r) : ∀ b ∈ encodeRune r, 0x80 ≤ b.toNat := by
  intro b hb
  rcases scalar_cases h with ⟨h1, _, h3⟩ | ⟨h0, h1, _, h3⟩ | ⟨h0, h1, _, h3⟩ | ⟨h0, h1, _, h3⟩
  · omega
  all_goals
    rw [h3] at hb
    simp only [List.mem_cons, List.not_mem_nil, or_false] at hb
  · rcases hb with rfl | rfl <;> rw [toNat_ofNat_lt (by omega)] <;> omega
  · rcases hb with rfl | rfl | rfl <;> rw [toNat_ofNat_lt (by omega)] <;> omega
  · rcases hb with rfl | rfl | rfl | rfl <;> rw [toNat_ofNat_lt (by omega)] <;> omega

theorem unitBytes_unitsOf {r : Nat} (h : Scalar r) (l : List Unit1) :
    unitBytes (unitsOf r ++ l) = encodeRune r ++ unitBytes l := by
  unfold unitsOf
  split
  · rename_i h1
    split
    · exact unitBytes_esc (by simp [isSurrogate]; omega) l
    · simp [unitBytes, encodeRune, h1]
  · split
    · rename_i h1
      exact unitBytes_esc (by rcases h1 with rfl | rfl <;> rfl) l
    · exact unitBytes_bytes _ _

theorem escAscii_table : ∀ r : Fin 128,
    (escAscii (UInt8.ofNat r.val) = [UInt8.ofNat r.val] ∧ UInt8.ofNat r.val ≠ 34 ∧ UInt8.ofNat r.val ≠ 92 ∧
      0x20 ≤ (UInt8.ofNat r.val).toNat ∧ unitsOf r.val = [.byte (UInt8.ofNat r.val)]) ∨
    (∃ e, e ≠ 117 ∧ escAscii (UInt8.ofNat r.val) = [92, e] ∧ shortEsc e = some (UInt8.ofNat r.val) ∧
      unitsOf r.val = [.byte (UInt8.ofNat r.val)]) ∨
    (escAscii (UInt8.ofNat r.val) = [92, 117, 48, 48, hexDigit (r.val / 16), hexDigit (r.val % 16)] ∧
      hex4 48 48 (hexDigit (r.val / 16)) (hexDigit (r.val % 16)) = some r.val ∧ unitsOf r.val = [.esc r.val]) := by
  intro r
  by_cases h34 : r.val = 34
  · right; left; exact ⟨34, by rw [h34]; decide⟩
  by_cases h92 : r.val = 92
  · right; left; exact ⟨92, by rw [h92]; decide⟩
  by_cases h10 : r.val = 10
  · right; left; exact ⟨110, by rw [h10]; decide⟩
  by_cases h13 : r.val = 13
  · right; left; exact ⟨114, by rw [h13]; decide⟩
  by_cases h9 : r.val = 9
  · right; left; exact ⟨116, by rw [h9]; decide⟩
  have key : ∀ r : Fin 128, r.val ≠ 34 → r.val ≠ 92 → r.val ≠ 10 → r.val ≠ 13 → r.val ≠ 9 →
    (escAscii (UInt8.ofNat r.val) = [UInt8.ofNat r.val] ∧ UInt8.ofNat r.val ≠ 34 ∧ UInt8.ofNat r.val ≠ 92 ∧
      0x20 ≤ (UInt8.ofNat r.val).toNat ∧ unitsOf r.val = [.byte (UInt8.ofNat r.val)]) ∨
    (escAscii (UInt8.ofNat r.val) = [92, 117, 48, 48, hexDigit (r.val / 16), hexDigit (r.val % 16)] ∧
      hex4 48 48 (hexDigit (r.val / 16)) (hexDigit (r.val % 16)) = some r.val ∧ unitsOf r.val = [.esc r.val]) := by
    decide +kernel
  rcases key r h34 h92 h10 h13 h9 with h | h
  · exact .inl h
  · exact .inr (.inr h)

theorem scanStr_piece {r : Nat} (h : Scalar r) (rest : Str) :
    scanStr (escPiece (r, encodeRune r) ++ rest) = before (unitsOf r) (scanStr rest) := by
  by_cases h1 : r < 0x80
  · have hp : escPiece (r, encodeRune r) = escAscii (UInt8.ofNat r) := by simp [escPiece, h1]
    rw [hp]
    rcases escAscii_table ⟨r, h1⟩ with ⟨h2, h3, h4, h5, h6⟩ | ⟨e, h2, h3, h4, h6⟩ | ⟨h2, h3, h6⟩
    · rw [h2, h6, before_single]; exact scanStr_plain h3 h4 h5 _
    · rw [h3, h6, before_single]; exact scanStr_short h2 h4 _
    · rw [h2, h6, before_single]; exact scanStr_u h3 _
  · by_cases h2 : r = 0x2028
    · subst h2
      rw [show unitsOf 0x2028 = [.esc 0x2028] from by decide, before_single,
        show escPiece (0x2028, encodeRune 0x2028) = [92, 117, 50, 48, 50, 56] from by decide]
      exact scanStr_u (by decide) _
    · by_cases h3 : r = 0x2029
      · subst h3
        rw [show unitsOf 0x2029 = [.esc 0x2029] from by decide, before_single,
          show escPiece (0x2029, encodeRune 0x2029) = [92, 117, 50, 48, 50, 57] from by decide]
        exact scanStr_u (by decide) _
      · have hlen : ¬ (r = runeError ∧ (encodeRune r).length = 1) := by
          rintro ⟨rfl, hl⟩; exact absurd hl (by decide)
        have hp : escPiece (r, encodeRune r) = encodeRune r := by
          unfold escPiece; simp only [h1, h2, h3, hlen, if_false]
        have hu : unitsOf r = (encodeRune r).map .byte := by
          unfold unitsOf; simp [h1, h2, h3]
        rw [hp, hu]
        exact scanStr_bytes _ (encodeRune_high h (by omega)) _

/-- what one written piece is read as -/
def unitsP (p : Nat × Str) : List Unit1 :=
  if p.1 = runeError ∧ p.2.length = 1 then [.esc runeError] else unitsOf p.1

theorem scanStr_pieceOk {p : Nat × Str} (h : PieceOk p) (rest : Str) :
    scanStr (escPiece p ++ rest) = before (unitsP p) (scanStr rest) := by
  obtain ⟨r, t⟩ := p
  unfold unitsP
  split
  · rename_i he
    obtain ⟨h1, h2⟩ := he
    simp only at h1 h2
    subst h1
    have hp : escPiece (runeError, t) = [92, 117, 102, 102, 102, 100] := by
      unfold escPiece
      rw [if_neg (by simp [runeError]), if_pos ⟨rfl, h2⟩]
    rw [hp, before_single]
    exact scanStr_u (by decide) _
  · rename_i he
    rcases h with ⟨h1, h2⟩ | h
    · simp only at h1 h2
      subst h2
      exact scanStr_piece h1 rest
    · exact absurd h he

theorem unitBytes_unitsP {p : Nat × Str} (h : PieceOk p) (l : List Unit1) :
    unitBytes (unitsP p ++ l) = encodeRune p.1 ++ unitBytes l := by
  unfold unitsP
  split
  · rename_i he
    rw [he.1]
    exact unitBytes_esc (by decide) l
  · rename_i he
    rcases h with h | h
    · exact unitBytes_unitsOf h.1 l
    · exact absurd h he

theorem scanStr_escape (ps : List (Nat × Str)) (h : ∀ p ∈ ps, PieceOk p) (rest : Str) :
    scanStr (ps.flatMap escPiece ++ 34 :: rest) = some (ps.flatMap unitsP, rest) := by
  induction ps with
  | nil => rw [List.flatMap_nil, List.nil_append, scanStr.eq_def]; rfl
  | cons p ps ih =>
    rw [List.flatMap_cons, List.append_assoc, scanStr_pieceOk (h p (by simp)), ih (fun x hx => h x (by simp [hx]))]
    rfl

theorem unitBytes_units (ps : List (Nat × Str)) (h : ∀ p ∈ ps, PieceOk p) :
    unitBytes (ps.flatMap unitsP) = ps.flatMap fun p => encodeRune p.1 := by
  induction ps with
  | nil => rfl
  | cons p ps ih =>
    rw [List.flatMap_cons, unitBytes_unitsP (h p (by simp)), ih (fun x hx => h x (by simp [hx]))]
    rfl

/-- a string literal is read back with ill-formed bytes replaced -/
theorem parseStr_escape (s : Str) (rest : Str) :
    parseStr (escape s ++ 34 :: rest) = some (sanitize s, rest) := by
  unfold parseStr escape
  rw [scanStr_escape _ (pieces_ok s)]
  simp only [unitBytes_units _ (pieces_ok s)]
  exact congrArg some (Prod.ext (sanitize_valid (valid_sanitize s)) rfl)

end Verif.Json
