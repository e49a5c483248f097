import Verif.Go.Quote
import Verif.Json.StrLemmas
/-!
# Helper lemmas: quoted strings can be read back
-/
namespace Verif
open Verif.Json (PieceOk pieces_ok encodeRune_high)

/-! ## A reader -/

def hexRead : Nat → Nat → Str → Option (Nat × Str)
  | 0, acc, s => some (acc, s)
  | _ + 1, _, [] => none
  | k + 1, acc, c :: s =>
    match hexVal c with
    | some v => hexRead k (acc * 16 + v) s
    | none => none

def goEscape (e : UInt8) : Option UInt8 :=
  if e = 34 ∨ e = 92 then some e
  else if e = 97 then some 7 else if e = 98 then some 8 else if e = 102 then some 12 else if e = 110 then some 10
  else if e = 114 then some 13 else if e = 116 then some 9 else if e = 118 then some 11 else none

def preStr (a : Str) (x : Option (Str × Str)) : Option (Str × Str) := x.map fun p => (a ++ p.1, p.2)

/-- reads up to the closing quote -/
def unquote : Nat → Str → Option (Str × Str)
  | 0, _ => none
  | _ + 1, [] => none
  | f + 1, c :: r =>
    if c = 34 then some ([], r)
    else if c = 92 then
      match r with
      | [] => none
      | e :: r =>
        if e = 120 then
          match hexRead 2 0 r with
          | some (n, r) => preStr [UInt8.ofNat n] (unquote f r)
          | none => none
        else if e = 117 then
          match hexRead 4 0 r with
          | some (n, r) => preStr (encodeRune n) (unquote f r)
          | none => none
        else if e = 85 then
          match hexRead 8 0 r with
          | some (n, r) => preStr (encodeRune n) (unquote f r)
          | none => none
        else
          match goEscape e with
          | some b => preStr [b] (unquote f r)
          | none => none
    else preStr [c] (unquote f r)

theorem hexRead_digits (k : Nat) : ∀ (acc n : Nat) (rest : Str),
    hexRead k acc (hexDigits k n ++ rest) = some (acc * 16 ^ k + n % 16 ^ k, rest) := by
  induction k with
  | zero => intro acc n rest; simp [hexRead, hexDigits, Nat.mod_one]
  | succ k ih =>
    intro acc n rest
    simp only [hexDigits, List.cons_append, hexRead, hexVal_hexDigit _ (Nat.mod_lt _ (by decide : 0 < 16)), ih]
    rw [Nat.pow_succ, Nat.mod_mul, Nat.add_mul, Nat.mul_assoc, Nat.mul_comm 16, Nat.mul_comm (16 ^ k) (n / 16 ^ k % 16)]
    congr 2
    omega

theorem preStr_preStr (a b : Str) (x : Option (Str × Str)) : preStr a (preStr b x) = preStr (a ++ b) x := by
  cases x <;> simp [preStr]

theorem unquote_plain {c : UInt8} (h1 : c ≠ 34) (h2 : c ≠ 92) (f : Nat) (r : Str) :
    unquote (f + 1) (c :: r) = preStr [c] (unquote f r) := by
  simp [unquote, h1, h2]

theorem unquote_bytes (bs : Str) (h : ∀ b ∈ bs, b ≠ 34 ∧ b ≠ 92) (f : Nat) (r : Str) :
    unquote (f + bs.length) (bs ++ r) = preStr bs (unquote f r) := by
  induction bs with
  | nil => cases h : unquote f r <;> simp [preStr, h]
  | cons b bs ih =>
    rw [List.length_cons, ← Nat.add_assoc, List.cons_append, unquote_plain (h b (by simp)).1 (h b (by simp)).2,
      ih (fun x hx => h x (by simp [hx])), preStr_preStr]
    rfl

theorem unquote_x (n f : Nat) (r : Str) (h : n < 256) :
    unquote (f + 1) ([92, 120] ++ hexDigits 2 n ++ r) = preStr [UInt8.ofNat n] (unquote f r) := by
  simp only [List.cons_append, List.nil_append, unquote, hexRead_digits,
    show ((92 : UInt8) = 34) = False from by simp, if_false, if_true]
  simp [Nat.mod_eq_of_lt h]

theorem unquote_u (n f : Nat) (r : Str) (h : n < 65536) :
    unquote (f + 1) ([92, 117] ++ hexDigits 4 n ++ r) = preStr (encodeRune n) (unquote f r) := by
  simp only [List.cons_append, List.nil_append, unquote, hexRead_digits,
    show ((92 : UInt8) = 34) = False from by simp, show ((117 : UInt8) = 120) = False from by simp, if_false, if_true]
  simp [Nat.mod_eq_of_lt h]

theorem unquote_U (n f : Nat) (r : Str) (h : n < 4294967296) :
    unquote (f + 1) ([92, 85] ++ hexDigits 8 n ++ r) = preStr (encodeRune n) (unquote f r) := by
  simp only [List.cons_append, List.nil_append, unquote, hexRead_digits,
    show ((92 : UInt8) = 34) = False from by simp, show ((85 : UInt8) = 120) = False from by simp,
    show ((85 : UInt8) = 117) = False from by simp, if_false, if_true]
  simp [Nat.mod_eq_of_lt h]

theorem unquote_short {e b : UInt8} (h : goEscape e = some b) (h1 : e ≠ 120) (h2 : e ≠ 117) (h3 : e ≠ 85) (f : Nat) (r : Str) :
    unquote (f + 1) ([92, e] ++ r) = preStr [b] (unquote f r) := by
  simp [unquote, h, h1, h2, h3]

theorem goShort_ok {r : Nat} {e : UInt8} (h : goShort r = some e) :
    goEscape e = some (UInt8.ofNat r) ∧ e ≠ 120 ∧ e ≠ 117 ∧ e ≠ 85 ∧ r < 128 := by
  unfold goShort at h
  repeat' split at h
  all_goals first
    | (cases h; done)
    | (subst_vars; cases h; decide)

theorem encodeRune_ascii {r : Nat} (h : r < 128) : encodeRune r = [UInt8.ofNat r] := by
  simp only [encodeRune, show r < 0x80 from h, if_true]

theorem unquote_piece (isPrint : Nat → Bool) {p : Nat × Str} (h : PieceOk p) :
    ∃ m, ∀ f rest, unquote (f + m) (quotePiece isPrint p ++ rest) = preStr p.2 (unquote f rest) := by
  unfold quotePiece
  split
  · rename_i h1
    obtain ⟨b, hb⟩ : ∃ b, p.2 = [b] := by
      match hp : p.2, h1.2 with
      | [b], _ => exact ⟨b, rfl⟩
    refine ⟨1, fun f rest => ?_⟩
    rw [hb]
    have := unquote_x b.toNat f rest b.toNat_lt
    simpa using this
  · rename_i h1
    obtain ⟨h2, h3⟩ : Scalar p.1 ∧ p.2 = encodeRune p.1 := h.resolve_right h1
    rw [h3]
    split
    · rename_i h4
      refine ⟨1, fun f rest => ?_⟩
      rw [encodeRune_ascii (by omega)]
      rcases h4 with h4 | h4 <;> rw [h4] <;> exact unquote_short (by decide) (by decide) (by decide) (by decide) f rest
    · rename_i h4
      split
      · refine ⟨(encodeRune p.1).length, fun f rest => unquote_bytes _ ?_ f rest⟩
        intro b hb
        by_cases h5 : p.1 < 128
        · rw [encodeRune_ascii h5, List.mem_singleton] at hb
          subst hb
          constructor <;> intro hx <;> apply h4
          · left; have := congrArg UInt8.toNat hx; rw [toNat_ofNat_lt (by omega)] at this; exact this
          · right; have := congrArg UInt8.toNat hx; rw [toNat_ofNat_lt (by omega)] at this; exact this
        · have := encodeRune_high h2 (by omega) b hb
          constructor <;> · rintro rfl; revert this; decide
      · split
        · rename_i e he
          obtain ⟨g1, g2, g3, g4, g5⟩ := goShort_ok he
          refine ⟨1, fun f rest => ?_⟩
          rw [encodeRune_ascii g5]
          exact unquote_short g1 g2 g3 g4 f rest
        · split
          · refine ⟨1, fun f rest => ?_⟩
            rw [encodeRune_ascii (by omega)]
            exact unquote_x _ f rest (by omega)
          · split
            · exact ⟨1, fun f rest => unquote_u _ f rest (by omega)⟩
            · refine ⟨1, fun f rest => unquote_U _ f rest ?_⟩
              unfold Scalar at h2
              omega

theorem unquote_pieces (isPrint : Nat → Bool) (ps : List (Nat × Str)) (h : ∀ p ∈ ps, PieceOk p) :
    ∃ m, ∀ f rest, unquote (f + m) (ps.flatMap (quotePiece isPrint) ++ rest) = preStr ((ps.map Prod.snd).flatten) (unquote f rest) := by
  induction ps with
  | nil => exact ⟨0, fun f rest => by cases hx : unquote f rest <;> simp [preStr, hx]⟩
  | cons p ps ih =>
    obtain ⟨m, hm⟩ := unquote_piece isPrint (h p (by simp))
    obtain ⟨k, hk⟩ := ih (fun x hx => h x (by simp [hx]))
    refine ⟨k + m, fun f rest => ?_⟩
    rw [← Nat.add_assoc, List.flatMap_cons, List.append_assoc, hm, hk, preStr_preStr]
    simp

theorem unquote_goQuote (isPrint : Nat → Bool) (s : Str) :
    ∃ m, ∀ f rest, unquote (f + m) ((goQuote isPrint s).tail ++ rest) = some (s, rest) := by
  obtain ⟨m, hm⟩ := unquote_pieces isPrint (pieces s) (pieces_ok s)
  refine ⟨m + 1, fun f rest => ?_⟩
  simp only [goQuote, List.cons_append, List.tail_cons, List.append_assoc, List.nil_append]
  rw [show f + (m + 1) = (f + 1) + m by omega, hm]
  simp [unquote, preStr, pieces_flatten]

/-- a quoted string is told from what follows it, and from all others -/
theorem goQuote_inj (isPrint isPrint' : Nat → Bool) {s t r r' : Str} (h : goQuote isPrint s ++ r = goQuote isPrint' t ++ r') :
    s = t ∧ r = r' := by
  obtain ⟨m, hm⟩ := unquote_goQuote isPrint s
  obtain ⟨k, hk⟩ := unquote_goQuote isPrint' t
  have h' : (goQuote isPrint s).tail ++ r = (goQuote isPrint' t).tail ++ r' := by
    simp only [goQuote, List.cons_append, List.cons.injEq, true_and, List.tail_cons] at h ⊢
    exact h
  have h1 := hm k r
  have h2 := hk m r'
  rw [h', Nat.add_comm, h2] at h1
  cases h1
  exact ⟨rfl, rfl⟩

/-! ## What is in it -/

/-- a byte that moves no cursor and begins no escape sequence -/
def Tame (b : UInt8) : Prop := 32 ≤ b.toNat ∧ b ≠ 127

theorem tame_hexDigits (k n : Nat) : ∀ b ∈ hexDigits k n, Tame b := by
  have h16 : ∀ i : Fin 16, 32 ≤ (hexDigit i.val).toNat ∧ hexDigit i.val ≠ 127 := by decide
  induction k with
  | zero => intro b hb; cases hb
  | succ k ih =>
    intro b hb
    rcases List.mem_cons.1 hb with rfl | hb
    · exact h16 ⟨n / 16 ^ k % 16, Nat.mod_lt _ (by decide)⟩
    · exact ih b hb

theorem tame_goQuote (isPrint : Nat → Bool) (hp : ∀ r, isPrint r = true → 32 ≤ r ∧ r ≠ 127) (s : Str) :
    ∀ b ∈ goQuote isPrint s, Tame b := by
  have hpiece : ∀ p, PieceOk p → ∀ b ∈ quotePiece isPrint p, Tame b := by
    intro p hpo b hb
    unfold quotePiece at hb
    split at hb
    · rcases List.mem_append.1 hb with hb | hb
      · simp only [List.mem_cons, List.not_mem_nil, or_false] at hb
        rcases hb with rfl | rfl <;> exact ⟨by decide, by decide⟩
      · exact tame_hexDigits _ _ b hb
    · rename_i h1
      obtain ⟨h2, -⟩ : Scalar p.1 ∧ p.2 = encodeRune p.1 := hpo.resolve_right h1
      split at hb
      · rename_i h4
        simp only [List.mem_cons, List.not_mem_nil, or_false] at hb
        rcases hb with rfl | rfl
        · exact ⟨by decide, by decide⟩
        · rcases h4 with h4 | h4 <;> rw [h4] <;> exact ⟨by decide, by decide⟩
      · split at hb
        · rename_i h5
          obtain ⟨g1, g2⟩ := hp _ h5
          by_cases h6 : p.1 < 128
          · rw [encodeRune_ascii h6, List.mem_singleton] at hb
            subst hb
            have := toNat_ofNat_lt (show p.1 < 256 by omega)
            refine ⟨by omega, fun hx => g2 ?_⟩
            rw [hx] at this
            exact this.symm
          · have := encodeRune_high h2 (by omega) b hb
            refine ⟨by omega, ?_⟩
            rintro rfl
            revert this
            decide
        · split at hb
          · rename_i e he
            simp only [List.mem_cons, List.not_mem_nil, or_false] at hb
            unfold goShort at he
            repeat' split at he
            all_goals first
              | (cases he; done)
              | (cases he; rcases hb with rfl | rfl <;> exact ⟨by decide, by decide⟩)
          · repeat' split at hb
            all_goals
              rcases List.mem_append.1 hb with hb | hb
              · simp only [List.mem_cons, List.not_mem_nil, or_false] at hb
                rcases hb with rfl | rfl <;> exact ⟨by decide, by decide⟩
              · exact tame_hexDigits _ _ b hb
  intro b hb
  simp only [goQuote, List.cons_append, List.mem_cons, List.mem_append, List.not_mem_nil, or_false] at hb
  rcases hb with rfl | hb | rfl
  · exact ⟨by decide, by decide⟩
  · obtain ⟨p, hp', hb⟩ := List.mem_flatMap.1 hb
    exact hpiece p (pieces_ok s p hp') b hb
  · exact ⟨by decide, by decide⟩

end Verif
