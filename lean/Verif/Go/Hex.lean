import Verif.Go.Basic
/-!
# `encoding/hex`

`hex.EncodeToString`, `hex.DecodeString` and the verb `%x` on bytes.
-/
namespace Verif

/-- lower-case hexadecimal digit of a value below 16 -/
def hexDigit (n : Nat) : UInt8 := UInt8.ofNat (if n < 10 then 48 + n else 87 + n)

/-- `hex.EncodeToString` -/
def hexEncode : Str → Str
  | [] => []
  | b :: s => hexDigit (b.toNat / 16) :: hexDigit (b.toNat % 16) :: hexEncode s

/-- value of a hexadecimal digit, either case -/
def hexVal (b : UInt8) : Option Nat :=
  if 48 ≤ b.toNat ∧ b.toNat ≤ 57 then some (b.toNat - 48)
  else if 97 ≤ b.toNat ∧ b.toNat ≤ 102 then some (b.toNat - 87)
  else if 65 ≤ b.toNat ∧ b.toNat ≤ 70 then some (b.toNat - 55)
  else none

/-- `hex.DecodeString`; `none` = error (odd length or a byte that is no digit) -/
def hexDecode : Str → Option Str
  | [] => some []
  | [_] => none
  | a :: b :: s =>
    match hexVal a, hexVal b, hexDecode s with
    | some x, some y, some r => some (UInt8.ofNat (16 * x + y) :: r)
    | _, _, _ => none

theorem hexVal_hexDigit (n : Nat) (h : n < 16) : hexVal (hexDigit n) = some n := by
  have : ∀ n : Fin 16, hexVal (hexDigit n.val) = some n.val := by decide
  exact this ⟨n, h⟩

theorem hexDecode_hexEncode (s : Str) : hexDecode (hexEncode s) = some s := by
  induction s with
  | nil => rfl
  | cons b s ih =>
    have hb := b.toNat_lt
    simp only [hexEncode, hexDecode, ih, hexVal_hexDigit _ (show b.toNat / 16 < 16 by omega),
      hexVal_hexDigit _ (show b.toNat % 16 < 16 by omega), Option.some.injEq, List.cons.injEq, and_true]
    have : 16 * (b.toNat / 16) + b.toNat % 16 = b.toNat := by omega
    rw [this]; simp

theorem hexEncode_injective {s t : Str} (h : hexEncode s = hexEncode t) : s = t := by
  have := hexDecode_hexEncode s
  rw [h, hexDecode_hexEncode] at this
  exact (Option.some.inj this).symm

theorem hexEncode_length (s : Str) : (hexEncode s).length = 2 * s.length := by
  induction s with
  | nil => rfl
  | cons b s ih => simp [hexEncode, ih]; omega

/-- no encoded byte is a control character, a space or a comma -/
theorem hexEncode_range (s : Str) : ∀ c ∈ hexEncode s, 48 ≤ c.toNat ∧ c.toNat ≤ 102 := by
  have hd : ∀ n : Fin 16, 48 ≤ (hexDigit n.val).toNat ∧ (hexDigit n.val).toNat ≤ 102 := by decide
  induction s with
  | nil => simp [hexEncode]
  | cons b s ih =>
    have hb := b.toNat_lt
    intro c hc
    simp only [hexEncode, List.mem_cons] at hc
    rcases hc with rfl | rfl | hc
    · exact hd ⟨b.toNat / 16, by omega⟩
    · exact hd ⟨b.toNat % 16, by omega⟩
    · exact ih c hc

end Verif
