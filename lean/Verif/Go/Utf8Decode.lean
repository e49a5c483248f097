import Verif.Go.Utf8
/-!
# What `utf8.DecodeRune` returns
-/
namespace Verif

theorem ofNat_eq_of_toNat {n : Nat} {b : UInt8} (h : n = b.toNat) : UInt8.ofNat n = b := by
  rw [h]; simp

/-- Either one byte is reported as an error, or the bytes consumed are the encoding of the rune returned. -/
theorem decodeRune_cases (s : Str) (h : s ≠ []) :
    decodeRune s = (runeError, 1) ∨
    (Scalar (decodeRune s).1 ∧ s.take (decodeRune s).2 = encodeRune (decodeRune s).1) := by
  cases s with
  | nil => exact absurd rfl h
  | cons b0 rest =>
    have hb0 := b0.toNat_lt
    unfold decodeRune
    simp only
    split
    · rename_i h0
      right
      refine ⟨by unfold Scalar; omega, ?_⟩
      simp [encodeRune, h0]
    split
    · exact .inl rfl
    split
    · split
      · rename_i b1 r
        split
        · rename_i hc
          right
          simp only [isCont, Bool.and_eq_true, decide_eq_true_eq] at hc
          refine ⟨by unfold Scalar; simp only; omega, ?_⟩
          unfold encodeRune
          simp only [List.take_succ_cons, List.take_zero]
          rw [if_neg (by omega), if_pos (by omega)]
          exact List.cons_eq_cons.2 ⟨(ofNat_eq_of_toNat (by omega)).symm, List.cons_eq_cons.2 ⟨(ofNat_eq_of_toNat (by omega)).symm, rfl⟩⟩
        · exact .inl rfl
      · exact .inl rfl
    split
    · split
      · rename_i b1 b2 r
        generalize elo : (if b0.toNat = 0xE0 then 0xA0 else 0x80) = lo
        generalize ehi : (if b0.toNat = 0xED then 0x9F else 0xBF) = hi
        split
        · rename_i hc
          right
          simp only [isCont, Bool.and_eq_true, decide_eq_true_eq] at hc
          obtain ⟨hlo, hhi, h2⟩ := hc
          have hlo' : (b0.toNat = 0xE0 → 0xA0 ≤ b1.toNat) ∧ 0x80 ≤ b1.toNat := by split at elo <;> omega
          have hhi' : (b0.toNat = 0xED → b1.toNat ≤ 0x9F) ∧ b1.toNat ≤ 0xBF := by split at ehi <;> omega
          refine ⟨by unfold Scalar; simp only; omega, ?_⟩
          unfold encodeRune
          simp only [List.take_succ_cons, List.take_zero]
          rw [if_neg (by omega), if_neg (by omega), if_pos (by omega)]
          exact List.cons_eq_cons.2 ⟨(ofNat_eq_of_toNat (by omega)).symm, List.cons_eq_cons.2 ⟨(ofNat_eq_of_toNat (by omega)).symm,
            List.cons_eq_cons.2 ⟨(ofNat_eq_of_toNat (by omega)).symm, rfl⟩⟩⟩
        · exact .inl rfl
      · exact .inl rfl
    split
    · split
      · rename_i b1 b2 b3 r
        generalize elo : (if b0.toNat = 0xF0 then 0x90 else 0x80) = lo
        generalize ehi : (if b0.toNat = 0xF4 then 0x8F else 0xBF) = hi
        split
        · rename_i hc
          right
          simp only [isCont, Bool.and_eq_true, decide_eq_true_eq] at hc
          obtain ⟨hlo, hhi, h2, h3⟩ := hc
          have hlo' : (b0.toNat = 0xF0 → 0x90 ≤ b1.toNat) ∧ 0x80 ≤ b1.toNat := by split at elo <;> omega
          have hhi' : (b0.toNat = 0xF4 → b1.toNat ≤ 0x8F) ∧ b1.toNat ≤ 0xBF := by split at ehi <;> omega
          refine ⟨by unfold Scalar; simp only; omega, ?_⟩
          unfold encodeRune
          simp only [List.take_succ_cons, List.take_zero]
          rw [if_neg (by omega), if_neg (by omega), if_neg (by omega)]
          exact List.cons_eq_cons.2 ⟨(ofNat_eq_of_toNat (by omega)).symm, List.cons_eq_cons.2 ⟨(ofNat_eq_of_toNat (by omega)).symm,
            List.cons_eq_cons.2 ⟨(ofNat_eq_of_toNat (by omega)).symm, List.cons_eq_cons.2 ⟨(ofNat_eq_of_toNat (by omega)).symm, rfl⟩⟩⟩⟩
        · exact .inl rfl
      · exact .inl rfl
    · exact .inl rfl

end Verif
