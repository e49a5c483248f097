import Verif.Pkcs7.Model
/-!
# Properties of PKCS#7 padding (C40, C41)
-/
namespace Verif.Pkcs7
open Verif

theorem pad_eq (b : Str) (k : Nat) (hk : 0 < k) :
    pad b k = some (b ++ List.replicate (k - b.length % k) (UInt8.ofNat (k - b.length % k))) := by
  have hlt := Nat.mod_lt b.length hk
  unfold pad
  rw [if_neg (by omega)]
  simp only [Int.toNat_natCast]
  rw [if_neg (by omega)]

/-- what `unpad` accepts -/
theorem unpad_ok_iff (x y : Str) : unpad x = .ok y ↔
    ∃ n : UInt8, x.getLast? = some n ∧ x = y ++ List.replicate n.toNat n := by
  unfold unpad
  cases hl : x.getLast? with
  | none => simp
  | some n =>
    simp only [Option.some.injEq]
    constructor
    · intro h
      split at h
      · cases h
      · split at h
        · rename_i h1 h2
          cases h
          refine ⟨n, rfl, ?_⟩
          have hlen : (x.drop (x.length - n.toNat)).length = n.toNat := by simp; omega
          have : x.drop (x.length - n.toNat) = List.replicate n.toNat n := by
            rw [List.eq_replicate_iff]
            refine ⟨hlen, fun b hb => ?_⟩
            simpa using List.all_eq_true.1 h2 b hb
          rw [← this, List.take_append_drop]
        · cases h
    · rintro ⟨m, rfl, hx⟩
      have hlen : x.length = y.length + n.toNat := by rw [hx]; simp
      rw [if_neg (by omega)]
      have h1 : x.length - n.toNat = y.length := by omega
      rw [h1]
      rw [hx]
      simp

/-- Padding: length a positive multiple of `k`, between 1 and `k` bytes more, and removable. -/
theorem C40_pad_unpad (b : Str) (k : Nat) (h1 : 1 ≤ k) (h2 : k ≤ 255) :
    ∃ x, pad b k = some x ∧ x.length % k = 0 ∧ b.length < x.length ∧ x.length ≤ b.length + k ∧
      unpad x = .ok b := by
  have hlt := Nat.mod_lt b.length (show 0 < k by omega)
  refine ⟨_, pad_eq b k (by omega), ?_, ?_, ?_, ?_⟩
  · simp only [List.length_append, List.length_replicate]
    have := Nat.div_add_mod b.length k
    have he : b.length + (k - b.length % k) = k * (b.length / k + 1) := by
      rw [Nat.mul_add]; omega
    rw [he, Nat.mul_mod_right]
  · simp; omega
  · simp
  · rw [unpad_ok_iff]
    generalize hm : k - b.length % k = m
    have hm1 : 0 < m := by omega
    have hm2 : m < 256 := by omega
    have ht : (UInt8.ofNat m).toNat = m := by simp; omega
    refine ⟨UInt8.ofNat m, ?_, by rw [ht]⟩
    rw [List.getLast?_append]
    have : (List.replicate m (UInt8.ofNat m)).getLast? = some (UInt8.ofNat m) := by
      rw [List.getLast?_replicate, if_neg (by omega)]
    simp [this]

/-- `k < 1` is refused by a panic. -/
theorem C40_bad_k (b : Str) (k : Int) (h : k < 1) : pad b k = none := by simp [pad, h]

/-- The bound is needed: for `k = 256` the padding byte wraps to 0 and `Unpad` removes nothing. -/
theorem C40_256 : ∃ x, pad [] 256 = some x ∧ unpad x = .ok x ∧ x.length = 256 := by
  refine ⟨List.replicate 256 0, ?_, ?_, List.length_replicate⟩
  · exact pad_eq [] 256 (by decide)
  · rw [unpad_ok_iff]
    exact ⟨0, by rw [List.getLast?_replicate]; rfl, (List.append_nil _).symm⟩

/-- Non-vacuity of `C40_pad_unpad`. -/
example : pad [1, 2, 3] 4 = some [1, 2, 3, 1] ∧ unpad [1, 2, 3, 1] = .ok [1, 2, 3] ∧
    pad [1, 2] 2 = some [1, 2, 2, 2] ∧ pad [] 3 = some [3, 3, 3] := by decide

/-- Everything `Unpad` accepts is `y` followed by `n` bytes equal to `n`, where `n` is the last byte. What is missing
for the claim is `1 ≤ n`. -/
theorem C41_unpad_partial (x y : Str) (h : unpad x = .ok y) :
    ∃ n : UInt8, x.getLast? = some n ∧ x = y ++ List.replicate n.toNat n ∧
      (n ≠ 0 → 1 ≤ n.toNat) := by
  obtain ⟨n, h1, h2⟩ := (unpad_ok_iff x y).1 h
  refine ⟨n, h1, h2, fun hn => ?_⟩
  have : n.toNat ≠ 0 := fun h0 => hn (UInt8.toNat_inj.1 (by simpa using h0))
  omega

/-- For inputs that do not end in a zero byte the claim holds. -/
theorem C41_unpad_nonzero_partial (x y : Str) (h : unpad x = .ok y) (hz : x.getLast? ≠ some 0) :
    ∃ n : Nat, 1 ≤ n ∧ n ≤ 255 ∧ x = y ++ List.replicate n (UInt8.ofNat n) := by
  obtain ⟨n, h1, h2, h3⟩ := C41_unpad_partial x y h
  have hn : n ≠ 0 := by rintro rfl; exact hz h1
  exact ⟨n.toNat, h3 hn, by have := n.toNat_lt; omega, by simpa using h2⟩

/-- False: a zero byte at the end is accepted as padding of length zero. -/
theorem C41_false : ∃ x y, unpad x = .ok y ∧ ¬ ∃ n : Nat, 1 ≤ n ∧ x = y ++ List.replicate n (UInt8.ofNat n) := by
  refine ⟨[7, 0], [7, 0], by decide, ?_⟩
  rintro ⟨n, h1, h2⟩
  have := congrArg List.length h2
  simp at this
  omega

/-- Non-vacuity: accepted and rejected inputs. -/
example : unpad [9, 2, 2] = .ok [9] ∧ unpad [9, 3, 2] = .err .paddingInvalid ∧
    unpad [5] = .err .amountImpossible ∧ unpad [] = .err .emptySlice := by decide

end Verif.Pkcs7
