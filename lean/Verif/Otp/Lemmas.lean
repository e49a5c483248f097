import Verif.Otp.Spec
import Verif.Go.UrlParse
/-!
# Facts about base32 and queries
-/
set_option linter.unusedSimpArgs false
namespace Verif.Otp
open Verif Verif.Otp.Spec

theorem digit_letter {n : Nat} (h : n < 32) : digit (letter n) = some n ∧ letter n ≠ 61 ∧ letter n ≠ 10 ∧ letter n ≠ 13 := by
  have : ∀ n, n < 32 → digit (letter n) = some n ∧ letter n ≠ 61 ∧ letter n ≠ 10 ∧ letter n ≠ 13 := by decide +kernel
  exact this n h

theorem quantum_full : ∀ (ds : List Nat) (d : List Nat) (rest : Str), (∀ n ∈ ds, n < 32) →
    quantum ds.length d (ds.map letter ++ rest) = .full (d ++ ds) rest
  | [], d, rest, _ => by simp [quantum]
  | n :: ds, d, rest, h => by
    obtain ⟨h1, h2, -⟩ := digit_letter (h n (by simp))
    simp only [List.length_cons, List.map_cons, List.cons_append, quantum, h1]
    rw [if_neg (fun k => h2 k.1), quantum_full ds _ rest (fun m hm => h m (by simp [hm]))]
    simp

theorem quantum_last : ∀ (ds : List Nat) (d : List Nat) (fuel : Nat), (∀ n ∈ ds, n < 32) → d.length + fuel = 8 →
    (d.length + ds.length = 2 ∨ d.length + ds.length = 4 ∨ d.length + ds.length = 5 ∨ d.length + ds.length = 7) →
    quantum fuel d (ds.map letter ++ List.replicate (fuel - ds.length) 61) = .last (d ++ ds)
  | [], d, fuel, _, h8, hd => by
    simp only [List.length_nil, Nat.add_zero, Nat.sub_zero, List.map_nil, List.nil_append] at hd ⊢
    cases fuel with
    | zero => omega
    | succ fuel =>
      simp only [List.replicate_succ, quantum, List.length_replicate]
      rw [if_pos ⟨trivial, by omega, by omega⟩, if_neg (by omega), if_neg (by simp), if_neg (by omega)]
      simp
  | n :: ds, d, fuel, h, h8, hd => by
    simp only [List.length_cons] at hd
    obtain ⟨h1, h2, -⟩ := digit_letter (h n (by simp))
    cases fuel with
    | zero => omega
    | succ fuel =>
      simp only [List.length_cons, List.map_cons, List.cons_append, quantum, h1]
      rw [if_neg (fun k => h2 k.1), show fuel + 1 - (ds.length + 1) = fuel - ds.length by omega,
        quantum_last ds (d ++ [n]) fuel (fun m hm => h m (by simp [hm])) (by simp; omega) (by simp; omega)]
      simp

theorem ofNat_eq {n : Nat} {a : UInt8} (h : n = a.toNat) : UInt8.ofNat n = a := by
  rw [h, UInt8.ofNat_toNat]

theorem group1 (a : UInt8) : group [a.toNat / 8, a.toNat % 8 * 4] = [a] := by
  have := a.toNat_lt
  simp only [group, List.length_cons, List.length_nil, List.getD_cons_zero, List.getD_cons_succ, List.getD_nil]
  simp only [Nat.reduceAdd, Nat.reduceMul, Nat.reduceDiv, List.take_succ_cons, List.take_zero, List.map_cons, List.map_nil]
  rw [ofNat_eq (a := a) (by omega)]

theorem digits_lt : ∀ key, ∀ n ∈ digits key, n < 32
  | [], n, h => by cases h
  | [a], n, h => by
    have := a.toNat_lt
    simp only [digits, List.mem_cons, List.not_mem_nil, or_false] at h
    omega
  | [a, b], n, h => by
    have := a.toNat_lt; have := b.toNat_lt
    simp only [digits, List.mem_cons, List.not_mem_nil, or_false] at h
    omega
  | [a, b, c], n, h => by
    have := a.toNat_lt; have := b.toNat_lt; have := c.toNat_lt
    simp only [digits, List.mem_cons, List.not_mem_nil, or_false] at h
    omega
  | [a, b, c, d], n, h => by
    have := a.toNat_lt; have := b.toNat_lt; have := c.toNat_lt; have := d.toNat_lt
    simp only [digits, List.mem_cons, List.not_mem_nil, or_false] at h
    omega
  | a :: b :: c :: d :: e :: s, n, h => by
    have := a.toNat_lt; have := b.toNat_lt; have := c.toNat_lt; have := d.toNat_lt; have := e.toNat_lt
    simp only [digits, List.mem_append, List.mem_cons, List.not_mem_nil, or_false] at h
    rcases h with h | h
    · omega
    · exact digits_lt s n h

/-- the padding of `n` characters -/
def pad (n : Nat) : Str := List.replicate ((8 - n % 8) % 8) 61

theorem decodeLoop_last {ds : List Nat} (fuel : Nat) (h : ∀ n ∈ ds, n < 32)
    (hl : ds.length = 2 ∨ ds.length = 4 ∨ ds.length = 5 ∨ ds.length = 7) :
    decodeLoop (fuel + 1) (ds.map letter ++ pad ds.length) = some (group ds) := by
  have e : pad ds.length = List.replicate (8 - ds.length) 61 := by
    unfold pad
    congr 1
    omega
  rw [e]
  unfold decodeLoop
  rw [if_neg (by cases ds <;> simp_all), quantum_last ds [] 8 h rfl (by simpa using hl)]
  simp

theorem decode_digits : ∀ (key : Str) (fuel : Nat), (digits key).length ≤ fuel →
    decodeLoop (fuel + 1) ((digits key).map letter ++ pad (digits key).length) = some key
  | [], fuel, _ => by simp [digits, pad, decodeLoop]
  | [a], fuel, _ => by
    rw [decodeLoop_last fuel (digits_lt _) (by simp [digits])]
    exact congrArg some (group1 a)
  | [a, b], fuel, _ => by
    rw [decodeLoop_last fuel (digits_lt _) (by simp [digits])]
    have := a.toNat_lt; have := b.toNat_lt
    simp only [digits, group, List.length_cons, List.length_nil, List.getD_cons_zero, List.getD_cons_succ, List.getD_nil]
    simp only [Nat.reduceAdd, Nat.reduceMul, Nat.reduceDiv, List.take_succ_cons, List.take_zero, List.map_cons, List.map_nil]
    rw [ofNat_eq (a := a) (by omega), ofNat_eq (a := b) (by omega)]
  | [a, b, c], fuel, _ => by
    rw [decodeLoop_last fuel (digits_lt _) (by simp [digits])]
    have := a.toNat_lt; have := b.toNat_lt; have := c.toNat_lt
    simp only [digits, group, List.length_cons, List.length_nil, List.getD_cons_zero, List.getD_cons_succ, List.getD_nil]
    simp only [Nat.reduceAdd, Nat.reduceMul, Nat.reduceDiv, List.take_succ_cons, List.take_zero, List.map_cons, List.map_nil]
    rw [ofNat_eq (a := a) (by omega), ofNat_eq (a := b) (by omega), ofNat_eq (a := c) (by omega)]
  | [a, b, c, d], fuel, _ => by
    rw [decodeLoop_last fuel (digits_lt _) (by simp [digits])]
    have := a.toNat_lt; have := b.toNat_lt; have := c.toNat_lt; have := d.toNat_lt
    simp only [digits, group, List.length_cons, List.length_nil, List.getD_cons_zero, List.getD_cons_succ, List.getD_nil]
    simp only [Nat.reduceAdd, Nat.reduceMul, Nat.reduceDiv, List.take_succ_cons, List.take_zero, List.map_cons, List.map_nil]
    rw [ofNat_eq (a := a) (by omega), ofNat_eq (a := b) (by omega), ofNat_eq (a := c) (by omega), ofNat_eq (a := d) (by omega)]
  | a :: b :: c :: d :: e :: s, fuel, hf => by
    have h1 := a.toNat_lt; have h2 := b.toNat_lt; have h3 := c.toNat_lt; have h4 := d.toNat_lt; have h5 := e.toNat_lt
    have hlt := digits_lt (a :: b :: c :: d :: e :: s)
    simp only [digits, List.length_append, List.map_append] at hf hlt ⊢
    generalize hds : ([a.toNat / 8, a.toNat % 8 * 4 + b.toNat / 64, b.toNat / 2 % 32, b.toNat % 2 * 16 + c.toNat / 16,
      c.toNat % 16 * 2 + d.toNat / 128, d.toNat / 4 % 32, d.toNat % 4 * 8 + e.toNat / 32, e.toNat % 32] : List Nat) = ds at hf hlt ⊢
    have h8 : ds.length = 8 := by rw [← hds]; rfl
    have hpad : pad (ds.length + (digits s).length) = pad (digits s).length := by
      unfold pad
      rw [h8]
      congr 1
      omega
    have hg : group ds = [a, b, c, d, e] := by
      rw [← hds]
      simp only [group, List.length_cons, List.length_nil, List.getD_cons_zero, List.getD_cons_succ, List.getD_nil]
      simp only [Nat.reduceAdd, Nat.reduceMul, Nat.reduceDiv, List.take_succ_cons, List.take_zero, List.map_cons, List.map_nil]
      rw [ofNat_eq (a := a) (by omega), ofNat_eq (a := b) (by omega), ofNat_eq (a := c) (by omega), ofNat_eq (a := d) (by omega),
        ofNat_eq (a := e) (by omega)]
    obtain ⟨fuel, rfl⟩ : ∃ k, fuel = k + 1 := ⟨fuel - 1, by omega⟩
    rw [hpad]
    unfold decodeLoop
    rw [if_neg (by intro h; have := congrArg List.length h; simp [h8] at this)]
    have hq := quantum_full ds [] ((digits s).map letter ++ pad (digits s).length) (fun n hn => hlt n (by simp [hn]))
    rw [h8] at hq
    rw [List.append_assoc, hq]
    simp only [List.nil_append]
    rw [decode_digits s fuel (by omega), hg]
    rfl

theorem upper_letters {x : Str} {key : Str} (h : x.map upper = (digits key).map letter) :
    (∀ c ∈ x, c.toNat < 128 ∧ c ≠ 10 ∧ c ≠ 13 ∧ isSpaceRune c.toNat = false) := by
  intro c hc
  have hm : upper c ∈ (digits key).map letter := h ▸ List.mem_map_of_mem hc
  obtain ⟨n, hn, he⟩ := List.mem_map.1 hm
  have hd := (digit_letter (digits_lt key n hn)).1
  rw [he] at hd
  have hs : (digit (upper c)).isSome = true := by rw [hd]; rfl
  exact Url.byteInd (p := fun c => (digit (upper c)).isSome = true → c.toNat < 128 ∧ c ≠ 10 ∧ c ≠ 13 ∧ isSpaceRune c.toNat = false)
    (by decide +kernel) c hs

/-- decoding gives the key back, however it is written -/
theorem decode_spells {v : Env} (hv : Upper v) {s key : Str} (h : Spells s key) :
    decode32 (v.toUpper (padded s)) = some key := by
  obtain ⟨x, j, rfl, hx, hj⟩ := h
  have hlen : x.length = (digits key).length := by simpa using congrArg List.length hx
  have hp : padded (x ++ List.replicate j 61) = x ++ pad x.length := by
    unfold padded pad
    simp only [List.length_append, List.length_replicate]
    split
    · rw [List.append_assoc, List.replicate_append_replicate]
      congr 2
      omega
    · congr 2
      omega
  have hu := upper_letters hx
  have h61 : ∀ c ∈ pad x.length, c = 61 := fun c hc => List.eq_of_mem_replicate hc
  have hup : v.toUpper (x ++ pad x.length) = (digits key).map letter ++ pad (digits key).length := by
    rw [hv _ (by
      intro c hc
      rcases List.mem_append.1 hc with hc | hc
      · exact (hu c hc).1
      · rw [h61 c hc]; decide), List.map_append, hx, hlen]
    congr 1
    unfold pad
    rw [List.map_replicate]
    rfl
  rw [hp, hup]
  unfold decode32
  have hfil : ((digits key).map letter ++ pad (digits key).length).filter (fun c => decide (c ≠ 10 ∧ c ≠ 13)) =
      (digits key).map letter ++ pad (digits key).length := by
    rw [List.filter_eq_self]
    intro c hc
    rcases List.mem_append.1 hc with hc | hc
    · obtain ⟨n, hn, rfl⟩ := List.mem_map.1 hc
      have := digit_letter (digits_lt key n hn)
      simp [this.2.2.1, this.2.2.2]
    · rw [List.eq_of_mem_replicate hc]; decide
  simp only [hfil]
  exact decode_digits key _ (by simp)

end Verif.Otp
