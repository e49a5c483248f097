import Verif.Crypt.Spec
import Verif.Pkcs7.Props
/-!
# Lemmas about CBC, the cascade and the header
-/
set_option linter.unusedSimpArgs false
namespace Verif.Crypt
open Verif

/-! ## CBC -/

theorem xor_length {a b : Str} (h : a.length = b.length) : (xor a b).length = b.length := by
  simp [xor, h]

theorem xor_xor {a b : Str} (h : a.length = b.length) : xor a (xor a b) = b := by
  induction a generalizing b with
  | nil => cases b with
    | nil => rfl
    | cons => simp at h
  | cons x a ih =>
    cases b with
    | nil => simp at h
    | cons y b =>
      have := ih (b := b) (by simpa using h)
      simp only [xor, List.zipWith_cons_cons] at this ⊢
      rw [this]
      congr 1
      rw [← UInt8.xor_assoc, UInt8.xor_self, UInt8.zero_xor]

theorem cbc_roundtrip (E D : Str → Str) (n : Nat)
    (hE : ∀ b, b.length = n → (E b).length = n) (hDE : ∀ b, b.length = n → D (E b) = b)
    (bs : List Str) (iv : Str) (hiv : iv.length = n) (hbs : ∀ b ∈ bs, b.length = n) :
    cbcD D iv (cbcE E iv bs) = bs ∧ ∀ c ∈ cbcE E iv bs, c.length = n := by
  induction bs generalizing iv with
  | nil => simp [cbcE, cbcD]
  | cons b bs ih =>
    have hb := hbs b (by simp)
    have hx : (xor iv b).length = n := by rw [xor_length (by omega), hb]
    obtain ⟨h1, h2⟩ := ih (E (xor iv b)) (hE _ hx) (fun b' hb' => hbs b' (by simp [hb']))
    simp only [cbcE, cbcD, hDE _ hx, xor_xor (show iv.length = b.length by omega), h1]
    refine ⟨trivial, ?_⟩
    intro c hc
    rcases List.mem_cons.1 hc with rfl | hc
    · exact hE _ hx
    · exact h2 c hc

theorem cbcE_length (E : Str → Str) (iv : Str) (bs : List Str) : (cbcE E iv bs).length = bs.length := by
  induction bs generalizing iv with
  | nil => rfl
  | cons b bs ih => simp [cbcE, ih]

theorem cbcD_length (D : Str → Str) (iv : Str) (bs : List Str) : (cbcD D iv bs).length = bs.length := by
  induction bs generalizing iv with
  | nil => rfl
  | cons b bs ih => simp [cbcD, ih]

theorem cbcD_lengths (D : Str → Str) (n : Nat) (hD : ∀ b, b.length = n → (D b).length = n)
    (bs : List Str) (iv : Str) (hiv : iv.length = n) (hbs : ∀ b ∈ bs, b.length = n) :
    ∀ c ∈ cbcD D iv bs, c.length = n := by
  induction bs generalizing iv with
  | nil => simp [cbcD]
  | cons b bs ih =>
    have hb := hbs b (by simp)
    intro c hc
    simp only [cbcD] at hc
    rcases List.mem_cons.1 hc with rfl | hc
    · rw [xor_length (by rw [hD b hb, hiv]), hD b hb]
    · exact ih b hb (fun b' hb' => hbs b' (by simp [hb'])) c hc

theorem flatten_length (n : Nat) (bs : List Str) (h : ∀ b ∈ bs, b.length = n) :
    bs.flatten.length = n * bs.length := by
  induction bs with
  | nil => simp
  | cons b bs ih =>
    simp only [List.flatten_cons, List.length_append, List.length_cons,
      ih (fun b hb => h b (by simp [hb])), h b (by simp), Nat.mul_add]
    omega

theorem chunk_length (n k : Nat) (s : Str) : (chunk n k s).length = k := by
  induction k generalizing s with
  | zero => rfl
  | succ k ih => simp [chunk, ih]

theorem chunk_lengths (n k : Nat) (s : Str) (h : s.length = n * k) :
    ∀ b ∈ chunk n k s, b.length = n := by
  induction k generalizing s with
  | zero => simp [chunk]
  | succ k ih =>
    intro b hb
    rw [Nat.mul_add] at h
    simp only [chunk] at hb
    rcases List.mem_cons.1 hb with rfl | hb
    · simp; omega
    · exact ih _ (by simp; omega) b hb

theorem flatten_chunk (n k : Nat) (s : Str) (h : s.length = n * k) : (chunk n k s).flatten = s := by
  induction k generalizing s with
  | zero =>
    have : s = [] := List.length_eq_zero_iff.1 (by omega)
    simp [chunk, this]
  | succ k ih =>
    rw [Nat.mul_add] at h
    simp only [chunk, List.flatten_cons]
    rw [ih _ (by simp; omega), List.take_append_drop]

theorem chunk_flatten (n : Nat) (bs : List Str) (h : ∀ b ∈ bs, b.length = n) :
    chunk n bs.length bs.flatten = bs := by
  induction bs with
  | nil => rfl
  | cons b bs ih =>
    have hb := h b (by simp)
    simp only [List.length_cons, chunk, List.flatten_cons]
    rw [List.take_append_of_le_length (by omega), List.drop_append_of_le_length (by omega)]
    subst hb
    simp [ih (fun c hc => h c (by simp [hc]))]

theorem cbcDec_cbcEnc (E D : Str → Str) (n : Nat)
    (hE : ∀ b, b.length = n → (E b).length = n) (hDE : ∀ b, b.length = n → D (E b) = b)
    (iv s : Str) (hiv : iv.length = n) (hs : s.length % n = 0) :
    ∃ c, cbcEnc E n iv s = some c ∧ c.length = s.length ∧ cbcDec D n iv c = some s := by
  have hlen : s.length = n * (s.length / n) := by
    have := Nat.div_add_mod s.length n; omega
  have hch := chunk_lengths n (s.length / n) s hlen
  obtain ⟨h1, h2⟩ := cbc_roundtrip E D n hE hDE (chunk n (s.length / n) s) iv hiv hch
  refine ⟨(cbcE E iv (chunk n (s.length / n) s)).flatten, by simp only [cbcEnc, hs, if_true], ?_, ?_⟩
  · rw [flatten_length n _ h2, cbcE_length, chunk_length]; omega
  · have hl : (cbcE E iv (chunk n (s.length / n) s)).flatten.length = s.length := by
      rw [flatten_length n _ h2, cbcE_length, chunk_length]; omega
    unfold cbcDec
    rw [hl, if_pos hs]
    have hcl : (cbcE E iv (chunk n (s.length / n) s)).length = s.length / n := by
      rw [cbcE_length, chunk_length]
    have := chunk_flatten n _ h2
    rw [hcl] at this
    rw [this, h1, flatten_chunk _ _ _ hlen]

theorem cbcDec_some (D : Str → Str) (n : Nat) (hD : ∀ b, b.length = n → (D b).length = n)
    (iv s c : Str) (hiv : iv.length = n) (h : cbcDec D n iv s = some c) :
    c.length = s.length := by
  unfold cbcDec at h
  split at h
  · rename_i hs
    cases h
    have hlen : s.length = n * (s.length / n) := by
      have := Nat.div_add_mod s.length n; omega
    rw [flatten_length n _ (cbcD_lengths D n hD _ iv hiv (chunk_lengths n _ s hlen)), cbcD_length,
      chunk_length]
    omega
  · cases h

/-! ## Layers -/

/-- a layer with key and iv of the right sizes -/
def WfLayer (l : Alg × Str × Str) : Prop := l.2.1.length = l.1.keySize ∧ l.2.2.length = l.1.blockSize

theorem layers_some (as : List Alg) (key iv : Str) (hk : (as.map Alg.keySize).sum ≤ key.length)
    (hi : (as.map Alg.blockSize).sum ≤ iv.length) :
    ∃ ls, layers as key iv = some ls := by
  induction as generalizing key iv with
  | nil => exact ⟨[], rfl⟩
  | cons a as ih =>
    simp only [List.map_cons, List.sum_cons] at hk hi
    obtain ⟨ls, h1⟩ := ih (key.drop a.keySize) (iv.drop a.blockSize) (by simp; omega) (by simp; omega)
    exact ⟨_, by simp only [layers, h1]; rw [if_neg (by omega)]⟩

theorem layers_wf (as : List Alg) (key iv : Str) (ls : List (Alg × Str × Str))
    (h : layers as key iv = some ls) : (∀ l ∈ ls, WfLayer l) ∧ ls.map Prod.fst = as := by
  induction as generalizing key iv ls with
  | nil => simp [layers] at h; subst h; simp
  | cons a as ih =>
    simp only [layers] at h
    split at h
    · cases h
    · rename_i hlen
      split at h
      · cases h
      · rename_i ls' h'
        cases h
        obtain ⟨h1, h2⟩ := ih _ _ _ h'
        refine ⟨?_, by simp [h2]⟩
        intro l hl
        rcases List.mem_cons.1 hl with rfl | hl
        · constructor <;> simp <;> omega
        · exact h1 l hl

theorem layers_iff (as : List Alg) (key iv : Str) :
    (layers as key iv).isSome ↔ (as.map Alg.keySize).sum ≤ key.length ∧
      (as.map Alg.blockSize).sum ≤ iv.length := by
  constructor
  · intro h
    induction as generalizing key iv with
    | nil => simp
    | cons a as ih =>
      simp only [layers] at h
      split at h
      · cases h
      · split at h
        · cases h
        · rename_i h'
          have := ih (key.drop a.keySize) (iv.drop a.blockSize) (by rw [h']; rfl)
          simp at this ⊢
          omega
  · rintro ⟨h1, h2⟩
    obtain ⟨ls, h⟩ := layers_some as key iv h1 h2
    rw [h]; rfl

theorem blockSize_pos (a : Alg) : 0 < a.blockSize ∧ a.blockSize ≤ 255 ∧ 80 % a.blockSize = 0 := by
  cases a <;> decide

/-- the cascade can be undone -/
theorem decUnpad_encPad (P : Prims) (hP : Spec.Lawful P) (ls : List (Alg × Str × Str))
    (h : ∀ l ∈ ls, WfLayer l) (work : Str) :
    ∃ ct, encPad P ls work = some ct ∧ decUnpad P ls ct = .ok work ∧ work.length ≤ ct.length ∧
      ct.length ≤ work.length + (ls.map (fun l => l.1.blockSize)).sum := by
  induction ls generalizing work with
  | nil => exact ⟨work, rfl, rfl, Nat.le_refl _, by simp⟩
  | cons l ls ih =>
    obtain ⟨a, k, iv⟩ := l
    obtain ⟨hk, hiv⟩ := h (a, k, iv) (by simp)
    simp only at hk hiv
    obtain ⟨hp, hp', -⟩ := blockSize_pos a
    obtain ⟨x, h1, h2, h3, h3', h4⟩ := Pkcs7.C40_pad_unpad work a.blockSize hp hp'
    obtain ⟨c, h5, h5', h6⟩ := cbcDec_cbcEnc (P.enc a k) (P.dec a k) a.blockSize
      (fun b hb => hP.enc_length a k b hk hb) (fun b hb => hP.dec_enc a k b hk hb) iv x hiv h2
    obtain ⟨ct, h7, h8, h9, h10⟩ := ih (fun l hl => h l (by simp [hl])) c
    refine ⟨ct, ?_, ?_, by omega, by simp only [List.map_cons, List.sum_cons]; omega⟩
    · simp only [encPad, h1, h5, h7]
    · simp only [decUnpad, h8, h6, h4]

theorem decRaw_encRaw (P : Prims) (hP : Spec.Lawful P) (ls : List (Alg × Str × Str))
    (h : ∀ l ∈ ls, WfLayer l) (work : Str) (hw : ∀ l ∈ ls, work.length % l.1.blockSize = 0) :
    ∃ ct, encRaw P ls work = some ct ∧ decRaw P ls ct = some work ∧ ct.length = work.length := by
  induction ls generalizing work with
  | nil => exact ⟨work, rfl, rfl, rfl⟩
  | cons l ls ih =>
    obtain ⟨a, k, iv⟩ := l
    obtain ⟨hk, hiv⟩ := h (a, k, iv) (by simp)
    simp only at hk hiv
    obtain ⟨hp, hp', -⟩ := blockSize_pos a
    obtain ⟨c, h5, h5', h6⟩ := cbcDec_cbcEnc (P.enc a k) (P.dec a k) a.blockSize
      (fun b hb => hP.enc_length a k b hk hb) (fun b hb => hP.dec_enc a k b hk hb) iv work hiv
      (hw (a, k, iv) (by simp))
    obtain ⟨ct, h7, h8, h9⟩ := ih (fun l hl => h l (by simp [hl])) c
      (fun l hl => by rw [h5']; exact hw l (by simp [hl]))
    refine ⟨ct, ?_, ?_, by omega⟩
    · simp only [encRaw, h5, h7]
    · simp only [decRaw, h8, h6]

theorem decRaw_length (P : Prims) (hP : Spec.Lawful P) (ls : List (Alg × Str × Str))
    (h : ∀ l ∈ ls, WfLayer l) (work out : Str) (ho : decRaw P ls work = some out) :
    out.length = work.length := by
  induction ls generalizing out with
  | nil => simp [decRaw] at ho; rw [ho]
  | cons l ls ih =>
    obtain ⟨a, k, iv⟩ := l
    obtain ⟨hk, hiv⟩ := h (a, k, iv) (by simp)
    simp only at hk hiv
    simp only [decRaw] at ho
    split at ho
    · cases ho
    · rename_i w hw
      rw [cbcDec_some (P.dec a k) a.blockSize (fun b hb => hP.dec_length a k b hk hb) iv w out hiv ho,
        ih (fun l hl => h l (by simp [hl])) w hw]

theorem decRaw_some (P : Prims) (hP : Spec.Lawful P) (ls : List (Alg × Str × Str))
    (h : ∀ l ∈ ls, WfLayer l) (work : Str) (hw : ∀ l ∈ ls, work.length % l.1.blockSize = 0) :
    ∃ out, decRaw P ls work = some out := by
  induction ls with
  | nil => exact ⟨work, rfl⟩
  | cons l ls ih =>
    obtain ⟨w, hw'⟩ := ih (fun l hl => h l (by simp [hl])) (fun l hl => hw l (by simp [hl]))
    have hl := decRaw_length P hP ls (fun l hl => h l (by simp [hl])) work w hw'
    obtain ⟨a, k, iv⟩ := l
    have hm := hw (a, k, iv) (by simp)
    simp only at hm
    exact ⟨(cbcD (P.dec a k) iv (chunk a.blockSize (work.length / a.blockSize) w)).flatten,
      by simp only [decRaw, hw', cbcDec, hl, hm, if_true]⟩

/-! ## The header -/

theorem sizes : keySize = 80 ∧ blockSize = 40 ∧ userSize = 184 ∧ saltSize = 32 ∧ magicLen = 16 ∧
    sha256Size = 32 ∧ sha512Size = 64 := by decide

theorem isDigit_iff (b : UInt8) : isDigit b = true ↔ 48 ≤ b.toNat ∧ b.toNat ≤ 57 := by
  simp [isDigit]

theorem parseSigned_digits (s : Str) (h : s ≠ []) (hd : s.all isDigit = true) :
    parseSigned s = some (((s.foldl (fun n b => n * 10 + (b.toNat - 48)) 0 : Nat)) : Int) := by
  cases s with
  | nil => exact absurd rfl h
  | cons c d =>
    have hc : isDigit c = true := by simp at hd; exact hd.1
    rw [isDigit_iff] at hc
    have h1 : c ≠ 45 := by rintro rfl; revert hc; decide
    have h2 : c ≠ 43 := by rintro rfl; revert hc; decide
    simp only [parseSigned, h1, h2, if_false, parseDigits, hd, if_true, h]

theorem foldl_zeros (k : Nat) (s : Str) :
    (List.replicate k (48 : UInt8) ++ s).foldl (fun n b => n * 10 + (b.toNat - 48)) 0 =
      s.foldl (fun n b => n * 10 + (b.toNat - 48)) 0 := by
  induction k with
  | zero => rfl
  | succ k ih => simpa [List.replicate_succ] using ih

theorem fmt4_facts (n : Nat) : fmt4 n ≠ [] ∧ (fmt4 n).all isDigit = true ∧
    parseSigned (fmt4 n) = some (n : Int) := by
  obtain ⟨h1, h2, h3⟩ := fmtNat_facts n
  have h4 : fmt4 n ≠ [] := by simp [fmt4, h1]
  have h5 : (fmt4 n).all isDigit = true := by
    unfold fmt4
    rw [List.all_append, h2, Bool.and_true]
    simp [List.all_replicate, isDigit]
  refine ⟨h4, h5, ?_⟩
  rw [parseSigned_digits _ h4 h5]
  unfold fmt4
  rw [foldl_zeros, h3]

theorem fmtNat_length (k n : Nat) (h : n < 10 ^ (k + 1)) : (fmtNat n).length ≤ k + 1 := by
  induction k generalizing n with
  | zero => rw [fmtNat_lt n (by simpa using h)]; simp
  | succ k ih =>
    by_cases hn : n < 10
    · rw [fmtNat_lt n hn]; simp
    · rw [fmtNat_ge n (by omega)]
      have := ih (n / 10) (by rw [Nat.div_lt_iff_lt_mul (by omega)]; rw [Nat.pow_succ] at h; omega)
      simp; omega

theorem fmt4_length (n : Nat) (h : n < 10000) : (fmt4 n).length = 4 := by
  have := fmtNat_length 3 n (by omega)
  simp [fmt4]; omega

theorem fmt4_length_ge (n : Nat) : 4 ≤ (fmt4 n).length := by
  simp [fmt4]; omega

theorem fmtNat_head_ne (n : Nat) (h : 0 < n) : ∃ b s, fmtNat n = b :: s ∧ 49 ≤ b.toNat := by
  induction n using Nat.strongRecOn with
  | _ n ih =>
    by_cases hn : n < 10
    · refine ⟨_, [], fmtNat_lt n hn, ?_⟩
      simp; omega
    · obtain ⟨b, s, h1, h2⟩ := ih (n / 10) (by omega) (by omega)
      exact ⟨b, s ++ _, by rw [fmtNat_ge n (by omega), h1]; rfl, h2⟩

theorem foldl_pos (s : Str) (a : Nat) (h : 0 < a) :
    0 < s.foldl (fun n b => n * 10 + (b.toNat - 48)) a := by
  induction s generalizing a with
  | nil => exact h
  | cons b s ih => rw [List.foldl_cons]; exact ih _ (by omega)

/-- the four characters the header keeps of the number of users -/
theorem fmt4_take (n : Nat) : ∃ m : Int, parseSigned ((fmt4 n).take 4) = some m ∧ (m ≠ 0 ↔ n ≠ 0) ∧
    (n < 10000 → m = n) := by
  obtain ⟨h1, h2, h3⟩ := fmt4_facts n
  by_cases hn : n < 10000
  · have : (fmt4 n).take 4 = fmt4 n := List.take_of_length_le (by rw [fmt4_length n hn]; omega)
    rw [this, h3]
    exact ⟨n, rfl, by omega, fun _ => rfl⟩
  · have hne : (fmt4 n).take 4 ≠ [] := by
      intro h0
      have := congrArg List.length h0
      have hl := fmt4_length_ge n
      simp at this
      rw [this] at hl; simp at hl
    have hall : ((fmt4 n).take 4).all isDigit = true := by
      rw [List.all_eq_true] at h2 ⊢
      exact fun b hb => h2 b (List.mem_of_mem_take hb)
    rw [parseSigned_digits _ hne hall]
    refine ⟨_, rfl, ?_, by omega⟩
    have hpos : 0 < ((fmt4 n).take 4).foldl (fun n b => n * 10 + (b.toNat - 48)) 0 := by
      obtain ⟨b, s, h4, h5⟩ := fmtNat_head_ne n (by omega)
      have hlen : ¬ (fmtNat n).length ≤ 3 := by
        intro hle
        obtain ⟨-, -, hv⟩ := fmtNat_facts n
        have hb : ∀ (s : Str) (a : Nat), (∀ b ∈ s, b.toNat ≤ 57) →
            s.foldl (fun n b => n * 10 + (b.toNat - 48)) a ≤ (a + 1) * 10 ^ s.length - 1 := by
          intro s
          induction s with
          | nil => intro a _; simp
          | cons c s ih =>
            intro a hs
            have hc := hs c (by simp)
            have := ih (a * 10 + (c.toNat - 48)) (fun b hb => hs b (by simp [hb]))
            simp only [List.foldl_cons, List.length_cons]
            refine Nat.le_trans this ?_
            have hmul : (a * 10 + (c.toNat - 48) + 1) * 10 ^ s.length ≤ (a + 1) * 10 ^ (s.length + 1) := by
              rw [Nat.pow_succ, Nat.mul_comm (10 ^ s.length) 10, ← Nat.mul_assoc]
              exact Nat.mul_le_mul_right _ (by omega)
            omega
        have := hb (fmtNat n) 0 (by
          intro b hb
          obtain ⟨-, h2, -⟩ := fmtNat_facts n
          exact ((isDigit_iff b).1 (List.all_eq_true.1 h2 b hb)).2)
        rw [hv] at this
        have hpow : 10 ^ (fmtNat n).length ≤ 10 ^ 3 := Nat.pow_le_pow_right (by omega) hle
        omega
      have hf : fmt4 n = fmtNat n := by
        unfold fmt4
        have : 4 - (fmtNat n).length = 0 := by omega
        rw [this]; rfl
      rw [hf, h4]
      simp only [List.take_succ_cons, List.foldl_cons]
      exact foldl_pos _ _ (by omega)
    omega

theorem fmt4_one : fmt4 1 = b! "0001" := by decide

theorem magic_length (n : Nat) : 16 ≤ (magic n).length := by
  have := fmt4_length_ge n
  simp [magic, magicStr, fmt4_one]; omega

/-- reading back the first 16 bytes -/
theorem magic_parts (n : Nat) (rest : Str) :
    let f := (magic n).take 16 ++ rest
    f.take 8 = magicStr ∧ (f.drop 8).take 4 = b! "0001" ∧ (f.drop 12).take 4 = (fmt4 n).take 4 ∧
      f.take 16 = (magic n).take 16 ∧ f.drop 16 = rest ∧ f.length = 16 + rest.length := by
  have hl := magic_length n
  have h16 : ((magic n).take 16).length = 16 := by simp; omega
  have hm : (magic n).take 16 = magicStr ++ b! "0001" ++ (fmt4 n).take 4 := by
    unfold magic
    rw [fmt4_one]
    have : (magicStr ++ b! "0001").length = 12 := by decide
    rw [List.take_append, this, List.take_of_length_le (by rw [this]; omega)]
  have h4 : ((fmt4 n).take 4).length = 4 := by have := fmt4_length_ge n; simp; omega
  generalize hx : (fmt4 n).take 4 = x at *
  intro f
  have hf : f = magicStr ++ b! "0001" ++ x ++ rest := by show (magic n).take 16 ++ rest = _; rw [hm]
  refine ⟨?_, ?_, ?_, ?_, ?_, ?_⟩
  · rw [hf]; rfl
  · rw [hf]; rfl
  · rw [hf]
    show (x ++ rest).take 4 = x
    rw [List.take_append_of_le_length (by omega)]
    exact List.take_of_length_le (by omega)
  · exact (List.take_append_of_le_length (by omega)).trans (List.take_of_length_le (by omega))
  · show ((magic n).take 16 ++ rest).drop 16 = rest
    rw [List.drop_append, h16, List.drop_of_length_le (by omega)]; simp
  · show ((magic n).take 16 ++ rest).length = _
    rw [List.length_append, h16]

theorem magic_ne_v0 (n : Nat) : (magic n).take 16 ≠ v0Header := by
  intro h
  have := congrArg (fun l : Str => l.take 8) h
  simp only [List.take_take] at this
  unfold magic at this
  have h2 : (magicStr ++ fmt4 1 ++ fmt4 n).take (min 8 16) = magicStr := by
    rw [List.append_assoc]; rfl
  rw [h2] at this
  revert this; decide

/-- `Decrypt` on a file with a header made by `Encrypt` -/
theorem decrypt_header (P : Prims) (user pass : Str) (key : Option Str) (salt : Str) (n : Nat) (rest : Str) :
    ∃ m : Int, (m ≠ 0 ↔ n ≠ 0) ∧ (n < 10000 → m = n) ∧
      isMultiUser ((magic n).take 16 ++ rest) = .ok (m != 0) ∧
      decrypt P user pass key salt ((magic n).take 16 ++ rest) =
        if m ≠ 0 ∧ user.length = 0 then .err .needUser
        else
          match (if m = 0 then decryptSingle P pass key salt ((magic n).take 16 ++ rest)
            else decryptMulti P m user pass key salt ((magic n).take 16 ++ rest)) with
          | .panic => .panic
          | .err e => .err e
          | .ok (p, pt) => .ok (1, { p with version := 1 }, pt) := by
  obtain ⟨m, h1, h2, h3⟩ := fmt4_take n
  obtain ⟨g1, g2, g3, g4, -, g6⟩ := magic_parts n rest
  generalize hf : (magic n).take 16 ++ rest = f at *
  have hv : parseSigned (b! "0001") = some 1 := by decide
  have hvm : verifyMagic f = .ok 1 := by
    unfold verifyMagic
    rw [if_neg (by omega), if_neg (by simp [g1]), g2, hv]
  refine ⟨m, h2, h3, ?_, ?_⟩
  · unfold isMultiUser
    rw [hvm]
    simp only
    rw [if_neg (by rw [sizes.2.2.2.2.1]; omega), g3, h1]
  · unfold decrypt
    rw [if_neg (by rw [sizes.2.2.2.2.1]; omega), sizes.2.2.2.2.1, g4, if_neg (magic_ne_v0 n), hvm]
    simp only
    rw [if_neg (by simp), g3, h1]
    rfl

/-! ## User records -/

/-- the records of a header -/
def recs : List Str → List Str → List Str → List Str → List UserRec
  | u :: us, s :: ss, iv :: ivs, k :: ks => ⟨u, s, iv, k⟩ :: recs us ss ivs ks
  | _, _, _, _ => []

/-- the four lists of user data have `n` entries of the right sizes -/
structure WfUsers (n : Nat) (us ss ivs ks : List Str) : Prop where
  us_length : us.length = n
  ss_length : ss.length = n
  ivs_length : ivs.length = n
  ks_length : ks.length = n
  us_size : ∀ x ∈ us, x.length = 32
  ss_size : ∀ x ∈ ss, x.length = 32
  ivs_size : ∀ x ∈ ivs, x.length = 40
  ks_size : ∀ x ∈ ks, x.length = 80

theorem recs_maps {n : Nat} {us ss ivs ks : List Str} (h : WfUsers n us ss ivs ks) :
    (recs us ss ivs ks).map UserRec.hash = us ∧ (recs us ss ivs ks).map UserRec.salt = ss ∧
    (recs us ss ivs ks).map UserRec.iv = ivs ∧ (recs us ss ivs ks).map UserRec.mkey = ks ∧
    (recs us ss ivs ks).length = n := by
  induction n generalizing us ss ivs ks with
  | zero =>
    have h1 := h.us_length; have h2 := h.ss_length; have h3 := h.ivs_length; have h4 := h.ks_length
    simp only [List.length_eq_zero_iff] at h1 h2 h3 h4
    subst h1 h2 h3 h4
    simp [recs]
  | succ n ih =>
    match us, ss, ivs, ks, h with
    | u :: us, s :: ss, iv :: ivs, k :: ks, h =>
      have h' : WfUsers n us ss ivs ks :=
        ⟨by simpa using h.us_length, by simpa using h.ss_length, by simpa using h.ivs_length,
          by simpa using h.ks_length, fun x hx => h.us_size x (by simp [hx]),
          fun x hx => h.ss_size x (by simp [hx]), fun x hx => h.ivs_size x (by simp [hx]),
          fun x hx => h.ks_size x (by simp [hx])⟩
      obtain ⟨g1, g2, g3, g4, g5⟩ := ih h'
      simp [recs, g1, g2, g3, g4, g5]
    | [], _, _, _, h => exact absurd h.us_length (by simp)
    | _ :: _, [], _, _, h => exact absurd h.ss_length (by simp)
    | _ :: _, _ :: _, [], _, h => exact absurd h.ivs_length (by simp)
    | _ :: _, _ :: _, _ :: _, [], h => exact absurd h.ks_length (by simp)

/-- the header records read back -/
theorem parseUsers_records {n : Nat} {us ss ivs ks : List Str} (h : WfUsers n us ss ivs ks) (rest : Str) :
    parseUsers n (records us ss ivs ks ++ rest) = some (recs us ss ivs ks, rest) ∧
    (records us ss ivs ks).length = 184 * n := by
  induction n generalizing us ss ivs ks with
  | zero =>
    have h1 := h.us_length
    simp only [List.length_eq_zero_iff] at h1
    subst h1
    simp [records, recs, parseUsers]
  | succ n ih =>
    match us, ss, ivs, ks, h with
    | u :: us, s :: ss, iv :: ivs, k :: ks, h =>
      have h' : WfUsers n us ss ivs ks :=
        ⟨by simpa using h.us_length, by simpa using h.ss_length, by simpa using h.ivs_length,
          by simpa using h.ks_length, fun x hx => h.us_size x (by simp [hx]),
          fun x hx => h.ss_size x (by simp [hx]), fun x hx => h.ivs_size x (by simp [hx]),
          fun x hx => h.ks_size x (by simp [hx])⟩
      obtain ⟨g1, g2⟩ := ih h'
      have lu := h.us_size u (by simp)
      have ls := h.ss_size s (by simp)
      have li := h.ivs_size iv (by simp)
      have lk := h.ks_size k (by simp)
      have e0 : records (u :: us) (s :: ss) (iv :: ivs) (k :: ks) ++ rest =
          u ++ (s ++ (iv ++ (k ++ (records us ss ivs ks ++ rest)))) := by
        simp only [records, List.append_assoc]
      have hd : ∀ (a b : Str) (m : Nat), a.length = m → (a ++ b).take m = a ∧ (a ++ b).drop m = b := by
        rintro a b m rfl; simp
      have hdd : ∀ (a b : Str) (m j : Nat), a.length = m → (a ++ b).drop (m + j) = b.drop j := by
        rintro a b m j rfl; rw [← List.drop_drop]; simp
      have d1 : ∀ x : Str, (u ++ x).drop 32 = x := fun x => (hd u x 32 lu).2
      have d2 : (u ++ (s ++ (iv ++ (k ++ (records us ss ivs ks ++ rest))))).drop 64 =
          iv ++ (k ++ (records us ss ivs ks ++ rest)) := by
        rw [show (64 : Nat) = 32 + 32 from rfl, hdd u _ 32 32 lu, (hd s _ 32 ls).2]
      have d3 : (u ++ (s ++ (iv ++ (k ++ (records us ss ivs ks ++ rest))))).drop 104 =
          k ++ (records us ss ivs ks ++ rest) := by
        rw [show (104 : Nat) = 32 + (32 + 40) from rfl, hdd u _ 32 _ lu, hdd s _ 32 40 ls, (hd iv _ 40 li).2]
      have d4 : (u ++ (s ++ (iv ++ (k ++ (records us ss ivs ks ++ rest))))).drop 184 =
          records us ss ivs ks ++ rest := by
        rw [show (184 : Nat) = 32 + (32 + (40 + 80)) from rfl, hdd u _ 32 _ lu, hdd s _ 32 _ ls,
          hdd iv _ 40 _ li, (hd k _ 80 lk).2]
      constructor
      · rw [e0]
        simp only [parseUsers, recs]
        have s1 : userSize = 184 := by decide
        have s2 : sha256Size = 32 := rfl
        have s3 : saltSize = 32 := rfl
        have s4 : blockSize = 40 := by decide
        have s5 : keySize = 80 := by decide
        rw [s1, s2, s3, s4, s5, d4, g1]
        rw [if_neg (by simp; omega)]
        simp only [Nat.reduceAdd]
        rw [d1, d2, d3, (hd u _ 32 lu).1, (hd s _ 32 ls).1, (hd iv _ 40 li).1, (hd k _ 80 lk).1]
      · simp only [records, List.length_append, g2]
        omega
    | [], _, _, _, h => exact absurd h.us_length (by simp)
    | _ :: _, [], _, _, h => exact absurd h.ss_length (by simp)
    | _ :: _, _ :: _, [], _, h => exact absurd h.ivs_length (by simp)
    | _ :: _, _ :: _, _ :: _, [], h => exact absurd h.ks_length (by simp)

theorem findUserRec_some (h : Str) (rs : List UserRec) (i : Nat) :
    findUserRec h rs = some i ↔ (∃ r, rs[i]? = some r ∧ r.hash = h) ∧
      ∀ j < i, ∀ r, rs[j]? = some r → r.hash ≠ h := by
  induction rs generalizing i with
  | nil => simp [findUserRec]
  | cons r rs ih =>
    simp only [findUserRec]
    by_cases hr : r.hash = h
    · simp only [hr, if_true, Option.some.injEq]
      constructor
      · rintro rfl; exact ⟨⟨r, by simp, hr⟩, by omega⟩
      · rintro ⟨-, h2⟩
        cases i with
        | zero => rfl
        | succ i => exact absurd hr (h2 0 (by omega) r (by simp))
    · simp only [hr, if_false]
      cases i with
      | zero =>
        simp [hr]
      | succ i =>
        simp only [Option.map_eq_some_iff, Nat.add_right_cancel_iff, exists_eq_right, ih,
          List.getElem?_cons_succ]
        constructor
        · rintro ⟨h1, h2⟩
          refine ⟨h1, ?_⟩
          intro j hj x hx
          cases j with
          | zero => simp at hx; subst hx; exact hr
          | succ j => exact h2 j (by omega) x (by simpa using hx)
        · rintro ⟨h1, h2⟩
          exact ⟨h1, fun j hj x hx => h2 (j + 1) (by omega) x (by simpa using hx)⟩

theorem findUserRec_none (h : Str) (rs : List UserRec) :
    findUserRec h rs = none ↔ ∀ r ∈ rs, r.hash ≠ h := by
  induction rs with
  | nil => simp [findUserRec]
  | cons r rs ih =>
    simp only [findUserRec]
    by_cases hr : r.hash = h
    · simp [hr]
    · simp [hr, ih]

/-- how the key of a decryption comes about -/
def KeyFrom (P : Prims) (pass : Str) (ck : Option Str) (cs salt key : Str) : Prop :=
  ((ck.getD [] = [] ∨ cs ≠ salt) ∧ pass ≠ [] ∧ key = P.kdf pass salt) ∨
  (ck = some key ∧ key ≠ [] ∧ cs = salt)

/-- the header of a multi-user file -/
def multiHeader (n : Nat) (us ss ivs ks : List Str) (ivm : Str) : Str :=
  (magic n).take 16 ++ (records us ss ivs ks ++ ivm)

theorem multiHeader_length {n : Nat} {us ss ivs ks : List Str} (h : WfUsers n us ss ivs ks) (ivm : Str)
    (hv : ivm.length = 40) : (multiHeader n us ss ivs ks ivm).length = 16 + 184 * n + 40 := by
  have := magic_length n
  have := (parseUsers_records h []).2
  simp only [multiHeader, List.length_append, List.length_take]
  omega

/-- What `decryptV1Multi` does once it has found a record whose key opens the payload. -/
theorem decryptMulti_eq (P : Prims) {n : Nat} {us ss ivs ks : List Str} (h : WfUsers n us ss ivs ks)
    (ivm ct : Str) (hv : ivm.length = 40) (name pass : Str) (ck : Option Str) (cs : Str)
    (found : Option Nat) (hfd : findUserRec (P.sha256 name) (recs us ss ivs ks) = found)
    (me : UserRec) (key m work : Str) (lk ls : List (Alg × Str × Str))
    (hme : (recs us ss ivs ks)[found.getD 0]? = some me)
    (hkey : KeyFrom P pass ck cs me.salt key)
    (hlk : layers suite key me.iv = some lk) (hm : decRaw P lk me.mkey = some m)
    (hls : layers suite m ivm = some ls) (hw : decUnpad P ls ct = .ok work) (hw64 : 64 ≤ work.length)
    (f : Str) (hf : f = multiHeader n us ss ivs ks ivm ++ ct) (N : Nat)
    (hN : N = if found.isSome then n else n + 1) :
    decryptMulti P n name pass ck cs f =
      if f.length < 16 + 184 * N + 40 then .panic
      else if P.sha512 (f.take (16 + 184 * N + 40) ++ work.drop 64) = work.take 64 then
        .ok ({ nUsers := N, user := (found.getD 0 : Nat)
               keys := (List.replicate N []).set (found.getD 0) key
               salts := if found.isSome then ss else ss ++ [List.replicate 32 0]
               users := us
               ivs := if found.isSome then ivs else ivs ++ [List.replicate 40 0]
               mkeys := if found.isSome then ks else ks ++ [List.replicate 80 0]
               ivm := some ivm, master := some m }, work.drop 64)
      else .err .wrongPassphrase := by
  obtain ⟨r1, r2, r3, r4, r5⟩ := recs_maps h
  have hparse := (parseUsers_records h (ivm ++ ct)).1
  have hdrop : f.drop 16 = records us ss ivs ks ++ (ivm ++ ct) := by
    obtain ⟨-, -, -, -, g5, -⟩ := magic_parts n (records us ss ivs ks ++ (ivm ++ ct))
    rw [← g5, hf]
    congr 1
    simp only [multiHeader, List.append_assoc]
  have s1 : userSize = 184 := by decide
  have s4 : blockSize = 40 := by decide
  have s6 : sha512Size = 64 := rfl
  have s7 : magicLen = 16 := rfl
  have hi : found.getD 0 < n := by
    have := (List.getElem?_eq_some_iff.1 hme).1
    omega
  have hNi : (if found.isSome = true then ((n : Nat) : Int) else (n : Int) + 1) = (N : Int) := by
    rw [hN]
    split <;> simp
  have hNge : n ≤ N := by rw [hN]; split <;> omega
  generalize hrs : (if found.isSome = true then recs us ss ivs ks else recs us ss ivs ks ++
    [⟨[], List.replicate saltSize 0, List.replicate blockSize 0, List.replicate keySize 0⟩]) = rs'
  have hme' : rs'[found.getD 0]? = some me := by
    rw [← hrs]
    split
    · exact hme
    · rw [List.getElem?_append_left (by omega)]; exact hme
  have hmaps : rs'.map UserRec.salt = (if found.isSome then ss else ss ++ [List.replicate 32 0]) ∧
      rs'.map UserRec.iv = (if found.isSome then ivs else ivs ++ [List.replicate 40 0]) ∧
      rs'.map UserRec.mkey = (if found.isSome then ks else ks ++ [List.replicate 80 0]) := by
    rw [← hrs]
    cases found with
    | some i => exact ⟨r2, r3, r4⟩
    | none =>
      simp only [Option.isSome_none, Bool.false_eq_true, if_false, List.map_append, List.map_cons, List.map_nil,
        r2, r3, r4]
      exact ⟨rfl, rfl, rfl⟩
  have t1 : (ivm ++ ct).take 40 = ivm := by rw [← hv]; simp
  have t2 : (ivm ++ ct).drop 40 = ct := by rw [← hv]; simp
  have hk1 : (((ck.getD []).length == 0 || cs != me.salt) && pass.length == 0) = false := by
    rcases hkey with ⟨-, h2, -⟩ | ⟨h1, h2, h3⟩
    · cases pass with
      | nil => exact absurd rfl h2
      | cons => simp
    · subst h3 h1
      cases key with
      | nil => exact absurd rfl h2
      | cons => simp
  have hk2 : (if ((ck.getD []).length == 0 || cs != me.salt) = true then P.kdf pass me.salt else ck.getD []) =
      key := by
    rcases hkey with ⟨h1, h2, h3⟩ | ⟨h1, h2, h3⟩
    · rw [if_pos, h3]
      rcases h1 with h1 | h1
      · simp [h1]
      · simp [h1]
    · subst h3 h1
      cases key with
      | nil => exact absurd rfl h2
      | cons => simp
  unfold decryptMulti
  simp only [Int.toNat_natCast, s7, hdrop, hparse, hfd, hNi, hrs]
  simp only [s4]
  rw [if_neg (by simp; omega)]
  simp only [hme', hk1, hk2, Bool.false_eq_true, if_false]
  rw [if_neg (by omega)]
  simp only [hlk, hm, t1, t2, hls, hw, s1, s6, checkHash, hmaps.1, hmaps.2.1, hmaps.2.2, r1]
  by_cases hlen : f.length < 16 + 184 * N + 40
  · simp [hlen]
  · rw [if_neg (by omega), if_neg (by omega), if_neg hlen]
    by_cases hh : P.sha512 (f.take (16 + 184 * N + 40) ++ work.drop 64) = work.take 64
    · simp only [hh, if_true]
    · simp only [hh, if_false]

end Verif.Crypt
