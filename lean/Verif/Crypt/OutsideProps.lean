import Verif.Crypt.Outside
import Verif.Crypt.Props
/-!
# C100: what a file gives away
-/
set_option linter.unusedSimpArgs false
namespace Verif.Crypt
open Verif Verif.Crypt.Spec

/-! ## Sizes -/

theorem pad_length {b x : Str} {k : Nat} (hk : 0 < k) (h : Pkcs7.pad b k = some x) : x.length = k * (b.length / k) + k := by
  rw [Pkcs7.pad_eq b k hk] at h
  cases h
  have := Nat.mod_lt b.length hk
  have := Nat.div_add_mod b.length k
  simp only [List.length_append, List.length_replicate]
  omega

theorem encPad_length {P : Prims} (hP : Lawful P) {ls : List (Alg × Str × Str)} (hw : ∀ l ∈ ls, WfLayer l)
    (hs : ls.map Prod.fst = suite) {work ct : Str} (h : encPad P ls work = some ct) : ct.length = 16 * (work.length / 16) + 40 := by
  match ls, hs with
  | [(a1, k1, i1), (a2, k2, i2), (a3, k3, i3)], hs =>
    simp only [List.map_cons, List.map_nil, suite, List.cons.injEq, and_true] at hs
    obtain ⟨rfl, rfl, rfl⟩ := hs
    have step : ∀ (a : Alg) (k iv x c : Str), WfLayer (a, k, iv) → x.length % a.blockSize = 0 →
        cbcEnc (P.enc a k) a.blockSize iv x = some c → c.length = x.length := by
      intro a k iv x c hl hx hc
      obtain ⟨c', h1, h2, -⟩ := cbcDec_cbcEnc (P.enc a k) (P.dec a k) a.blockSize
        (fun b hb => hP.enc_length a k b hl.1 hb) (fun b hb => hP.dec_enc a k b hl.1 hb) iv x hl.2 hx
      rw [h1] at hc
      cases hc
      exact h2
    have e1 : Alg.blockSize .aes = 16 := rfl
    have e2 : Alg.blockSize .camellia = 16 := rfl
    have e3 : Alg.blockSize .cast5 = 8 := rfl
    simp only [encPad] at h
    cases p1 : Pkcs7.pad work Alg.aes.blockSize with
    | none => rw [p1] at h; cases h
    | some x1 =>
      rw [p1] at h
      dsimp only at h
      have l1 := pad_length (by decide) p1
      rw [e1] at l1
      cases c1 : cbcEnc (P.enc .aes k1) Alg.aes.blockSize i1 x1 with
      | none => rw [c1] at h; cases h
      | some y1 =>
        rw [c1] at h
        dsimp only at h
        have m1 := step _ _ _ _ _ (hw _ (by simp)) (by rw [e1]; omega) c1
        cases p2 : Pkcs7.pad y1 Alg.camellia.blockSize with
        | none => rw [p2] at h; cases h
        | some x2 =>
          rw [p2] at h
          dsimp only at h
          have l2 := pad_length (by decide) p2
          rw [e2] at l2
          cases c2 : cbcEnc (P.enc .camellia k2) Alg.camellia.blockSize i2 x2 with
          | none => rw [c2] at h; cases h
          | some y2 =>
            rw [c2] at h
            dsimp only at h
            have m2 := step _ _ _ _ _ (hw _ (by simp)) (by rw [e2]; omega) c2
            cases p3 : Pkcs7.pad y2 Alg.cast5.blockSize with
            | none => rw [p3] at h; cases h
            | some x3 =>
              rw [p3] at h
              dsimp only at h
              have l3 := pad_length (by decide) p3
              rw [e3] at l3
              cases c3 : cbcEnc (P.enc .cast5 k3) Alg.cast5.blockSize i3 x3 with
              | none => rw [c3] at h; cases h
              | some y3 =>
                rw [c3] at h
                cases h
                have m3 := step _ _ _ _ _ (hw _ (by simp)) (by rw [e3]; omega) c3
                omega

/-- the parts of every file that `Encrypt` makes: what comes before the encrypted part does not depend on the text -/
theorem encrypt_parts {P : Prims} (hP : Lawful P) {p : Params} {iv pt f : Str} (hil : iv.length = 40) (h : encrypt P 1 p iv pt = .ok f) :
    ∃ front ct, f = front ++ ct ∧ front.length = frontSize p.nUsers.toNat ∧ ct.length = 104 + 16 * (pt.length / 16) ∧
      (p.nUsers = 0 → ∃ salt, p.salts.head? = some salt ∧ front = magic 0 ++ salt ++ iv) ∧
      (p.nUsers ≠ 0 → ∃ ivm, p.ivm = some ivm ∧ WfUsers p.nUsers.toNat p.users p.salts p.ivs p.mkeys ∧
        front = multiHeader p.nUsers.toNat p.users p.salts p.ivs p.mkeys ivm) := by
  have hv := (encrypt_shape P 1 p iv pt f h).2.1
  have hsz : ∀ x : Str, (P.sha512 x ++ pt).length / 16 = pt.length / 16 + 4 := by
    intro x; rw [List.length_append, hP.sha512_length]; omega
  by_cases h0 : p.nUsers = 0
  · unfold encrypt at h
    rw [if_neg (by simp), if_neg (by simp [hv]), if_pos h0] at h
    unfold encryptSingle at h
    obtain ⟨⟨k, ks, h1, h2⟩, s, ss, h3, h4⟩ := validate_single hv
    rw [h1, h3] at h
    simp only at h
    split at h
    · cases h
    · rename_i hk
      split at h
      · cases h
      · obtain ⟨ls, g1, g2, g3, -⟩ := suite_layers k iv (by simpa [sizes.1] using hk) hil
        rw [g1] at h
        simp only at h
        cases hc : encPad P ls (P.sha512 (magic 0 ++ s ++ iv ++ pt) ++ pt) with
        | none => rw [hc] at h; cases h
        | some ct =>
          rw [hc] at h
          cases h
          have hl := encPad_length hP g2 g3 hc
          rw [hsz] at hl
          refine ⟨magic 0 ++ s ++ iv, ct, rfl, ?_, by omega, fun _ => ⟨s, by rw [h3]; rfl, rfl⟩, fun h => absurd h0 h⟩
          have h16 : (magic 0).length = 16 := by decide
          rw [h0]
          simp only [List.length_append, h16, h4, hil, frontSize]
          rfl
  · obtain ⟨n, hw⟩ := (validate_multi h0).1 hv
    have hn : p.nUsers.toNat = n := by rw [hw.nUsers]; rfl
    unfold encrypt at h
    rw [if_neg (by simp), if_neg (by simp [hv]), if_neg h0] at h
    unfold encryptMulti at h
    simp only at h
    cases hi : p.ivm with
    | none =>
      rw [hi] at h
      have : layers suite (p.master.getD []) ((none : Option Str).getD []) = none := by
        simp [layers, suite, Alg.blockSize]
      rw [this] at h
      cases h
    | some ivm =>
      have hivm := hw.ivm ivm hi
      cases hm : p.master with
      | none =>
        rw [hi, hm] at h
        have : layers suite ((none : Option Str).getD []) ((some ivm).getD []) = none := by
          simp [layers, suite, Alg.keySize]
        rw [this] at h
        cases h
      | some m =>
        rw [hi, hm] at h
        obtain ⟨ls, g1, g2, g3, -⟩ := suite_layers m ivm (hw.master m hm) hivm
        simp only [Option.getD_some, g1] at h
        split at h
        · cases h
        · rename_i ct hc
          cases h
          have hl := encPad_length hP g2 g3 hc
          rw [hsz] at hl
          refine ⟨multiHeader n p.users p.salts p.ivs p.mkeys ivm, ct, ?_, ?_, by omega, fun h => absurd h h0,
            fun _ => ⟨ivm, rfl, hn ▸ hw.users, by rw [hn]⟩⟩
          · rw [hn, multiHeader, sizes.2.2.2.2.1]
            simp only [List.append_assoc]
          · rw [multiHeader_length hw.users ivm hivm, hn, frontSize, if_neg (by have := hw.pos; omega)]

/-- The size of a file tells the number of users and the length of the text up to 16 bytes, and nothing else. -/
theorem C100_size (P : Prims) (hP : Lawful P) (p : Params) (iv pt f : Str) (hil : iv.length = 40) (h : encrypt P 1 p iv pt = .ok f) :
    f.length = fileSize p.nUsers.toNat pt.length := by
  obtain ⟨front, ct, rfl, h1, h2, -⟩ := encrypt_parts hP hil h
  rw [List.length_append, h1, h2, fileSize]
  omega

/-- What is not encrypted does not depend on the text. -/
theorem C100_front (P : Prims) (hP : Lawful P) (p : Params) (iv pt pt' f f' : Str) (hil : iv.length = 40)
    (h : encrypt P 1 p iv pt = .ok f) (h' : encrypt P 1 p iv pt' = .ok f') :
    f.take (frontSize p.nUsers.toNat) = f'.take (frontSize p.nUsers.toNat) := by
  obtain ⟨a, c, rfl, h1, -, h3, h4⟩ := encrypt_parts hP hil h
  obtain ⟨a', c', rfl, h1', -, h3', h4'⟩ := encrypt_parts hP hil h'
  have : a = a' := by
    by_cases h0 : p.nUsers = 0
    · obtain ⟨s, e1, rfl⟩ := h3 h0
      obtain ⟨s', e1', rfl⟩ := h3' h0
      rw [e1] at e1'
      cases e1'
      rfl
    · obtain ⟨s, e1, -, rfl⟩ := h4 h0
      obtain ⟨s', e1', -, rfl⟩ := h4' h0
      rw [e1] at e1'
      cases e1'
      rfl
  subst this
  rw [List.take_append_of_le_length (by omega), List.take_append_of_le_length (by omega)]

/-- In a file without users it is magic, salt and the fresh random iv. -/
theorem C100_single (P : Prims) (hP : Lawful P) (p : Params) (iv pt f salt : Str) (hil : iv.length = 40) (h0 : p.nUsers = 0)
    (hs : p.salts.head? = some salt) (h : encrypt P 1 p iv pt = .ok f) : f.take 88 = b! "blobpass00010000" ++ salt ++ iv := by
  obtain ⟨a, c, rfl, h1, -, h3, -⟩ := encrypt_parts hP hil h
  obtain ⟨s, e1, rfl⟩ := h3 h0
  rw [hs] at e1
  cases e1
  rw [h0] at h1
  rw [List.take_append_of_le_length (by rw [h1]; exact Nat.le_refl _), List.take_of_length_le (by rw [h1]; exact Nat.le_refl _)]
  rfl

/-- So files of the same text saved with different random bytes are different. -/
theorem C100_fresh (P : Prims) (hP : Lawful P) (p : Params) (iv iv' pt pt' f : Str) (hil : iv.length = 40) (hil' : iv'.length = 40)
    (h0 : p.nUsers = 0) (h : encrypt P 1 p iv pt = .ok f) (h' : encrypt P 1 p iv' pt' = .ok f) : iv = iv' := by
  have hv := (encrypt_shape P 1 p iv pt f h).2.1
  obtain ⟨-, s, ss, h3, h4⟩ := validate_single hv
  have e1 := C100_single P hP p iv pt f s hil h0 (by rw [h3]; rfl) h
  have e2 := C100_single P hP p iv' pt' f s hil' h0 (by rw [h3]; rfl) h'
  rw [e1] at e2
  exact List.append_cancel_left e2

/-- In a file with users nothing is random: saved twice, the same text gives the same file, so that whoever sees both knows whether
something has changed. -/
theorem C100_fresh_false (P : Prims) (p : Params) (iv iv' pt : Str) (h0 : p.nUsers ≠ 0) :
    encrypt P 1 p iv pt = encrypt P 1 p iv' pt := by
  unfold encrypt
  simp only [if_neg h0]

theorem records_drop {n : Nat} {us ss ivs ks : List Str} (h : WfUsers n us ss ivs ks) {i : Nat} {x : Str} (hx : us[i]? = some x)
    (rest : Str) : i < n ∧ ((records us ss ivs ks ++ rest).drop (184 * i)).take 32 = x := by
  obtain ⟨-, -, -, h4⟩ := parseUsers_ok (parseUsers_records h rest).1
  have hm := (recs_maps h).1
  rw [← hm, List.getElem?_map, Option.map_eq_some_iff] at hx
  obtain ⟨r, hr, rfl⟩ := hx
  have hl : i < (recs us ss ivs ks).length := (List.getElem?_eq_some_iff.1 hr).1
  have : (recs us ss ivs ks).length = n := by rw [← List.length_map (f := UserRec.hash), hm, h.us_length]
  have h5 := h4 i r hr
  rw [h5]
  exact ⟨this ▸ hl, rfl⟩

/-- Names are not protected: whoever has the file and guesses the name of a user can tell. -/
theorem C100_names_false (P : Prims) (hP : Lawful P) (p : Params) (iv pt f name : Str) (hil : iv.length = 40) (h0 : p.nUsers ≠ 0)
    (hmax : p.nUsers ≤ 9999) (hn : P.sha256 name ∈ p.users) (h : encrypt P 1 p iv pt = .ok f) : Listed P f name := by
  obtain ⟨a, c, rfl, h1, -, -, h4⟩ := encrypt_parts hP hil h
  obtain ⟨ivm, e1, hw, rfl⟩ := h4 h0
  obtain ⟨i, hi⟩ := List.mem_iff_getElem?.1 hn
  generalize hN : p.nUsers.toNat = n at *
  have hlt : n < 10000 := by omega
  have hm := magic_parts n (records p.users p.salts p.ivs p.mkeys ++ (ivm ++ c))
  have hf : multiHeader n p.users p.salts p.ivs p.mkeys ivm ++ c =
      (magic n).take 16 ++ (records p.users p.salts p.ivs p.mkeys ++ (ivm ++ c)) := by
    simp only [multiHeader, List.append_assoc]
  rw [← hf] at hm
  obtain ⟨-, -, m3, -, m5, -⟩ := hm
  obtain ⟨k1, k2⟩ := records_drop hw hi (ivm ++ c)
  refine ⟨i, n, ?_, k1, ?_⟩
  · rw [m3, List.take_of_length_le (by rw [fmt4_length n hlt]; omega)]
    exact (fmt4_facts n).2.2
  · rw [← List.drop_drop, m5]
    exact k2

/-! ## Witnesses -/

namespace OutsideDemo

def single : Params := { keys := [toy.kdf [1] []], salts := [List.replicate 32 7] }

def made (x : Res CErr Str) : Str := match x with | .ok f => f | _ => []

def iv : Str := List.replicate 40 5

def f3 : Str := made (encrypt toy 1 single iv [1, 2, 3])
def f1 : Str := made (encrypt toy 1 single iv [4])
def g1 : Str := made (encrypt toy 1 single (List.replicate 40 6) [4])
theorem f3_ok : encrypt toy 1 single iv [1, 2, 3] = .ok f3 := by decide +kernel
theorem f1_ok : encrypt toy 1 single iv [4] = .ok f1 := by decide +kernel
theorem g1_ok : encrypt toy 1 single (List.replicate 40 6) [4] = .ok g1 := by decide +kernel

-- C100: a file without users with a text of three bytes has 192 bytes, so has one with fifteen, but not one with sixteen
example : f3.length = 192 := C100_size toy toy_lawful single iv [1, 2, 3] f3 (by decide) f3_ok
example : fileSize 0 3 = 192 ∧ fileSize 0 15 = 192 ∧ fileSize 0 16 = 208 ∧ fileSize 1 0 = 344 := by decide
example : f3.take 88 = f1.take 88 := C100_front toy toy_lawful single iv [1, 2, 3] [4] f3 f1 (by decide) f3_ok f1_ok
example := C100_single toy toy_lawful single iv [4] f1 (List.replicate 32 7) (by decide) (by decide) (by decide) f1_ok
-- the same text with other random bytes is another file
example : f1 ≠ g1 := by
  intro h
  have := C100_fresh toy toy_lawful single iv (List.replicate 40 6) [4] [4] g1 (by decide) (by decide) (by decide) (h ▸ f1_ok) g1_ok
  exact absurd this (by decide)

/-- one user -/
def multi : Params where
  nUsers := 1
  keys := [toy.kdf [1] []]
  salts := [List.replicate 32 7]
  users := [toy.sha256 (b! "ann")]
  ivs := [List.replicate 40 1]
  mkeys := [List.replicate 80 2]
  ivm := some (List.replicate 40 3)
  master := some (List.replicate 80 4)

def m1 : Str := made (encrypt toy 1 multi iv [4])
theorem m1_ok : encrypt toy 1 multi iv [4] = .ok m1 := by decide +kernel

example : Listed toy m1 (b! "ann") :=
  C100_names_false toy toy_lawful multi iv [4] m1 (b! "ann") (by decide) (by decide) (by decide) (by decide) m1_ok
example : encrypt toy 1 multi [] [4] = .ok m1 := (C100_fresh_false toy multi [] iv [4] (by decide)).trans m1_ok

end OutsideDemo

end Verif.Crypt
