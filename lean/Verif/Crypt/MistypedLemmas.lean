import Verif.Crypt.Props
import Verif.Crypt.OutsideProps
import Verif.Crypt.MistypedSpec
/-!
# Lemmas on what a mistyped passphrase does
-/
namespace Verif.Crypt
open Verif Spec

theorem chunk_append (n j k : Nat) (a b : Str) (h : a.length = n * j) : chunk n (j + k) (a ++ b) = chunk n j a ++ chunk n k b := by
  induction j generalizing a with
  | zero =>
    have : a = [] := List.length_eq_zero_iff.1 (by omega)
    subst this
    simp [chunk]
  | succ j ih =>
    have hn : n ≤ a.length := by rw [h, Nat.mul_succ]; omega
    rw [show j + 1 + k = (j + k) + 1 by omega]
    simp only [chunk, List.cons_append]
    rw [List.take_append_of_le_length hn, List.drop_append_of_le_length hn, ih]
    rw [List.length_drop, h, Nat.mul_succ]
    omega

theorem cbcD_last (D : Str → Str) (iv : Str) (bs : List Str) (p c : Str) :
    cbcD D iv (bs ++ [p, c]) = cbcD D iv (bs ++ [p]) ++ [xor p (D c)] := by
  induction bs generalizing iv with
  | nil => rfl
  | cons b bs ih => simp only [List.cons_append, cbcD, ih]

/-- the last block, decrypted -/
theorem cbcDec_last (D : Str → Str) (iv s p c : Str) (k : Nat) (hs : s.length = 8 * k) (hp : p.length = 8) (hc : c.length = 8) :
    ∃ w, cbcDec D 8 iv (s ++ p ++ c) = some (w ++ xor p (D c)) := by
  refine ⟨(cbcD D iv (chunk 8 k s ++ [p])).flatten, ?_⟩
  have hlen : (s ++ p ++ c).length = 8 * (k + 2) := by simp; omega
  unfold cbcDec
  rw [if_pos (by omega), hlen, Nat.mul_div_cancel_left _ (by omega : 0 < 8), List.append_assoc, chunk_append 8 k 2 _ _ hs]
  have h2 : chunk 8 2 (p ++ c) = [p, c] := by
    simp only [chunk]
    rw [List.take_append_of_le_length (by omega), List.drop_append_of_le_length (by omega), List.take_of_length_le (by omega),
      List.drop_of_length_le (by omega), List.nil_append, List.take_of_length_le (by omega)]
  rw [h2, cbcD_last]
  simp

/-- what is done with the last block under any key -/
theorem decUnpad_last {P : Prims} (hP : Lawful P) {key iv body : Str} {ls : List (Alg × Str × Str)}
    (hl : layers suite key iv = some ls) (h16 : 16 ≤ body.length) (h8 : body.length % 16 = 8) :
    (∀ a, (lastBlock P key body = a ++ [0] ∨ lastBlock P key body = a ++ [1]) → decUnpad P ls body = .panic) ∧
    (∀ a x y, lastBlock P key body = a ++ [x, y] → x ≠ y → 2 ≤ y.toNat → decUnpad P ls body = .err .wrongPassphrase) := by
  obtain ⟨g2, g3⟩ := layers_wf _ _ _ _ hl
  have hk3 : ∀ k1 k2 k3 i1 i2 i3, ls = [(Alg.aes, k1, i1), (Alg.camellia, k2, i2), (Alg.cast5, k3, i3)] →
      k3 = (key.drop 64).take 16 := by
    intro k1 k2 k3 i1 i2 i3 he
    subst he
    simp only [suite, layers] at hl
    split at hl
    · cases hl
    · split at hl
      · cases hl
      · rename_i hx
        split at hx
        · cases hx
        · split at hx
          · cases hx
          · rename_i hy
            split at hy
            · cases hy
            · cases hy
              cases hx
              simp only [Option.some.injEq, List.cons.injEq, Prod.mk.injEq] at hl
              obtain ⟨-, -, ⟨-, h3, -⟩, -⟩ := hl
              rw [← h3, List.drop_drop]
              rfl
  match ls, g3, g2, hk3 with
  | [(_, k1, i1), (_, k2, i2), (_, k3, i3)], g3, g2, hk3 =>
    simp only [List.map_cons, List.map_nil, suite, List.cons.injEq, and_true] at g3
    obtain ⟨rfl, rfl, rfl⟩ := g3
    have hk := hk3 _ _ _ _ _ _ rfl
    obtain ⟨hk3l, hi3l⟩ := g2 (Alg.cast5, k3, i3) (by simp)
    have hbody : body = body.take (body.length - 16) ++ (body.drop (body.length - 16)).take 8 ++ body.drop (body.length - 8) := by
      have e1 : body.drop (body.length - 8) = (body.drop (body.length - 16)).drop 8 := by
        rw [List.drop_drop]
        congr 1
        omega
      rw [e1, List.append_assoc, List.take_append_drop, List.take_append_drop]
    obtain ⟨w, hw⟩ := cbcDec_last (P.dec .cast5 k3) i3 (body.take (body.length - 16)) ((body.drop (body.length - 16)).take 8)
      (body.drop (body.length - 8)) (body.length / 8 - 2) (by rw [List.length_take]; omega)
      (by rw [List.length_take, List.length_drop]; omega) (by rw [List.length_drop]; omega)
    rw [← hbody, hk] at hw
    have hwl : (w ++ lastBlock P key body).length = body.length :=
      cbcDec_some (P.dec .cast5 ((key.drop 64).take 16)) 8
        (fun b hb => hP.dec_length .cast5 _ b (by rw [← hk]; exact hk3l) hb) i3 body _ hi3l hw
    have hw' : cbcDec (P.dec .cast5 k3) 8 i3 body = some (w ++ lastBlock P key body) := by rw [hk]; exact hw
    have hstep : ∀ r, Pkcs7.unpad (w ++ lastBlock P key body) = .ok r → r.length % 16 ≠ 0 →
        decUnpad P [(Alg.aes, k1, i1), (Alg.camellia, k2, i2), (Alg.cast5, k3, i3)] body = .panic := by
      intro r hr hne
      simp only [decUnpad, Alg.blockSize, hw', hr]
      have : cbcDec (P.dec Alg.camellia k2) 16 i2 r = none := by unfold cbcDec; rw [if_neg hne]
      rw [this]
    constructor
    · intro a ha
      rcases ha with ha | ha
      · refine hstep (w ++ lastBlock P key body) ?_ (by rw [hwl]; omega)
        rw [ha]
        have e : ([] : Str).all (· == (0 : UInt8)) = true := rfl
        simp only [Pkcs7.unpad, ← List.append_assoc, List.getLast?_concat, show (0 : UInt8).toNat = 0 from rfl, Nat.sub_zero,
          List.drop_length, List.take_length, e, if_true]
        simp
      · refine hstep (w ++ a) ?_ ?_
        · rw [ha]
          unfold Pkcs7.unpad
          simp only [← List.append_assoc, List.getLast?_concat, List.length_append, List.length_singleton]
          rw [if_neg (by simp), show (1 : UInt8).toNat = 1 from rfl, Nat.add_sub_cancel]
          rw [show w.length + a.length = (w ++ a).length by simp, List.drop_left, List.take_left]
          simp
        · rw [ha] at hwl
          simp only [List.length_append, List.length_singleton] at hwl ⊢
          omega
    · intro a x y ha hxy hy
      have hu : ∀ r, Pkcs7.unpad (w ++ lastBlock P key body) ≠ .ok r := by
        intro r hr
        rw [ha] at hr
        unfold Pkcs7.unpad at hr
        have e : w ++ (a ++ [x, y]) = (w ++ a ++ [x]) ++ [y] := by simp
        rw [e, List.getLast?_concat] at hr
        simp only at hr
        split at hr
        · cases hr
        · rename_i hle
          split at hr
          · rename_i hall
            rw [List.all_eq_true] at hall
            have hm : x ∈ ((w ++ a ++ [x]) ++ [y]).drop (((w ++ a ++ [x]) ++ [y]).length - y.toNat) := by
              have e2 : (w ++ a ++ [x]) ++ [y] = (w ++ a) ++ [x, y] := by simp
              rw [e2, List.drop_append_of_le_length (by simp; omega)]
              simp
            exact hxy (by simpa using hall x hm)
          · cases hr
      simp only [decUnpad, Alg.blockSize, hw']

/-- only the end of the file matters for the last block -/
theorem lastBlock_drop (P : Prims) (key f : Str) (k : Nat) (h : k + 16 ≤ f.length) : lastBlock P key (f.drop k) = lastBlock P key f := by
  unfold lastBlock
  rw [List.drop_drop, List.drop_drop, List.length_drop]
  rw [show k + (f.length - k - 16) = f.length - 16 by omega, show k + (f.length - k - 8) = f.length - 8 by omega]

theorem single_mistyped {P : Prims} (hP : Lawful P) {p : Params} {iv pt f salt : Str} (hil : iv.length = 40)
    (he : encrypt P 1 p iv pt = .ok f) (h0 : p.nUsers = 0) (hs : p.salts.head? = some salt) (user : Str) {pass : Str} (hp : pass ≠ []) :
    (∀ a, (lastBlock P (P.kdf pass salt) f = a ++ [0] ∨ lastBlock P (P.kdf pass salt) f = a ++ [1]) →
      decrypt P user pass none [] f = .panic) ∧
    (∀ a x y, lastBlock P (P.kdf pass salt) f = a ++ [x, y] → x ≠ y → 2 ≤ y.toNat →
      decrypt P user pass none [] f = .err .wrongPassphrase) := by
  obtain ⟨z1, z2, z3, z4, z5, z6, z7⟩ := sizes
  obtain ⟨front, ct, rfl, h1, h2, h3, -⟩ := encrypt_parts hP hil he
  obtain ⟨s, e1, rfl⟩ := h3 h0
  rw [hs] at e1
  cases e1
  have hv := (encrypt_shape P 1 p iv pt _ he).2.1
  have hsl : salt.length = 32 := by
    obtain ⟨-, s, ss, g3, g4⟩ := validate_single hv
    rw [g3] at hs
    cases hs
    exact g4
  have hm16 : (magic 0).length = 16 := by decide
  have h16 : (magic 0).take 16 = magic 0 := List.take_of_length_le (by decide)
  obtain ⟨m, d1, -, -, d4⟩ := decrypt_header P user pass none [] 0 (salt ++ iv ++ ct)
  have hm : m = 0 := by
    by_cases h : m = 0
    · exact h
    · exact absurd rfl (d1.1 h)
  subst hm
  rw [h16] at d4
  have e : magic 0 ++ salt ++ iv ++ ct = magic 0 ++ (salt ++ iv ++ ct) := by simp
  rw [e, d4]
  simp only [ne_eq, not_true_eq_false, false_and, if_false, if_true]
  have f1 : (magic 0 ++ (salt ++ iv ++ ct)).drop 16 = salt ++ iv ++ ct := by rw [← hm16, List.drop_left]
  have f2 : ((magic 0 ++ (salt ++ iv ++ ct)).drop 16).take 32 = salt := by
    rw [f1, ← hsl, List.append_assoc, List.take_left]
  have f3 : (magic 0 ++ (salt ++ iv ++ ct)).drop 48 = iv ++ ct := by
    rw [show 48 = 16 + 32 from rfl, ← List.drop_drop, f1, ← hsl, List.append_assoc, List.drop_left]
  have f4 : (magic 0 ++ (salt ++ iv ++ ct)).drop 88 = ct := by
    rw [show 88 = 48 + 40 from rfl, ← List.drop_drop, f3, ← hil, List.drop_left]
  have f5 : ((magic 0 ++ (salt ++ iv ++ ct)).drop 48).take 40 = iv := by
    rw [f3, ← hil, List.take_left]
  have f6 : (magic 0 ++ (salt ++ iv ++ ct)).length = 88 + ct.length := by simp [hm16, hsl, hil]; omega
  generalize hF : magic 0 ++ (salt ++ iv ++ ct) = F at *
  obtain ⟨ls, g1, -, -, -⟩ := suite_layers (P.kdf pass salt) iv (hP.kdf_length _ _) hil
  obtain ⟨r1, r2⟩ := decUnpad_last hP g1 (body := ct) (by omega) (by omega)
  have hlast : lastBlock P (P.kdf pass salt) ct = lastBlock P (P.kdf pass salt) F := by
    rw [← f4]
    exact lastBlock_drop P _ F 88 (by omega)
  rw [hlast] at r1 r2
  have hp' : ¬ (true && pass.length == 0) = true := by cases pass <;> simp_all
  constructor
  · intro a ha
    unfold decryptSingle
    simp only [z2, z4, z5, f2, f4, f5, Option.isNone_none, Bool.true_or, if_true, g1, r1 a ha]
    rw [if_neg (by omega), if_neg hp', if_neg (by omega)]
  · intro a x y ha hxy hy
    unfold decryptSingle
    simp only [z2, z4, z5, f2, f4, f5, Option.isNone_none, Bool.true_or, if_true, g1, r2 a x y ha hxy hy]
    rw [if_neg (by omega), if_neg hp', if_neg (by omega)]

theorem multi_mistyped {P : Prims} (hP : Lawful P) {p : Params} {iv pt f : Str} (hil : iv.length = 40) (h0 : p.nUsers ≠ 0) (hmax : p.nUsers ≤ 9999)
    (he : encrypt P 1 p iv pt = .ok f)
    {name pass : Str} (hname : name ≠ []) (hp : pass ≠ []) {i : Nat} {salt uiv mk : Str}
    (h1 : p.users[i]? = some (P.sha256 name)) (hfirst : ∀ j < i, p.users[j]? ≠ some (P.sha256 name))
    (h2 : p.salts[i]? = some salt) (h3 : p.ivs[i]? = some uiv) (h4 : p.mkeys[i]? = some mk) :
    (∀ a, (lastBlock P (masterWith P pass salt uiv mk) f = a ++ [0] ∨ lastBlock P (masterWith P pass salt uiv mk) f = a ++ [1]) →
      decrypt P name pass none [] f = .panic) ∧
    (∀ a x y, lastBlock P (masterWith P pass salt uiv mk) f = a ++ [x, y] → x ≠ y → 2 ≤ y.toNat →
      decrypt P name pass none [] f = .err .wrongPassphrase) := by
  obtain ⟨z1, z2, z3, z4, z5, z6, z7⟩ := sizes
  have hv := (encrypt_shape P 1 p iv pt f he).2.1
  obtain ⟨n, hw⟩ := (validate_multi h0).1 hv
  have hn := hw.nUsers
  have hpos := hw.pos
  obtain ⟨front, ct, rfl, -, hct, -, h6⟩ := encrypt_parts hP hil he
  obtain ⟨ivm, hi, -, rfl⟩ := h6 h0
  rw [hn, Int.toNat_natCast]
  have hivm := hw.ivm ivm hi
  obtain ⟨r1, -, -, -, r5⟩ := recs_maps hw.users
  have hme := recs_get hw.users h1 h2 h3 h4
  have hfd : findUserRec (P.sha256 name) (recs p.users p.salts p.ivs p.mkeys) = some i := by
    rw [findUserRec_some]
    refine ⟨⟨_, hme, rfl⟩, fun j hj r hr hh => hfirst j hj ?_⟩
    have hh' := congrArg (·[j]?) r1
    simp only [List.getElem?_map, hr, Option.map_some, hh] at hh'
    exact hh'.symm
  have hin : i < n := by
    have := (List.getElem?_eq_some_iff.1 hme).1
    omega
  have hparse := (parseUsers_records hw.users (ivm ++ ct)).1
  have hfl := multiHeader_length hw.users ivm hivm
  have hf : multiHeader n p.users p.salts p.ivs p.mkeys ivm ++ ct =
      (magic n).take 16 ++ (records p.users p.salts p.ivs p.mkeys ++ ivm ++ ct) := by
    simp only [multiHeader, List.append_assoc]
  have hdrop : (multiHeader n p.users p.salts p.ivs p.mkeys ivm ++ ct).drop 16 = records p.users p.salts p.ivs p.mkeys ++ (ivm ++ ct) := by
    obtain ⟨-, -, -, -, g5, -⟩ := magic_parts n (records p.users p.salts p.ivs p.mkeys ++ (ivm ++ ct))
    rw [← g5]
    congr 1
    simp only [multiHeader, List.append_assoc]
  obtain ⟨m', d1, d2, -, d4⟩ := decrypt_header P name pass none [] n (records p.users p.salts p.ivs p.mkeys ++ ivm ++ ct)
  have hm' := d2 (by omega)
  subst hm'
  rw [← hf] at d4
  have hn0 : (n : Int) ≠ 0 := by omega
  rw [if_neg (by rintro ⟨-, h⟩; exact hname (List.length_eq_zero_iff.1 h)), if_neg hn0] at d4
  have huil := hw.users.ivs_size uiv (List.mem_of_getElem? h3)
  have hmkl := hw.users.ks_size mk (List.mem_of_getElem? h4)
  obtain ⟨lk, k1, k2, -, -⟩ := suite_layers (P.kdf pass salt) uiv (hP.kdf_length _ _) huil
  obtain ⟨m, k3⟩ := decRaw_some P hP lk k2 mk (fun l _ => by rw [hmkl]; exact (blockSize_pos l.1).2.2)
  have hml : m.length = 80 := by rw [decRaw_length P hP lk k2 mk m k3, hmkl]
  have hmw : masterWith P pass salt uiv mk = m := by
    unfold masterWith
    rw [k1]
    simp only [k3, Option.getD_some]
  rw [hmw]
  obtain ⟨ls, g1, -, -, -⟩ := suite_layers m ivm hml hivm
  obtain ⟨s1, s2⟩ := decUnpad_last hP g1 (body := ct) (by omega) (by omega)
  have hlast : lastBlock P m ct = lastBlock P m (multiHeader n p.users p.salts p.ivs p.mkeys ivm ++ ct) := by
    have e : ct = (multiHeader n p.users p.salts p.ivs p.mkeys ivm ++ ct).drop (multiHeader n p.users p.salts p.ivs p.mkeys ivm).length := by
      rw [List.drop_left]
    have := lastBlock_drop P m (multiHeader n p.users p.salts p.ivs p.mkeys ivm ++ ct) (multiHeader n p.users p.salts p.ivs p.mkeys ivm).length
      (by rw [List.length_append]; omega)
    rw [← e] at this
    exact this
  rw [hlast] at s1 s2
  have t1 : (ivm ++ ct).take 40 = ivm := by rw [← hivm]; simp
  have t2 : (ivm ++ ct).drop 40 = ct := by rw [← hivm]; simp
  have hp' : (pass.length == 0) = false := by cases pass <;> simp_all
  have hstep : ∀ r, decUnpad P ls ct = r → (∀ w, r ≠ .ok w) →
      decryptMulti P n name pass none [] (multiHeader n p.users p.salts p.ivs p.mkeys ivm ++ ct) =
        match r with | .panic => .panic | .err e => .err e | .ok _ => .panic := by
    intro r hr hne
    unfold decryptMulti
    simp only [Int.toNat_natCast, z5, hdrop, hparse, hfd, Option.isSome_some, if_true, Option.getD_some]
    simp only [z2]
    rw [if_neg (by simp; omega)]
    simp only [hme, Option.getD_none, List.length_nil, beq_self_eq_true, Bool.true_or, Bool.true_and, hp', Bool.false_eq_true, if_false, if_true]
    rw [if_neg (by omega)]
    simp only [k1, k3, t1, t2, g1, hr]
    cases r with
    | ok w => exact absurd rfl (hne w)
    | err e => rfl
    | panic => rfl
  constructor
  · intro a ha
    rw [d4, hstep _ (s1 a ha) (by intro w h; cases h)]
  · intro a x y ha hxy hy
    rw [d4, hstep _ (s2 a x y ha hxy hy) (by intro w h; cases h)]

end Verif.Crypt
