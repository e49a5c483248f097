import Verif.Crypt.Lemmas
/-!
# More lemmas about the encryption layer: what `validate`, `Encrypt` and a successful `Decrypt` establish
-/
namespace Verif.Crypt
open Verif

theorem any_size {l : List Str} {n : Nat} (h : l.any (fun x => x.length != n) = false) :
    ∀ x ∈ l, x.length = n := by
  intro x hx
  rw [List.any_eq_false] at h
  simpa using h x hx

theorem ite_false_iff {c : Prop} [Decidable c] {x : Bool} : (if c then false else x) = true ↔ ¬ c ∧ x = true := by
  by_cases h : c <;> simp [h]

/-- what `validate` establishes, one-user part -/
theorem validate_single {p : Params} (h : p.validate = true) :
    (∃ k ks, p.keys = k :: ks ∧ (k.length = 0 ∨ k.length = 80)) ∧
    ∃ s ss, p.salts = s :: ss ∧ s.length = 32 := by
  unfold Params.validate at h
  by_cases h1 : p.keys.length = 0
  · simp [h1] at h
  · rw [if_neg h1] at h
    by_cases h2 : p.salts.length = 0
    · simp [h2] at h
    · rw [if_neg h2] at h
      by_cases h3 : p.keys.any (fun k => k.length != 0 && k.length != keySize) = true
      · simp [h3] at h
      · rw [if_neg h3] at h
        by_cases h4 : p.salts.any (fun s => s.length != saltSize) = true
        · simp [h4] at h
        · have h4' := any_size (Bool.not_eq_true _ ▸ h4)
          cases hk : p.keys with
          | nil => simp [hk] at h1
          | cons k ks =>
            cases hs : p.salts with
            | nil => simp [hs] at h2
            | cons s ss =>
              refine ⟨⟨k, ks, rfl, ?_⟩, s, ss, rfl, h4' s (by simp [hs])⟩
              rw [hk] at h3
              simp only [List.any_cons, Bool.or_eq_true, not_or, Bool.and_eq_true, bne_iff_ne, ne_eq,
                not_and, Decidable.not_not] at h3
              have := h3.1
              rw [sizes.1] at this
              by_cases h0 : k.length = 0
              · exact .inl h0
              · exact .inr (this h0)

/-- what `validate` establishes for a file with users -/
structure WfMulti (p : Params) (n : Nat) : Prop where
  nUsers : p.nUsers = n
  pos : 0 < n
  users : WfUsers n p.users p.salts p.ivs p.mkeys
  keys : p.keys.length = n
  keySizes : ∀ k ∈ p.keys, k.length = 0 ∨ k.length = 80
  user : 0 ≤ p.user ∧ p.user < n
  ivm : ∀ iv, p.ivm = some iv → iv.length = 40
  master : ∀ k, p.master = some k → k.length = 80

theorem validate_multi {p : Params} (h0 : p.nUsers ≠ 0) :
    p.validate = true ↔ ∃ n, WfMulti p n := by
  obtain ⟨z1, z2, z3, z4, z5, z6, z7⟩ := sizes
  constructor
  · intro h
    unfold Params.validate at h
    simp only [ite_false_iff, if_neg h0] at h
    · obtain ⟨a1, a2, a3, a4, a6, a7, a8, a9, a10, a11, a12, a13, a14, a15, a16, -⟩ := h
      refine ⟨p.keys.length, by omega, by omega, ⟨by omega, by omega, by omega, by omega, ?_, ?_, ?_, ?_⟩, rfl, ?_,
        by omega, ?_, ?_⟩
      · rw [← z6]; exact any_size (Bool.not_eq_true _ ▸ a10)
      · rw [← z4]; exact any_size (Bool.not_eq_true _ ▸ a4)
      · rw [← z2]; exact any_size (Bool.not_eq_true _ ▸ a12)
      · rw [← z1]; exact any_size (Bool.not_eq_true _ ▸ a14)
      · intro k hk
        have := List.any_eq_false.1 (Bool.not_eq_true _ ▸ a3) k hk
        simp [z1] at this
        by_cases hz : k = []
        · exact .inl (by simp [hz])
        · exact .inr (this hz)
      · intro iv hiv; rw [hiv] at a15; simpa [z2] using a15
      · intro iv hiv; rw [hiv] at a16; simpa [z1] using a16
  · rintro ⟨n, h⟩
    have b1 : p.keys.any (fun k => k.length != 0 && k.length != keySize) = false := by
      rw [List.any_eq_false]
      intro k hk
      rcases h.keySizes k hk with hh | hh <;> simp [hh, z1]
    have b2 : ∀ (l : List Str) (n : Nat), (∀ x ∈ l, x.length = n) → l.any (fun x => x.length != n) = false := by
      intro l n hl
      rw [List.any_eq_false]
      intro k hk
      simp [hl k hk]
    obtain ⟨u1, u2, u3, u4, u5, u6, u7, u8⟩ := h.users
    have e1 := h.nUsers
    have e2 := h.pos
    have e3 := h.keys
    have e4 := h.user
    unfold Params.validate
    rw [if_neg (by omega), if_neg (by omega), if_neg (by simp [b1]), if_neg (by rw [z4, b2 _ _ u6]; simp),
      if_neg h0, if_neg (by omega), if_neg (by omega), if_neg (by omega), if_neg (by omega),
      if_neg (by rw [z6, b2 _ _ u5]; simp), if_neg (by omega), if_neg (by rw [z2, b2 _ _ u7]; simp), if_neg (by omega),
      if_neg (by rw [z1, b2 _ _ u8]; simp), if_neg, if_neg]
    · cases hm : p.master with
      | none => simp
      | some k => simp [h.master k hm, z1]
    · cases hm : p.ivm with
      | none => simp
      | some k => simp [h.ivm k hm, z2]

theorem suite_layers (key iv : Str) (hk : key.length = 80) (hi : iv.length = 40) :
    ∃ ls, layers suite key iv = some ls ∧ (∀ l ∈ ls, WfLayer l) ∧ ls.map Prod.fst = suite ∧
      (ls.map (fun l => l.1.blockSize)).sum = 40 := by
  obtain ⟨z1, z2, -⟩ := sizes
  obtain ⟨ls, h⟩ := layers_some suite key iv (by show keySize ≤ _; omega) (by show blockSize ≤ _; omega)
  obtain ⟨h1, h2⟩ := layers_wf _ _ _ _ h
  refine ⟨ls, h, h1, h2, ?_⟩
  rw [← z2]
  show _ = (suite.map Alg.blockSize).sum
  rw [← h2, List.map_map]
  rfl

/-- `Encrypt` of a single-user file -/
theorem encrypt_single (P : Prims) (hP : Spec.Lawful P) (p : Params) (iv pt key salt : Str)
    (hv : p.validate = true) (h0 : p.nUsers = 0) (hk : p.keys.head? = some key) (hs : p.salts.head? = some salt)
    (hkl : key.length = 80) (hil : iv.length = 40) :
    ∃ ct ls, layers suite key iv = some ls ∧
      decUnpad P ls ct = .ok (P.sha512 (magic 0 ++ salt ++ iv ++ pt) ++ pt) ∧
      encrypt P 1 p iv pt = .ok (magic 0 ++ salt ++ iv ++ ct) ∧ salt.length = 32 := by
  obtain ⟨z1, z2, z3, z4, z5, z6, z7⟩ := sizes
  obtain ⟨⟨k, ks, h1, h2⟩, s, ss, h3, h4⟩ := validate_single hv
  rw [h1] at hk; rw [h3] at hs
  simp only [List.head?_cons, Option.some.injEq] at hk hs
  subst hk hs
  obtain ⟨ls, g1, g2, -⟩ := suite_layers k iv hkl hil
  obtain ⟨ct, c1, c2, -⟩ := decUnpad_encPad P hP ls g2 (P.sha512 (magic 0 ++ s ++ iv ++ pt) ++ pt)
  refine ⟨ct, ls, g1, c2, ?_, h4⟩
  unfold encrypt
  rw [if_neg (by simp), if_neg (by simp [hv]), if_pos h0]
  unfold encryptSingle
  rw [h1, h3]
  simp only
  rw [if_neg (by omega), if_neg (by omega), g1]
  simp only
  rw [c1]

/-- `Encrypt` of a file with users -/
theorem encrypt_multi (P : Prims) (hP : Spec.Lawful P) (p : Params) (n : Nat) (hw : WfMulti p n) (iv pt ivm m : Str)
    (hi : p.ivm = some ivm) (hm : p.master = some m) :
    ∃ ct ls, layers suite m ivm = some ls ∧
      decUnpad P ls ct = .ok (P.sha512 (multiHeader n p.users p.salts p.ivs p.mkeys ivm ++ pt) ++ pt) ∧
      encrypt P 1 p iv pt = .ok (multiHeader n p.users p.salts p.ivs p.mkeys ivm ++ ct) ∧
      ct.length ≤ 64 + pt.length + 40 := by
  have h0 : p.nUsers ≠ 0 := by have := hw.nUsers; have := hw.pos; omega
  obtain ⟨ls, g1, g2, -, g3⟩ := suite_layers m ivm (hw.master m hm) (hw.ivm ivm hi)
  obtain ⟨ct, c1, c2, c3, c4⟩ := decUnpad_encPad P hP ls g2
    (P.sha512 (multiHeader n p.users p.salts p.ivs p.mkeys ivm ++ pt) ++ pt)
  refine ⟨ct, ls, g1, c2, ?_, ?_⟩
  · unfold encrypt
    rw [if_neg (by simp), if_neg (by simp [(validate_multi h0).2 ⟨n, hw⟩]), if_neg h0]
    unfold encryptMulti
    rw [hi, hm]
    simp only [Option.getD_some, g1, hw.nUsers, Int.toNat_natCast]
    unfold multiHeader at *
    rw [sizes.2.2.2.2.1, List.append_assoc (List.take 16 (magic n)) _ ivm, c1]
  · simp only [List.length_append, hP.sha512_length, g3] at c4
    omega

/-- the shape of every file `Encrypt` makes -/
theorem encrypt_shape (P : Prims) (v : Int) (p : Params) (iv pt f : Str) (h : encrypt P v p iv pt = .ok f) :
    v = 1 ∧ p.validate = true ∧ ∃ rest, f = (magic p.nUsers.toNat).take 16 ++ rest := by
  unfold encrypt at h
  split at h
  · cases h
  · rename_i hv
    split at h
    · cases h
    · rename_i hval
      refine ⟨by simpa using hv, by simpa using hval, ?_⟩
      split at h
      · rename_i h0
        unfold encryptSingle at h
        split at h
        · split at h
          · cases h
          · split at h
            · cases h
            · split at h
              · cases h
              · simp only at h
                split at h
                · cases h
                · cases h
                  have h16 : (magic p.nUsers.toNat).take 16 = magic 0 := by
                    rw [h0]; exact List.take_of_length_le (by decide)
                  rw [h16]
                  exact ⟨_, by rw [List.append_assoc, List.append_assoc]⟩
        · cases h
      · unfold encryptMulti at h
        simp only at h
        split at h
        · cases h
        · split at h
          · cases h
          · cases h
            rw [sizes.2.2.2.2.1]
            exact ⟨_, by rw [List.append_assoc, List.append_assoc]⟩

/-! ## What success of `Decrypt` means -/

theorem checkHash_ok {P : Prims} {h work pt : Str} (e : checkHash P h work = .ok pt) :
    work = P.sha512 (h ++ pt) ++ pt := by
  unfold checkHash at e
  split at e
  · cases e
  · split at e
    · rename_i hh
      cases e
      rw [hh, List.take_append_drop]
    · cases e

theorem decryptSingle_ok {P : Prims} {pass : Str} {ck : Option Str} {cs f pt : Str} {p : Params}
    (h : decryptSingle P pass ck cs f = .ok (p, pt)) :
    88 ≤ f.length ∧ ∃ key ls, p = { keys := [key], salts := [(f.drop 16).take 32], ivs := [(f.drop 48).take 40] } ∧
      layers suite key ((f.drop 48).take 40) = some ls ∧
      decUnpad P ls (f.drop 88) = .ok (P.sha512 (f.take 88 ++ pt) ++ pt) := by
  obtain ⟨z1, z2, z3, z4, z5, z6, z7⟩ := sizes
  unfold decryptSingle at h
  simp only [z2, z4, z5] at h
  split at h
  · cases h
  · rename_i hl
    split at h
    · cases h
    · split at h
      · cases h
      · rename_i hl2
        split at h
        · cases h
        · rename_i ls hls
          split at h
          · cases h
          · cases h
          · rename_i work hw
            split at h
            · cases h
            · cases h
            · rename_i pt' hc
              simp only [Res.ok.injEq, Prod.mk.injEq] at h
              obtain ⟨rfl, rfl⟩ := h
              have hsalt : (if (ck.isNone || cs != (f.drop 16).take 32) = true then (f.drop 16).take 32 else cs) =
                  (f.drop 16).take 32 := by
                split
                · rfl
                · rename_i hd
                  simp at hd
                  exact hd.2
              rw [hsalt] at hc ⊢
              refine ⟨by omega, _, ls, rfl, hls, ?_⟩
              rw [hw]
              have := checkHash_ok hc
              have h88 : f.take 16 ++ (f.drop 16).take 32 ++ (f.drop 48).take 40 = f.take 88 := by
                rw [← List.take_add, ← List.take_add]
              rw [h88] at this
              rw [← this]

theorem findUserRec_lt {h : Str} {rs : List UserRec} {i : Nat} (e : findUserRec h rs = some i) : i < rs.length := by
  obtain ⟨⟨r, hr, -⟩, -⟩ := (findUserRec_some h rs i).1 e
  exact (List.getElem?_eq_some_iff.1 hr).1

/-- what the loop over the records establishes, by offsets into the file -/
theorem parseUsers_ok {n : Nat} {g rest : Str} {rs : List UserRec} (h : parseUsers n g = some (rs, rest)) :
    184 * n ≤ g.length ∧ rs.length = n ∧ rest = g.drop (184 * n) ∧
    ∀ i r, rs[i]? = some r → r = UserRec.mk ((g.drop (184 * i)).take 32) ((g.drop (184 * i + 32)).take 32)
      ((g.drop (184 * i + 64)).take 40) ((g.drop (184 * i + 104)).take 80) := by
  obtain ⟨z1, z2, z3, z4, z5, z6, z7⟩ := sizes
  induction n generalizing g rs with
  | zero =>
    simp only [parseUsers, Option.some.injEq, Prod.mk.injEq] at h
    obtain ⟨rfl, rfl⟩ := h
    simp
  | succ n ih =>
    unfold parseUsers at h
    simp only [z1, z2, z3, z4, z6] at h
    split at h
    · cases h
    · rename_i hl
      split at h
      · cases h
      · rename_i rs' rest' hp
        cases h
        obtain ⟨h1, h2, h3, h4⟩ := ih hp
        simp only [List.length_drop] at h1
        refine ⟨by omega, by simp [h2], ?_, ?_⟩
        · rw [h3, List.drop_drop]; congr 1; omega
        · intro i r hr
          cases i with
          | zero => simp at hr; rw [← hr]; simp
          | succ i =>
            simp at hr
            rw [h4 i r hr]
            simp only [List.drop_drop]
            have e : 184 + 184 * i = 184 * (i + 1) := by omega
            simp only [← Nat.add_assoc, e]

theorem decryptMulti_ok {P : Prims} {nU : Int} {user pass : Str} {ck : Option Str} {cs f pt : Str} {p : Params}
    (hnz : nU ≠ 0) (h : decryptMulti P nU user pass ck cs f = .ok (p, pt)) :
    0 < nU ∧ (p.nUsers = nU ∨ p.nUsers = nU + 1) ∧
    (p.nUsers = nU ↔ ∃ i < nU.toNat, (f.drop (16 + 184 * i)).take 32 = P.sha256 user) ∧
    16 + 184 * p.nUsers.toNat + 40 ≤ f.length ∧
    ∃ m ls, p.ivm = some ((f.drop (16 + 184 * nU.toNat)).take 40) ∧ p.master = some m ∧
      layers suite m ((f.drop (16 + 184 * nU.toNat)).take 40) = some ls ∧
      decUnpad P ls (f.drop (16 + 184 * nU.toNat + 40)) =
        .ok (P.sha512 (f.take (16 + 184 * p.nUsers.toNat + 40) ++ pt) ++ pt) := by
  obtain ⟨z1, z2, z3, z4, z5, z6, z7⟩ := sizes
  unfold decryptMulti at h
  simp only [z2, z3, z5, z7] at h
  cases hpu : parseUsers nU.toNat (f.drop 16) with
  | none => rw [hpu] at h; cases h
  | some x =>
    obtain ⟨rs, rest⟩ := x
    rw [hpu] at h
    simp only at h
    obtain ⟨p1, p2, p3, p4⟩ := parseUsers_ok hpu
    simp only [List.length_drop] at p1
    generalize hfd : findUserRec (P.sha256 user) rs = found at h
    generalize hrs : (if found.isSome = true then rs else rs ++ _) = rs' at h
    generalize hN : (if found.isSome = true then nU else nU + 1) = N at h
    split at h
    · cases h
    · rename_i hrl
      split at h
      · cases h
      · rename_i me hme
        split at h
        · cases h
        · split at h
          · cases h
          · rename_i hni
            split at h
            · cases h
            · rename_i lk hlk
              split at h
              · cases h
              · rename_i m hm
                split at h
                · cases h
                · rename_i ls hls
                  split at h
                  · cases h
                  · cases h
                  · rename_i work hw
                    split at h
                    · cases h
                    · rename_i hlen
                      split at h
                      · cases h
                      · cases h
                      · rename_i pt' hc
                        have hc' := checkHash_ok hc
                        subst hc'
                        have h40 : rest.take 40 = (f.drop (16 + 184 * nU.toNat)).take 40 := by
                          rw [p3, List.drop_drop]
                        have hdr : rest.drop 40 = f.drop (16 + 184 * nU.toNat + 40) := by
                          rw [p3, List.drop_drop, List.drop_drop, Nat.add_assoc]
                        cases h
                        simp only
                        have hpos : 0 < nU := by
                          cases hf : found with
                          | none =>
                            simp [hf] at hN hni
                            omega
                          | some i => simp [hf] at hN hni; omega
                        refine ⟨hpos, ?_, ?_, by omega, m, ls, by rw [h40], rfl, by rw [← h40]; exact hls, ?_⟩
                        · rw [← hN]
                          split
                          · exact .inl rfl
                          · exact .inr rfl
                        · rw [← hN]
                          cases hf : found with
                          | none =>
                            simp only [Option.isSome_none, Bool.false_eq_true, if_false]
                            constructor
                            · intro h; omega
                            · rintro ⟨i, hi, he⟩
                              exfalso
                              rw [hf] at hfd
                              have hi' : i < rs.length := by omega
                              have hr : rs[i]? = some rs[i] := List.getElem?_eq_getElem hi'
                              refine (findUserRec_none _ _).1 hfd rs[i] (List.getElem_mem hi') ?_
                              rw [p4 i _ hr]
                              simp only [List.drop_drop]
                              exact he
                          | some i =>
                            simp only [Option.isSome_some, if_true, true_iff]
                            rw [hf] at hfd
                            obtain ⟨⟨r, hr, he⟩, -⟩ := (findUserRec_some _ _ _).1 hfd
                            refine ⟨i, ?_, ?_⟩
                            · have := findUserRec_lt hfd; omega
                            · rw [p4 i _ hr] at he
                              simp only [List.drop_drop] at he
                              exact he
                        · rw [← hdr]; exact hw

/-- What a successful `Decrypt` saw in the header. -/
theorem decrypt_ok {P : Prims} {user pass : Str} {ck : Option Str} {cs f pt : Str} {v : Int} {p : Params}
    (h : decrypt P user pass ck cs f = .ok (v, p, pt)) :
    v = 1 ∧ ∃ (n : Int) (p' : Params), parseSigned ((f.drop 12).take 4) = some n ∧ p = { p' with version := 1 } ∧
      (n = 0 → decryptSingle P pass ck cs f = .ok (p', pt)) ∧
      (n ≠ 0 → user ≠ [] ∧ decryptMulti P n user pass ck cs f = .ok (p', pt)) := by
  unfold decrypt at h
  split at h
  · cases h
  · split at h
    · cases h
    · split at h
      · cases h
      · cases h
      · split at h
        · cases h
        · split at h
          · cases h
          · rename_i n hn
            split at h
            · cases h
            · rename_i hu
              simp only at h
              by_cases h0 : n = 0
              · simp only [h0, if_true] at h
                split at h
                · cases h
                · cases h
                · rename_i p' pt' hd
                  cases h
                  exact ⟨rfl, n, p', hn, rfl, fun _ => hd, fun hne => absurd h0 hne⟩
              · simp only [h0, if_false] at h
                split at h
                · cases h
                · cases h
                · rename_i p' pt' hd
                  cases h
                  refine ⟨rfl, n, p', hn, rfl, fun h => absurd h h0, fun _ => ⟨?_, hd⟩⟩
                  rintro rfl
                  simp [h0] at hu

end Verif.Crypt
