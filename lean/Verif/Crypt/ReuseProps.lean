import Verif.Crypt.Props
/-!
# C47 for every file that opens

Whatever bytes `Decrypt` accepts, and whatever the credentials: when the parameters it returns can be used again.
-/
namespace Verif.Crypt
open Verif Spec

theorem parseDigits_bound {s : Str} {n : Nat} (h : parseDigits s = some n) (hl : s.length ≤ 4) : n ≤ 9999 := by
  unfold parseDigits at h
  split at h
  · cases h
  split at h
  · rename_i hall
    cases h
    have digit : ∀ b : UInt8, isDigit b = true → b.toNat - 48 ≤ 9 := by
      intro b hb; have := (isDigit_iff b).1 hb; omega
    match s, hl, hall with
    | [], _, _ => simp
    | [a], _, h => simp at h; have := digit a h; simp; omega
    | [a, b], _, h =>
      simp at h; have := digit a h.1; have := digit b h.2
      simp; omega
    | [a, b, c], _, h =>
      simp at h; have := digit a h.1; have := digit b h.2.1; have := digit c h.2.2
      simp; omega
    | [a, b, c, d], _, h =>
      simp at h
      have := digit a h.1; have := digit b h.2.1; have := digit c h.2.2.1; have := digit d h.2.2.2
      simp; omega
    | _ :: _ :: _ :: _ :: _ :: _, hl, _ => simp at hl
  · cases h

theorem parseSigned_bound {s : Str} {n : Int} (h : parseSigned s = some n) (hl : s.length ≤ 4) : n ≤ 9999 := by
  unfold parseSigned at h
  split at h
  · cases h
  · rename_i c d
    simp only [List.length_cons] at hl
    split at h
    · split at h
      · cases h; omega
      · cases h
    · split at h
      · rename_i k hk
        cases h
        have := parseDigits_bound hk (by split <;> first | omega | (simp only [List.length_cons]; omega))
        omega
      · cases h

theorem recs_of : ∀ rs : List UserRec,
    recs (rs.map UserRec.hash) (rs.map UserRec.salt) (rs.map UserRec.iv) (rs.map UserRec.mkey) = rs
  | [] => rfl
  | r :: rs => by simp only [List.map_cons, recs, recs_of rs]

/-- What `decryptV1Multi` used when it succeeded. -/
theorem decryptMulti_inv {P : Prims} {nU : Int} {user pass : Str} {ck : Option Str} {cs f pt : Str} {p : Params}
    (h : decryptMulti P nU user pass ck cs f = .ok (p, pt)) :
    ∃ (rs : List UserRec) (rest : Str) (me : UserRec) (key m : Str) (lk ls : List (Alg × Str × Str)),
      parseUsers nU.toNat (f.drop 16) = some (rs, rest) ∧ 40 ≤ rest.length ∧
      (∀ i, findUserRec (P.sha256 user) rs = some i →
        rs[i]? = some me ∧ p = { nUsers := nU, user := (i : Nat), keys := (List.replicate nU.toNat []).set i key
                                 salts := rs.map UserRec.salt, users := rs.map UserRec.hash, ivs := rs.map UserRec.iv
                                 mkeys := rs.map UserRec.mkey, ivm := some (rest.take 40), master := some m }) ∧
      (findUserRec (P.sha256 user) rs = none → p.nUsers = nU + 1 ∧ p.users = rs.map UserRec.hash) ∧
      KeyFrom P pass ck cs me.salt key ∧ layers suite key me.iv = some lk ∧ decRaw P lk me.mkey = some m ∧
      layers suite m (rest.take 40) = some ls := by
  obtain ⟨z1, z2, z3, z4, z5, z6, z7⟩ := sizes
  unfold decryptMulti at h
  simp only [z2, z3, z5, z7] at h
  cases hpu : parseUsers nU.toNat (f.drop 16) with
  | none => rw [hpu] at h; cases h
  | some x =>
    obtain ⟨rs, rest⟩ := x
    rw [hpu] at h
    simp only at h
    generalize hfd : findUserRec (P.sha256 user) rs = found at h
    generalize hrs : (if found.isSome = true then rs else rs ++ _) = rs' at h
    generalize hN : (if found.isSome = true then nU else nU + 1) = N at h
    split at h
    · cases h
    · rename_i hrl
      split at h
      · cases h
      · rename_i me hme
        split at h
        · cases h
        · rename_i hder
          generalize hkey : (if ((ck.getD []).length == 0 || cs != me.salt) = true then P.kdf pass me.salt else ck.getD []) = key at h
          split at h
          · cases h
          · split at h
            · cases h
            · rename_i lk hlk
              split at h
              · cases h
              · rename_i m hm
                split at h
                · cases h
                · rename_i ls hls
                  split at h
                  · cases h
                  · cases h
                  · split at h
                    · cases h
                    · split at h
                      · cases h
                      · cases h
                      · cases h
                        refine ⟨rs, rest, me, key, m, lk, ls, rfl, by omega, ?_, ?_, ?_, hlk, hm, hls⟩
                        · intro i hi
                          rw [hfd] at hi
                          subst hi
                          simp only [Option.isSome_some, if_true] at hrs hN
                          subst hrs hN
                          exact ⟨hme, rfl⟩
                        · intro hi
                          rw [hfd] at hi
                          subst hi
                          simp only [Option.isSome_none, Bool.false_eq_true, if_false] at hN
                          exact ⟨hN.symm, rfl⟩
                        · unfold KeyFrom
                          cases hd : ((ck.getD []).length == 0 || cs != me.salt) with
                          | true =>
                            rw [hd] at hder hkey
                            simp only [Bool.true_and, beq_iff_eq, if_true] at hder hkey
                            refine .inl ⟨?_, ?_, hkey.symm⟩
                            · simp only [Bool.or_eq_true, beq_iff_eq, List.length_eq_zero_iff, bne_iff_ne] at hd
                              exact hd
                            · intro hp; exact hder (by simp [hp])
                          | false =>
                            rw [hd] at hkey
                            simp only [Bool.false_eq_true, if_false] at hkey
                            simp only [Bool.or_eq_false_iff, beq_eq_false_iff_ne, bne_eq_false_iff_eq, ne_eq,
                              List.length_eq_zero_iff] at hd
                            cases ck with
                            | none => exact absurd rfl hd.1
                            | some k =>
                              simp only [Option.getD_some] at hkey hd
                              subst hkey
                              exact .inr ⟨rfl, hd.1, hd.2⟩

theorem keyFrom_length {P : Prims} (hP : Lawful P) {pass : Str} {ck : Option Str} {cs salt key : Str}
    (h : KeyFrom P pass ck cs salt key) (hck : ∀ k, ck = some k → k = [] ∨ k.length = 80) : key.length = 80 := by
  rcases h with ⟨-, -, rfl⟩ | ⟨h1, h2, -⟩
  · exact hP.kdf_length _ _
  · exact (hck _ h1).resolve_left h2

theorem records_wf {n : Nat} {g rest : Str} {rs : List UserRec} (h : parseUsers n g = some (rs, rest)) :
    WfUsers n (rs.map UserRec.hash) (rs.map UserRec.salt) (rs.map UserRec.iv) (rs.map UserRec.mkey) := by
  obtain ⟨p1, p2, -, p4⟩ := parseUsers_ok h
  have hr : ∀ r ∈ rs, r.hash.length = 32 ∧ r.salt.length = 32 ∧ r.iv.length = 40 ∧ r.mkey.length = 80 := by
    intro r hr
    obtain ⟨i, hi⟩ := List.mem_iff_getElem?.1 hr
    have hlt := (List.getElem?_eq_some_iff.1 hi).1
    rw [p4 i r hi]
    simp only [List.length_take, List.length_drop]
    omega
  refine ⟨by simp [p2], by simp [p2], by simp [p2], by simp [p2], ?_, ?_, ?_, ?_⟩ <;> intro x hx <;>
    obtain ⟨r, h1, rfl⟩ := List.mem_map.1 hx
  · exact (hr r h1).1
  · exact (hr r h1).2.1
  · exact (hr r h1).2.2.1
  · exact (hr r h1).2.2.2

/-- Files with users: whatever opened, with whatever credentials, if the name is listed in the file the parameters returned are valid,
and what is encrypted with them opens again with the same credentials, to the same parameters. -/
theorem C47_multi (P : Prims) (hP : Lawful P) (f name pass : Str) (ck : Option Str) (cs pt : Str) (v : Int) (q : Params)
    (hck : ∀ k, ck = some k → k = [] ∨ k.length = 80) (h : decrypt P name pass ck cs f = .ok (v, q, pt)) (h0 : q.nUsers ≠ 0)
    (hl : P.sha256 name ∈ q.users) :
    q.validate = true ∧ ∀ iv' pt', ∃ f', encrypt P 1 q iv' pt' = .ok f' ∧ decrypt P name pass ck cs f' = .ok (1, q, pt') := by
  obtain ⟨-, nU, p, hn, rfl, hs, hm⟩ := decrypt_ok h
  have hz : nU ≠ 0 := by
    intro hz
    obtain ⟨-, _, _, hp, -⟩ := decryptSingle_ok (hs hz)
    rw [hp] at h0
    exact h0 rfl
  obtain ⟨hname, hd⟩ := hm hz
  obtain ⟨hpos, -⟩ := decryptMulti_ok hz hd
  obtain ⟨rs, rest, me, key, m, lk, ls, hp, hr, hsome, hnone, hk, hlk, hmk, hls⟩ := decryptMulti_inv hd
  have hbound := parseSigned_bound hn (by simp only [List.length_take, List.length_drop]; omega)
  cases hf : findUserRec (P.sha256 name) rs with
  | none =>
    exfalso
    obtain ⟨-, hu⟩ := hnone hf
    replace hl : P.sha256 name ∈ p.users := hl
    rw [hu] at hl
    obtain ⟨r, h1, h2⟩ := List.mem_map.1 hl
    exact (findUserRec_none _ _).1 hf r h1 h2
  | some i =>
    obtain ⟨hme, rfl⟩ := hsome i hf
    obtain ⟨n, rfl⟩ : ∃ n : Nat, nU = n := ⟨nU.toNat, by omega⟩
    simp only [Int.toNat_natCast] at hp h ⊢
    have hw := records_wf hp
    have hkl := keyFrom_length hP hk hck
    have hi : i < n := by have := findUserRec_lt hf; have := (parseUsers_ok hp).2.1; omega
    have hmiv : me.iv.length = 40 := hw.ivs_size _ (List.mem_map.2 ⟨me, List.mem_of_getElem? hme, rfl⟩)
    have hmkl : me.mkey.length = 80 := hw.ks_size _ (List.mem_map.2 ⟨me, List.mem_of_getElem? hme, rfl⟩)
    have hml : m.length = 80 := by
      rw [decRaw_length P hP lk (layers_wf _ _ _ _ hlk).1 _ _ hmk]; exact hmkl
    have hil : (rest.take 40).length = 40 := by simp only [List.length_take]; omega
    generalize hq : ({ version := 1, nUsers := (n : Int), user := (i : Int), keys := (List.replicate n []).set i key
                       salts := rs.map UserRec.salt, users := rs.map UserRec.hash, ivs := rs.map UserRec.iv
                       mkeys := rs.map UserRec.mkey, ivm := some (rest.take 40), master := some m } : Params) = q
    have hwq : WfMulti q n := by
      subst hq
      refine ⟨rfl, by omega, hw, by simp, ?_, ⟨by simp, by simp; omega⟩, ?_, ?_⟩
      · intro k hk
        rcases List.mem_or_eq_of_mem_set hk with hk | hk
        · exact .inl (by rw [List.eq_of_mem_replicate hk]; rfl)
        · exact .inr (by rw [hk, hkl])
      · intro iv hiv; cases hiv; exact hil
      · intro k hk; cases hk; exact hml
    have hq0 : q.nUsers ≠ 0 := by subst hq; exact h0
    refine ⟨(validate_multi hq0).2 ⟨n, hwq⟩, fun iv' pt' => ?_⟩
    obtain ⟨ct, ls', g1, g2, g3, -⟩ := encrypt_multi P hP q n hwq iv' pt' (rest.take 40) m (by subst hq; rfl) (by subst hq; rfl)
    refine ⟨_, g3, ?_⟩
    subst hq
    dsimp only at g1 g2 g3 ⊢
    have hsl := hP.sha512_length (multiHeader n (rs.map UserRec.hash) (rs.map UserRec.salt) (rs.map UserRec.iv)
      (rs.map UserRec.mkey) (rest.take 40) ++ pt')
    have hd' := decryptMulti_eq P hw (rest.take 40) ct hil name pass ck cs (some i) (by rw [recs_of]; exact hf) me key m _ lk ls'
      (by rw [recs_of]; exact hme) hk hlk hmk g1 g2 (by rw [List.length_append, hsl]; omega) _ rfl n rfl
    have hlen := multiHeader_length hw (rest.take 40) hil
    have hdl : ((P.sha512 (multiHeader n (rs.map UserRec.hash) (rs.map UserRec.salt) (rs.map UserRec.iv)
      (rs.map UserRec.mkey) (rest.take 40) ++ pt')) ++ pt').drop 64 = pt' := by rw [← hsl, List.drop_left]
    have htl : ((P.sha512 (multiHeader n (rs.map UserRec.hash) (rs.map UserRec.salt) (rs.map UserRec.iv)
      (rs.map UserRec.mkey) (rest.take 40) ++ pt')) ++ pt').take 64 = P.sha512 (multiHeader n (rs.map UserRec.hash)
        (rs.map UserRec.salt) (rs.map UserRec.iv) (rs.map UserRec.mkey) (rest.take 40) ++ pt') := by rw [← hsl, List.take_left]
    rw [hdl, htl, if_neg (by rw [List.length_append, hlen]; omega), if_pos (by rw [← hlen, List.take_left])] at hd'
    obtain ⟨m', -, d2, -, d4⟩ := decrypt_header P name pass ck cs n
      (records (rs.map UserRec.hash) (rs.map UserRec.salt) (rs.map UserRec.iv) (rs.map UserRec.mkey) ++ rest.take 40 ++ ct)
    have hm' := d2 (by omega)
    subst hm'
    rw [show multiHeader n (rs.map UserRec.hash) (rs.map UserRec.salt) (rs.map UserRec.iv) (rs.map UserRec.mkey) (rest.take 40) ++ ct =
      (magic n).take 16 ++ (records (rs.map UserRec.hash) (rs.map UserRec.salt) (rs.map UserRec.iv) (rs.map UserRec.mkey) ++
        rest.take 40 ++ ct) by simp [multiHeader]] at hd' ⊢
    rw [d4, if_neg (by simp [hname]), if_neg hz, hd']
    simp

/-- If the name is not listed, `Decrypt` returns parameters that do not pass the validation: the number of users is one too large. -/
theorem C47_unlisted (P : Prims) (f name pass : Str) (ck : Option Str) (cs pt : Str) (v : Int) (q : Params)
    (h : decrypt P name pass ck cs f = .ok (v, q, pt)) (h0 : q.nUsers ≠ 0) (hl : P.sha256 name ∉ q.users) : q.validate = false := by
  obtain ⟨-, nU, p, hn, rfl, hs, hm⟩ := decrypt_ok h
  have hz : nU ≠ 0 := by
    intro hz
    obtain ⟨-, _, _, hp, -⟩ := decryptSingle_ok (hs hz)
    rw [hp] at h0
    exact h0 rfl
  obtain ⟨hname, hd⟩ := hm hz
  obtain ⟨hpos, -⟩ := decryptMulti_ok hz hd
  obtain ⟨rs, rest, me, key, m, lk, ls, hp, hr, hsome, hnone, -⟩ := decryptMulti_inv hd
  obtain ⟨p1, p2, -⟩ := parseUsers_ok hp
  cases hf : findUserRec (P.sha256 name) rs with
  | some i =>
    exfalso
    obtain ⟨hme, rfl⟩ := hsome i hf
    obtain ⟨⟨r, h1, h2⟩, -⟩ := (findUserRec_some _ _ _).1 hf
    exact hl (List.mem_map.2 ⟨r, List.mem_of_getElem? h1, h2⟩)
  | none =>
    obtain ⟨hu1, hu2⟩ := hnone hf
    rw [← Bool.not_eq_true]
    intro hv
    obtain ⟨n, hw⟩ := (validate_multi h0).1 hv
    have h1 := hw.nUsers
    have h2 := hw.users.us_length
    simp only [hu1] at h1
    simp only [hu2, List.length_map, p2] at h2
    omega

/-- Files without users: whatever opened, with whatever credentials. -/
theorem C47_any_single (P : Prims) (hP : Lawful P) (f user pass : Str) (ck : Option Str) (cs pt : Str) (v : Int) (q : Params)
    (hck : ∀ k, ck = some k → k.length = 80) (h : decrypt P user pass ck cs f = .ok (v, q, pt)) (h0 : q.nUsers = 0) :
    q.validate = true ∧ ∀ iv' pt', iv'.length = 40 → ∃ f', encrypt P 1 q iv' pt' = .ok f' ∧
      decrypt P user pass ck cs f' = .ok (1, { q with ivs := [iv'] }, pt') := by
  obtain ⟨-, nU, p, hn, rfl, hs, hm⟩ := decrypt_ok h
  have hz : nU = 0 := by
    apply Decidable.byContradiction
    intro hz
    have hd := (hm hz).2
    obtain ⟨hpos, hor, -⟩ := decryptMulti_ok hz hd
    replace h0 : p.nUsers = 0 := h0
    omega
  have hd := hs hz
  obtain ⟨hlen, -⟩ := decryptSingle_ok hd
  obtain ⟨z1, z2, z3, z4, z5, z6, z7⟩ := sizes
  have hinv : ∃ key, Credentials P pass ck cs ((f.drop 16).take 32) key ∧
      p = { keys := [key], salts := [(f.drop 16).take 32], ivs := [(f.drop 48).take 40] } := by
    obtain ⟨-, key, ls, hp, -⟩ := decryptSingle_ok hd
    refine ⟨key, ?_, hp⟩
    unfold decryptSingle at hd
    simp only [z2, z4, z5] at hd
    rw [if_neg (by omega)] at hd
    split at hd
    · cases hd
    · rename_i hder
      rw [if_neg (by omega)] at hd
      split at hd
      · cases hd
      · split at hd
        · cases hd
        · cases hd
        · split at hd
          · cases hd
          · cases hd
          · simp only [Res.ok.injEq, Prod.mk.injEq] at hd
            have hk := congrArg Params.keys (hd.1.trans hp)
            simp only [List.cons.injEq, and_true] at hk
            cases hb : (ck.isNone || cs != (f.drop 16).take 32) with
            | true =>
              rw [hb] at hder hk
              simp only [Bool.true_and, beq_iff_eq, if_true] at hder hk
              refine .inl ⟨fun hp => hder (by simp [hp]), hk.symm, ?_⟩
              simp only [Bool.or_eq_true, Option.isNone_iff_eq_none, bne_iff_ne] at hb
              exact hb
            | false =>
              rw [hb] at hk
              simp only [Bool.false_eq_true, if_false] at hk
              simp only [Bool.or_eq_false_iff, bne_eq_false_iff_eq] at hb
              cases ck with
              | none => simp at hb
              | some k => exact .inr ⟨by rw [← hk]; rfl, hb.2⟩
  obtain ⟨key, hc, rfl⟩ := hinv
  have hkl : key.length = 80 := by
    rcases hc with ⟨-, rfl, -⟩ | ⟨h1, -⟩
    · exact hP.kdf_length _ _
    · exact hck _ h1
  have hsl : ((f.drop 16).take 32).length = 32 := by simp only [List.length_take, List.length_drop]; omega
  generalize (f.drop 16).take 32 = salt at *
  generalize (f.drop 48).take 40 = iv at *
  have hv' : ({ version := 1, keys := [key], salts := [salt], ivs := [iv] } : Params).validate = true := by
    simp [Params.validate, hkl, hsl, z1, z4]
  refine ⟨hv', fun iv' pt' hil' => ?_⟩
  obtain ⟨ct, ls, -, -, g3, -⟩ := encrypt_single P hP { version := 1, keys := [key], salts := [salt], ivs := [iv] }
    iv' pt' key salt hv' rfl rfl rfl hkl hil'
  exact ⟨_, g3, C42_single_roundtrip P hP _ iv' pt' key salt _ rfl rfl rfl hil' g3 user pass ck cs hc⟩

/-- Together: of any bytes that open, with any credentials, the parameters are valid exactly when the file has no users or
the name is one of its users. -/
theorem C47_valid_iff (P : Prims) (hP : Lawful P) (f name pass : Str) (ck : Option Str) (cs pt : Str) (v : Int) (q : Params)
    (hck : ∀ k, ck = some k → k.length = 80) (h : decrypt P name pass ck cs f = .ok (v, q, pt)) :
    q.validate = true ↔ q.nUsers = 0 ∨ P.sha256 name ∈ q.users := by
  by_cases h0 : q.nUsers = 0
  · simp [h0, (C47_any_single P hP f name pass ck cs pt v q hck h h0).1]
  · by_cases hl : P.sha256 name ∈ q.users
    · simp [hl, (C47_multi P hP f name pass ck cs pt v q (fun k hk => .inr (hck k hk)) h h0 hl).1]
    · simp [h0, hl, C47_unlisted P f name pass ck cs pt v q h h0 hl]

/-- The length of a cached key does matter: `Decrypt` only slices it (crypto.go:290-303), so a key with bytes to spare
opens the file, but the parameters that come back cannot be encrypted with. -/
theorem C47_key_false : ∃ (P : Prims) (p : Params) (iv pt f k cs : Str) (q : Params), Lawful P ∧
    encrypt P 1 p iv pt = .ok f ∧ k.length = 81 ∧ decrypt P [] [] (some k) cs f = .ok (1, q, pt) ∧ q.validate = false ∧
    ∀ iv' pt' f', encrypt P 1 q iv' pt' ≠ .ok f' := by
  let p : Params := { keys := [toy.kdf [1] []], salts := [List.replicate 32 0] }
  let f := match encrypt toy 1 p (List.replicate 40 0) [] with | .ok f => f | _ => []
  let k := toy.kdf [1] [] ++ [0]
  let q : Params := { version := 1, keys := [k], salts := [List.replicate 32 0], ivs := [List.replicate 40 0] }
  have hq : q.validate = false := by decide
  refine ⟨toy, p, List.replicate 40 0, [], f, k, List.replicate 32 0, q, toy_lawful, by decide +kernel, by decide +kernel, by decide +kernel, hq, ?_⟩
  intro iv' pt' f' he
  have := (encrypt_shape toy 1 q iv' pt' f' he).2.1
  rw [hq] at this
  cases this

/-- Non-vacuity: bob opens the file of two users, and the theorem about listed names applies. -/
example : ∃ f q, decrypt toy (b! "bob") (b! "pw") none [] f = .ok (1, q, b! "x") ∧ q.validate = true := by
  have hv : twoUsers.validate = true := by decide
  obtain ⟨n, hw⟩ := (validate_multi (p := twoUsers) (by decide)).1 hv
  obtain ⟨ct, ls, -, -, h, -⟩ := encrypt_multi toy toy_lawful twoUsers n hw [] (b! "x") _ _ rfl rfl
  have hd := C43_multi_roundtrip_partial toy toy_lawful twoUsers [] (b! "x") _ _ _ (by decide) (by decide) rfl rfl h 1
    (b! "bob") (b! "pw") none [] (by decide) (List.replicate 32 2) (List.replicate 40 1) (twoUsers.mkeys[1]?.getD [])
    (toy.kdf (b! "pw") (List.replicate 32 2)) (by decide) (by decide) (by decide) (by decide) (by decide)
    (.inl ⟨by decide, rfl, .inl rfl⟩) (by decide)
  exact ⟨_, _, hd, (C47_multi toy toy_lawful _ _ _ _ _ _ _ _ (by simp) hd (by decide) (by decide)).1⟩

/-- Non-vacuity: a file without users opens, and the theorem about such files applies. -/
example : ∃ f q, decrypt toy [] [1] none [] f = .ok (1, q, []) ∧ q.validate = true := by
  let p : Params := { keys := [toy.kdf [1] []], salts := [List.replicate 32 0] }
  let f := match encrypt toy 1 p (List.replicate 40 0) [] with | .ok f => f | _ => []
  let q : Params := { version := 1, keys := [toy.kdf [1] []], salts := [List.replicate 32 0], ivs := [List.replicate 40 0] }
  have hd : decrypt toy [] [1] none [] f = .ok (1, q, []) := by decide +kernel
  exact ⟨f, q, hd, (C47_any_single toy toy_lawful f _ _ _ _ _ _ q (by simp) hd rfl).1⟩

/-- Non-vacuity: with a hash that has collisions a name that is not in the file opens it, with the first user's passphrase;
what comes back is not valid. -/
example : ∃ f q pt, decrypt toy (b! "carol") (b! "apw") none [] f = .ok (1, q, pt) ∧ q.nUsers = 3 ∧ q.validate = false := by
  let f := match encrypt toy 1 twoUsers [] (List.replicate 200 7) with | .ok f => f | _ => []
  have hd : (match decrypt toy (b! "carol") (b! "apw") none [] f with
    | .ok (v, q, _) => v == 1 && q.nUsers == 3 && !(q.users.contains (toy.sha256 (b! "carol"))) | _ => false) = true := by decide +kernel
  cases h : decrypt toy (b! "carol") (b! "apw") none [] f with
  | ok r =>
    obtain ⟨v, q, pt⟩ := r
    rw [h] at hd
    simp only [Bool.and_eq_true, beq_iff_eq, Bool.not_eq_true', List.contains_eq_mem, decide_eq_false_iff_not] at hd
    obtain ⟨⟨rfl, h3⟩, hl⟩ := hd
    exact ⟨f, q, pt, h, h3, C47_unlisted toy _ _ _ _ _ _ _ _ h (by omega) hl⟩
  | err e => rw [h] at hd; cases hd
  | panic => rw [h] at hd; cases hd

end Verif.Crypt
