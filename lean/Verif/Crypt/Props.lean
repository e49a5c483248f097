import Verif.Crypt.Lemmas2
/-!
# Properties of the encryption layer (C42-C50)

Every theorem holds for all primitives satisfying `Spec.Lawful`: sizes, and decryption of a block undoing its
encryption. `Spec.toy_lawful` shows that there are some.
-/
namespace Verif.Crypt
open Verif Spec

/-! ## C42 -/

theorem credentials_single {P : Prims} {pass : Str} {ck : Option Str} {cs salt key : Str}
    (h : Credentials P pass ck cs salt key) :
    ((ck.isNone || cs != salt) && pass.length == 0) = false ∧
    (if (ck.isNone || cs != salt) = true then P.kdf pass salt else ck.getD []) = key ∧
    (if (ck.isNone || cs != salt) = true then salt else cs) = salt := by
  rcases h with ⟨h1, h2, h3⟩ | ⟨h1, h2⟩
  · have hb : (ck.isNone || cs != salt) = true := by
      rcases h3 with h3 | h3
      · simp [h3]
      · simp [h3]
    rw [hb]
    refine ⟨?_, h2.symm, rfl⟩
    cases pass with
    | nil => exact absurd rfl h1
    | cons => simp
  · subst h1 h2
    simp

/-- A single-user file opens with the right credentials, whatever the user name given. -/
theorem C42_single_roundtrip (P : Prims) (hP : Lawful P) (p : Params) (iv pt key salt f : Str)
    (h0 : p.nUsers = 0) (hk : p.keys.head? = some key) (hs : p.salts.head? = some salt) (hil : iv.length = 40)
    (he : encrypt P 1 p iv pt = .ok f)
    (user pass : Str) (ck : Option Str) (cs : Str) (hc : Credentials P pass ck cs salt key) :
    decrypt P user pass ck cs f =
      .ok (1, { version := 1, keys := [key], salts := [salt], ivs := [iv] }, pt) := by
  obtain ⟨z1, z2, z3, z4, z5, z6, z7⟩ := sizes
  obtain ⟨-, hv, -⟩ := encrypt_shape P 1 p iv pt f he
  have hkl : key.length = 80 := by
    obtain ⟨⟨k, ks, h1, -⟩, s, ss, h3, -⟩ := validate_single hv
    unfold encrypt at he
    rw [if_neg (by simp), if_neg (by simp [hv]), if_pos h0] at he
    unfold encryptSingle at he
    rw [h1, h3] at he
    rw [h1] at hk
    simp only [List.head?_cons, Option.some.injEq] at hk
    subst hk
    simp only at he
    split at he
    · cases he
    · omega
  obtain ⟨ct, ls, g1, g2, g3, g4⟩ := encrypt_single P hP p iv pt key salt hv h0 hk hs hkl hil
  rw [g3] at he
  cases he
  have h16 : (magic 0).take 16 = magic 0 := List.take_of_length_le (by decide)
  have hm16 : (magic 0).length = 16 := by decide
  obtain ⟨m, d1, -, -, d4⟩ := decrypt_header P user pass ck cs 0 (salt ++ iv ++ ct)
  have hm : m = 0 := by
    by_cases h : m = 0
    · exact h
    · exact absurd rfl (d1.1 h)
  subst hm
  rw [h16] at d4
  have e : magic 0 ++ salt ++ iv ++ ct = magic 0 ++ (salt ++ iv ++ ct) := by simp
  rw [e, d4]
  simp only [ne_eq, not_true_eq_false, false_and, if_false, if_true]
  have f1 : (magic 0 ++ (salt ++ iv ++ ct)).drop 16 = salt ++ iv ++ ct := by
    rw [← hm16, List.drop_left]
  have f0 : (magic 0 ++ (salt ++ iv ++ ct)).take 16 = magic 0 := by
    rw [← hm16, List.take_left]
  have f2 : ((magic 0 ++ (salt ++ iv ++ ct)).drop 16).take 32 = salt := by
    rw [f1, ← g4, List.append_assoc, List.take_left]
  have f3 : (magic 0 ++ (salt ++ iv ++ ct)).drop 48 = iv ++ ct := by
    rw [show 48 = 16 + 32 from rfl, ← List.drop_drop, f1, ← g4, List.append_assoc, List.drop_left]
  have f4 : (magic 0 ++ (salt ++ iv ++ ct)).drop 88 = ct := by
    rw [show 88 = 48 + 40 from rfl, ← List.drop_drop, f3, ← hil, List.drop_left]
  have f5 : ((magic 0 ++ (salt ++ iv ++ ct)).drop 48).take 40 = iv := by
    rw [f3, ← hil, List.take_left]
  have f6 : (magic 0 ++ (salt ++ iv ++ ct)).length = 88 + ct.length := by
    simp [hm16, g4, hil]; omega
  generalize hF : magic 0 ++ (salt ++ iv ++ ct) = F at *
  obtain ⟨k1, k2, k3⟩ := credentials_single hc
  unfold decryptSingle
  simp only [z2, z4, z5, f0, f2, f4, f5, k1, k2, k3, g1, g2]
  rw [if_neg (by omega), if_neg (by simp), if_neg (by omega)]
  have hch : checkHash P (magic 0 ++ salt ++ iv) (P.sha512 (magic 0 ++ salt ++ iv ++ pt) ++ pt) = .ok pt := by
    unfold checkHash
    have hl := hP.sha512_length (magic 0 ++ salt ++ iv ++ pt)
    rw [z7, if_neg (by rw [List.length_append, hl]; omega), ← hl, List.drop_left, List.take_left, if_pos rfl]
  rw [hch]

/-- Non-vacuity: there are lawful primitives, parameters they accept, and both kinds of credentials. -/
example : ∃ (p : Params) (key salt f : Str), p.nUsers = 0 ∧ p.keys.head? = some key ∧ p.salts.head? = some salt ∧
    encrypt toy 1 p (List.replicate 40 7) (b! "secret") = .ok f ∧
    Credentials toy (b! "pw") none [] salt key ∧ Credentials toy [] (some key) salt salt key := by
  let key := toy.kdf (b! "pw") []
  let salt : Str := List.replicate 32 5
  let p : Params := { keys := [key], salts := [salt] }
  obtain ⟨ct, ls, -, -, h, -⟩ := encrypt_single toy toy_lawful p (List.replicate 40 7) (b! "secret") key salt
    (by decide) rfl rfl rfl (by decide) (by decide)
  exact ⟨p, key, salt, _, rfl, rfl, rfl, h, .inl ⟨by decide, rfl, .inl rfl⟩, .inr ⟨rfl, rfl⟩⟩

/-! ## C43 -/

theorem recs_get {n : Nat} {us ss ivs ks : List Str} (h : WfUsers n us ss ivs ks) {i : Nat} {u s iv k : Str}
    (hu : us[i]? = some u) (hs : ss[i]? = some s) (hi : ivs[i]? = some iv) (hk : ks[i]? = some k) :
    (recs us ss ivs ks)[i]? = some ⟨u, s, iv, k⟩ := by
  obtain ⟨r1, r2, r3, r4, r5⟩ := recs_maps h
  generalize hr : recs us ss ivs ks = rs at *
  subst r1 r2 r3 r4
  simp only [List.getElem?_map, Option.map_eq_some_iff] at hu hs hi hk
  obtain ⟨r, h1, h2⟩ := hu
  obtain ⟨r', h1', h2'⟩ := hs
  obtain ⟨r'', h1'', h2''⟩ := hi
  obtain ⟨r''', h1''', h2'''⟩ := hk
  rw [h1] at h1' h1'' h1'''
  cases h1'; cases h1''; cases h1'''
  rw [h1, ← h2, ← h2', ← h2'', ← h2''']

/-- a wrapped master key can be unwrapped -/
theorem unwrap (P : Prims) (hP : Lawful P) (key m iv mk iv' : Str)
    (hi : iv.length = 40) (h : encryptMasterKey P 1 key m iv = .ok (mk, iv')) :
    key.length = 80 ∧ m.length = 80 ∧ iv' = iv ∧
    ∃ lk, layers suite key iv = some lk ∧ decRaw P lk mk = some m ∧ mk.length = 80 := by
  obtain ⟨z1, z2, -⟩ := sizes
  unfold encryptMasterKey at h
  rw [if_neg (by simp)] at h
  split at h
  · cases h
  · rename_i h1
    split at h
    · cases h
    · rename_i h2
      have h1 : m.length = 80 := by omega
      have h2 : key.length = 80 := by omega
      obtain ⟨ls, g1, g2, -⟩ := suite_layers key iv h2 hi
      obtain ⟨ct, c1, c2, c3⟩ := decRaw_encRaw P hP ls g2 m
        (fun l hl => by rw [h1]; exact (blockSize_pos l.1).2.2)
      rw [g1] at h
      simp only [c1] at h
      cases h
      exact ⟨h2, h1, rfl, ls, g1, c2, by omega⟩

theorem credentials_multi {P : Prims} {pass : Str} {ck : Option Str} {cs salt key : Str}
    (h : Credentials P pass ck cs salt key) (hk : key.length = 80) : KeyFrom P pass ck cs salt key := by
  rcases h with ⟨h1, h2, h3⟩ | ⟨h1, h2⟩
  · refine .inl ⟨?_, h1, h2⟩
    rcases h3 with h3 | h3
    · exact .inl (by simp [h3])
    · exact .inr h3
  · refine .inr ⟨h1, ?_, h2⟩
    rintro rfl
    simp at hk

/-- What `Decrypt` gives on a file with users when the record it looks at holds the master key, wrapped for the given
credentials: everything hinges on whether the name was found. -/
theorem decrypt_record (P : Prims) (hP : Lawful P) (p : Params) (n : Nat) (hw : WfMulti p n) (hmax : n ≤ 9999)
    (iv pt f ivm m : Str) (hi : p.ivm = some ivm) (hm : p.master = some m) (he : encrypt P 1 p iv pt = .ok f)
    (name pass : Str) (ck : Option Str) (cs : Str) (hname : name ≠ [])
    (found : Option Nat) (hfd : findUserRec (P.sha256 name) (recs p.users p.salts p.ivs p.mkeys) = found)
    (hash salt uiv mk key : Str) (h1 : p.users[found.getD 0]? = some hash) (h2 : p.salts[found.getD 0]? = some salt)
    (h3 : p.ivs[found.getD 0]? = some uiv) (h4 : p.mkeys[found.getD 0]? = some mk)
    (hc : Credentials P pass ck cs salt key) (hwrap : encryptMasterKey P 1 key m uiv = .ok (mk, uiv))
    (N : Nat) (hN : N = if found.isSome then n else n + 1) :
    ∃ ct, f = multiHeader n p.users p.salts p.ivs p.mkeys ivm ++ ct ∧ ct.length ≤ 64 + pt.length + 40 ∧
    decrypt P name pass ck cs f =
      if f.length < 16 + 184 * N + 40 then .panic
      else if P.sha512 (f.take (16 + 184 * N + 40) ++ pt) =
          P.sha512 (multiHeader n p.users p.salts p.ivs p.mkeys ivm ++ pt) then
        .ok (1, { version := 1, nUsers := N, user := (found.getD 0 : Nat)
                  keys := (List.replicate N []).set (found.getD 0) key
                  salts := if found.isSome then p.salts else p.salts ++ [List.replicate 32 0]
                  users := p.users
                  ivs := if found.isSome then p.ivs else p.ivs ++ [List.replicate 40 0]
                  mkeys := if found.isSome then p.mkeys else p.mkeys ++ [List.replicate 80 0]
                  ivm := some ivm, master := some m }, pt)
      else .err .wrongPassphrase := by
  have hil := hw.users.ivs_size uiv (List.mem_of_getElem? h3)
  obtain ⟨k1, k2, -, lk, k3, k4, -⟩ := unwrap P hP key m uiv mk uiv hil hwrap
  obtain ⟨ct, ls, g1, g2, g3, g4⟩ := encrypt_multi P hP p n hw iv pt ivm m hi hm
  rw [g3] at he
  simp only [Res.ok.injEq] at he
  have hsl := hP.sha512_length (multiHeader n p.users p.salts p.ivs p.mkeys ivm ++ pt)
  have hd := decryptMulti_eq P hw.users ivm ct (hw.ivm ivm hi) name pass ck cs found hfd _ key m _ lk ls
    (recs_get hw.users h1 h2 h3 h4) (credentials_multi hc k1) k3 k4 g1 g2 (by simp [hsl]) f he.symm N hN
  have hdl : ((P.sha512 (multiHeader n p.users p.salts p.ivs p.mkeys ivm ++ pt)) ++ pt).drop 64 = pt := by
    rw [← hsl, List.drop_left]
  have htl : ((P.sha512 (multiHeader n p.users p.salts p.ivs p.mkeys ivm ++ pt)) ++ pt).take 64 =
      P.sha512 (multiHeader n p.users p.salts p.ivs p.mkeys ivm ++ pt) := by
    rw [← hsl, List.take_left]
  rw [hdl, htl] at hd
  refine ⟨ct, he.symm, g4, ?_⟩
  obtain ⟨m', d1, d2, -, d4⟩ := decrypt_header P name pass ck cs n
    (records p.users p.salts p.ivs p.mkeys ++ ivm ++ ct)
  have hm' := d2 (by omega)
  subst hm'
  have hpos := hw.pos
  have e : f = (magic n).take 16 ++ (records p.users p.salts p.ivs p.mkeys ++ ivm ++ ct) := by
    rw [← he]; simp [multiHeader]
  rw [← e] at d4
  rw [d4, if_neg (by simp [hname]), if_neg (by omega), hd]
  by_cases c1 : f.length < 16 + 184 * N + 40
  · simp only [c1, if_true]
  · by_cases c2 : P.sha512 (f.take (16 + 184 * N + 40) ++ pt) =
        P.sha512 (multiHeader n p.users p.salts p.ivs p.mkeys ivm ++ pt)
    · simp only [c1, c2, if_true, if_false]
    · simp only [c1, c2, if_false]

/-- Every user of a multi-user file can open it, and gets everybody's data back. Missing for the full claim: more than
9999 users, for which it is false (`C43_false`). -/
theorem C43_multi_roundtrip_partial (P : Prims) (hP : Lawful P) (p : Params) (iv pt f ivm m : Str)
    (h0 : p.nUsers ≠ 0) (hmax : p.nUsers ≤ 9999) (hi : p.ivm = some ivm) (hm : p.master = some m)
    (he : encrypt P 1 p iv pt = .ok f)
    (i : Nat) (name pass : Str) (ck : Option Str) (cs : Str) (hname : name ≠ [])
    (salt uiv mk key : Str) (h1 : p.users[i]? = some (P.sha256 name))
    (hfirst : ∀ j < i, p.users[j]? ≠ some (P.sha256 name)) (h2 : p.salts[i]? = some salt)
    (h3 : p.ivs[i]? = some uiv) (h4 : p.mkeys[i]? = some mk)
    (hc : Credentials P pass ck cs salt key) (hwrap : encryptMasterKey P 1 key m uiv = .ok (mk, uiv)) :
    decrypt P name pass ck cs f =
      .ok (1, { p with version := 1, user := i, keys := (List.replicate p.nUsers.toNat []).set i key }, pt) := by
  obtain ⟨-, hv, -⟩ := encrypt_shape P 1 p iv pt f he
  obtain ⟨n, hw⟩ := (validate_multi h0).1 hv
  have hn := hw.nUsers
  obtain ⟨r1, -⟩ := recs_maps hw.users
  have hfd : findUserRec (P.sha256 name) (recs p.users p.salts p.ivs p.mkeys) = some i := by
    rw [findUserRec_some]
    refine ⟨⟨_, recs_get hw.users h1 h2 h3 h4, rfl⟩, fun j hj r hr hh => hfirst j hj ?_⟩
    have hh' := congrArg (·[j]?) r1
    simp only [List.getElem?_map, hr, Option.map_some, hh] at hh'
    exact hh'.symm
  obtain ⟨ct, e1, -, e2⟩ := decrypt_record P hP p n hw (by omega) iv pt f ivm m hi hm he name pass ck cs hname
    (some i) hfd _ salt uiv mk key h1 h2 h3 h4 hc hwrap n rfl
  have hl := multiHeader_length hw.users ivm (hw.ivm ivm hi)
  rw [e2, if_neg (by rw [e1]; simp [hl]), if_pos]
  · simp only [Option.getD_some, Option.isSome_some, if_true, hn, Int.toNat_natCast, hi, hm]
  · rw [e1, ← hl, List.take_left]

/-- Two users, the second wrapped for passphrase "pw". -/
def twoUsers : Params :=
  let m : Str := List.replicate 80 3
  let z : Str := List.replicate 40 1
  { nUsers := 2, user := 0, keys := [[], []], salts := [List.replicate 32 1, List.replicate 32 2]
    users := [toy.sha256 (b! "alice"), toy.sha256 (b! "bob")], ivs := [z, z]
    mkeys := [match encryptMasterKey toy 1 (toy.kdf (b! "apw") []) m z with | .ok (k, _) => k | _ => [],
      match encryptMasterKey toy 1 (toy.kdf (b! "pw") []) m z with | .ok (k, _) => k | _ => []]
    ivm := some z, master := some m }

/-- Non-vacuity of C43: the hypotheses hold for bob. -/
example : twoUsers.validate = true ∧ (∃ f, encrypt toy 1 twoUsers [] (b! "x") = .ok f) ∧
    twoUsers.users[1]? = some (toy.sha256 (b! "bob")) ∧
    (∀ j < 1, twoUsers.users[j]? ≠ some (toy.sha256 (b! "bob"))) ∧
    Credentials toy (b! "pw") none [] (List.replicate 32 2) (toy.kdf (b! "pw") (List.replicate 32 2)) ∧
    encryptMasterKey toy 1 (toy.kdf (b! "pw") (List.replicate 32 2)) (List.replicate 80 3) (List.replicate 40 1) =
      .ok (twoUsers.mkeys[1]?.getD [], List.replicate 40 1) := by
  have hv : twoUsers.validate = true := by decide
  refine ⟨hv, ?_, by decide, by decide, .inl ⟨by decide, rfl, .inl rfl⟩, by decide⟩
  obtain ⟨n, hw⟩ := (validate_multi (p := twoUsers) (by decide)).1 hv
  obtain ⟨ct, ls, -, -, h, -⟩ := encrypt_multi toy toy_lawful twoUsers n hw [] (b! "x") _ _ rfl rfl
  exact ⟨_, h⟩

/-- The bound on the number of users is needed. The header has four characters for it: from ten thousand users on
`Decrypt` never returns the parameters that were encrypted, whatever the credentials. -/
theorem C43_false (P : Prims) (p : Params) (iv pt f : Str) (h : 10000 ≤ p.nUsers)
    (he : encrypt P 1 p iv pt = .ok f) (user pass : Str) (ck : Option Str) (cs : Str) (v : Int) (q : Params)
    (pt' : Str) : decrypt P user pass ck cs f = .ok (v, q, pt') → q.nUsers ≠ p.nUsers := by
  intro hd hq
  obtain ⟨-, -, rest, hf⟩ := encrypt_shape P 1 p iv pt f he
  obtain ⟨-, k, p', h1, h2, h3, h4⟩ := decrypt_ok hd
  obtain ⟨-, -, g3, -⟩ := magic_parts p.nUsers.toNat rest
  rw [← hf] at g3
  rw [g3] at h1
  obtain ⟨k1, k2, -⟩ := fmt4_facts p.nUsers.toNat
  have hk : k ≤ 9999 := by
    have hlen : ((fmt4 p.nUsers.toNat).take 4).length ≤ 4 := by simp; omega
    have hall : ((fmt4 p.nUsers.toNat).take 4).all isDigit = true := by
      rw [List.all_eq_true] at k2 ⊢
      exact fun x hx => k2 x (List.mem_of_mem_take hx)
    generalize (fmt4 p.nUsers.toNat).take 4 = s at *
    have hne : s ≠ [] := by
      rintro rfl
      simp [parseSigned] at h1
    rw [parseSigned_digits s hne hall] at h1
    cases h1
    have digit : ∀ b : UInt8, isDigit b = true → b.toNat - 48 ≤ 9 := by
      intro b hb; have := (isDigit_iff b).1 hb; omega
    match s, hlen, hall with
    | [], _, _ => simp
    | [a], _, h => simp at h; have := digit a h; simp; omega
    | [a, b], _, h =>
      simp at h; have := digit a h.1; have := digit b h.2
      simp; omega
    | [a, b, c], _, h =>
      simp at h; have := digit a h.1; have := digit b h.2.1; have := digit c h.2.2
      simp; omega
    | [a, b, c, d], _, h =>
      simp at h
      have := digit a h.1; have := digit b h.2.1; have := digit c h.2.2.1; have := digit d h.2.2.2
      simp; omega
    | _ :: _ :: _ :: _ :: _ :: _, hl, _ => simp at hl
  subst h2
  by_cases h0 : k = 0
  · obtain ⟨-, key, ls, hp, -⟩ := decryptSingle_ok (h3 h0)
    rw [hp] at hq
    simp at hq
    omega
  · obtain ⟨-, hp, -⟩ := decryptMulti_ok h0 (h4 h0).2
    simp only at hq
    by_cases hten : p.nUsers = 10000
    · rw [hten] at h1
      have : parseSigned ((fmt4 (10000 : Int).toNat).take 4) = some 1000 := by decide
      rw [this] at h1
      cases h1
      omega
    · omega

/-- `n` users with the same data -/
def manyUsers (n : Nat) : Params :=
  { nUsers := n, keys := List.replicate n [], salts := List.replicate n (List.replicate 32 1)
    users := List.replicate n (List.replicate 32 2), ivs := List.replicate n (List.replicate 40 3)
    mkeys := List.replicate n (List.replicate 80 4), ivm := some (List.replicate 40 5)
    master := some (List.replicate 80 6) }

theorem manyUsers_wf (n : Nat) (h : 0 < n) : WfMulti (manyUsers n) n where
  nUsers := rfl
  pos := h
  users := by
    refine ⟨List.length_replicate, List.length_replicate, List.length_replicate, List.length_replicate, ?_, ?_, ?_, ?_⟩
    all_goals
      intro x hx
      rw [List.eq_of_mem_replicate hx]
      simp
  keys := List.length_replicate
  keySizes k hk := .inl (by rw [List.eq_of_mem_replicate hk]; rfl)
  user := ⟨Int.le_refl _, by show (0 : Int) < n; omega⟩
  ivm iv h := by cases h; simp
  master k h := by cases h; simp

/-- Non-vacuity of `C43_false`: `Encrypt` does accept ten thousand users. -/
example (P : Prims) (hP : Lawful P) (pt : Str) : ∃ p f, 10000 ≤ p.nUsers ∧ encrypt P 1 p [] pt = .ok f := by
  obtain ⟨ct, ls, -, -, h, -⟩ := encrypt_multi P hP (manyUsers 10000) 10000 (manyUsers_wf _ (by omega)) [] pt _ _ rfl rfl
  exact ⟨_, _, Int.le_refl _, h⟩

/-! ## C44 -/

/-- Whatever `Decrypt` returns was authenticated: the payload, decrypted, is the hash of the file's plaintext header
and the returned plaintext, followed by that plaintext. `k` is where the payload starts; at least everything before
it is hashed, `k'` bytes in all. They differ only if the user is not in the file. -/
theorem C44_authenticated (P : Prims) (user pass : Str) (ck : Option Str) (cs f pt : Str) (v : Int) (q : Params)
    (h : decrypt P user pass ck cs f = .ok (v, q, pt)) :
    ∃ (n : Nat) (k k' : Nat) (key iv : Str) (ls : List (Alg × Str × Str)),
      parseSigned ((f.drop 12).take 4) = some (n : Int) ∧
      k = (if n = 0 then 16 + 32 + 40 else 16 + 184 * n + 40) ∧ k ≤ k' ∧ k' ≤ f.length ∧
      (k' = k ∨ k' = k + 184 ∧ n ≠ 0 ∧ ∀ i < n, (f.drop (16 + 184 * i)).take 32 ≠ P.sha256 user) ∧
      iv = (f.drop (k - 40)).take 40 ∧
      (n = 0 → q.keys = [key]) ∧ (n ≠ 0 → q.master = some key) ∧
      layers suite key iv = some ls ∧
      decUnpad P ls (f.drop k) = .ok (P.sha512 (f.take k' ++ pt) ++ pt) := by
  obtain ⟨-, n, p', h1, h2, h3, h4⟩ := decrypt_ok h
  subst h2
  by_cases h0 : n = 0
  · obtain ⟨g1, key, ls, g2, g3, g4⟩ := decryptSingle_ok (h3 h0)
    refine ⟨0, 88, 88, key, _, ls, by rw [h1, h0]; rfl, rfl, Nat.le_refl _, g1, .inl rfl, rfl, ?_, by simp, g3, g4⟩
    intro _
    rw [g2]
  · obtain ⟨g1, g2, g3, g4, m, ls, g5, g6, g7, g8⟩ := decryptMulti_ok h0 (h4 h0).2
    have hne : n.toNat ≠ 0 := by omega
    refine ⟨n.toNat, 16 + 184 * n.toNat + 40, 16 + 184 * p'.nUsers.toNat + 40, m, _, ls, ?_, by rw [if_neg hne], ?_, g4,
      ?_, rfl, fun h => absurd h hne, fun _ => g6, ?_, g8⟩
    · rw [h1]; congr 1; omega
    · omega
    · rcases g2 with g2 | g2
      · exact .inl (by rw [g2])
      · refine .inr ⟨by omega, hne, fun i hi he => ?_⟩
        have := g3.2 ⟨i, hi, he⟩
        omega
    · rw [show 16 + 184 * n.toNat + 40 - 40 = 16 + 184 * n.toNat by omega]
      exact g7

/-- No splicing: two files that open under the same payload key, with the same payload and its iv, but with different
headers (say, another user's record replaced) would give a SHA-512 collision. -/
theorem C44_no_splice (P : Prims) (hP : Lawful P) (user pass user' pass' : Str) (ck ck' : Option Str)
    (cs cs' f f' pt pt' : Str) (v v' : Int) (q q' : Params)
    (h : decrypt P user pass ck cs f = .ok (v, q, pt)) (h' : decrypt P user' pass' ck' cs' f' = .ok (v', q', pt'))
    (n : Nat) (hn : n ≠ 0) (hq : q.nUsers = n) (hq' : q'.nUsers = n)
    (hf : parseSigned ((f.drop 12).take 4) = some (n : Int))
    (hf' : parseSigned ((f'.drop 12).take 4) = some (n : Int))
    (hm : q.master = q'.master)
    (htail : f.drop (16 + 184 * n) = f'.drop (16 + 184 * n)) (hdiff : f ≠ f') :
    pt = pt' ∧ Collision P (f.take (16 + 184 * n + 40) ++ pt) (f'.take (16 + 184 * n + 40) ++ pt) := by
  obtain ⟨-, k, p1, a1, a2, -, a4⟩ := decrypt_ok h
  obtain ⟨-, k', p2, b1, b2, -, b4⟩ := decrypt_ok h'
  rw [hf] at a1; rw [hf'] at b1
  cases a1; cases b1
  subst a2 b2
  have hn' : (n : Int) ≠ 0 := by omega
  obtain ⟨-, -, -, g4, m, ls, g5, g6, g7, g8⟩ := decryptMulti_ok hn' (a4 hn').2
  obtain ⟨-, -, -, e4, m', ls', e5, e6, e7, e8⟩ := decryptMulti_ok hn' (b4 hn').2
  simp only [Int.toNat_natCast] at *
  rw [hq] at g4 g8; rw [hq'] at e4 e8
  simp only [Int.toNat_natCast] at *
  rw [g6, e6] at hm
  cases hm
  rw [← htail] at e7
  rw [g7] at e7
  cases e7
  have ht : f.drop (16 + 184 * n + 40) = f'.drop (16 + 184 * n + 40) := by
    rw [← List.drop_drop, htail, List.drop_drop]
  rw [ht, e8] at g8
  simp only [Res.ok.injEq] at g8
  obtain ⟨x1, x2⟩ := List.append_inj g8 (by rw [hP.sha512_length, hP.sha512_length])
  subst x2
  refine ⟨rfl, ?_, x1.symm⟩
  intro hc
  have := List.append_cancel_right hc
  exact hdiff (by rw [← List.take_append_drop (16 + 184 * n + 40) f, this, ht, List.take_append_drop])

/-- Non-vacuity of C44: there are files that open (with the toy primitives). -/
example : ∃ f q, decrypt toy (b! "bob") (b! "pw") none [] f = .ok (1, q, b! "x") := by
  have hv : twoUsers.validate = true := by decide
  obtain ⟨n, hw⟩ := (validate_multi (p := twoUsers) (by decide)).1 hv
  obtain ⟨ct, ls, -, -, h, -⟩ := encrypt_multi toy toy_lawful twoUsers n hw [] (b! "x") _ _ rfl rfl
  exact ⟨_, _, C43_multi_roundtrip_partial toy toy_lawful twoUsers [] (b! "x") _ _ _ (by decide) (by decide) rfl rfl h 1
    (b! "bob") (b! "pw") none [] (by decide) (List.replicate 32 2) (List.replicate 40 1) (twoUsers.mkeys[1]?.getD [])
    (toy.kdf (b! "pw") (List.replicate 32 2)) (by decide) (by decide) rfl rfl rfl (.inl ⟨by decide, rfl, .inl rfl⟩)
    (by decide)⟩

/-! ## C45 -/

/-- False, for every choice of primitives: a file that ends one byte after the header crashes `Decrypt`, because the
CBC decrypter is given an input that is not full blocks. -/
theorem C45_false (P : Prims) (hP : Lawful P) (user pass : Str) (hp : pass ≠ []) (x : UInt8) :
    decrypt P user pass none [] (magic 0 ++ List.replicate 32 0 ++ List.replicate 40 0 ++ [x]) = .panic := by
  obtain ⟨z1, z2, z3, z4, z5, z6, z7⟩ := sizes
  have h16 : (magic 0).take 16 = magic 0 := List.take_of_length_le (by decide)
  have hm16 : (magic 0).length = 16 := by decide
  obtain ⟨m, d1, -, -, d4⟩ := decrypt_header P user pass none [] 0
    (List.replicate 32 0 ++ List.replicate 40 0 ++ [x])
  have hm : m = 0 := by
    by_cases h : m = 0
    · exact h
    · exact absurd rfl (d1.1 h)
  subst hm
  rw [h16] at d4
  have e : magic 0 ++ List.replicate 32 0 ++ List.replicate 40 0 ++ [x] =
    magic 0 ++ (List.replicate 32 0 ++ List.replicate 40 0 ++ [x]) := by simp
  rw [e, d4]
  simp only [ne_eq, not_true_eq_false, false_and, if_false, if_true]
  generalize hs : (List.replicate 32 0 : Str) = s
  have hsl : s.length = 32 := by rw [← hs]; simp
  generalize hi : (List.replicate 40 0 : Str) = iv
  have hil : iv.length = 40 := by rw [← hi]; simp
  have f1 : (magic 0 ++ (s ++ iv ++ [x])).drop 16 = s ++ iv ++ [x] := by rw [← hm16, List.drop_left]
  have f2 : ((magic 0 ++ (s ++ iv ++ [x])).drop 16).take 32 = s := by
    rw [f1, ← hsl, List.append_assoc, List.take_left]
  have f3 : (magic 0 ++ (s ++ iv ++ [x])).drop 48 = iv ++ [x] := by
    rw [show 48 = 16 + 32 from rfl, ← List.drop_drop, f1, ← hsl, List.append_assoc, List.drop_left]
  have f4 : (magic 0 ++ (s ++ iv ++ [x])).drop 88 = [x] := by
    rw [show 88 = 48 + 40 from rfl, ← List.drop_drop, f3, ← hil, List.drop_left]
  have f5 : ((magic 0 ++ (s ++ iv ++ [x])).drop 48).take 40 = iv := by
    rw [f3, ← hil, List.take_left]
  have f6 : (magic 0 ++ (s ++ iv ++ [x])).length = 89 := by simp [hm16, hsl, hil]
  generalize hF : magic 0 ++ (s ++ iv ++ [x]) = F at *
  obtain ⟨ls, g1, -, g3, -⟩ := suite_layers (P.kdf pass s) iv (hP.kdf_length _ _) hil
  have hdec : decUnpad P ls [x] = .panic := by
    match ls, g3 with
    | [(_, k1, i1), (_, k2, i2), (_, k3, i3)], g3 =>
      simp only [List.map_cons, List.map_nil, suite, List.cons.injEq, and_true] at g3
      obtain ⟨rfl, rfl, rfl⟩ := g3
      simp [decUnpad, cbcDec, Alg.blockSize]
  unfold decryptSingle
  simp only [z2, z4, z5, f2, f4, f5, Option.isNone_none, Bool.true_or, if_true, g1, hdec]
  rw [if_neg (by omega), if_neg (by cases pass <;> simp_all), if_neg (by omega)]

set_option maxRecDepth 100000 in
/-- Also a wrong passphrase on an intact file can crash `Decrypt`: with the last layer's garbage accepted as padding
of the wrong length, the next layer does not get full blocks. -/
theorem C45_wrong_passphrase_false : ∃ (P : Prims) (p : Params) (iv pt f pass : Str), Lawful P ∧
    encrypt P 1 p iv pt = .ok f ∧ decrypt P [] pass none [] f = .panic := by
  let p : Params := { keys := [toy.kdf [1] []], salts := [List.replicate 32 0] }
  let f := match encrypt toy 1 p (List.replicate 40 0) [] with | .ok f => f | _ => []
  exact ⟨toy, p, List.replicate 40 0, [], f, [248], toy_lawful, by decide, by decide⟩

/-- What does hold: 16 bytes are enough for `IsMultiUser`; -/
theorem C45_isMultiUser_partial (f : Str) (h : 16 ≤ f.length) : isMultiUser f ≠ .panic := by
  unfold isMultiUser verifyMagic
  rw [if_neg (by omega)]
  by_cases h1 : f.take 8 ≠ magicStr
  · rw [if_pos h1]; simp
  · rw [if_neg h1]
    cases parseSigned ((f.drop 8).take 4) with
    | none => simp
    | some v =>
      simp only
      rw [if_neg (by rw [sizes.2.2.2.2.1]; omega)]
      cases parseSigned ((f.drop 12).take 4) <;> simp

/-- and anything of at least 16 bytes that does not start with the magic string and version 1 is refused with an error. -/
theorem C45_magic_partial (P : Prims) (user pass : Str) (ck : Option Str) (cs f : Str) (h : 16 ≤ f.length)
    (hm : f.take 8 ≠ magicStr ∨ parseSigned ((f.drop 8).take 4) ≠ some 1 ∨
      parseSigned ((f.drop 12).take 4) = none) : ∃ e, decrypt P user pass ck cs f = .err e := by
  unfold decrypt
  rw [if_neg (by rw [sizes.2.2.2.2.1]; omega)]
  split
  · exact ⟨_, rfl⟩
  · unfold verifyMagic
    rw [if_neg (by omega)]
    by_cases h1 : f.take 8 ≠ magicStr
    · rw [if_pos h1]; exact ⟨_, rfl⟩
    · rw [if_neg h1]
      cases hv : parseSigned ((f.drop 8).take 4) with
      | none => exact ⟨_, rfl⟩
      | some v =>
        simp only
        by_cases hv1 : v = 1
        · rw [if_neg (by simp [hv1])]
          rcases hm with hm | hm | hm
          · exact absurd hm h1
          · exact absurd (by rw [hv, hv1]) hm
          · rw [hm]; exact ⟨_, rfl⟩
        · rw [if_pos hv1]; exact ⟨_, rfl⟩

/-- Non-vacuity of the partial results. -/
example : isMultiUser (b! "blobpass00010002") = .ok true ∧
    decrypt toy [] [] none [] (b! "blobpass00020000") = .err .unknownVersion := by decide

/-! ## C46 -/

/-- `ErrUnknownUser` is never returned. -/
theorem decUnpad_err (P : Prims) (ls : List (Alg × Str × Str)) (w : Str) (e : CErr) (h : decUnpad P ls w = .err e) :
    e = .wrongPassphrase := by
  induction ls with
  | nil => simp [decUnpad] at h
  | cons l ls ih =>
    obtain ⟨a, k, iv⟩ := l
    simp only [decUnpad] at h
    split at h
    · rename_i e' he; cases h; exact ih he
    · cases h
    · split at h
      · cases h
      · split at h
        · cases h
        · cases h; rfl

theorem checkHash_err (P : Prims) (h w : Str) (e : CErr) (he : checkHash P h w = .err e) : e = .wrongPassphrase := by
  unfold checkHash at he
  split at he
  · cases he
  · split at he
    · cases he
    · cases he; rfl

/-- False: the caller cannot tell, `ErrUnknownUser` is never returned, for any input. -/
theorem C46_unknownUser_false (P : Prims) (user pass : Str) (ck : Option Str) (cs f : Str) :
    decrypt P user pass ck cs f ≠ .err .unknownUser := by
  have hs : ∀ e, decryptSingle P pass ck cs f = .err e → e = .wrongPassphrase := by
    intro e h
    unfold decryptSingle at h
    simp only at h
    repeat' split at h
    all_goals first
      | cases h; done
      | (cases h; rfl; done)
      | (cases h; exact decUnpad_err _ _ _ _ (by assumption))
      | (cases h; exact checkHash_err _ _ _ _ (by assumption))
  have hm : ∀ n e, decryptMulti P n user pass ck cs f = .err e → e = .wrongPassphrase := by
    intro n e h
    unfold decryptMulti at h
    cases hp : parseUsers n.toNat (f.drop magicLen) with
    | none => rw [hp] at h; cases h
    | some x =>
      rw [hp] at h
      simp only at h
      generalize (findUserRec (P.sha256 user) x.1) = found at h
      generalize (if found.isSome = true then x.1 else x.1 ++ _) = rs' at h
      generalize (if found.isSome = true then n else n + 1) = N at h
      repeat' split at h
      all_goals first
        | cases h; done
        | (cases h; rfl; done)
        | (cases h; exact decUnpad_err _ _ _ _ (by assumption))
        | (cases h; exact checkHash_err _ _ _ _ (by assumption))
  have hv : ∀ e, verifyMagic f = .err e → e = .invalidFormat := by
    intro e h
    unfold verifyMagic at h
    repeat' split at h
    all_goals first
      | cases h; done
      | (cases h; rfl; done)
  intro h
  unfold decrypt at h
  split at h
  · cases h
  · split at h
    · cases h
    · split at h
      · cases h
      · rename_i e he
        have := hv e he
        subst this
        cases h
      · split at h
        · cases h
        · split at h
          · cases h
          · rename_i n hn
            split at h
            · cases h
            · simp only at h
              split at h
              · cases h
              · rename_i e he
                simp only [Res.err.injEq] at h
                subst h
                by_cases h0 : n = 0
                · rw [if_pos h0] at he; cases hs _ he
                · rw [if_neg h0] at he; cases hm _ _ he
              · cases h

/-- A name that is not in the file, given with credentials that open the first user's record (whose salt and wrapped
key are used): the program crashes if the file is not long enough for one more record; otherwise the answer is
`ErrWrongPassphrase`, unless the file exhibits a SHA-512 collision, which is named. -/
theorem C46_unknown_partial (P : Prims) (hP : Lawful P) (p : Params) (iv pt f ivm m : Str)
    (h0 : p.nUsers ≠ 0) (hmax : p.nUsers ≤ 9999) (hi : p.ivm = some ivm) (hm : p.master = some m)
    (he : encrypt P 1 p iv pt = .ok f)
    (name pass : Str) (ck : Option Str) (cs : Str) (hname : name ≠ [])
    (salt uiv mk key : Str) (hun : ∀ u ∈ p.users, u ≠ P.sha256 name) (h2 : p.salts[0]? = some salt)
    (h3 : p.ivs[0]? = some uiv) (h4 : p.mkeys[0]? = some mk)
    (hc : Credentials P pass ck cs salt key) (hwrap : encryptMasterKey P 1 key m uiv = .ok (mk, uiv)) :
    (f.length < 16 + 184 * (p.nUsers.toNat + 1) + 40 → decrypt P name pass ck cs f = .panic) ∧
    (16 + 184 * (p.nUsers.toNat + 1) + 40 ≤ f.length →
      decrypt P name pass ck cs f = .err .wrongPassphrase ∨
      Collision P (f.take (16 + 184 * (p.nUsers.toNat + 1) + 40) ++ pt)
        (f.take (16 + 184 * p.nUsers.toNat + 40) ++ pt)) ∧
    (pt.length < 80 → decrypt P name pass ck cs f = .panic) := by
  obtain ⟨-, hv, -⟩ := encrypt_shape P 1 p iv pt f he
  obtain ⟨n, hw⟩ := (validate_multi h0).1 hv
  have hn := hw.nUsers
  obtain ⟨r1, -⟩ := recs_maps hw.users
  have hfd : findUserRec (P.sha256 name) (recs p.users p.salts p.ivs p.mkeys) = none := by
    rw [findUserRec_none]
    intro r hr
    refine hun _ ?_
    rw [← r1]
    exact List.mem_map_of_mem hr
  have hlen := hw.users.us_length
  have hpos := hw.pos
  obtain ⟨ct, e1, e3, e2⟩ := decrypt_record P hP p n hw (by omega) iv pt f ivm m hi hm he name pass ck cs hname
    none hfd _ salt uiv mk key (List.getElem?_eq_getElem (by simp; omega)) h2 h3 h4 hc hwrap (n + 1) rfl
  have hl := multiHeader_length hw.users ivm (hw.ivm ivm hi)
  rw [hn]
  simp only [Int.toNat_natCast]
  have hfl : f.length = 16 + 184 * n + 40 + ct.length := by rw [e1, List.length_append, hl]
  have ht : f.take (16 + 184 * n + 40) = multiHeader n p.users p.salts p.ivs p.mkeys ivm := by
    rw [e1, ← hl, List.take_left]
  refine ⟨fun hs => by rw [e2, if_pos hs], fun hs => ?_, fun hs => by rw [e2, if_pos (by omega)]⟩
  rw [e2, if_neg (by omega)]
  by_cases hcol : P.sha512 (f.take (16 + 184 * (n + 1) + 40) ++ pt) =
      P.sha512 (multiHeader n p.users p.salts p.ivs p.mkeys ivm ++ pt)
  · refine .inr ⟨?_, by rw [ht]; exact hcol⟩
    intro hc
    have := congrArg List.length (List.append_cancel_right hc)
    simp only [List.length_take] at this
    omega
  · rw [if_neg hcol]
    exact .inl rfl

/-- Non-vacuity: "carol" is not in the file and alice's passphrase opens the first record. -/
example : (∀ u ∈ twoUsers.users, u ≠ toy.sha256 (b! "carol")) ∧
    Credentials toy (b! "apw") none [] (List.replicate 32 1) (toy.kdf (b! "apw") (List.replicate 32 1)) ∧
    encryptMasterKey toy 1 (toy.kdf (b! "apw") (List.replicate 32 1)) (List.replicate 80 3) (List.replicate 40 1) =
      .ok (twoUsers.mkeys[0]?.getD [], List.replicate 40 1) :=
  ⟨by decide, .inl ⟨by decide, rfl, .inl rfl⟩, by decide⟩

/-! ## C47 -/

/-- Single-user: the returned parameters are valid, and what is encrypted with them opens with the same credentials. -/
theorem C47_single (P : Prims) (hP : Lawful P) (p : Params) (iv pt key salt f : Str)
    (h0 : p.nUsers = 0) (hk : p.keys.head? = some key) (hs : p.salts.head? = some salt) (hil : iv.length = 40)
    (he : encrypt P 1 p iv pt = .ok f)
    (user pass : Str) (ck : Option Str) (cs : Str) (hc : Credentials P pass ck cs salt key) :
    ∃ q, decrypt P user pass ck cs f = .ok (1, q, pt) ∧ q.validate = true ∧
      ∀ iv' pt', iv'.length = 40 → ∃ f', encrypt P 1 q iv' pt' = .ok f' ∧
        ∃ q', decrypt P user pass ck cs f' = .ok (1, q', pt') ∧ q'.keys = q.keys ∧ q'.salts = q.salts := by
  have hd := C42_single_roundtrip P hP p iv pt key salt f h0 hk hs hil he user pass ck cs hc
  obtain ⟨-, hv, -⟩ := encrypt_shape P 1 p iv pt f he
  have hkl : key.length = 80 := by
    obtain ⟨⟨k, ks, h1, -⟩, s, ss, h3, -⟩ := validate_single hv
    unfold encrypt at he
    rw [if_neg (by simp), if_neg (by simp [hv]), if_pos h0] at he
    unfold encryptSingle at he
    rw [h1, h3] at he
    rw [h1] at hk
    simp only [List.head?_cons, Option.some.injEq] at hk
    subst hk
    simp only at he
    split at he
    · cases he
    · have := sizes.1; omega
  obtain ⟨_, _, _, _, _, hsl⟩ := encrypt_single P hP p iv pt key salt hv h0 hk hs hkl hil
  have hv' : ({ version := 1, keys := [key], salts := [salt], ivs := [iv] } : Params).validate = true := by
    obtain ⟨z1, z2, z3, z4, -⟩ := sizes
    simp [Params.validate, hkl, hsl, z1, z4]
  refine ⟨_, hd, hv', fun iv' pt' hil' => ?_⟩
  obtain ⟨ct, ls, -, -, g3, -⟩ := encrypt_single P hP { version := 1, keys := [key], salts := [salt], ivs := [iv] }
    iv' pt' key salt hv' rfl rfl rfl hkl hil'
  exact ⟨_, g3, _, C42_single_roundtrip P hP _ iv' pt' key salt _ rfl rfl rfl hil' g3 user pass ck cs hc, rfl, rfl⟩

/-- Multi-user: likewise, for the same user with the same credentials. Missing: more than 9999 users, and success with
credentials other than those the record was made for, which cannot be excluded without assumptions on the ciphers. -/
theorem C47_multi_partial (P : Prims) (hP : Lawful P) (p : Params) (iv pt f ivm m : Str)
    (h0 : p.nUsers ≠ 0) (hmax : p.nUsers ≤ 9999) (hi : p.ivm = some ivm) (hm : p.master = some m)
    (he : encrypt P 1 p iv pt = .ok f)
    (i : Nat) (name pass : Str) (ck : Option Str) (cs : Str) (hname : name ≠ [])
    (salt uiv mk key : Str) (h1 : p.users[i]? = some (P.sha256 name))
    (hfirst : ∀ j < i, p.users[j]? ≠ some (P.sha256 name)) (h2 : p.salts[i]? = some salt)
    (h3 : p.ivs[i]? = some uiv) (h4 : p.mkeys[i]? = some mk)
    (hc : Credentials P pass ck cs salt key) (hwrap : encryptMasterKey P 1 key m uiv = .ok (mk, uiv)) :
    ∃ q, decrypt P name pass ck cs f = .ok (1, q, pt) ∧ q.validate = true ∧
      ∀ iv' pt', ∃ f', encrypt P 1 q iv' pt' = .ok f' ∧ decrypt P name pass ck cs f' = .ok (1, q, pt') := by
  have hd := C43_multi_roundtrip_partial P hP p iv pt f ivm m h0 hmax hi hm he i name pass ck cs hname salt uiv mk key h1 hfirst
    h2 h3 h4 hc hwrap
  obtain ⟨-, hv, -⟩ := encrypt_shape P 1 p iv pt f he
  obtain ⟨n, hw⟩ := (validate_multi h0).1 hv
  have hn := hw.nUsers
  have hil := hw.users.ivs_size uiv (List.mem_of_getElem? h3)
  obtain ⟨k1, -⟩ := unwrap P hP key m uiv mk uiv hil hwrap
  have hin : i < n := by
    have := (List.getElem?_eq_some_iff.1 h1).1
    have := hw.users.us_length
    omega
  generalize hq : ({ p with version := 1, user := (i : Int), keys := (List.replicate p.nUsers.toNat []).set i key } :
    Params) = q at hd
  have hwq : WfMulti q n := by
    subst hq
    refine ⟨hn, hw.pos, hw.users, by simp [hn], ?_, ⟨by simp, by simp; omega⟩, hw.ivm, hw.master⟩
    intro k hk
    rcases List.mem_or_eq_of_mem_set hk with hk | hk
    · exact .inl (by rw [List.eq_of_mem_replicate hk]; rfl)
    · exact .inr (by rw [hk, k1])
  have hq0 : q.nUsers ≠ 0 := by subst hq; exact h0
  refine ⟨q, hd, (validate_multi hq0).2 ⟨n, hwq⟩, fun iv' pt' => ?_⟩
  obtain ⟨ct, ls, -, -, g3, -⟩ := encrypt_multi P hP q n hwq iv' pt' ivm m (by subst hq; exact hi) (by subst hq; exact hm)
  refine ⟨_, g3, ?_⟩
  have := C43_multi_roundtrip_partial P hP q iv' pt' _ ivm m hq0 (by subst hq; exact hmax) (by subst hq; exact hi)
    (by subst hq; exact hm) g3 i name pass ck cs hname salt uiv mk key (by subst hq; exact h1)
    (by subst hq; exact hfirst) (by subst hq; exact h2) (by subst hq; exact h3) (by subst hq; exact h4) hc hwrap
  rw [this]
  subst hq
  rfl

/-- Non-vacuity: the hypotheses of C47 are those of C42 and C43. The parameters returned for bob are valid. -/
example : ({ twoUsers with version := 1, user := 1, keys := [[], List.replicate 80 112] } : Params).validate = true := by
  decide

/-! ## C48 -/

theorem saltOf_multi {P : Prims} {f user : Str} {n : Int} {rs : List UserRec} {rest : Str}
    (hn : parseSigned ((f.drop 12).take 4) = some n) (h0 : n ≠ 0) (hp : parseUsers n.toNat (f.drop 16) = some (rs, rest))
    (me : UserRec) (hme : rs[(findUserRec (P.sha256 user) rs).getD 0]? = some me) :
    saltOf P f user = some me.salt := by
  obtain ⟨p1, p2, p3, p4⟩ := parseUsers_ok hp
  have hfind : (List.range n.toNat).find? (fun i => (f.drop (16 + 184 * i)).take 32 == P.sha256 user) =
      findUserRec (P.sha256 user) rs := by
    cases hf : findUserRec (P.sha256 user) rs with
    | none =>
      rw [List.find?_eq_none]
      intro i hi hh
      have hi' : i < rs.length := by rw [p2]; exact List.mem_range.1 hi
      refine (findUserRec_none _ _).1 hf rs[i] (List.getElem_mem hi') ?_
      rw [p4 i _ (List.getElem?_eq_getElem hi')]
      simpa [List.drop_drop] using hh
    | some i =>
      rw [List.find?_range_eq_some]
      obtain ⟨⟨r, hr, he⟩, hlt⟩ := (findUserRec_some _ _ _).1 hf
      refine ⟨?_, ?_, ?_⟩
      · rw [p4 i r hr] at he
        simpa [List.drop_drop] using he
      · rw [List.mem_range, ← p2]; exact findUserRec_lt hf
      · intro j hj
        have hjl : j < rs.length := by have := findUserRec_lt hf; omega
        have := hlt j hj _ (List.getElem?_eq_getElem hjl)
        rw [p4 j _ (List.getElem?_eq_getElem hjl)] at this
        simpa [List.drop_drop] using this
  unfold saltOf
  rw [hn]
  simp only [if_neg h0, hfind]
  rw [p4 _ _ hme]
  simp only [List.drop_drop]
  rw [Nat.add_assoc]

/-- A key cached for another salt has no influence on the result. (The number of users in the header is read with a
sign; files with a negative number never open, see `C44_authenticated`, and are left out here.) -/
theorem C48_key_irrelevant (P : Prims) (user pass : Str) (ck ck' : Option Str) (cs f : Str)
    (hneg : ∀ n, parseSigned ((f.drop 12).take 4) = some n → 0 ≤ n)
    (h : saltOf P f user ≠ some cs) : decrypt P user pass ck cs f = decrypt P user pass ck' cs f := by
  have key : ∀ n : Int, parseSigned ((f.drop 12).take 4) = some n →
      (if n = 0 then decryptSingle P pass ck cs f else decryptMulti P n user pass ck cs f) =
      (if n = 0 then decryptSingle P pass ck' cs f else decryptMulti P n user pass ck' cs f) := by
    intro n hn
    by_cases h0 : n = 0
    · rw [if_pos h0, if_pos h0]
      have hs : cs ≠ (f.drop 16).take 32 := by
        intro hc
        apply h
        unfold saltOf
        rw [hn]
        simp [h0, hc]
      have hb : (cs != (f.drop magicLen).take saltSize) = true := by
        show (cs != (f.drop 16).take 32) = true
        simpa using hs
      unfold decryptSingle
      simp only [hb, Bool.or_true, if_true]
    · rw [if_neg h0, if_neg h0]
      unfold decryptMulti
      cases hp : parseUsers n.toNat (f.drop magicLen) with
      | none => rfl
      | some x =>
        obtain ⟨rs, rest⟩ := x
        simp only
        split
        · rfl
        · split
          · rfl
          · rename_i me hme
            by_cases hpos : 0 < n
            · have hb : (cs != me.salt) = true := by
                simp only [bne_iff_ne, ne_eq]
                intro hc
                apply h
                obtain ⟨-, p2, -⟩ := parseUsers_ok hp
                rw [hc]
                refine saltOf_multi hn h0 hp me ?_
                split at hme
                · exact hme
                · rename_i hnone
                  have hfn : findUserRec (P.sha256 user) rs = none := by simpa using hnone
                  rw [hfn] at hme ⊢
                  rw [List.getElem?_append_left (by simp; omega)] at hme
                  exact hme
              simp only [hb, Bool.or_true, if_true]
            · have := hneg n hn
              omega
  unfold decrypt
  split
  · rfl
  · split
    · rfl
    · split
      · rfl
      · rfl
      · split
        · rfl
        · split
          · rfl
          · rename_i n hn
            rw [key n hn]

/-- With an empty passphrase and a key cached for another salt (or none) no file opens; -/
theorem C48_empty_passphrase (P : Prims) (user : Str) (ck : Option Str) (cs f : Str)
    (h : saltOf P f user ≠ some cs ∨ ck = none) (x : Int × Params × Str) :
    decrypt P user [] ck cs f ≠ .ok x := by
  intro hd
  obtain ⟨v, q, pt⟩ := x
  obtain ⟨-, n, p', hn, -, h3, h4⟩ := decrypt_ok hd
  by_cases h0 : n = 0
  · have hs := h3 h0
    have hb : (ck.isNone || cs != (f.drop magicLen).take saltSize) = true := by
      rcases h with h | h
      · have : cs ≠ (f.drop 16).take 32 := by
          intro hc
          apply h
          unfold saltOf
          rw [hn]
          simp [h0, hc]
        have : (cs != (f.drop magicLen).take saltSize) = true := by
          show (cs != (f.drop 16).take 32) = true
          simpa using this
        simp [this]
      · simp [h]
    unfold decryptSingle at hs
    simp only [hb, List.length_nil, beq_self_eq_true, Bool.and_self, if_true] at hs
    split at hs <;> cases hs
  · have hm := (h4 h0).2
    have hpos : 0 < n := (decryptMulti_ok h0 hm).1
    unfold decryptMulti at hm
    cases hp : parseUsers n.toNat (f.drop magicLen) with
    | none => rw [hp] at hm; cases hm
    | some y =>
      obtain ⟨rs, rest⟩ := y
      rw [hp] at hm
      simp only at hm
      split at hm
      · cases hm
      · split at hm
        · cases hm
        · rename_i me hme
          have hb : ((ck.getD []).length == 0 || cs != me.salt) = true := by
            rcases h with h | h
            · have : cs ≠ me.salt := by
                intro hc
                apply h
                obtain ⟨-, p2, -⟩ := parseUsers_ok hp
                rw [hc]
                refine saltOf_multi hn h0 hp me ?_
                split at hme
                · exact hme
                · rename_i hnone
                  have hfn : findUserRec (P.sha256 user) rs = none := by simpa using hnone
                  rw [hfn] at hme ⊢
                  rw [List.getElem?_append_left (by simp; omega)] at hme
                  exact hme
              simp [this]
            · simp [h]
          simp only [hb, List.length_nil, beq_self_eq_true, Bool.and_self, if_true] at hm
          cases hm

/-- and for a single-user file of `Encrypt` the answer is exactly `ErrWrongPassphrase`. -/
theorem C48_empty_passphrase_error (P : Prims) (p : Params) (iv pt f : Str) (v : Int) (h0 : p.nUsers = 0)
    (he : encrypt P v p iv pt = .ok f) (user : Str) (ck : Option Str) (cs : Str)
    (h : saltOf P f user ≠ some cs ∨ ck = none) : decrypt P user [] ck cs f = .err .wrongPassphrase := by
  obtain ⟨rfl, hv, rest, hf⟩ := encrypt_shape P v p iv pt f he
  rw [h0] at hf
  obtain ⟨-, -, g3, -, g5, g6⟩ := magic_parts 0 rest
  obtain ⟨m, d1, d2, -, d4⟩ := decrypt_header P user [] ck cs 0 rest
  have hm := d2 (by omega)
  rw [← show f = (magic 0).take 16 ++ rest from hf] at g3 g5 g6 d4
  simp only [Int.cast_ofNat_Int] at hm
  subst hm
  have hlen : 48 ≤ f.length := by
    obtain ⟨⟨k, ks, h1, -⟩, s, ss, h3, h4⟩ := validate_single hv
    unfold encrypt at he
    rw [if_neg (by simp), if_neg (by simp [hv]), if_pos h0] at he
    unfold encryptSingle at he
    rw [h1, h3] at he
    simp only at he
    repeat' split at he
    all_goals first
      | cases he; done
      | skip
    cases he
    have : (magic 0).length = 16 := by decide
    simp only [List.length_append, h4]
    omega
  have hn : parseSigned ((f.drop 12).take 4) = some 0 := by rw [g3]; decide
  have hb : (ck.isNone || cs != (f.drop magicLen).take saltSize) = true := by
    rcases h with h | h
    · have : cs ≠ (f.drop 16).take 32 := by
        intro hc
        apply h
        unfold saltOf
        rw [hn]
        simp [hc]
      have : (cs != (f.drop magicLen).take saltSize) = true := by
        show (cs != (f.drop 16).take 32) = true
        simpa using this
      simp [this]
    · simp [h]
  rw [d4, if_neg (by simp), if_pos rfl]
  unfold decryptSingle
  simp only [hb, List.length_nil, beq_self_eq_true, Bool.and_self, if_true]
  rw [if_neg (by have := sizes; omega)]

/-- Non-vacuity: a file whose salt is not the given one. -/
example : saltOf toy (magic 0 ++ List.replicate 32 1 ++ List.replicate 40 0) [] ≠ some (List.replicate 32 2) := by
  decide

/-! ## C49 -/

/-- False: with users but without master key or its iv, valid parameters crash `Encrypt` (the comments in params.go
promise that they are generated). -/
theorem C49_false (P : Prims) (iv pt : Str) :
    ({ manyUsers 1 with master := none } : Params).validate = true ∧
    encrypt P 1 { manyUsers 1 with master := none } iv pt = .panic ∧
    ({ manyUsers 1 with ivm := none } : Params).validate = true ∧
    encrypt P 1 { manyUsers 1 with ivm := none } iv pt = .panic := by
  have h1 : ({ manyUsers 1 with master := none } : Params).validate = true := by decide
  have h2 : ({ manyUsers 1 with ivm := none } : Params).validate = true := by decide
  refine ⟨h1, ?_, h2, ?_⟩
  · unfold encrypt
    rw [if_neg (by simp), if_neg (by simp [h1]), if_neg (by decide)]
    rfl
  · unfold encrypt
    rw [if_neg (by simp), if_neg (by simp [h2]), if_neg (by decide)]
    rfl

/-- Without users, or with both present, `Encrypt` never crashes. (Parameters with both missing, or one: see above.) -/
theorem C49_no_panic_partial (P : Prims) (hP : Lawful P) (v : Int) (p : Params) (iv pt : Str) (hil : iv.length = 40)
    (h : p.nUsers = 0 ∨ (p.ivm.isSome ∧ p.master.isSome)) : encrypt P v p iv pt ≠ .panic := by
  by_cases hv1 : v = 1
  · subst hv1
    by_cases hv : p.validate = true
    · by_cases h0 : p.nUsers = 0
      · obtain ⟨⟨k, ks, h1, h2⟩, s, ss, h3, h4⟩ := validate_single hv
        by_cases hk : k.length = 80
        · obtain ⟨ct, ls, -, -, g3, -⟩ := encrypt_single P hP p iv pt k s hv h0 (by simp [h1]) (by simp [h3]) hk hil
          rw [g3]; simp
        · unfold encrypt
          rw [if_neg (by simp), if_neg (by simp [hv]), if_pos h0]
          unfold encryptSingle
          rw [h1, h3]
          simp only
          rw [if_pos (by have := sizes.1; omega)]
          simp
      · rcases h with h | ⟨hi, hm⟩
        · exact absurd h h0
        · obtain ⟨n, hw⟩ := (validate_multi h0).1 hv
          obtain ⟨ivm, hi⟩ := Option.isSome_iff_exists.1 hi
          obtain ⟨m, hm⟩ := Option.isSome_iff_exists.1 hm
          obtain ⟨ct, ls, -, -, g3, -⟩ := encrypt_multi P hP p n hw iv pt ivm m hi hm
          rw [g3]; simp
    · unfold encrypt
      rw [if_neg (by simp), if_pos hv]
      simp
  · unfold encrypt
    rw [if_pos hv1]
    simp

/-- Non-vacuity: parameters with both present that are accepted. -/
example : twoUsers.validate = true ∧ twoUsers.ivm.isSome ∧ twoUsers.master.isSome := by decide

/-! ## C50 -/

/-- `IsMultiUser` tells on every output of `Encrypt` whether the parameters had users (for any number of users). -/
theorem C50_isMultiUser (P : Prims) (v : Int) (p : Params) (iv pt f : Str) (he : encrypt P v p iv pt = .ok f) :
    isMultiUser f = .ok (p.nUsers != 0) := by
  obtain ⟨-, hv, rest, rfl⟩ := encrypt_shape P v p iv pt f he
  obtain ⟨m, d1, -, d3, -⟩ := decrypt_header P [] [] none [] p.nUsers.toNat rest
  rw [d3]
  congr 1
  by_cases h0 : p.nUsers = 0
  · have : m = 0 := by
      by_cases hm : m = 0
      · exact hm
      · exact absurd (by rw [h0]; rfl) (d1.1 hm)
    simp [h0, this]
  · obtain ⟨n, hw⟩ := (validate_multi h0).1 hv
    have : m ≠ 0 := d1.2 (by have := hw.nUsers; have := hw.pos; omega)
    have e1 : (p.nUsers != 0) = true := by simpa using h0
    have e2 : (m != 0) = true := by simpa using this
    rw [e1, e2]

/-- Non-vacuity: both answers occur. -/
example (P : Prims) (hP : Lawful P) (pt : Str) : (∃ f, encrypt P 1 (manyUsers 3) [] pt = .ok f ∧ isMultiUser f = .ok true) ∧
    ∃ f, encrypt P 1 { keys := [List.replicate 80 0], salts := [List.replicate 32 0] } (List.replicate 40 0) pt = .ok f ∧
      isMultiUser f = .ok false := by
  obtain ⟨ct, ls, -, -, h, -⟩ := encrypt_multi P hP (manyUsers 3) 3 (manyUsers_wf _ (by omega)) [] pt _ _ rfl rfl
  obtain ⟨ct', ls', -, -, h', -⟩ := encrypt_single P hP { keys := [List.replicate 80 0], salts := [List.replicate 32 0] }
    (List.replicate 40 0) pt (List.replicate 80 0) (List.replicate 32 0) (by decide) rfl rfl rfl (by decide) (by decide)
  exact ⟨⟨_, h, C50_isMultiUser P 1 _ _ _ _ h⟩, _, h', C50_isMultiUser P 1 _ _ _ _ h'⟩

end Verif.Crypt
