import Verif.App.UnlockSpec
import Verif.App.SyncProps
import Verif.Crypt.Props
/-!
# C108: the questions `sync` asks to open a remote
-/
namespace Verif.App
open Verif Verif.Txlogs Verif.Blob Verif.Crypt Verif.App.Spec
open Verif.Crypt.Spec (Lawful saltOf toy toy_lawful)

/-! ## Helpers -/

theorem decrypt_none (P : Prims) (user pass cs f : Str) : decrypt P user pass none cs f = decrypt P user pass none [] f := by
  unfold decrypt decryptSingle decryptMulti
  simp

theorem decrypt_nonneg {P : Prims} {user pass : Str} {ck : Option Str} {cs f pt : Str} {v : Int} {p : Params}
    (h : decrypt P user pass ck cs f = .ok (v, p, pt)) : ∀ n, parseSigned ((f.drop 12).take 4) = some n → 0 ≤ n := by
  obtain ⟨-, n, p', hn, -, -, h4⟩ := decrypt_ok h
  intro m hm
  rw [hn] at hm
  cases hm
  by_cases h0 : n = 0
  · omega
  · have := (decryptMulti_ok h0 (h4 h0).2).1
    omega

/-- with another salt the key of the session has no influence -/
theorem decrypt_byHand {P : Prims} {c : Creds} {f user : Str} (pass : Str)
    (hneg : ∀ n, parseSigned ((f.drop 12).take 4) = some n → 0 ≤ n) (hs : OtherSalt P f user c) :
    decrypt P user pass (orNil c.key) c.salt f = byHand P f user pass := by
  rw [C48_key_irrelevant P user pass (orNil c.key) none c.salt f hneg hs]
  exact decrypt_none P user pass c.salt f

/-- a user name is asked for if and only if there is none and the file has users, whatever the key -/
theorem decrypt_needUser {P : Prims} {user pass : Str} {ck : Option Str} {cs f : Str}
    (h : decrypt P user pass ck cs f = .err .needUser) :
    user = [] ∧ ∀ pass ck cs, decrypt P [] pass ck cs f = .err .needUser := by
  have hs : ∀ e, decryptSingle P pass ck cs f = .err e → e = .wrongPassphrase := by
    intro e h
    unfold decryptSingle at h
    simp only at h
    repeat' split at h
    all_goals first
      | cases h; done
      | (cases h; rfl; done)
      | (cases h; exact decUnpad_err _ _ _ _ (by assumption))
      | (cases h; exact checkHash_err _ _ _ _ (by assumption))
  have hm : ∀ n e, decryptMulti P n user pass ck cs f = .err e → e = .wrongPassphrase := by
    intro n e h
    unfold decryptMulti at h
    cases hp : parseUsers n.toNat (f.drop magicLen) with
    | none => rw [hp] at h; cases h
    | some x =>
      rw [hp] at h
      simp only at h
      generalize (findUserRec (P.sha256 user) x.1) = found at h
      generalize (if found.isSome = true then x.1 else x.1 ++ _) = rs' at h
      generalize (if found.isSome = true then n else n + 1) = N at h
      repeat' split at h
      all_goals first
        | cases h; done
        | (cases h; rfl; done)
        | (cases h; exact decUnpad_err _ _ _ _ (by assumption))
        | (cases h; exact checkHash_err _ _ _ _ (by assumption))
  have hv : ∀ e, verifyMagic f = .err e → e = .invalidFormat := by
    intro e h
    unfold verifyMagic at h
    repeat' split at h
    all_goals first
      | cases h; done
      | (cases h; rfl; done)
  unfold decrypt at h
  split at h
  · cases h
  · rename_i g1
    split at h
    · cases h
    · rename_i g2
      split at h
      · cases h
      · rename_i e he
        have := hv e he
        subst this
        cases h
      · rename_i w g3
        split at h
        · cases h
        · rename_i g4
          split at h
          · cases h
          · rename_i n hn
            split at h
            · rename_i g5
              refine ⟨List.length_eq_zero_iff.1 g5.2, fun pass ck cs => ?_⟩
              unfold decrypt
              rw [if_neg g1, if_neg g2, g3]
              simp only
              rw [if_neg g4, hn]
              simp only
              rw [if_pos ⟨g5.1, rfl⟩]
            · simp only at h
              split at h
              · cases h
              · rename_i e he
                simp only [Res.err.injEq] at h
                subst h
                by_cases h0 : n = 0
                · rw [if_pos h0] at he; cases hs _ he
                · rw [if_neg h0] at he; cases hm _ _ he
              · cases h

/-- with the salt of the session the passphrase has no influence -/
theorem decrypt_pass {P : Prims} {user f key salt : Str} (pass pass' : Str) (hk : key ≠ [])
    (hneg : ∀ n, parseSigned ((f.drop 12).take 4) = some n → 0 ≤ n) (hs : saltOf P f user = some salt) :
    decrypt P user pass (some key) salt f = decrypt P user pass' (some key) salt f := by
  have hl : (key.length == 0) = false := by
    cases key with
    | nil => exact absurd rfl hk
    | cons a l => rfl
  have key : ∀ n : Int, parseSigned ((f.drop 12).take 4) = some n →
      (if n = 0 then decryptSingle P pass (some key) salt f else decryptMulti P n user pass (some key) salt f) =
      (if n = 0 then decryptSingle P pass' (some key) salt f else decryptMulti P n user pass' (some key) salt f) := by
    intro n hn
    by_cases h0 : n = 0
    · rw [if_pos h0, if_pos h0]
      have hs' : salt = (f.drop 16).take 32 := by
        unfold saltOf at hs
        rw [hn] at hs
        simp only [h0, if_true] at hs
        exact (Option.some.inj hs).symm
      have hb : (salt != (f.drop magicLen).take saltSize) = false := by
        show (salt != (f.drop 16).take 32) = false
        simpa using hs'
      unfold decryptSingle
      simp only [hb, Option.isNone_some, Bool.or_false, Bool.false_and, Bool.false_eq_true, if_false]
    · rw [if_neg h0, if_neg h0]
      unfold decryptMulti
      cases hp : parseUsers n.toNat (f.drop magicLen) with
      | none => rfl
      | some x =>
        obtain ⟨rs, rest⟩ := x
        simp only
        split
        · rfl
        · split
          · rfl
          · rename_i me hme
            have hpos : 0 < n := by have := hneg n hn; omega
            have hb : (salt != me.salt) = false := by
              simp only [bne_eq_false_iff_eq]
              obtain ⟨-, p2, -⟩ := parseUsers_ok hp
              have := saltOf_multi hn h0 hp me (user := user) (P := P) (by
                split at hme
                · exact hme
                · rename_i hnone
                  have hfn : findUserRec (P.sha256 user) rs = none := by simpa using hnone
                  rw [hfn] at hme ⊢
                  rw [List.getElem?_append_left (by simp; omega)] at hme
                  exact hme)
              rw [hs] at this
              exact Option.some.inj this
            simp only [hb, hl, Option.getD_some, Bool.or_false, Bool.false_and, Bool.false_eq_true, if_false]
  unfold decrypt
  split
  · rfl
  · split
    · rfl
    · split
      · rfl
      · rfl
      · split
        · rfl
        · split
          · rfl
          · rename_i n hn
            rw [key n hn]

/-- the key of the session is as good as its passphrase -/
theorem decrypt_cached {P : Prims} {user f pass salt : Str} (hp : pass ≠ []) (hk : P.kdf pass salt ≠ [])
    (hneg : ∀ n, parseSigned ((f.drop 12).take 4) = some n → 0 ≤ n) (hs : saltOf P f user = some salt) :
    decrypt P user pass (some (P.kdf pass salt)) salt f = decrypt P user pass none [] f := by
  have hl : ((P.kdf pass salt).length == 0) = false := by
    cases h : P.kdf pass salt with
    | nil => exact absurd h hk
    | cons a l => rfl
  have hpl : (pass.length == 0) = false := by
    cases pass with
    | nil => exact absurd rfl hp
    | cons a l => rfl
  have key : ∀ n : Int, parseSigned ((f.drop 12).take 4) = some n →
      (if n = 0 then decryptSingle P pass (some (P.kdf pass salt)) salt f
        else decryptMulti P n user pass (some (P.kdf pass salt)) salt f) =
      (if n = 0 then decryptSingle P pass none [] f else decryptMulti P n user pass none [] f) := by
    intro n hn
    by_cases h0 : n = 0
    · rw [if_pos h0, if_pos h0]
      have hs' : salt = (f.drop magicLen).take saltSize := by
        unfold saltOf at hs
        rw [hn] at hs
        simp only [h0, if_true] at hs
        exact (Option.some.inj hs).symm
      unfold decryptSingle
      simp only [hpl, Option.isNone_some, Option.isNone_none, Bool.or_false, Bool.true_or, Bool.and_false, Bool.false_eq_true,
        if_false, if_true, Option.getD_some, ← hs', bne_self_eq_false, ite_self]
    · rw [if_neg h0, if_neg h0]
      unfold decryptMulti
      cases hp : parseUsers n.toNat (f.drop magicLen) with
      | none => rfl
      | some x =>
        obtain ⟨rs, rest⟩ := x
        simp only
        split
        · rfl
        · split
          · rfl
          · rename_i me hme
            have hpos : 0 < n := by have := hneg n hn; omega
            have he : salt = me.salt := by
              obtain ⟨-, p2, -⟩ := parseUsers_ok hp
              have := saltOf_multi hn h0 hp me (user := user) (P := P) (by
                split at hme
                · exact hme
                · rename_i hnone
                  have hfn : findUserRec (P.sha256 user) rs = none := by simpa using hnone
                  rw [hfn] at hme ⊢
                  rw [List.getElem?_append_left (by simp; omega)] at hme
                  exact hme)
              rw [hs] at this
              exact Option.some.inj this
            simp only [hl, hpl, Option.getD_some, Option.getD_none, List.length_nil, beq_self_eq_true, Bool.or_false, Bool.true_or,
              Bool.and_false, Bool.false_eq_true, if_false, if_true, ← he, bne_self_eq_false, ite_self]
  unfold decrypt
  split
  · rfl
  · split
    · rfl
    · split
      · rfl
      · rfl
      · split
        · rfl
        · split
          · rfl
          · rename_i n hn
            rw [key n hn]

theorem tryDecrypt_opens {P : Prims} {c : Creds} {f user pass pt : Str} {v : Int} {p : Params}
    (h : decrypt P user pass (orNil c.key) c.salt f = .ok (v, p, pt)) :
    tryDecrypt P c f user pass = .done (.ok (some (user, pass, p, pt))) := by
  unfold tryDecrypt; rw [h]

theorem tryDecrypt_wrong {P : Prims} {c : Creds} {f user pass : Str}
    (h : decrypt P user pass (orNil c.key) c.salt f = .err .wrongPassphrase) : tryDecrypt P c f user pass = .askPass := by
  unfold tryDecrypt; rw [h]; rfl

theorem tryDecrypt_need {P : Prims} {c : Creds} {f user pass : Str}
    (h : decrypt P user pass (orNil c.key) c.salt f = .err .needUser) : tryDecrypt P c f user pass = .askUser := by
  unfold tryDecrypt; rw [h]; rfl

/-- the loop after any number of refused passphrases -/
theorem decryptBlob_tries {P : Prims} {c : Creds} {f user : Str} (tries : List Str) (line : Option Str) (rest : Input)
    (ht : ∀ t ∈ tries, t ≠ [] ∧ decrypt P user t (orNil c.key) c.salt f = .err .wrongPassphrase) :
    ∀ pass, decrypt P user pass (orNil c.key) c.salt f = .err .wrongPassphrase →
    ∃ last, decrypt P user last (orNil c.key) c.salt f = .err .wrongPassphrase ∧
      decryptBlob P c f user pass (tries.map some ++ line :: rest) = decryptBlob P c f user last (line :: rest) := by
  induction tries with
  | nil => exact fun pass hp => ⟨pass, hp, rfl⟩
  | cons t ts ih =>
    intro pass hp
    have h1 := ht t (.head _)
    obtain ⟨last, k1, k2⟩ := ih (fun t ht' => ht t (.tail _ ht')) t h1.2
    refine ⟨last, k1, Eq.trans ?_ k2⟩
    simp only [List.map_cons, List.cons_append, decryptBlob, tryDecrypt_wrong hp, if_neg h1.1]

/-! ## C108 -/

/-- A remote that opens by hand with this user name and passphrase opens at the prompt: the user of the session being the one,
any number of passphrases may be refused, then the right one is taken, and with it what is in the file. -/
theorem C108_opens_partial (P : Prims) (c : Creds) (f user pass pt : Str) (v : Int) (p : Params) (tries : List Str) (rest : Input)
    (h : byHand P f user pass = .ok (v, p, pt)) (hs : OtherSalt P f user c) (hp : pass ≠ [])
    (hc : Refuses P f user c.pass) (ht : ∀ t ∈ tries, t ≠ [] ∧ Refuses P f user t) :
    decryptBlob P c f user c.pass (tries.map some ++ some pass :: rest) = (.ok (some (user, pass, p, pt)), rest) := by
  have hneg := decrypt_nonneg h
  have hd : ∀ t, decrypt P user t (orNil c.key) c.salt f = byHand P f user t := fun t => decrypt_byHand t hneg hs
  obtain ⟨last, k1, k2⟩ := decryptBlob_tries (P := P) (c := c) (f := f) (user := user) tries (some pass) rest
    (fun t h' => ⟨(ht t h').1, (hd t).trans (ht t h').2⟩) c.pass ((hd _).trans hc)
  rw [k2]
  simp only [decryptBlob, tryDecrypt_wrong k1, if_neg hp]
  have hok := tryDecrypt_opens ((hd pass).trans h)
  cases rest with
  | nil => simp only [decryptBlob, hok]
  | cons a rest => cases a <;> simp only [decryptBlob, hok]

/-- If the session has no user name and the file has users, the user name is asked for first (again after an empty line). -/
theorem C108_user_partial (P : Prims) (c : Creds) (f user pass pt : Str) (v : Int) (p : Params) (n : Nat) (tries : List Str) (rest : Input)
    (hn : byHand P f [] c.pass = .err .needUser)
    (h : byHand P f user pass = .ok (v, p, pt)) (hs : OtherSalt P f user c) (hp : pass ≠ [])
    (hc : Refuses P f user c.pass) (ht : ∀ t ∈ tries, t ≠ [] ∧ Refuses P f user t) :
    decryptBlob P c f [] c.pass (List.replicate n (some []) ++ some user :: (tries.map some ++ some pass :: rest)) =
      (.ok (some (user, pass, p, pt)), rest) := by
  have hq := tryDecrypt_need ((decrypt_needUser hn).2 c.pass (orNil c.key) c.salt)
  induction n with
  | zero =>
    simp only [List.replicate_zero, List.nil_append, decryptBlob, hq]
    exact C108_opens_partial P c f user pass pt v p tries rest h hs hp hc ht
  | succ n ih =>
    simp only [List.replicate_succ, List.cons_append, decryptBlob, hq]
    exact ih

/-- Nothing is asked if the session was opened with the user name and passphrase of the file, whichever salt the file has. -/
theorem C108_silent (P : Prims) (hP : Lawful P) (c : Creds) (f pt : Str) (v : Int) (p : Params) (inp : Input) (ht : Typed P c)
    (h : byHand P f c.user c.pass = .ok (v, p, pt)) :
    decryptBlob P c f c.user c.pass inp = (.ok (some (c.user, c.pass, p, pt)), inp) := by
  have hneg := decrypt_nonneg h
  have hd : decrypt P c.user c.pass (orNil c.key) c.salt f = .ok (v, p, pt) := by
    by_cases hs : saltOf P f c.user = some c.salt
    · have hk : P.kdf c.pass c.salt ≠ [] := by
        intro hk
        have := hP.kdf_length c.pass c.salt
        rw [hk] at this
        cases this
      rw [ht.2]
      unfold orNil
      rw [if_neg hk, decrypt_cached ht.1 hk hneg hs]
      exact h
    · exact (decrypt_byHand c.pass hneg hs).trans h
  have hok := tryDecrypt_opens hd
  cases inp with
  | nil => simp only [decryptBlob, hok]
  | cons a rest => cases a <;> simp only [decryptBlob, hok]

/-- An empty line or an interruption gives the remote up, after any number of refused passphrases. -/
theorem C108_giveUp (P : Prims) (c : Creds) (f user : Str) (tries : List Str) (line : Option Str) (rest : Input)
    (hneg : ∀ n, parseSigned ((f.drop 12).take 4) = some n → 0 ≤ n) (hs : OtherSalt P f user c)
    (hc : Refuses P f user c.pass) (ht : ∀ t ∈ tries, t ≠ [] ∧ Refuses P f user t) (hl : line = none ∨ line = some []) :
    decryptBlob P c f user c.pass (tries.map some ++ line :: rest) = (.ok none, rest) := by
  have hd : ∀ t, decrypt P user t (orNil c.key) c.salt f = byHand P f user t := fun t => decrypt_byHand t hneg hs
  obtain ⟨last, k1, k2⟩ := decryptBlob_tries (P := P) (c := c) (f := f) (user := user) tries line rest
    (fun t h' => ⟨(ht t h').1, (hd t).trans (ht t h').2⟩) c.pass ((hd _).trans hc)
  rw [k2]
  rcases hl with rfl | rfl <;> simp [decryptBlob, tryDecrypt_wrong k1]

/-- What is typed is taken only if it opens the file by hand. -/
theorem C108_only (P : Prims) (c : Creds) (f user : Str) (inp rest : Input) (user' pass pt : Str) (p : Params)
    (hs : ∀ user, OtherSalt P f user c) (h : decryptBlob P c f user c.pass inp = (.ok (some (user', pass, p, pt)), rest)) :
    ∃ v, byHand P f user' pass = .ok (v, p, pt) := by
  obtain ⟨v, hv⟩ := decryptBlob_ok _ _ _ _ _ h
  refine ⟨v, ?_⟩
  rw [← decrypt_byHand pass (decrypt_nonneg hv) (hs user')]
  exact hv

/-- A user name once there is never asked for again: no answer opens the remote for another user. -/
theorem C108_stuck (P : Prims) (c : Creds) (f user : Str) (hu : user ≠ []) : ∀ (inp rest : Input) (pass user' pass' pt : Str) (p : Params),
    decryptBlob P c f user pass inp = (.ok (some (user', pass', p, pt)), rest) → user' = user := by
  have hq : ∀ pass, tryDecrypt P c f user pass ≠ .askUser := by
    intro pass h
    unfold tryDecrypt at h
    split at h
    · cases h
    · cases h
    · rename_i e he
      split at h
      · rename_i h'
        rcases h' with rfl | rfl
        · exact hu (decrypt_needUser he).1
        · exact C46_unknownUser_false _ _ _ _ _ _ he
      · split at h <;> cases h
  have hd : ∀ pass x, tryDecrypt P c f user pass = .done (.ok (some x)) → x.1 = user := by
    intro pass x h
    unfold tryDecrypt at h
    split at h
    · cases h
    · cases h; rfl
    · repeat' split at h
      all_goals cases h
  intro inp
  induction inp with
  | nil =>
    intro rest pass user' pass' pt p h
    simp only [decryptBlob] at h
    split at h
    · rename_i r hr
      cases h
      exact hd _ _ hr
    · cases h
  | cons a inp ih =>
    intro rest pass user' pass' pt p h
    cases a with
    | none =>
      simp only [decryptBlob] at h
      split at h
      · rename_i r hr
        cases h
        exact hd _ _ hr
      · cases h
    | some line =>
      simp only [decryptBlob] at h
      split at h
      · rename_i r hr
        cases h
        exact hd _ _ hr
      · rename_i hr
        exact absurd hr (hq pass)
      · split at h
        · cases h
        · exact ih _ _ _ _ _ _ h

/-- With the salt of the session in the file only the key of the session counts: if it does not fit, nothing that is typed opens
the remote. -/
theorem C108_same_salt (P : Prims) (c : Creds) (f user : Str) (hk : c.key ≠ [])
    (hneg : ∀ n, parseSigned ((f.drop 12).take 4) = some n → 0 ≤ n) (hs : saltOf P f user = some c.salt)
    (hr : decrypt P user c.pass (orNil c.key) c.salt f = .err .wrongPassphrase) :
    ∀ (inp : Input) (pass : Str), (decryptBlob P c f user pass inp).1 = .ok none := by
  have ho : orNil c.key = some c.key := by unfold orNil; rw [if_neg hk]
  rw [ho] at hr
  have hq : ∀ pass, tryDecrypt P c f user pass = .askPass := by
    intro pass
    apply tryDecrypt_wrong
    rw [ho, decrypt_pass pass c.pass hk hneg hs]
    exact hr
  intro inp
  induction inp with
  | nil => intro pass; simp only [decryptBlob, hq]
  | cons a inp ih =>
    intro pass
    cases a with
    | none => simp only [decryptBlob, hq]
    | some line =>
      simp only [decryptBlob, hq]
      split
      · rfl
      · exact ih line

/-! ## What the answers lead to -/

/-- The right passphrase makes the history of the remote one that is merged, with the credentials of the remote next to it; what was
typed is gone from the input. -/
theorem C108_merged_partial (P : Prims) (C : Codec) (w : World) (u : Session) (uuid f user pass pt key salt : Str) (v : Int) (p : Params)
    (tries : List Str) (rest : Input) (log : List Tx)
    (hw : ∀ inp, pullBlob w uuid ((u.store.snapshot.get? uuid).getD []) inp = (some (.bytes f, []), inp))
    (h : byHand P f user pass = .ok (v, p, pt)) (hu : u.creds.user = user) (hs : OtherSalt P f user u.creds) (hp : pass ≠ [])
    (hc : Refuses P f user u.creds.pass) (ht : ∀ t ∈ tries, t ≠ [] ∧ Refuses P f user t)
    (hpt : pt ≠ []) (hl : C.loadLog pt = .ok log) (hn : noChanges log u.store.log = some false)
    (hk : userSlot p.keys p.user = some key) (hsl : userSlot p.salts p.user = some salt) :
    pullOne P C w u uuid (tries.map some ++ some pass :: rest) =
      (some (.merge { name := val ((u.store.snapshot.get? uuid).getD []) keyName
                      creds := { user := user, pass := pass, key := key, salt := salt, master := p.master.getD [], ivm := p.ivm.getD [] }
                      log := log }, []), rest) := by
  unfold pullOne
  simp only [hw]
  rw [hu, C108_opens_partial P u.creds f user pass pt v p tries rest h hs hp hc ht]
  simp only [if_neg hpt, hl, hn, hk, hsl]

/-- Giving up costs this remote only: it is left out, and the questions for the next one begin with the next line. -/
theorem C108_next (P : Prims) (C : Codec) (w : World) (u : Session) (uuid f : Str) (uuids : List Str)
    (tries : List Str) (line : Option Str) (rest : Input)
    (hw : ∀ inp, pullBlob w uuid ((u.store.snapshot.get? uuid).getD []) inp = (some (.bytes f, []), inp))
    (hneg : ∀ n, parseSigned ((f.drop 12).take 4) = some n → 0 ≤ n) (hs : OtherSalt P f u.creds.user u.creds)
    (hc : Refuses P f u.creds.user u.creds.pass) (ht : ∀ t ∈ tries, t ≠ [] ∧ Refuses P f u.creds.user t) (hl : line = none ∨ line = some []) :
    pullAll P C w u (uuid :: uuids) (tries.map some ++ line :: rest) =
      match pullAll P C w u uuids rest with
      | (none, inp) => (none, inp)
      | (some l, inp) => (some ((uuid, .skip, []) :: l), inp) := by
  have h1 : pullOne P C w u uuid (tries.map some ++ line :: rest) = (some (.skip, []), rest) := by
    unfold pullOne
    simp only [hw]
    rw [C108_giveUp P u.creds f u.creds.user tries line rest hneg hs hc ht hl]
  simp only [pullAll, h1]
  cases pullAll P C w u uuids rest with
  | mk a b => cases a <;> rfl

end Verif.App
