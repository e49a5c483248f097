import Verif.App.RevokeSpec
import Verif.App.OwnLemmas
import Verif.App.OutsideProps
import Verif.Crypt.Revoke
/-!
# C101: taking access away
-/
set_option linter.unusedSimpArgs false
namespace Verif.App
open Verif Verif.Txlogs Verif.Blob Verif.Crypt Verif.App.Spec
open Verif.Crypt.Spec (toy toy_lawful Listed readWith)

theorem storeUser_master {P : Prims} {ord : Order} {d : Draw} {u : Session} {user key salt : Str} :
    (storeUser P ord d u user key salt).1.creds = u.creds := by
  unfold storeUser
  split
  · rfl
  · rfl
  · split <;> rfl

theorem finishUser_master {P : Prims} {d : Draw} {u : Session} {uuid key salt : Str} :
    (finishUser P d u uuid key salt).1.creds = u.creds := by
  unfold finishUser
  split <;> rfl

theorem passwd_master {P : Prims} {ord : Order} {d : Draw} {u : Session} {user : Str} :
    (passwd P ord d u user).1.creds.master = u.creds.master ∧ (passwd P ord d u user).1.creds.ivm = u.creds.ivm := by
  unfold passwd
  split
  · exact ⟨rfl, rfl⟩
  · exact ⟨rfl, rfl⟩
  · split
    · exact ⟨rfl, rfl⟩
    · split
      · exact ⟨rfl, rfl⟩
      · exact ⟨rfl, rfl⟩
      · dsimp only
        split
        · split
          · exact ⟨rfl, rfl⟩
          · rw [storeUser_master]; exact ⟨rfl, rfl⟩
        · split
          · exact ⟨rfl, rfl⟩
          · rw [storeUser_master]; exact ⟨rfl, rfl⟩

theorem rekey_master {P : Prims} {ord : Order} {d : Draw} {u : Session} {user : Str} :
    (rekey P ord d u user).1.creds.master = u.creds.master ∧ (rekey P ord d u user).1.creds.ivm = u.creds.ivm := by
  unfold rekey
  dsimp only
  split
  · exact ⟨rfl, rfl⟩
  · exact ⟨rfl, rfl⟩
  · split
    · exact ⟨rfl, rfl⟩
    · split
      · exact ⟨rfl, rfl⟩
      · exact ⟨rfl, rfl⟩
      · split
        · split
          · exact ⟨rfl, rfl⟩
          · rw [storeUser_master]; exact ⟨rfl, rfl⟩
        · split
          · exact ⟨rfl, rfl⟩
          · rw [storeUser_master]; exact ⟨rfl, rfl⟩

theorem adduser_master {P : Prims} {ord : Order} {d : Draw} {u : Session} {user : Str} (hm : u.creds.master ≠ []) :
    (adduser P ord d u user).1.creds = u.creds := by
  unfold adduser
  split
  · rfl
  · rfl
  · rfl
  · dsimp only
    rw [if_neg hm]
    split
    · rfl
    · rfl
    · split
      · rfl
      · rfl
      · rw [finishUser_master]

theorem back_u {r : Repl} {x : Session × Res AppErr Unit} : (back r x).1.u = x.1 := by
  unfold back
  split <;> rfl

/-- No line but `rekeyall`, `sync` and the removal of one's own entry changes the key that the file is encrypted with, whatever
comes of it. -/
theorem C101_line {P : Prims} {C : Codec} {v : Env} {line : Str} {r : Repl} (hm : r.u.creds.master ≠ [])
    (h : SameKeyLine line r) : (runLine P C v line r).1.u.creds.master = r.u.creds.master ∧
      (runLine P C v line r).1.u.creds.ivm = r.u.creds.ivm := by
  unfold runLine
  cases hpl : parseLine line with
  | none => exact ⟨rfl, rfl⟩
  | some p =>
    obtain ⟨cmd, args⟩ := p
    dsimp only
    cases hro : readOnlyFlag cmd with
    | none => exact ⟨rfl, rfl⟩
    | some b =>
      cases b with
      | true =>
        have hs := (execRead_same v cmd args r).1
        dsimp only
        rw [hs.creds]
        exact ⟨rfl, rfl⟩
      | false =>
        dsimp only
        split
        · exact ⟨rfl, rfl⟩
        by_cases h1 : cmd = b! "passwd"
        · subst h1
          have he : execWrite P C v (b! "passwd") args r = back r (passwd P v.ord v.d r.u (args.head?.getD [])) := rfl
          rw [he, back_u]
          exact passwd_master
        by_cases h3 : cmd = b! "rekey"
        · subst h3
          have he : execWrite P C v (b! "rekey") args r = back r (rekey P v.ord v.d r.u (args.head?.getD [])) := rfl
          rw [he, back_u]
          exact rekey_master
        by_cases h2 : cmd = b! "adduser"
        · subst h2
          cases args with
          | nil =>
            have he : (execWrite P C v (b! "adduser") [] r).1 = r := rfl
            rw [he]; exact ⟨rfl, rfl⟩
          | cons a l =>
            have he : execWrite P C v (b! "adduser") (a :: l) r = back r (adduser P v.ord v.d r.u a) := rfl
            rw [he, back_u, adduser_master hm]
            exact ⟨rfl, rfl⟩
        have h4 : cmd ≠ b! "rekeyall" := by rintro rfl; exact h.noRekeyAll _ hpl
        have h5 : cmd ≠ b! "sync" := by rintro rfl; exact h.noSync _ hpl
        have hw := meta_write (P := P) (C := C) (v := v) (r := r) cmd args h1 h2 h3 h4 h5 (by
          rintro rfl nm l rfl
          exact h.notSelf _ _ hpl)
        rw [hw.creds]
        exact ⟨rfl, rfl⟩

/-- The same for a whole session. -/
theorem C101_session {P : Prims} {C : Codec} (turns : List Turn) (r : Repl) (hm : r.u.creds.master ≠ [])
    (h : Along P C (fun _ line r => SameKeyLine line r) turns r) :
    (runRepl P C turns r).1.u.creds.master = r.u.creds.master ∧ (runRepl P C turns r).1.u.creds.ivm = r.u.creds.ivm := by
  induction turns generalizing r with
  | nil => exact ⟨rfl, rfl⟩
  | cons t turns ih =>
    obtain ⟨line, v⟩ := t
    cases line with
    | none => exact ⟨rfl, rfl⟩
    | some line =>
      have h1 := C101_line (P := P) (C := C) (v := v) hm h.1
      have h2 := h.2
      simp only [runRepl]
      cases hr : runLine P C v line r with
      | mk r' x =>
        rw [hr] at h1 h2
        cases x with
        | panic => exact h1
        | err e => exact h1
        | ok b =>
          cases b with
          | true => exact h1
          | false =>
            have h3 := ih r' (by rw [h1.1]; exact hm) h2
            exact ⟨h3.1.trans h1.1, h3.2.trans h1.2⟩

theorem paramLoop_users (P : Prims) (c : Creds) (l : List (Str × Str)) (s s' : DB) (p q : Params)
    (h : paramLoop P c l s p = (s', .ok q)) : ((p.keys.length : Int) = p.nUsers → (q.keys.length : Int) = q.nUsers) ∧
      ∀ x ∈ q.users, x ∈ p.users ∨ ∃ e ∈ l, x = P.sha256 (splitUsername e.2) := by
  induction l generalizing s p with
  | nil =>
    simp only [paramLoop, Prod.mk.injEq, Res.ok.injEq] at h
    obtain ⟨-, rfl⟩ := h
    exact ⟨id, fun x hx => .inl hx⟩
  | cons e l ih =>
    obtain ⟨uuid, nm⟩ := e
    simp only [paramLoop] at h
    split at h
    · cases h
    · split at h
      · cases h
      · cases h
      · split at h
        · cases h
        · split at h
          · cases h
          · split at h
            · cases h
            · obtain ⟨h1, h2⟩ := ih _ _ h
              refine ⟨fun hk => h1 (by simp; omega), fun x hx => ?_⟩
              rcases h2 x hx with h3 | ⟨e, he, h3⟩
              · rcases List.mem_append.1 h3 with h3 | h3
                · exact .inl h3
                · exact .inr ⟨_, List.mem_cons_self, by simpa using h3⟩
              · exact .inr ⟨e, List.mem_cons_of_mem _ he, h3⟩

/-- What is saved in a file with users can be read with the master key of the session alone. -/
theorem C101_reads (P : Prims) (hP : Crypt.Spec.Lawful P) (C : Codec) (ord : Order) (ord' : Results → Results) (iv f : Str) (u : Session)
    (hm : u.creds.master ≠ []) (h : saveBlob P C ord ord' iv u = .ok (some f)) :
    ∃ n, readWith P u.creds.master n f = some (C.marshal u.store) := by
  obtain ⟨-, -, p, h1, h2⟩ := saved_parts h
  have hv := (encrypt_shape P 1 p iv _ f h2).2.1
  unfold makeParams at h1
  rw [if_neg hm] at h1
  obtain ⟨hmas, hkl⟩ : p.master = orNil u.creds.master ∧ (p.keys.length : Int) = p.nUsers := by
    cases hu : users ord u.store with
    | mk s x =>
      rw [hu] at h1
      cases x with
      | panic => cases h1
      | err e => cases h1
      | ok us =>
        simp only at h1
        cases hl : paramLoop P u.creds (ord' us) s {} with
        | mk s' y =>
          rw [hl] at h1
          cases y with
          | panic => cases h1
          | err e => cases h1
          | ok q =>
            cases h1
            exact ⟨rfl, (paramLoop_users P _ _ _ _ _ _ hl).1 rfl⟩
  have h0 : p.nUsers ≠ 0 := by
    intro h0
    obtain ⟨⟨k, ks, h3, -⟩, -⟩ := validate_single hv
    rw [h3, h0] at hkl
    simp at hkl
    omega
  rw [orNil, if_neg hm] at hmas
  obtain ⟨n, hw⟩ := (validate_multi h0).1 hv
  unfold encrypt at h2
  rw [if_neg (by simp), if_neg (by simp [hv]), if_neg h0] at h2
  unfold encryptMulti at h2
  simp only at h2
  cases hi : p.ivm with
  | none =>
    rw [hi] at h2
    have : layers suite (p.master.getD []) ((none : Option Str).getD []) = none := by
      simp [layers, suite, Alg.blockSize]
    rw [this] at h2
    cases h2
  | some ivm =>
    have hivm := hw.ivm ivm hi
    rw [hi, hmas] at h2
    obtain ⟨ls, g1, g2, -, -⟩ := suite_layers u.creds.master ivm (hw.master _ hmas) hivm
    simp only [Option.getD_some, g1] at h2
    split at h2
    · cases h2
    · rename_i ct hc
      cases h2
      refine ⟨n, ?_⟩
      have hl := multiHeader_length hw.users ivm hivm
      have hn : p.nUsers.toNat = n := by rw [hw.nUsers]; rfl
      rw [hn] at hc ⊢
      obtain ⟨ct', d1, d2, -⟩ := decUnpad_encPad P hP ls g2 (P.sha512 ((magic n).take magicLen ++ records p.users p.salts p.ivs p.mkeys ++ ivm ++
        C.marshal u.store) ++ C.marshal u.store)
      have hct : ct' = ct := Option.some.inj (d1.symm.trans hc)
      subst hct
      have hH : (magic n).take magicLen ++ records p.users p.salts p.ivs p.mkeys ++ ivm = multiHeader n p.users p.salts p.ivs p.mkeys ivm := by
        rw [multiHeader, sizes.2.2.2.2.1, List.append_assoc]
      rw [hH] at d2 ⊢
      have hf : (multiHeader n p.users p.salts p.ivs p.mkeys ivm ++ ct').drop (16 + 184 * n + 40) = ct' := by
        rw [← hl, List.drop_left]
      have hiv : ((multiHeader n p.users p.salts p.ivs p.mkeys ivm ++ ct').drop (16 + 184 * n)).take 40 = ivm := by
        have e : multiHeader n p.users p.salts p.ivs p.mkeys ivm ++ ct' =
            ((magic n).take magicLen ++ records p.users p.salts p.ivs p.mkeys) ++ (ivm ++ ct') := by
          rw [← hH]; simp only [List.append_assoc]
        have e2 : ((magic n).take magicLen ++ records p.users p.salts p.ivs p.mkeys).length = 16 + 184 * n := by
          have := congrArg List.length hH
          rw [List.length_append, hl, hivm] at this
          omega
        rw [e, ← e2, List.drop_left, ← hivm, List.take_left]
      unfold readWith
      rw [hiv, g1]
      simp only [hf, d2]
      rw [List.drop_append_of_le_length (by rw [hP.sha512_length]; omega), List.drop_of_length_le (by rw [hP.sha512_length]; omega)]
      rfl

/-- False: whoever could open the file once, and learnt its key, reads all that is saved later with any number of commands, also after
their entry was removed or got another password. -/
theorem C101_false (P : Prims) (hP : Crypt.Spec.Lawful P) (C : Codec) (ord : Order) (hord : ∀ m, (ord m).Perm m)
    (ord' : Results → Results) (hord' : ∀ m, (ord' m).Perm m) (iv f : Str) (u : Session) (hs : MultiSession P u)
    (hC : Faithful C u.store) (hf : saveBlob P C ord ord' iv u = .ok (some f)) (name pass salt : Str)
    (ho : Opens P u.store u.creds.master name pass salt) :
    ∃ who, openFile P C none f [some name, some pass] = (.ok who, []) ∧
      ∀ (ord₂ : Order) (ord₂' : Results → Results) (iv₂ f₂ : Str) (turns : List Turn) (r : Repl),
        r.u.creds.master = u.creds.master →
        Along P C (fun _ line r => SameKeyLine line r) turns r →
        saveBlob P C ord₂ ord₂' iv₂ (runRepl P C turns r).1.u = .ok (some f₂) →
        ∃ n, readWith P who.creds.master n f₂ = some (C.marshal (runRepl P C turns r).1.u.store) := by
  obtain ⟨f', s', h1, -, h2⟩ := C51_save_open_multi P hP C ord hord ord' hord' iv u hs.writable hs.idle hs.good hC hs.creds hs.users
  rw [h1] at hf
  cases hf
  refine ⟨_, h2 name pass salt ho, fun ord₂ ord₂' iv₂ f₂ turns r hm hl hf₂ => ?_⟩
  have hm0 : u.creds.master ≠ [] := by intro h; have := hs.creds.master; rw [h] at this; simp at this
  obtain ⟨k1, -⟩ := C101_session turns r (by rw [hm]; exact hm0) hl
  obtain ⟨n, h3⟩ := C101_reads P hP C ord₂ ord₂' iv₂ f₂ _ (by rw [k1, hm]; exact hm0) hf₂
  rw [k1, hm] at h3
  exact ⟨n, h3⟩

/-- What holds: the names in a file are those of the users in it when it was saved, up to names with the same hash. -/
theorem C101_names_partial (P : Prims) (hP : Crypt.Spec.Lawful P) (C : Codec) (ord : Order) (hord : ∀ m, (ord m).Perm m)
    (ord' : Results → Results) (hord' : ∀ m, (ord' m).Perm m) (iv f : Str) (u : Session) (hil : iv.length = 40) (hs : MultiSession P u)
    (hf : saveBlob P C ord ord' iv u = .ok (some f)) (name : Str) (h : Listed P f name) :
    ∃ uuid user, IsUser u.store uuid user ∧ P.sha256 user = P.sha256 name := by
  obtain ⟨-, -, p, h1, h2⟩ := saved_parts hf
  obtain ⟨p', n, hmk, hwf, hn, -⟩ := makeParams_multi P hP hord hord' hs.good hs.creds hs.users
  rw [hmk] at h1
  cases h1
  have h0 : p.nUsers ≠ 0 := by have := hwf.nUsers; have := hwf.pos; omega
  have hnn : p.nUsers.toNat = n := by rw [hwf.nUsers]; rfl
  obtain ⟨i, n', a1, a2, a3⟩ := h
  obtain ⟨a, c, rfl, -, -, -, h4⟩ := encrypt_parts hP hil h2
  obtain ⟨ivm, e1, hw, rfl⟩ := h4 h0
  rw [hnn] at *
  have hlt : n < 10000 := by omega
  have hm := magic_parts n (records p.users p.salts p.ivs p.mkeys ++ (ivm ++ c))
  have hfe : multiHeader n p.users p.salts p.ivs p.mkeys ivm ++ c =
      (magic n).take 16 ++ (records p.users p.salts p.ivs p.mkeys ++ (ivm ++ c)) := by
    simp only [multiHeader, List.append_assoc]
  rw [← hfe] at hm
  obtain ⟨-, -, m3, -, m5, -⟩ := hm
  rw [m3, List.take_of_length_le (by rw [fmt4_length n hlt]; omega), (fmt4_facts n).2.2] at a1
  have hn' : n' = n := by have := Option.some.inj a1; omega
  subst hn'
  have hlen : i < p.users.length := by rw [hw.us_length]; exact a2
  obtain ⟨k1, k2⟩ := records_drop hw (List.getElem?_eq_getElem hlen) (ivm ++ c)
  rw [← List.drop_drop, m5, k2] at a3
  have hx : P.sha256 name ∈ p.users := a3 ▸ List.getElem_mem hlen
  have hm0 : u.creds.master ≠ [] := by intro h; have := hs.creds.master; rw [h] at this; simp at this
  obtain ⟨us, g1, -, -, hnd, hus⟩ := users_spec hord hs.good
  unfold makeParams at hmk
  rw [if_neg hm0, g1] at hmk
  simp only at hmk
  cases hl : paramLoop P u.creds (ord' us) u.store.updateSnapshot.1 {} with
  | mk s' y =>
    rw [hl] at hmk
    cases y with
    | panic => cases hmk
    | err e => cases hmk
    | ok q =>
      cases hmk
      rcases (paramLoop_users P _ _ _ _ _ _ hl).2 _ hx with h | ⟨⟨uuid, nm⟩, he, h⟩
      · cases h
      · rw [(hord' us).mem_iff, GoMap.mem_iff_get? hnd, hus] at he
        obtain ⟨user, rfl⟩ := (hasPrefix_iff _ _).1 he.2
        rw [splitUsername_prefix] at h
        exact ⟨uuid, user, he.1, h.symm⟩

end Verif.App
