import Verif.App.SessionLemmas
/-!
# Saving and opening: what C51 rests on
-/
set_option linter.unusedSimpArgs false
namespace Verif.App
open Verif Verif.Txlogs Verif.Blob Verif.Crypt Verif.App.Spec

/-- C51 (core, single-user file): a session with the key of `pass` can be saved, and what is saved opens with `pass`, giving the
same store and credentials. -/
theorem C51_save_open_single (P : Prims) (hP : Crypt.Spec.Lawful P) (C : Codec) (ord : Order) (ord' : Results → Results)
    (iv : Str) (hiv : iv.length = 40) (u : Session) (hro : u.readOnly = false) (htx : u.store.txPoint = 0)
    (hC : Faithful C u.store) (hc : SingleCreds u.creds) (pass : Str) (hp : pass ≠ [])
    (hk : u.creds.key = P.kdf pass u.creds.salt) :
    ∃ f s', saveBlob P C ord ord' iv u = .ok (some f) ∧ SameStore s' u.store ∧
      openFile P C none f [some pass] =
        (.ok { creds := { pass := pass, key := u.creds.key, salt := u.creds.salt }, store := s'
               readOnly := false, startTx := u.store.log.length }, []) := by
  obtain ⟨s', hl, hs⟩ := hC.load
  let p : Params := { keys := [u.creds.key], salts := [u.creds.salt] }
  have hv : p.validate = true := by
    have h1 : keySize = 80 := by decide
    simp [p, Params.validate, hc.key, hc.salt, h1, saltSize]
  obtain ⟨ct, ls, -, -, he, -⟩ := encrypt_single P hP p iv (C.marshal u.store) u.creds.key u.creds.salt hv rfl rfl rfl
    hc.key hiv
  generalize hf : magic 0 ++ u.creds.salt ++ iv ++ ct = f at he
  have hd := C42_single_roundtrip P hP p iv (C.marshal u.store) u.creds.key u.creds.salt f rfl rfl rfl hiv he [] pass none []
    (.inl ⟨hp, hk, .inl rfl⟩)
  have hm := C50_isMultiUser P 1 p iv _ f he
  refine ⟨f, s', ?_, hs, ?_⟩
  · simp only [saveBlob, hro, sealFile, DB.save, htx, makeParams, hc.master]
    simp only [p] at he
    simp [he]
  · simp only [openFile, hm]
    simp [p, prompt, hd, userSlot, hl, openStore, hs.log]

/-- C51 (core, multi-user file): a session whose user entries are complete can be saved, and every user whose password unlocks
the master key can open what was saved, getting the same store. -/
theorem C51_save_open_multi (P : Prims) (hP : Crypt.Spec.Lawful P) (C : Codec) (ord : Order)
    (hord : ∀ m, (ord m).Perm m) (ord' : Results → Results) (hord' : ∀ m, (ord' m).Perm m)
    (iv : Str) (u : Session) (hro : u.readOnly = false) (htx : u.store.txPoint = 0) (hg : Good u.store)
    (hC : Faithful C u.store) (hc : MultiCreds u.creds) (hw : Spec.WfUsers P u.store) :
    ∃ f s', saveBlob P C ord ord' iv u = .ok (some f) ∧ SameStore s' u.store ∧
      ∀ user pass salt, Opens P u.store u.creds.master user pass salt →
        openFile P C none f [some user, some pass] =
          (.ok { creds := { user := user, pass := pass, key := P.kdf pass salt, salt := salt
                            master := u.creds.master, ivm := u.creds.ivm }
                 store := s', readOnly := false, startTx := u.store.log.length }, []) := by
  obtain ⟨s', hl, hs⟩ := hC.load
  obtain ⟨p, n, hmk, hwf, hn, hivm, hmas, hacc⟩ := makeParams_multi P hP hord hord' hg hc hw
  obtain ⟨ct, ls, -, -, he, -⟩ := encrypt_multi P hP p n hwf iv (C.marshal u.store) _ _ hivm hmas
  generalize hf : multiHeader n p.users p.salts p.ivs p.mkeys u.creds.ivm ++ ct = f at he
  have h0 : p.nUsers ≠ 0 := by have := hwf.nUsers; have := hwf.pos; omega
  have hmu := C50_isMultiUser P 1 p iv _ f he
  refine ⟨f, s', ?_, hs, ?_⟩
  · simp [saveBlob, hro, sealFile, DB.save, htx, hmk, he]
  · rintro user pass salt ⟨hp, hac⟩
    obtain ⟨i, uiv, mk, a1, a2, a3, a4, a5, a6⟩ := hacc user salt _ hac
    have hd := C43_multi_roundtrip_partial P hP p iv (C.marshal u.store) f _ _ h0 (by rw [hwf.nUsers]; omega) hivm hmas he
      i user pass none [] hac.1 salt uiv mk (P.kdf pass salt) a1 a2 a3 a4 a5 (.inl ⟨hp, rfl, .inl rfl⟩) a6
    have hil : i < n := by
      have := (List.getElem?_eq_some_iff.1 a1).1
      rwa [hwf.users.us_length] at this
    have hmt : (p.nUsers != 0) = true := by simp [h0]
    have hk : userSlot ((List.replicate p.nUsers.toNat []).set i (P.kdf pass salt)) (i : Int) = some (P.kdf pass salt) := by
      have : i < p.nUsers.toNat := by rw [hwf.nUsers]; simpa using hil
      simp [userSlot, this]
    have hsl : userSlot p.salts (i : Int) = some salt := by simp [userSlot, a3]
    simp only [openFile, hmu, hmt, if_true, prompt, hd, hk, hsl, hl, openStore, hs.log, hivm, hmas, Option.getD_some]

end Verif.App
