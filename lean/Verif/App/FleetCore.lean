import Verif.App.FleetInv
/-!
# Several machines, whatever locks their files
-/
set_option linter.unusedSimpArgs false
namespace Verif.App
open Verif Verif.Txlogs Verif.Blob Verif.Crypt Verif.App.Spec
open Verif.Txlogs.Spec (TouchedAfterDelete)

theorem Inv.intact {P : Prims} {C : Codec} {K : Scheme P C} {F : Fleet} {base : List Tx} {es es' : List Event} (h : Inv K F base)
    (hr : RunOk P C false (es ++ es') F) (hv : K.run (es ++ es') F) :
    let F1 := F.run P C es
    let F2 := F.run P C (es ++ es')
    (∀ i, (F2.machine i).creds = K.creds i ∧ Sound (F2.machine i).store ∧ ∀ t ∈ F1.log i, t ∈ F2.log i) ∧
      ∃ R1 R2, (∀ i, readShare P C (K.creds i) F1.share = some R1 ∧ readShare P C (K.creds i) F2.share = some R2) ∧
        (K.log R2 ∧ K.saved F2.share R2) ∧ OwnHistory R2 ∧ (∀ t ∈ R1, t ∈ R2) ∧ ∀ t ∈ R2, ∃ i, t ∈ F2.log i := by
  obtain ⟨r1, r2⟩ := runOk_append hr
  obtain ⟨v1, v2⟩ := schemeRun_append hv
  obtain ⟨R1, h1, -⟩ := h.any es r1 v1
  obtain ⟨R2, h2, h3, h4⟩ := h1.any es' r2 v2
  simp only [run_append] at h2 h4 ⊢
  exact ⟨fun i => ⟨h2.creds i, h2.sound i, h4 i⟩, R1, R2,
    fun i => ⟨K.reads i h1.own h1.log h1.saved, K.reads i h2.own h2.log h2.saved⟩, ⟨h2.log, h2.saved⟩, h2.own, h3, h2.src⟩

theorem Inv.agree {P : Prims} {C : Codec} {K : Scheme P C} {F : Fleet} {base : List Tx} {es s1 s2 : List Event} (h : Inv K F base)
    (hr : RunOk P C true (es ++ s1 ++ s2) F) (hv : K.run (es ++ s1 ++ s2) F) (h1 : OnlySyncs s1) (h2 : OnlySyncs s2)
    (hsub : ∀ i ∈ syncers s2, i ∈ syncers s1) :
    let F1 := F.run P C es
    let F2 := F.run P C (es ++ s1 ++ s2)
    ∃ R1 R2, (∀ i, readShare P C (K.creds i) F1.share = some R1 ∧ readShare P C (K.creds i) F2.share = some R2) ∧
      (K.log R2 ∧ K.saved F2.share R2) ∧ (∀ i ∈ syncers s2, F2.log i = R2) ∧
      ∀ t, t ∈ R2 ↔ t ∈ R1 ∨ ∃ i ∈ syncers s1, t ∈ F1.log i := by
  obtain ⟨r12, r3⟩ := runOk_append hr
  obtain ⟨r1, r2⟩ := runOk_append r12
  obtain ⟨v12, v3⟩ := schemeRun_append hv
  obtain ⟨v1, v2⟩ := schemeRun_append v12
  obtain ⟨R1, i1, -⟩ := h.run es r1 v1
  obtain ⟨R2, i2, g1, g2, -⟩ := i1.collect s1 r2 v2 h1
  rw [run_append] at r3 v3
  obtain ⟨i3, g4, -⟩ := i2.spread s2 r3 v3 h2 (fun i hi => g2 i (hsub i hi))
  simp only [run_append]
  exact ⟨R1, R2, fun i => ⟨K.reads i i1.own i1.log i1.saved, K.reads i i3.own i3.log i3.saved⟩, ⟨i3.log, i3.saved⟩, g4, g1⟩

theorem Inv.stuckFor {P : Prims} {C : Codec} {K : Scheme P C} {F : Fleet} {base : List Tx} {es es' : List Event} (h : Inv K F base)
    (hr : RunOk P C false (es ++ es') F) (hv : K.run (es ++ es') F) (i : Nat) (d x : Tx)
    (hc : Spec.Conflict P C (F.run P C es) i d x) :
    let F1 := F.run P C es
    let F2 := F.run P C (es ++ es')
    Spec.Conflict P C F2 i d x ∧
    (∀ v inp, ShareEnv P C F2 i v inp → (App.sync P C (shareWorld F2.share) v [] true (F2.machine i) inp).result = .ok () ∧
      (F2.step P C (.sync i v inp)).share = F2.share ∧ ∀ j, (F2.step P C (.sync i v inp)).log j = F2.log j) ∧
    ∃ R1 R2, (∀ i, readShare P C (K.creds i) F1.share = some R1 ∧ readShare P C (K.creds i) F2.share = some R2) ∧
      (∀ t ∈ F1.log i, t ∉ R1 → t ∈ F2.log i ∧ t ∉ R2 ∧ ∀ j, j ≠ i → t ∉ F2.log j) ∧
      ∀ t ∈ R1, t ∉ F1.log i → t ∈ R2 ∧ t ∉ F2.log i := by
  obtain ⟨r1, r2⟩ := runOk_append hr
  obtain ⟨v1, v2⟩ := schemeRun_append hv
  obtain ⟨R1, h1, -⟩ := h.any es r1 v1
  obtain ⟨R, hR, hc⟩ := hc
  rw [h1.reads i] at hR
  cases hR
  obtain ⟨R2, h2, a⟩ := h1.stuck es' r2 v2 hc
  simp only [run_append] at h2 a ⊢
  refine ⟨⟨R2, h2.reads i, a.conflict⟩, fun v inp hv => ?_, R1, R2,
    fun i => ⟨K.reads i h1.own h1.log h1.saved, K.reads i h2.own h2.log h2.saved⟩,
    fun t k k' => ⟨a.log t k, a.here t k k', fun j hj k2 => a.here t k k' (h2.priv i j hj.symm t (a.log t k) k2)⟩,
    fun t k k' => ⟨a.share t k, a.there t k k'⟩⟩
  obtain ⟨y, -, hone⟩ := hv.one
  exact ⟨(sync_conflict (h2.shareFor i) hone a.conflict).2.2, (h2.blocked hone a.conflict).2⟩

/-! ## Files without users -/

/-- what a saved file decrypts to -/
theorem saved_decrypts {P : Prims} (hP : Crypt.Spec.Lawful P) {C : Codec} {c : Creds} (hc : SingleCreds c) {f : Str} {R : List Tx}
    (h : SavedAs P C c f R) : ∃ iv pt, decrypt P c.user c.pass (orNil c.key) c.salt f =
      .ok (1, { version := 1, keys := [c.key], salts := [c.salt], ivs := [iv] }, pt) ∧ pt ≠ [] ∧ C.loadLog pt = .ok R := by
  obtain ⟨ord, ord', iv, s, hiv, htx, rfl, hC, h⟩ := h
  have hk : c.key ≠ [] := by
    intro h0
    have := hc.key
    rw [h0] at this
    simp at this
  simp only [saveBlob, sealFile, DB.save, htx, makeParams, hc.master, Bool.false_eq_true, if_false, if_true, ne_eq,
    not_true, bne_self_eq_false] at h
  cases he : encrypt P 1 { keys := [c.key], salts := [c.salt] } iv (C.marshal s) with
  | panic => simp [he] at h
  | err e => simp [he] at h
  | ok f' =>
    simp [he] at h
    subst h
    refine ⟨iv, C.marshal s, ?_, hC.nonempty, hC.loadLog⟩
    exact C42_single_roundtrip P hP _ iv _ c.key c.salt _ rfl rfl rfl hiv he c.user c.pass _ _
      (.inr ⟨by simp [orNil, hk], rfl⟩)

theorem saved_reads {P : Prims} (hP : Crypt.Spec.Lawful P) {C : Codec} {c : Creds} (hc : SingleCreds c) {f : Str} {R : List Tx}
    (h : SavedAs P C c f R) : readShare P C c f = some R := by
  obtain ⟨iv, pt, h1, h2, h3⟩ := saved_decrypts hP hc h
  simp only [readShare, h1, h2, if_false, h3]

/-- ... and how it is made -/
theorem saved_seals {P : Prims} (hP : Crypt.Spec.Lawful P) {C : Codec} {c : Creds} (hc : SingleCreds c) {s : DB} {v : SyncEnv}
    (hiv : v.iv.length = 40) (htx : s.txPoint = 0) (hC : Faithful C s) :
    ∃ ct, sealFile P C v.ord v.ord' v.iv c s = (s, .ok ct) ∧ SavedAs P C c ct s.log := by
  let p : Params := { keys := [c.key], salts := [c.salt] }
  have hv : p.validate = true := by
    have h1 : keySize = 80 := by decide
    simp [p, Params.validate, hc.key, hc.salt, h1, saltSize]
  obtain ⟨ct, ls, -, -, he, -⟩ := encrypt_single P hP p v.iv (C.marshal s) c.key c.salt hv rfl rfl rfl hc.key hiv
  generalize hf : magic 0 ++ c.salt ++ v.iv ++ ct = f' at he
  have hseal : sealFile P C v.ord v.ord' v.iv c s = (s, .ok f') := by
    simp only [sealFile, DB.save, htx, makeParams, hc.master]
    simp only [p] at he
    simp [he]
  refine ⟨f', hseal, v.ord, v.ord', v.iv, s, hiv, htx, rfl, hC, ?_⟩
  simp only [saveBlob, hseal, Bool.false_eq_true, if_false]

/-- all machines have the password of the file -/
def singleScheme {P : Prims} (hP : Crypt.Spec.Lawful P) (C : Codec) {c : Creds} (hc : SingleCreds c) : Scheme P C where
  creds _ := c
  log _ := True
  env _ := True
  saved := SavedAs P C c
  union _ _ _ := trivial
  opens _ _ _ h := by
    obtain ⟨iv, pt, h1, h2, h3⟩ := saved_decrypts hP hc h
    exact ⟨_, pt, c.key, c.salt, h1, h2, h3, rfl, rfl, by simp [hc.master], fun _ => rfl⟩
  seals _ hs _ _ hiv hC _ := saved_seals hP hc hiv hs.tx hC

theorem single_run {P : Prims} (hP : Crypt.Spec.Lawful P) {C : Codec} {c : Creds} (hc : SingleCreds c) (es : List Event) (F : Fleet) :
    (singleScheme hP C hc).run es F := by
  induction es generalizing F with
  | nil => trivial
  | cons e es ih => exact ⟨by cases e <;> simp [Scheme.event, singleScheme], ih _⟩

theorem Copies.inv {P : Prims} (hP : Crypt.Spec.Lawful P) {C : Codec} {c : Creds} {F : Fleet} {base : List Tx} (h : Copies P C c F base) :
    Inv (singleScheme hP C h.single) F base :=
  Scheme.start h.creds h.sound h.logs h.nonempty h.names trivial h.share

end Verif.App
