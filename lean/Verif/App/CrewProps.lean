import Verif.App.CrewLemmas
import Verif.App.FleetTextLemmas
/-!
# C89: the machines of several users, which sync through a shared file
-/
set_option linter.unusedSimpArgs false
namespace Verif.App
open Verif Verif.Txlogs Verif.Blob Verif.Crypt Verif.App.Spec
open Verif.Crypt.Spec (toy toy_lawful)

/-- Whatever is done on the machines of however many users, in whatever order, with conflicts or without, as long as nobody touches
the accounts: every machine keeps its password and all its operations, and the shared file can be read by every user with the
password set last, is a history bpass could have written itself, and keeps its operations. -/
theorem C89_users_intact_partial (P : Prims) (hP : Crypt.Spec.Lawful P) (C : Codec) (M : Str) (rs : List Rec) (F : Fleet) (base : List Tx)
    (es es' : List Event) (h : CrewCopies P C M rs F base) (hr : RunOk P C false (es ++ es') F)
    (hk : CrewRunOk P C base (es ++ es') F) :
    let F1 := F.run P C es
    let F2 := F.run P C (es ++ es')
    (∀ i, (F2.machine i).creds = (F.machine i).creds ∧ Sound (F2.machine i).store ∧ ∀ t ∈ F1.log i, t ∈ F2.log i) ∧
      ∃ R1 R2, readShare P C (F.machine 0).creds F1.share = some R1 ∧
        (∀ c, CredsOf P M base rs c → readShare P C c F2.share = some R2) ∧ Keyring P M R2 rs ∧ OwnHistory R2 ∧ (∀ t ∈ R1, t ∈ R2) ∧
        ∀ t ∈ R2, ∃ i, t ∈ F2.log i := by
  obtain ⟨h1, R1, R2, h2, ⟨h3, h4⟩, h5⟩ := (CrewCopies.inv hP h).intact hr (crew_run hP _ h.ring h.roomy h.creds _ _ hk)
  refine ⟨h1, R1, R2, (h2 0).1, fun c hc => ?_, leaves_ring h.ring h3, h5⟩
  obtain ⟨q, pt, -, -, g1, g2, g3, -⟩ := crew_opens hP (CrewCopies.good h) h.ring h.roomy hc h3 h4
  simp only [readShare, g1, g2, if_false, g3]

/-- Eventually everybody has everything: after any work on the machines of any number of users, a first round of syncs collects and a
second one spreads. -/
theorem C89_users_agree_partial (P : Prims) (hP : Crypt.Spec.Lawful P) (C : Codec) (M : Str) (rs : List Rec) (F : Fleet) (base : List Tx)
    (es s1 s2 : List Event) (h : CrewCopies P C M rs F base) (hr : RunOk P C true (es ++ s1 ++ s2) F)
    (hk : CrewRunOk P C base (es ++ s1 ++ s2) F) (h1 : OnlySyncs s1) (h2 : OnlySyncs s2) (hsub : ∀ i ∈ syncers s2, i ∈ syncers s1) :
    let F1 := F.run P C es
    let F2 := F.run P C (es ++ s1 ++ s2)
    ∃ R1 R2, readShare P C (F.machine 0).creds F1.share = some R1 ∧
      (∀ c, CredsOf P M base rs c → readShare P C c F2.share = some R2) ∧ (∀ i ∈ syncers s2, F2.log i = R2) ∧
      ∀ t, t ∈ R2 ↔ t ∈ R1 ∨ ∃ i ∈ syncers s1, t ∈ F1.log i := by
  obtain ⟨R1, R2, g1, ⟨g2, g3⟩, g4⟩ := (CrewCopies.inv hP h).agree hr (crew_run hP _ h.ring h.roomy h.creds _ _ hk) h1 h2 hsub
  refine ⟨R1, R2, (g1 0).1, fun c hc => ?_, g4⟩
  obtain ⟨q, pt, -, -, k1, k2, k3, -⟩ := crew_opens hP (CrewCopies.good h) h.ring h.roomy hc g2 g3
  simp only [readShare, k1, k2, if_false, k3]

/-- A machine that disagrees with the shared file about a deleted entry stays apart for good in files with users, too. -/
theorem C89_users_stuck (P : Prims) (hP : Crypt.Spec.Lawful P) (C : Codec) (M : Str) (rs : List Rec) (F : Fleet) (base : List Tx)
    (es es' : List Event) (h : CrewCopies P C M rs F base) (hr : RunOk P C false (es ++ es') F)
    (hk : CrewRunOk P C base (es ++ es') F) (i : Nat) (d x : Tx) (hc : Spec.Conflict P C (F.run P C es) i d x) :
    let F1 := F.run P C es
    let F2 := F.run P C (es ++ es')
    Spec.Conflict P C F2 i d x ∧
    (∀ v inp, ShareEnv P C F2 i v inp → (App.sync P C (shareWorld F2.share) v [] true (F2.machine i) inp).result = .ok () ∧
      (F2.step P C (.sync i v inp)).share = F2.share ∧ ∀ j, (F2.step P C (.sync i v inp)).log j = F2.log j) ∧
    ∃ R1 R2, (∀ j, readShare P C (F.machine j).creds F1.share = some R1 ∧ readShare P C (F.machine j).creds F2.share = some R2) ∧
      (∀ t ∈ F1.log i, t ∉ R1 → t ∈ F2.log i ∧ t ∉ R2 ∧ ∀ j, j ≠ i → t ∉ F2.log j) ∧
      ∀ t ∈ R1, t ∉ F1.log i → t ∈ R2 ∧ t ∉ F2.log i :=
  (CrewCopies.inv hP h).stuckFor hr (crew_run hP _ h.ring h.roomy h.creds _ _ hk) i d x hc

/-- **Files with users written as JSON**: what is typed is well-formed text, so it can be written. -/
theorem crew_text {P : Prims} (hP : Crypt.Spec.Lawful P) {M : Str} {rs : List Rec} {F : Fleet} {base : List Tx} {es : List Event}
    {quiet : Bool} (h : CrewCopies P Json.Spec.codec M rs F base) (hb : ∀ t ∈ base, Json.Spec.CleanTx t ∧ FitsInt64 t.time)
    (hr : TextRunOk P quiet es F) (hk : CrewRunOk P Json.Spec.codec base es F) : RunOk P Json.Spec.codec quiet es F :=
  (CrewCopies.inv hP h).text quiet es (fun i t ht => hb t (by rw [← h.logs i]; exact ht)) hr
    (crew_run hP _ h.ring h.roomy h.creds _ _ hk)

theorem C89_users_text_intact_partial (P : Prims) (hP : Crypt.Spec.Lawful P) (M : Str) (rs : List Rec) (F : Fleet) (base : List Tx)
    (es es' : List Event) (h : CrewCopies P Json.Spec.codec M rs F base) (hb : ∀ t ∈ base, Json.Spec.CleanTx t ∧ FitsInt64 t.time)
    (hr : TextRunOk P false (es ++ es') F) (hk : CrewRunOk P Json.Spec.codec base (es ++ es') F) :
    let F1 := F.run P Json.Spec.codec es
    let F2 := F.run P Json.Spec.codec (es ++ es')
    (∀ i, (F2.machine i).creds = (F.machine i).creds ∧ Sound (F2.machine i).store ∧ ∀ t ∈ F1.log i, t ∈ F2.log i) ∧
      ∃ R1 R2, readShare P Json.Spec.codec (F.machine 0).creds F1.share = some R1 ∧
        (∀ c, CredsOf P M base rs c → readShare P Json.Spec.codec c F2.share = some R2) ∧ Keyring P M R2 rs ∧ OwnHistory R2 ∧
        (∀ t ∈ R1, t ∈ R2) ∧ ∀ t ∈ R2, ∃ i, t ∈ F2.log i :=
  C89_users_intact_partial P hP Json.Spec.codec M rs F base es es' h (crew_text hP h hb hr hk) hk

theorem C89_users_text_agree_partial (P : Prims) (hP : Crypt.Spec.Lawful P) (M : Str) (rs : List Rec) (F : Fleet) (base : List Tx)
    (es s1 s2 : List Event) (h : CrewCopies P Json.Spec.codec M rs F base) (hb : ∀ t ∈ base, Json.Spec.CleanTx t ∧ FitsInt64 t.time)
    (hr : TextRunOk P true (es ++ s1 ++ s2) F) (hk : CrewRunOk P Json.Spec.codec base (es ++ s1 ++ s2) F) (h1 : OnlySyncs s1)
    (h2 : OnlySyncs s2) (hsub : ∀ i ∈ syncers s2, i ∈ syncers s1) :
    let F1 := F.run P Json.Spec.codec es
    let F2 := F.run P Json.Spec.codec (es ++ s1 ++ s2)
    ∃ R1 R2, readShare P Json.Spec.codec (F.machine 0).creds F1.share = some R1 ∧
      (∀ c, CredsOf P M base rs c → readShare P Json.Spec.codec c F2.share = some R2) ∧ (∀ i ∈ syncers s2, F2.log i = R2) ∧
      ∀ t, t ∈ R2 ↔ t ∈ R1 ∨ ∃ i ∈ syncers s1, t ∈ F1.log i :=
  C89_users_agree_partial P hP Json.Spec.codec M rs F base es s1 s2 h (crew_text hP h hb hr hk) hk h1 h2 hsub

end Verif.App
