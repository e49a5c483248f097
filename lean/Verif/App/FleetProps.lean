import Verif.App.FleetCore
import Verif.App.SyncDemo
/-!
# C89: machines that sync through a shared file
-/
set_option linter.unusedSimpArgs false
namespace Verif.App
open Verif Verif.Txlogs Verif.Blob Verif.Crypt Verif.App.Spec
open Verif.Crypt.Spec (toy toy_lawful)
open Verif.Txlogs.Spec (TouchedAfterDelete)

/-- Whatever is done on however many machines, in whatever order, with conflicts or without: the file of every machine stays in
order and keeps all its operations, and the shared file stays readable with the password, is a history bpass could have written
itself, and keeps its operations. -/
theorem C89_intact_partial (P : Prims) (hP : Crypt.Spec.Lawful P) (C : Codec) (c : Creds) (F : Fleet) (base : List Tx)
    (es es' : List Event) (h : Copies P C c F base) (hr : RunOk P C false (es ++ es') F) :
    let F1 := F.run P C es
    let F2 := F.run P C (es ++ es')
    (∀ i, (F2.machine i).creds = c ∧ Sound (F2.machine i).store ∧ ∀ t ∈ F1.log i, t ∈ F2.log i) ∧
      ∃ R1 R2, readShare P C c F1.share = some R1 ∧ readShare P C c F2.share = some R2 ∧ OwnHistory R2 ∧ (∀ t ∈ R1, t ∈ R2) ∧
        ∀ t ∈ R2, ∃ i, t ∈ F2.log i := by
  obtain ⟨h1, R1, R2, h2, -, h3⟩ := (Copies.inv hP h).intact hr (single_run hP h.single _ _)
  exact ⟨h1, R1, R2, (h2 0).1, (h2 0).2, h3⟩

/-- Eventually everybody has everything: after any work on any number of machines, a first round of syncs collects and a second one
spreads. Whatever the order within a round and whoever syncs twice, the machines of the second round then have the same history,
that of the shared file, and it consists of exactly what was there before and what the machines of the first round had. -/
theorem C89_agree_partial (P : Prims) (hP : Crypt.Spec.Lawful P) (C : Codec) (c : Creds) (F : Fleet) (base : List Tx)
    (es s1 s2 : List Event) (h : Copies P C c F base) (hr : RunOk P C true (es ++ s1 ++ s2) F) (h1 : OnlySyncs s1) (h2 : OnlySyncs s2)
    (hsub : ∀ i ∈ syncers s2, i ∈ syncers s1) :
    let F1 := F.run P C es
    let F2 := F.run P C (es ++ s1 ++ s2)
    ∃ R1 R2, readShare P C c F1.share = some R1 ∧ readShare P C c F2.share = some R2 ∧ (∀ i ∈ syncers s2, F2.log i = R2) ∧
      ∀ t, t ∈ R2 ↔ t ∈ R1 ∨ ∃ i ∈ syncers s1, t ∈ F1.log i := by
  obtain ⟨R1, R2, h3, -, h4⟩ := (Copies.inv hP h).agree hr (single_run hP h.single _ _) h1 h2 hsub
  exact ⟨R1, R2, (h3 0).1, (h3 0).2, h4⟩

/-- Two machines with the same history show the same entries. -/
theorem C89_entries (F : Fleet) (i j : Nat) (h : F.log i = F.log j) (u : Str) (e : Str → Option Str) :
    Blob.Spec.Visible (F.machine i).store u e ↔ Blob.Spec.Visible (F.machine j).store u e :=
  visible_log h u e

/-- When a machine and the shared file disagree about an entry that one of them deleted and the other changed later, `sync` on that
machine does nothing, whatever the user answers, and says that all is well. Whatever happens afterwards on any machine, this stays
so: what only that machine has never gets to the shared file or to another machine, and what the shared file has and the machine
lacks never gets there. -/
theorem C89_stuck (P : Prims) (hP : Crypt.Spec.Lawful P) (C : Codec) (c : Creds) (F : Fleet) (base : List Tx)
    (es es' : List Event) (h : Copies P C c F base) (hr : RunOk P C false (es ++ es') F) (i : Nat) (d x : Tx)
    (hc : Spec.Conflict P C (F.run P C es) i d x) :
    let F1 := F.run P C es
    let F2 := F.run P C (es ++ es')
    Spec.Conflict P C F2 i d x ∧
    (∀ v inp, ShareEnv P C F2 i v inp → (App.sync P C (shareWorld F2.share) v [] true (F2.machine i) inp).result = .ok () ∧
      (F2.step P C (.sync i v inp)).share = F2.share ∧ ∀ j, (F2.step P C (.sync i v inp)).log j = F2.log j) ∧
    ∃ R1 R2, readShare P C c F1.share = some R1 ∧ readShare P C c F2.share = some R2 ∧
      (∀ t ∈ F1.log i, t ∉ R1 → t ∈ F2.log i ∧ t ∉ R2 ∧ ∀ j, j ≠ i → t ∉ F2.log j) ∧
      ∀ t ∈ R1, t ∉ F1.log i → t ∈ R2 ∧ t ∉ F2.log i := by
  obtain ⟨h1, h2, R1, R2, h3, h4⟩ := (Copies.inv hP h).stuckFor hr (single_run hP h.single _ _) i d x hc
  exact ⟨h1, h2, R1, R2, (h3 0).1, (h3 0).2, h4⟩

end Verif.App
