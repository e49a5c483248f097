import Verif.App.FleetTextSpec
import Verif.App.FleetCore
import Verif.App.AccessProps
/-!
# Lemmas about several machines whose files are written as JSON
-/
namespace Verif.App
open Verif Verif.Txlogs Verif.Blob Verif.Crypt Verif.App.Spec
open Verif.Txlogs.Spec (TouchedAfterDelete)

/-- what is typed is text, so it can be written as JSON -/
theorem Inv.text {P : Prims} {K : Scheme P Json.Spec.codec} (quiet : Bool) (es : List Event) :
    ∀ {F : Fleet} {R : List Tx}, Inv K F R → (∀ i, CleanLog (F.machine i).store) → TextRunOk P quiet es F → K.run es F →
      RunOk P Json.Spec.codec quiet es F := by
  induction es with
  | nil => intro F R _ _ _ _; trivial
  | cons e es ih =>
    intro F R h hc hr hv
    obtain ⟨he, hr⟩ := hr
    cases e with
    | work i turns =>
      obtain ⟨hw, ht, hfit⟩ := he
      have hs := h.sound i
      have hn : (runRepl P Json.Spec.codec turns { u := F.machine i }).2 ≠ .panic := by rw [hw.ends]; simp
      have hc' : CleanLog (runRepl P Json.Spec.codec turns { u := F.machine i }).1.u.store := fun t k =>
        ⟨C77_text_session P Json.Spec.codec turns { u := F.machine i } hs.tx hs.wf (fun t k => (hc i t k).1) ht hn t k, hfit t k⟩
      refine ⟨hw, ih (h.work hw hv.1).1 (fun j => ?_) hr hv.2⟩
      by_cases hji : j = i
      · subst hji; simpa [Fleet.step, Fleet.set] using hc'
      · simpa [Fleet.step, Fleet.set, hji] using hc j
    | sync i v inp =>
      obtain ⟨hiv, hord, hone, hcount, hq⟩ := he
      have hcR : ∀ t ∈ R, Json.Spec.CleanTx t ∧ FitsInt64 t.time := by
        intro t ht
        obtain ⟨j, hj⟩ := h.src t ht
        exact hc j t hj
      obtain ⟨x, hx, hone'⟩ := hone
      by_cases hconf : ∃ d y, TouchedAfterDelete (F.log i) R d y
      · obtain ⟨d, y, hdy⟩ := hconf
        have hses := (sync_conflict (inp := inp) (h.shareFor i) hone' hdy).1
        have hlog : (App.sync P Json.Spec.codec (shareWorld F.share) v [] true (F.machine i) inp).session.store.log = F.log i := by
          rw [hses]; exact updateSnapshot_log _
        have hcl : CleanLog (App.sync P Json.Spec.codec (shareWorld F.share) v [] true (F.machine i) inp).session.store := by
          intro t ht; rw [hlog] at ht; exact hc i t ht
        have hok : Ok (App.sync P Json.Spec.codec (shareWorld F.share) v [] true (F.machine i) inp).session.store := by
          rw [hses]; exact ok_update (h.sound i).wf.good.ok
        have henv : ShareEnv P Json.Spec.codec F i v inp :=
          ⟨hiv, hord, ⟨x, hx, hone'⟩, Json.C11_partial _ (clean_of_log hok hcl hcount)⟩
        refine ⟨⟨henv, hq⟩, ih (h.blocked hone' hdy).1 (fun j => ?_) hr hv.2⟩
        by_cases hji : j = i
        · subst hji; simpa [Fleet.step, Fleet.set] using hcl
        · simpa [Fleet.step, Fleet.set, hji] using hc j
      · obtain ⟨hs, hmem⟩ := sync_merged_store (v := v) (inp := inp) (h.shareFor i) hord hx hone' hconf
        have hcl : CleanLog (App.sync P Json.Spec.codec (shareWorld F.share) v [] true (F.machine i) inp).session.store := by
          intro t ht
          rcases (hmem t).1 ht with k | k
          · exact hc i t k
          · exact hcR t k
        have henv : ShareEnv P Json.Spec.codec F i v inp :=
          ⟨hiv, hord, ⟨x, hx, hone'⟩, C77_saved _ hs.wf hcl hcount⟩
        obtain ⟨R', hR', -⟩ := h.sync henv hv.1 hconf
        refine ⟨⟨henv, hq⟩, ih hR' (fun j => ?_) hr hv.2⟩
        by_cases hji : j = i
        · subst hji; simpa [Fleet.step, Fleet.set] using hcl
        · simpa [Fleet.step, Fleet.set, hji] using hc j

end Verif.App
