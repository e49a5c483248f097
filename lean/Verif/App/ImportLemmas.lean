import Verif.App.TransferSpec
import Verif.Blob.Props
import Verif.App.SessionLemmas
/-!
# Lemmas for import
-/
set_option linter.unusedSimpArgs false
namespace Verif.App
open Verif Verif.Txlogs Verif.Blob Verif.Crypt Verif.App.Spec

/-- the operations of `New` -/
def newOps (now : Nat → Int) (u nm : Str) : List Tx :=
  [⟨now 0, .add, u, [], []⟩, ⟨now 2, .setk, u, keyUpdated, fmtInt (now 1)⟩, ⟨now 3, .setk, u, keyName, nm⟩]

theorem new_log {ord : Order} {now : Nat → Int} {u nm : Str} {s s' : DB} {u' : Str}
    (h : new ord now u s nm = (s', .ok u')) : u' = u ∧ s'.log = s.log ++ newOps now u nm ∧ s'.txPoint = s.txPoint := by
  have hl := updateSnapshot_log s
  have ht := updateSnapshot_txPoint s
  unfold new withSnapshot at h
  split at h
  · simp at h
  · rename_i s1 heq
    rw [heq] at hl ht
    simp only at hl ht h
    split at h
    · simp at h
    · simp at h
    · simp only [Prod.mk.injEq, Res.ok.injEq] at h
      obtain ⟨rfl, rfl⟩ := h
      refine ⟨rfl, ?_, ht⟩
      simp [DB.setKey, DB.appendLog, touchUpdated, DB.add, hl, newOps]

theorem new_err_log {ord : Order} {now : Nat → Int} {u nm : Str} {s s' : DB} {e : BErr}
    (h : new ord now u s nm = (s', .err e)) : s'.log = s.log ∧ s'.txPoint = s.txPoint := by
  have hl := updateSnapshot_log s
  have ht := updateSnapshot_txPoint s
  unfold new withSnapshot at h
  split at h
  · rename_i s1 _ heq
    rw [heq] at hl ht
    simp only [Prod.mk.injEq] at h
    rw [← h.1]; exact ⟨hl, ht⟩
  · rename_i s1 heq
    rw [heq] at hl ht
    simp only at h
    split at h
    · simp at h
    · simp only [Prod.mk.injEq] at h
      rw [← h.1]; exact ⟨hl, ht⟩
    · simp at h

theorem newLoop_log {ord : Order} {now : Nat → Int} {u : Str} {fuel : Nat} {nm : Str} {s s' : DB} {u' : Str}
    (h : newSyncLoop ord now u fuel s nm = some (s', .ok u')) :
    u' = u ∧ s'.txPoint = s.txPoint ∧ ∃ k, s'.log = s.log ++ newOps now u (nm ++ List.replicate k 49) := by
  induction fuel generalizing s nm with
  | zero => simp [newSyncLoop] at h
  | succ fuel ih =>
    simp only [newSyncLoop] at h
    split at h
    · rename_i s1 heq
      obtain ⟨h1, h2, k, h3⟩ := ih h
      have := new_err_log heq
      refine ⟨h1, h2.trans this.2, k + 1, ?_⟩
      rw [h3, this.1, List.append_assoc nm]
      rfl
    · simp only [Option.some.injEq] at h
      obtain ⟨h1, h2, h3⟩ := new_log h
      exact ⟨h1, h3, 0, by simpa using h2⟩

/-- the loop over names ends with an entry under the wanted name, followed by as many `1` as needed -/
theorem newLoop_good {s : DB} (ord : Order) (hord : ∀ m, (ord m).Perm m) (now : Nat → Int)
    (u nm : Str) (h : Good s) (hfresh : ¬ Exists s u) (fuel : Nat) (hfuel : s.log.length < fuel) :
    ∃ s' k, newSyncLoop ord now u fuel s nm = some (s', .ok u) ∧ Good s' ∧
      Blob.Spec.Named s' u (nm ++ List.replicate k 49) ∧
      (∀ v, ¬ Blob.Spec.Named s v (nm ++ List.replicate k 49)) ∧
      ∀ j < k, ∃ v, Blob.Spec.Named s v (nm ++ List.replicate j 49) := by
  obtain ⟨-, hf, hg, hlog⟩ := good_withSnapshot h (fun s => ((s, .panic) : Out Str))
  have hle := snapshot_length_le hf
  rw [hlog] at hle
  have hl := longNames_le s.updateSnapshot.1.snapshot nm.length
  rw [newSyncLoop_update ord now u fuel _ h]
  obtain ⟨s', k, h1, h2, h3, h4, h5⟩ := newSyncLoop_spec ord hord now u fuel nm hg hf
    (by rw [exists_log hlog]; exact hfresh) (by omega)
  refine ⟨s', k, h1, h2, h3, ?_, ?_⟩
  · intro v; rw [← named_log hlog]; exact h4 v
  · intro j hj; obtain ⟨v, hv⟩ := h5 j hj; exact ⟨v, (named_log hlog v _).1 hv⟩

/-- what the operations of `New` add -/
theorem visible_newOps {s s' : DB} {now : Nat → Int} {u nm : Str} (hg : Good s) (hfresh : ¬ Exists s u)
    (hl : s'.log = s.log ++ newOps now u nm) :
    Blob.Spec.Visible s' u (Txlogs.Spec.upd (Txlogs.Spec.upd (fun _ => none) keyUpdated (some (fmtInt (now 1)))) keyName (some nm)) ∧
    ∀ w f, w ≠ u → (Blob.Spec.Visible s' w f ↔ Blob.Spec.Visible s w f) := by
  obtain ⟨st, h1, -⟩ := hg.named
  have hu : st u = none := by
    cases hsu : st u with
    | none => rfl
    | some e => exact absurd ⟨e, st, h1, hsu⟩ hfresh
  have hm : Txlogs.Spec.meaning Txlogs.Spec.empty s'.log = some (Txlogs.Spec.upd st u (some
      (Txlogs.Spec.upd (Txlogs.Spec.upd (fun _ => none) keyUpdated (some (fmtInt (now 1)))) keyName (some nm)))) := by
    rw [hl, meaning_append, h1]
    simp only [Option.bind_some, newOps, Txlogs.Spec.meaning, Txlogs.Spec.apply, hu]
    simp only [Txlogs.Spec.upd, if_true, Option.some.injEq]
    funext w
    by_cases hw : w = u
    · simp [hw, Txlogs.Spec.upd]
    · simp [hw, Txlogs.Spec.upd]
  refine ⟨⟨_, hm, by simp [Txlogs.Spec.upd]⟩, ?_⟩
  intro w f hw
  unfold Blob.Spec.Visible
  rw [hm, h1]
  simp [Txlogs.Spec.upd, hw]

/-- the state of one entry, and that the others are as in `s0` -/
structure Entry1 (s0 s : DB) (u : Str) (e : Str → Option Str) : Prop where
  good : Good s
  uniq : LogUnique s.log
  visible : Blob.Spec.Visible s u e
  others : ∀ w f, w ≠ u → (Blob.Spec.Visible s w f ↔ Blob.Spec.Visible s0 w f)
  txPoint : s.txPoint = s0.txPoint

theorem Entry1.setKey {s0 s : DB} {u : Str} {e : Str → Option Str} (h : Entry1 s0 s u e) (t : Int) (k v : Str)
    (hk : k ≠ keyName) : Entry1 s0 (s.setKey t u k v) u (Txlogs.Spec.upd e k (some v)) where
  good := (good_setKey t u k v h.good ⟨e, h.visible⟩).1
  uniq := logUnique_setKey t u k v hk h.uniq
  visible := (visible_setKey t u k v e h.visible).1
  others := fun w f hw => ((visible_setKey t u k v e h.visible).2 w f hw).trans (h.others w f hw)
  txPoint := h.txPoint

theorem Entry1.setSome {s0 s : DB} {u : Str} {e : Str → Option Str} (h : Entry1 s0 s u e) (t : Int) (k v : Str)
    (hk : k ≠ keyName) : Entry1 s0 (setSome s t u k v) u (if v = [] then e else Txlogs.Spec.upd e k (some v)) := by
  unfold App.setSome
  split
  · exact h
  · exact h.setKey t k v hk

theorem pick (e : Str → Option Str) (k v x : Str) : (if v = [] then e else Txlogs.Spec.upd e k (some v)) x =
    if x = k then (if v = [] then e x else some v) else e x := by
  by_cases hv : v = [] <;> by_cases hx : x = k <;> simp [hv, hx, Txlogs.Spec.upd]

theorem labels_join (toLower : Str → Str) (grouping fav : Str) (h : importLabels toLower grouping fav ≠ []) :
    some (join comma (importLabels toLower grouping fav)) =
      (if grouping = [] then (if fav = b! "1" then some (b! "lpfav") else none)
       else some (toLower grouping ++ if fav = b! "1" then b! ",lpfav" else [])) := by
  unfold importLabels at h ⊢
  by_cases h1 : grouping = [] <;> by_cases h2 : fav = b! "1" <;> simp_all [join, comma]

/-- one record of seven fields makes one entry and leaves the others alone -/
theorem importRecord_spec (toLower : Str → Str) (ord : Order) (hord : ∀ m, (ord m).Perm m) (d : Draw) (s : DB) (r : List Str)
    (hr : r.length = 7) (hg : Good s) (hu : LogUnique s.log) (hfresh : ¬ Exists s d.uuid) :
    ∃ s' k, importRecord toLower ord d s r = (s', .ok ()) ∧
      Entry1 s s' d.uuid (imported toLower (d.now 1) (recordName toLower r ++ List.replicate k 49) r) ∧
      (∀ v, ¬ Blob.Spec.Named s v (recordName toLower r ++ List.replicate k 49)) ∧
      ∀ j < k, ∃ v, Blob.Spec.Named s v (recordName toLower r ++ List.replicate j 49) := by
  match r, hr with
  | [url, user, pass, extra, nm, grouping, fav], _ =>
    obtain ⟨s1, k, h1, h2, h3, h4, h5⟩ := newLoop_good ord hord d.now d.uuid (underscores (toLower nm)) hg hfresh
      (s.log.length + 2) (by omega)
    obtain ⟨-, ht, k', hl⟩ := newLoop_log h1
    have hinv := inv_newSyncLoop ord hord d.now d.uuid _ _ _ ⟨hg.ok, hu⟩ h1
    obtain ⟨hv, ho⟩ := visible_newOps hg hfresh hl
    have hk' : k' = k := by
      obtain ⟨e, he, hn⟩ := h3
      have := visible_unique he hv
      subst this
      simp only [Txlogs.Spec.upd, if_true, Option.some.injEq] at hn
      have := congrArg List.length hn
      simp at this
      exact this
    subst hk'
    have e0 : Entry1 s s1 d.uuid _ := ⟨h2, hinv.uniq, hv, ho, ht⟩
    have e4 := (((e0.setSome (d.now 4) keyUser user (by decide)).setSome (d.now 5) keyPass pass (by decide)).setSome
      (d.now 6) keyURL url (by decide)).setSome (d.now 7) keyNotes extra (by decide)
    have hrec : ∀ s4, setSome (setSome (setSome (setSome s1 (d.now 4) d.uuid keyUser user) (d.now 5) d.uuid keyPass pass)
        (d.now 6) d.uuid keyURL url) (d.now 7) d.uuid keyNotes extra = s4 →
        importRecord toLower ord d s [url, user, pass, extra, nm, grouping, fav] =
          (if importLabels toLower grouping fav = [] then s4 else
            s4.setKey (d.now 8) d.uuid keyLabels (join comma (importLabels toLower grouping fav)), .ok ()) := by
      rintro s4 rfl
      simp only [importRecord, h1]
    generalize setSome (setSome (setSome (setSome s1 (d.now 4) d.uuid keyUser user) (d.now 5) d.uuid keyPass pass)
        (d.now 6) d.uuid keyURL url) (d.now 7) d.uuid keyNotes extra = s4 at hrec e4
    refine ⟨_, k', hrec s4 rfl, ?_, h4, h5⟩
    have e5 := e4.setKey (d.now 8) keyLabels (join comma (importLabels toLower grouping fav)) (by decide)
    have hne : keyUser ≠ keyName ∧ keyPass ≠ keyName ∧ keyURL ≠ keyName ∧ keyNotes ≠ keyName ∧ keyLabels ≠ keyName ∧
        keyUpdated ≠ keyName := by decide
    have hne' : keyUser ≠ keyUpdated ∧ keyPass ≠ keyUpdated ∧ keyURL ≠ keyUpdated ∧ keyNotes ≠ keyUpdated ∧
        keyLabels ≠ keyUpdated := by decide
    have hne'' : keyPass ≠ keyUser ∧ keyURL ≠ keyUser ∧ keyNotes ≠ keyUser ∧ keyLabels ≠ keyUser ∧ keyURL ≠ keyPass ∧
        keyNotes ≠ keyPass ∧ keyLabels ≠ keyPass ∧ keyNotes ≠ keyURL ∧ keyLabels ≠ keyURL ∧ keyLabels ≠ keyNotes := by decide
    have hlab : importLabels toLower grouping fav = [] ↔ grouping = [] ∧ fav ≠ b! "1" := by
      unfold importLabels
      by_cases h1 : grouping = [] <;> by_cases h2 : fav = b! "1" <;> simp [h1, h2]
    by_cases hls : importLabels toLower grouping fav = []
    · rw [if_pos hls]
      obtain ⟨hg0, hf0⟩ := hlab.1 hls
      refine cast (congrArg _ ?_) e4
      funext x
      simp only [pick, imported, Txlogs.Spec.upd, filled, hg0, hf0]
      by_cases x1 : x = keyName
      · subst x1; simp [Ne.symm hne.1, Ne.symm hne.2.1, Ne.symm hne.2.2.1, Ne.symm hne.2.2.2.1, Ne.symm hne.2.2.2.2.1, recordName]
      by_cases x2 : x = keyUpdated
      · subst x2; simp [x1, Ne.symm hne'.1, Ne.symm hne'.2.1, Ne.symm hne'.2.2.1, Ne.symm hne'.2.2.2.1, Ne.symm hne'.2.2.2.2]
      by_cases x3 : x = keyUser
      · subst x3; obtain ⟨a1, a2, a3, a4, -⟩ := hne''; simp [x1, x2, Ne.symm a1, Ne.symm a2, Ne.symm a3, Ne.symm a4]
      by_cases x4 : x = keyPass
      · subst x4; obtain ⟨-, -, -, -, a1, a2, a3, -⟩ := hne''; simp [x1, x2, x3, Ne.symm a1, Ne.symm a2, Ne.symm a3]
      by_cases x5 : x = keyURL
      · subst x5; obtain ⟨-, -, -, -, -, -, -, a1, a2, -⟩ := hne''; simp [x1, x2, x3, x4, Ne.symm a1, Ne.symm a2]
      by_cases x6 : x = keyNotes
      · subst x6; obtain ⟨-, -, -, -, -, -, -, -, -, a1⟩ := hne''; simp [x1, x2, x3, x4, x5, Ne.symm a1]
      by_cases x7 : x = keyLabels
      · subst x7; simp [x1, x2, x3, x4, x5, x6]
      · simp [x1, x2, x3, x4, x5, x6, x7]
    · rw [if_neg hls]
      refine cast (congrArg _ ?_) e5
      funext x
      simp only [pick, imported, Txlogs.Spec.upd, filled]
      by_cases x1 : x = keyName
      · subst x1; simp [Ne.symm hne.1, Ne.symm hne.2.1, Ne.symm hne.2.2.1, Ne.symm hne.2.2.2.1, Ne.symm hne.2.2.2.2.1, recordName]
      by_cases x2 : x = keyUpdated
      · subst x2; simp [x1, Ne.symm hne'.1, Ne.symm hne'.2.1, Ne.symm hne'.2.2.1, Ne.symm hne'.2.2.2.1, Ne.symm hne'.2.2.2.2]
      by_cases x3 : x = keyUser
      · subst x3; obtain ⟨a1, a2, a3, a4, -⟩ := hne''; simp [x1, x2, Ne.symm a1, Ne.symm a2, Ne.symm a3, Ne.symm a4]
      by_cases x4 : x = keyPass
      · subst x4; obtain ⟨-, -, -, -, a1, a2, a3, -⟩ := hne''; simp [x1, x2, x3, Ne.symm a1, Ne.symm a2, Ne.symm a3]
      by_cases x5 : x = keyURL
      · subst x5; obtain ⟨-, -, -, -, -, -, -, a1, a2, -⟩ := hne''; simp [x1, x2, x3, x4, Ne.symm a1, Ne.symm a2]
      by_cases x6 : x = keyNotes
      · subst x6; obtain ⟨-, -, -, -, -, -, -, -, -, a1⟩ := hne''; simp [x1, x2, x3, x4, x5, Ne.symm a1]
      by_cases x7 : x = keyLabels
      · subst x7; simp [x1, x2, x3, x4, x5, x6]; exact labels_join toLower grouping fav hls
      · simp [x1, x2, x3, x4, x5, x6, x7]

theorem importRecords_spec (toLower : Str → Str) (ord : Order) (hord : ∀ m, (ord m).Perm m) (rs : List (List Str))
    (ds : Nat → Draw) (s : DB) (hr : ∀ r ∈ rs, r.length = 7) (hg : Good s) (hu : LogUnique s.log)
    (hfresh : ∀ i < rs.length, ¬ Exists s (ds i).uuid)
    (hdist : ∀ i j, i < j → j < rs.length → (ds i).uuid ≠ (ds j).uuid) :
    ∃ s', importRecords toLower ord ds s rs = (s', .ok ()) ∧ Good s' ∧ LogUnique s'.log ∧ s'.txPoint = s.txPoint ∧
      (∀ (i : Nat) (r : List Str), rs[i]? = some r → ∃ k, Blob.Spec.Visible s' (ds i).uuid
        (imported toLower ((ds i).now 1) (recordName toLower r ++ List.replicate k 49) r)) ∧
      (∀ w f, (∀ i < rs.length, w ≠ (ds i).uuid) → (Blob.Spec.Visible s' w f ↔ Blob.Spec.Visible s w f)) := by
  induction rs generalizing ds s with
  | nil => exact ⟨s, rfl, hg, hu, rfl, by simp, fun w f _ => Iff.rfl⟩
  | cons r rs ih =>
    obtain ⟨s1, k, h1, h2, -, -⟩ := importRecord_spec toLower ord hord (ds 0) s r (hr r (by simp)) hg hu
      (hfresh 0 (by simp))
    obtain ⟨s2, g1, g2, g3, g4, g5, g6⟩ := ih (fun i => ds (i + 1)) s1 (fun x hx => hr x (by simp [hx])) h2.good h2.uniq
      (by
        rintro i hi ⟨e, he⟩
        have hne := hdist 0 (i + 1) (by omega) (by simpa using hi)
        exact hfresh (i + 1) (by simpa using hi) ⟨e, (h2.others _ _ (Ne.symm hne)).1 he⟩)
      (fun i j hij hj => hdist (i + 1) (j + 1) (by omega) (by simpa using hj))
    refine ⟨s2, by simp only [importRecords, h1]; exact g1, g2, g3, g4.trans h2.txPoint, ?_, ?_⟩
    · intro i x hx
      cases i with
      | zero =>
        simp only [List.getElem?_cons_zero, Option.some.injEq] at hx
        subst hx
        exact ⟨k, (g6 _ _ (fun i hi => hdist 0 (i + 1) (by omega) (by simpa using hi))).2 h2.visible⟩
      | succ i => exact g5 i x (by simpa using hx)
    · intro w f hw
      exact (g6 w f (fun i hi => hw (i + 1) (by simpa using hi))).trans (h2.others w f (hw 0 (by simp)))

theorem sameWidth_length (n : Nat) (rs : List (List Str)) : ∀ r ∈ (Csv.sameWidth n rs).1, r.length = n := by
  induction rs with
  | nil => simp [Csv.sameWidth]
  | cons r rs ih =>
    intro x hx
    unfold Csv.sameWidth at hx
    split at hx
    · simp only [Prod.map_fst, List.mem_cons] at hx
      rcases hx with rfl | hx
      · assumption
      · exact ih x hx
    · cases hx

/-- all records read have as many fields as the first -/
theorem read_width (out : Str) (r : List Str) (rs : List (List Str)) (h : (Csv.read out).1 = r :: rs) :
    ∀ x ∈ r :: rs, x.length = r.length := by
  unfold Csv.read at h
  generalize Csv.parse .start [] [] (Csv.normalize out) = p at h
  obtain ⟨ps, ok⟩ := p
  cases ps with
  | nil => cases h
  | cons r0 rest =>
    have := sameWidth_length r0.length (r0 :: rest)
    simp only at h
    rw [h] at this
    have hr := this r (by simp)
    intro x hx
    rw [this x hx, hr]

end Verif.App
