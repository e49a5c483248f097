import Verif.Blob.Lemmas
import Verif.Blob.Spec
/-!
# Invariants of the blob API
-/
set_option linter.unusedSimpArgs false
namespace Verif.Blob
open Verif Verif.Txlogs

/-! ## Every sequence of calls keeps `Ok` and unique names -/

structure Inv (s : DB) : Prop where
  ok : Ok s
  uniq : LogUnique s.log

theorem inv_new : Inv DB.new := ⟨ok_new, logUnique_nil⟩

theorem inv_update {s : DB} (h : Inv s) : Inv s.updateSnapshot.1 :=
  ⟨ok_update h.ok, by rw [updateSnapshot_log]; exact h.uniq⟩

theorem inv_touch {s : DB} (now : Nat → Int) (u : Str) (h : Inv s) : Inv (touchUpdated s now u) :=
  ⟨ok_touch now u h.ok, logUnique_touch now u h.uniq⟩
theorem inv_setKey {s : DB} (t : Int) (u k v : Str) (hk : k ≠ keyName) (h : Inv s) :
    Inv (s.setKey t u k v) := ⟨ok_setKey t u k v h.ok, logUnique_setKey t u k v hk h.uniq⟩
theorem inv_deleteKey {s : DB} (t : Int) (u k : Str) (h : Inv s) : Inv (s.deleteKey t u k) :=
  ⟨ok_deleteKey t u k h.ok, logUnique_deleteKey t u k h.uniq⟩

theorem inv_withSnapshot {α : Type} {s : DB} (h : Inv s) (k : DB → Out α)
    (hk : ∀ s', Inv s' → Fresh s' → s'.log = s.log → Inv (k s').1) : Inv (withSnapshot s k).1 := by
  rcases withSnapshot_cases h.ok k with ⟨e, h1, -⟩ | ⟨h1, h2, h3⟩
  · rw [h1]; exact inv_update h
  · rw [h1]; exact hk _ (inv_update h) h2 h3

/-- setting a name no other entry has -/
theorem inv_setName {s : DB} (t : Int) (u nm : Str) (h : Inv s)
    (hfree : ∀ st, Spec.meaning Spec.empty s.log = some st → ∀ v e, st v = some e →
      e keyName = some nm → v = u) : Inv (s.setKey t u keyName nm) :=
  ⟨ok_setKey t u keyName nm h.ok, logUnique_snoc h.uniq (fun _ _ => hfree)⟩

/-- a name stays free when something else than a name is written -/
theorem free_snoc {log : List Tx} {tx : Tx} {nm u : Str}
    (hfree : ∀ st, Spec.meaning Spec.empty log = some st → ∀ v e, st v = some e →
      e keyName = some nm → v = u)
    (hk : tx.kind = .setk → tx.key ≠ keyName) :
    ∀ st, Spec.meaning Spec.empty (log ++ [tx]) = some st → ∀ v e, st v = some e →
      e keyName = some nm → v = u := by
  intro st hst v e hv he
  rw [meaning_snoc] at hst
  cases hm : Spec.meaning Spec.empty log with
  | none => rw [hm] at hst; simp at hst
  | some st0 =>
    rw [hm] at hst
    simp only [Option.bind_some] at hst
    unfold Spec.apply at hst
    split at hst <;> simp only [Option.some.injEq, reduceCtorEq] at hst
    all_goals subst hst
    all_goals try simp only [Spec.upd] at hv
    · split at hv
      · cases hv; simp at he
      · exact hfree st0 hm v e hv he
    · split at hv
      · cases hv
      · exact hfree st0 hm v e hv he
    · rename_i e0 hk' he0
      split at hv
      · rename_i hvu
        cases hv
        simp only [Spec.upd, Ne.symm (hk hk'), if_false] at he
        exact hfree st0 hm v e0 (by rw [hvu]; exact he0) he
      · exact hfree st0 hm v e hv he
    · rename_i e0 hk' he0
      split at hv
      · rename_i hvu
        cases hv
        simp only [Spec.upd] at he
        split at he
        · cases he
        · exact hfree st0 hm v e0 (by rw [hvu]; exact he0) he
      · exact hfree st0 hm v e hv he
    · exact hfree st0 hm v e hv he

theorem free_of_nameTaken {s : DB} {o : Snapshot} {nm : Str} (hf : Fresh s) (ho : o.Perm s.snapshot)
    (h : nameTaken nm o = some false) :
    ∀ st, Spec.meaning Spec.empty s.log = some st → ∀ v e, st v = some e → e keyName ≠ some nm := by
  intro st hst v e hv he
  rw [hf.meaning] at hst
  cases hst
  obtain ⟨en, h1, rfl⟩ := view_some hv
  have hm := (mem_order hf.nodup ho v en).2 h1
  obtain ⟨n, h2, h3⟩ := (nameTaken_spec nm o).1 h _ hm
  simp only [name] at h2
  have he' : en.get? keyName = some nm := he
  rw [he'] at h2; cases h2; exact h3 rfl

theorem inv_newOp {s : DB} (ord : Order) (hord : ∀ m, (ord m).Perm m) (now : Nat → Int)
    (u nm : Str) (h : Inv s) : Inv (new ord now u s nm).1 := by
  unfold new
  refine inv_withSnapshot h _ (fun s' hi hf _ => ?_)
  cases ht : nameTaken nm (ord s'.snapshot) with
  | none => simpa using hi
  | some b =>
    cases b with
    | true => simpa using hi
    | false =>
      simp only
      have hfree := free_of_nameTaken hf (hord _) ht
      have hfree' : ∀ st, Spec.meaning Spec.empty s'.log = some st → ∀ v e, st v = some e →
          e keyName = some nm → v = u := fun st h1 v e h2 h3 => absurd h3 (hfree st h1 v e h2)
      have i1 : Inv (s'.add (now 0) u) :=
        ⟨ok_append hi.ok rfl rfl rfl, logUnique_snoc_other hi.uniq (by simp)⟩
      have f1 : ∀ st, Spec.meaning Spec.empty (s'.add (now 0) u).log = some st → ∀ v e,
          st v = some e → e keyName = some nm → v = u := free_snoc hfree' (by simp)
      have i2 := inv_touch (fun i => now (i + 1)) u i1
      exact inv_setName _ _ _ i2 (free_snoc f1 (fun _ => keyUpdated_ne))

theorem inv_rename {s : DB} (ord : Order) (hord : ∀ m, (ord m).Perm m) (now : Nat → Int)
    (u nm : Str) (h : Inv s) : Inv (rename ord now s u nm).1 := by
  unfold rename
  refine inv_withSnapshot h _ (fun s' hi hf _ => ?_)
  cases ht : nameTaken nm (ord s'.snapshot) with
  | none => simpa using hi
  | some b =>
    cases b with
    | true => simpa using hi
    | false =>
      simp only
      have hfree := free_of_nameTaken hf (hord _) ht
      split
      · exact hi
      · exact inv_setName _ _ _ (inv_touch now u hi) (free_snoc
          (fun st h1 v e h2 h3 => absurd h3 (hfree st h1 v e h2)) (fun _ => keyUpdated_ne))

theorem inv_set {s : DB} (now : Nat → Int) (u k v : Str) (h : Inv s) : Inv (set now s u k v).1 := by
  unfold set
  split
  · exact h
  · rename_i hp
    exact inv_setKey _ _ _ _ (not_protected_ne hp) (inv_touch now u h)

theorem inv_mustFind {s : DB} (u : Str) (h : Inv s) : Inv (mustFind s u).1 := by
  have : Inv (find s u).1 := inv_withSnapshot h _ (fun s' hi _ _ => hi)
  unfold mustFind
  split <;> rename_i heq <;> rw [heq] at this <;> exact this

theorem inv_newSyncLoop {s : DB} (ord : Order) (hord : ∀ m, (ord m).Perm m) (now : Nat → Int)
    (u : Str) (fuel : Nat) (nm : Str) (r : Out Str) (h : Inv s)
    (hr : newSyncLoop ord now u fuel s nm = some r) : Inv r.1 := by
  induction fuel generalizing s nm with
  | zero => simp [newSyncLoop] at hr
  | succ fuel ih =>
    have hi := inv_newOp ord hord now u nm h
    simp only [newSyncLoop] at hr
    split at hr
    · rename_i s' heq
      rw [heq] at hi
      exact ih _ hi hr
    · cases hr; exact hi

theorem fin_inv {α : Type} {r : Out α} {s' : DB} (h : Inv r.1) (hf : fin r = some s') : Inv s' := by
  unfold fin at hf
  split at hf
  · cases hf
  · cases hf; exact h

theorem inv_bstep {s s' : DB} {c : Call} (hord : ∀ m, (c.ord m).Perm m) (h : Inv s)
    (hs : bstep s c = some s') : Inv s' := by
  unfold bstep at hs
  split at hs
  · exact fin_inv (inv_newOp _ hord _ _ _ h) hs
  · exact fin_inv (inv_newOp _ hord _ _ _ h) hs
  · split at hs
    · cases hs
    · rename_i heq
      exact fin_inv (inv_newSyncLoop _ hord _ _ _ _ _ h heq) hs
  · exact fin_inv (inv_rename _ hord _ _ _ h) hs
  · exact fin_inv (inv_set _ _ _ _ h) hs
  · refine fin_inv ?_ hs
    unfold deleteKey
    split
    · exact h
    · exact inv_deleteKey _ _ _ (inv_touch _ _ h)
  · refine fin_inv ?_ hs
    unfold setTwofactor
    dsimp only
    generalize (if hasPrefix _ _ = true then _ else _ : Str) = uri
    split
    · exact inv_setKey _ _ _ _ keyTwoFactor_ne (inv_touch _ _ h)
    · exact h
  · refine fin_inv ?_ hs
    rename_i u l _
    have := inv_mustFind u h
    unfold addLabel
    split <;> rename_i heq <;> rw [heq] at this
    · exact this
    · exact this
    · exact inv_set _ _ _ _ (inv_touch _ _ this)
  · refine fin_inv ?_ hs
    rename_i u i _
    have := inv_mustFind u h
    unfold removeLabel
    split <;> rename_i heq <;> rw [heq] at this
    · exact this
    · exact this
    · dsimp only
      split
      · exact this
      · split
        · exact inv_deleteKey _ _ _ this
        · split
          · exact this
          · exact inv_setKey _ _ _ _ keyLabels_ne (inv_touch _ _ this)
  · cases hs
    exact ⟨ok_append h.ok rfl rfl rfl, logUnique_snoc_other h.uniq (by simp [DB.appendLog])⟩
  · cases hs; exact inv_update h

theorem inv_brun {s s' : DB} {cs : List Call} (hord : ∀ c ∈ cs, ∀ m, (c.ord m).Perm m) (h : Inv s)
    (hs : brun s cs = some s') : Inv s' := by
  induction cs generalizing s with
  | nil => cases hs; exact h
  | cons c cs ih =>
    simp only [brun] at hs
    cases hb : bstep s c with
    | none => rw [hb] at hs; cases hs
    | some s1 =>
      rw [hb] at hs
      exact ih (fun c hc => hord c (by simp [hc])) (inv_bstep (hord c (by simp)) h hb) hs

/-! ## Calls on existing entries keep the log readable and all entries named -/

/-- readable, and every visible entry has a name -/
structure Good (s : DB) : Prop where
  ok : Ok s
  named : ∃ st, Spec.meaning Spec.empty s.log = some st ∧ AllNamed st

theorem good_new : Good DB.new :=
  ⟨ok_new, Spec.empty, rfl, by intro u e h; simp [Spec.empty] at h⟩

theorem good_update {s : DB} (h : Good s) : Good s.updateSnapshot.1 :=
  ⟨ok_update h.ok, by rw [updateSnapshot_log]; exact h.named⟩

theorem good_withSnapshot {α : Type} {s : DB} (h : Good s) (k : DB → Out α) :
    withSnapshot s k = k s.updateSnapshot.1 ∧ Fresh s.updateSnapshot.1 ∧ Good s.updateSnapshot.1 ∧
      s.updateSnapshot.1.log = s.log := by
  rcases withSnapshot_cases h.ok k with ⟨e, -, h1⟩ | ⟨h1, h2, h3⟩
  · obtain ⟨st, h2, -⟩ := h.named
    rw [h1] at h2; cases h2
  · exact ⟨h1, h2, good_update h, h3⟩

theorem good_names {s : DB} {o : Snapshot} (h : Good s) (hf : Fresh s) (ho : o.Perm s.snapshot) :
    ∀ p ∈ o, (name p.2).isSome := by
  rintro ⟨u, e⟩ hp
  obtain ⟨st, h1, h2⟩ := h.named
  rw [hf.meaning] at h1; cases h1
  exact h2 u _ (view_of_get ((mem_order hf.nodup ho u e).1 hp))

theorem good_nameTaken {s : DB} {o : Snapshot} (h : Good s) (hf : Fresh s) (ho : o.Perm s.snapshot)
    (nm : Str) : ∃ b, nameTaken nm o = some b :=
  (nameTaken_spec nm o).2.2 (good_names h hf ho)

/-- entry `u` exists -/
def Exists (s : DB) (u : Str) : Prop := ∃ e, Spec.Visible s u e

theorem exists_iff {s : DB} (hf : Fresh s) (u : Str) : Exists s u ↔ ∃ e, s.snapshot.get? u = some e := by
  unfold Exists Spec.Visible
  rw [hf.meaning]
  constructor
  · rintro ⟨e, st, h1, h2⟩
    cases h1
    obtain ⟨en, h3, -⟩ := view_some h2
    exact ⟨en, h3⟩
  · rintro ⟨en, h⟩
    exact ⟨_, _, rfl, view_of_get h⟩

theorem exists_log {s s' : DB} (h : s'.log = s.log) (u : Str) : Exists s' u ↔ Exists s u := by
  unfold Exists Spec.Visible; rw [h]

theorem good_setKey {s : DB} (t : Int) (u k v : Str) (h : Good s) (he : Exists s u) :
    Good (s.setKey t u k v) ∧ Exists (s.setKey t u k v) u := by
  obtain ⟨st, h1, h2⟩ := h.named
  obtain ⟨e, st', h3, h4⟩ := he
  rw [h1] at h3; cases h3
  have hm : Spec.meaning Spec.empty (s.setKey t u k v).log =
      some (Spec.upd st u (some (Spec.upd e k (some v)))) := by
    simp only [DB.setKey, DB.appendLog, meaning_snoc, h1, Option.bind_some, Spec.apply, h4]
  refine ⟨⟨ok_setKey t u k v h.ok, _, hm, ?_⟩, _, _, hm, by simp [Spec.upd]; rfl⟩
  intro w f hw
  simp only [Spec.upd] at hw
  split at hw
  · cases hw
    simp only [Spec.upd]
    split
    · rfl
    · exact h2 u e h4
  · exact h2 w f hw

theorem good_deleteKey {s : DB} (t : Int) (u k : Str) (hk : k ≠ keyName) (h : Good s)
    (he : Exists s u) : Good (s.deleteKey t u k) ∧ Exists (s.deleteKey t u k) u := by
  obtain ⟨st, h1, h2⟩ := h.named
  obtain ⟨e, st', h3, h4⟩ := he
  rw [h1] at h3; cases h3
  have hm : Spec.meaning Spec.empty (s.deleteKey t u k).log =
      some (Spec.upd st u (some (Spec.upd e k none))) := by
    simp only [DB.deleteKey, DB.appendLog, meaning_snoc, h1, Option.bind_some, Spec.apply, h4]
  refine ⟨⟨ok_deleteKey t u k h.ok, _, hm, ?_⟩, _, _, hm, by simp [Spec.upd]; rfl⟩
  intro w f hw
  simp only [Spec.upd] at hw
  split at hw
  · cases hw
    simp only [Spec.upd, Ne.symm hk, if_false]
    exact h2 u e h4
  · exact h2 w f hw

theorem good_delete {s : DB} (t : Int) (u : Str) (h : Good s) (he : Exists s u) :
    Good (s.delete t u) := by
  obtain ⟨st, h1, h2⟩ := h.named
  obtain ⟨e, st', h3, h4⟩ := he
  rw [h1] at h3; cases h3
  refine ⟨ok_append h.ok rfl rfl rfl, Spec.upd st u none, ?_, ?_⟩
  · simp only [DB.delete, DB.appendLog, meaning_snoc, h1, Option.bind_some, Spec.apply, h4]
  · intro w f hw
    simp only [Spec.upd] at hw
    split at hw
    · cases hw
    · exact h2 w f hw

theorem good_touch {s : DB} (now : Nat → Int) (u : Str) (h : Good s) (he : Exists s u) :
    Good (touchUpdated s now u) ∧ Exists (touchUpdated s now u) u := good_setKey _ _ _ _ h he

/-- what `New` does in a good store when the uuid is fresh -/
theorem good_newOp {s : DB} (ord : Order) (hord : ∀ m, (ord m).Perm m) (now : Nat → Int)
    (u nm : Str) (h : Good s) (hfresh : ¬ Exists s u) :
    (∃ s', new ord now u s nm = (s', .err .nameNotUnique) ∧ Good s' ∧ s'.log = s.log ∧
      ∃ v, Spec.Named s v nm) ∨
    (∃ s', new ord now u s nm = (s', .ok u) ∧ Good s' ∧ Spec.Named s' u nm ∧
      ∀ v, ¬ Spec.Named s v nm) := by
  obtain ⟨-, hf, hg, hlog⟩ := good_withSnapshot h (fun s => ((s, .panic) : Out Str))
  unfold new
  rw [(good_withSnapshot h _).1]
  generalize s.updateSnapshot.1 = s1 at hf hg hlog ⊢
  obtain ⟨b, hb⟩ := good_nameTaken hg hf (hord s1.snapshot) nm
  rw [hb]
  have hnamed : ∀ v, Spec.Named s v nm ↔ ∃ e, s1.snapshot.get? v = some e ∧ name e = some nm := by
    intro v
    unfold Spec.Named Spec.Visible
    rw [← hlog, hf.meaning]
    constructor
    · rintro ⟨e, ⟨st, h2, h3⟩, h4⟩
      cases h2
      obtain ⟨en, h5, rfl⟩ := view_some h3
      exact ⟨en, h5, h4⟩
    · rintro ⟨en, h2, h3⟩
      exact ⟨_, ⟨_, rfl, view_of_get h2⟩, h3⟩
  cases b with
  | true =>
    left
    obtain ⟨⟨v, e⟩, h2, h3⟩ := (nameTaken_spec nm _).2.1 hb
    exact ⟨s1, rfl, hg, hlog, v, (hnamed v).2 ⟨e, (mem_order hf.nodup (hord _) v e).1 h2, h3⟩⟩
  | false =>
    right
    obtain ⟨st, h2, h3⟩ := hg.named
    have hu : st u = none := by
      cases hsu : st u with
      | none => rfl
      | some e => exact absurd ⟨e, st, by rw [← hlog]; exact h2, hsu⟩ hfresh
    let e1 : Str → Option Str := Spec.upd (fun _ => none) keyUpdated (some (fmtInt (now 1)))
    have hm : Spec.meaning Spec.empty
        (((touchUpdated (s1.add (now 0) u) (fun i => now (i + 1)) u)).setKey (now 3) u keyName nm).log =
        some (Spec.upd st u (some (Spec.upd e1 keyName (some nm)))) := by
      simp only [DB.setKey, DB.appendLog, touchUpdated, DB.add, meaning_snoc, h2, Option.bind_some,
        Spec.apply, hu]
      simp only [Spec.upd, if_true, Option.bind_some, Option.some.injEq]
      funext w
      by_cases hw : w = u
      · simp [hw, e1, Spec.upd]
      · simp [hw, Spec.upd]
    refine ⟨_, rfl, ⟨?_, _, hm, ?_⟩, ⟨_, ⟨_, hm, by simp only [Spec.upd, if_true]; rfl⟩, by simp [Spec.upd]⟩, ?_⟩
    · exact ok_setKey _ _ _ _ (ok_touch _ _ (ok_append hg.ok rfl rfl rfl))
    · intro w f hw
      simp only [Spec.upd] at hw
      split at hw
      · cases hw; simp [Spec.upd]
      · exact h3 w f hw
    · intro v hv
      obtain ⟨e, h4, h5⟩ := (hnamed v).1 hv
      obtain ⟨n, h6, h7⟩ := (nameTaken_spec nm _).1 hb _ ((mem_order hf.nodup (hord _) v e).2 h4)
      rw [h5] at h6; cases h6; exact h7 rfl

/-! ## Number of entries -/

theorem nodup_subset_length {α : Type} [DecidableEq α] (l m : List α) (hn : l.Nodup)
    (hs : ∀ x ∈ l, x ∈ m) : l.length ≤ m.length := by
  induction l generalizing m with
  | nil => simp
  | cons x l ih =>
    simp only [List.nodup_cons] at hn
    have hx := hs x (by simp)
    have := ih (m.erase x) hn.2 (fun y hy => by
      have hne : y ≠ x := by rintro rfl; exact hn.1 hy
      exact (List.mem_erase_of_ne hne).2 (hs y (by simp [hy])))
    have hpos : 0 < m.length := List.length_pos_of_mem hx
    rw [List.length_erase_of_mem hx] at this
    simp only [List.length_cons]
    omega

theorem meaning_uuid {log : List Tx} {st st' : Txlogs.Spec.State} {u : Str}
    (h : Txlogs.Spec.meaning st log = some st') (hn : st u = none) (hs : st' u ≠ none) :
    u ∈ log.map Tx.uuid := by
  induction log generalizing st with
  | nil => cases h; exact absurd hn hs
  | cons tx log ih =>
    simp only [Txlogs.Spec.meaning] at h
    cases ha : Txlogs.Spec.apply st tx with
    | none => rw [ha] at h; cases h
    | some st1 =>
      rw [ha] at h
      by_cases hu : tx.uuid = u
      · simp [hu]
      · have : st1 u = none := by rw [apply_other hu ha]; exact hn
        exact List.mem_cons_of_mem _ (ih h this)

theorem snapshot_length_le {s : DB} (hf : Fresh s) : s.snapshot.length ≤ s.log.length := by
  have := nodup_subset_length (s.snapshot.map Prod.fst) (s.log.map Tx.uuid) hf.nodup (by
    intro u hu
    refine meaning_uuid hf.meaning rfl ?_
    intro hnone
    simp only [Txlogs.Spec.view, Option.map_eq_none_iff] at hnone
    rw [GoMap.get?_eq_none_iff] at hnone
    exact hnone hu)
  simpa using this

/-! ## NewSync finds a name -/

/-- number of visible names at least `n` bytes long -/
def longNames (m : Snapshot) (n : Nat) : Nat :=
  (m.filterMap (fun p => name p.2)).filter (fun x => n ≤ x.length) |>.length

theorem longNames_step {m : Snapshot} {nm : Str} {u : Str} {e : Entry} (hm : (u, e) ∈ m)
    (hn : name e = some nm) : longNames m (nm.length + 1) < longNames m nm.length := by
  unfold longNames
  generalize hl : m.filterMap (fun p => name p.2) = l
  have hin : nm ∈ l := by rw [← hl]; exact List.mem_filterMap.2 ⟨_, hm, hn⟩
  have hsub : l.filter (fun x => decide (nm.length + 1 ≤ x.length)) =
      (l.filter (fun x => decide (nm.length ≤ x.length))).filter
        (fun x => decide (nm.length + 1 ≤ x.length)) := by
    rw [List.filter_filter]
    congr 1
    funext x
    simp
    omega
  rw [hsub]
  apply Nat.lt_of_le_of_ne (List.length_filter_le _ _)
  intro heq
  have := List.length_filter_eq_length_iff.1 heq nm (by rw [List.mem_filter]; exact ⟨hin, by simp⟩)
  simp at this
  omega

theorem update_fresh {s : DB} (hf : Fresh s) : s.updateSnapshot.1 = s := by
  have : s.version ≥ s.log.length := by rw [hf.current]; exact Nat.le_refl _
  simp [DB.updateSnapshot, this]

theorem newSyncLoop_spec {s : DB} (ord : Order) (hord : ∀ m, (ord m).Perm m) (now : Nat → Int)
    (u : Str) (fuel : Nat) (nm : Str) (h : Good s) (hf : Fresh s) (hfresh : ¬ Exists s u)
    (hfuel : longNames s.snapshot nm.length < fuel) :
    ∃ s' k, newSyncLoop ord now u fuel s nm = some (s', .ok u) ∧ Good s' ∧
      Spec.Named s' u (nm ++ List.replicate k 49) ∧
      (∀ v, ¬ Spec.Named s v (nm ++ List.replicate k 49)) ∧
      ∀ j < k, ∃ v, Spec.Named s v (nm ++ List.replicate j 49) := by
  induction fuel generalizing nm with
  | zero => omega
  | succ fuel ih =>
    rcases good_newOp ord hord now u nm h hfresh with ⟨s', h1, h2, h3, v, h4⟩ | ⟨s', h1, h2, h3, h4⟩
    · have hs' : s' = s := by
        have h5 : (new ord now u s nm).1 = s' := by rw [h1]
        rw [← h5]
        unfold new
        rw [(good_withSnapshot h _).1, update_fresh hf]
        have h6 : (new ord now u s nm).2 = .err .nameNotUnique := by rw [h1]
        unfold new at h6
        rw [(good_withSnapshot h _).1, update_fresh hf] at h6
        split at h6 <;> simp at h6
        simp_all
      subst hs'
      obtain ⟨e0, ⟨st, h5, h6⟩, h7⟩ := h4
      rw [hf.meaning] at h5; cases h5
      obtain ⟨en, h8, rfl⟩ := view_some h6
      have hlt := longNames_step (GoMap.mem_of_get? h8) h7
      have hlen : (nm ++ b! "1").length = nm.length + 1 := by simp
      obtain ⟨s2, k, g1, g2, g3, g4, g5⟩ := ih (nm ++ b! "1") (by rw [hlen]; omega)
      have hcat : ∀ j, nm ++ b! "1" ++ List.replicate j 49 = nm ++ List.replicate (j + 1) 49 := by
        intro j; rw [List.append_assoc]; rfl
      rw [hcat] at g3 g4
      refine ⟨s2, k + 1, ?_, g2, g3, g4, ?_⟩
      · simp only [newSyncLoop, h1]; exact g1
      · intro j hj
        cases j with
        | zero => exact ⟨v, _, ⟨_, hf.meaning, view_of_get h8⟩, by simpa using h7⟩
        | succ j =>
          obtain ⟨w, hw⟩ := g5 j (by omega)
          rw [hcat] at hw
          exact ⟨w, hw⟩
    · refine ⟨s', 0, ?_, h2, by simpa using h3, by simpa using h4, by omega⟩
      simp only [newSyncLoop, h1]

end Verif.Blob
