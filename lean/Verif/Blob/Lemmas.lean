import Verif.Blob.Model
import Verif.Txlogs.Lemmas
import Verif.Fuzzy.Props
/-!
# Helper lemmas for the blob layer
-/
set_option linter.unusedSimpArgs false
namespace Verif.Blob
open Verif Verif.Txlogs

/-! ## Maps stay maps -/

theorem nodup_applyTx {m m' : Snapshot} {tx : Tx} (hn : GoMap.NodupKeys m)
    (h : applyTx m tx = .ok m') : GoMap.NodupKeys m' := by
  unfold applyTx getEntry at h
  repeat' split at h
  all_goals first
    | (cases h; done)
    | (simp only [Except.ok.injEq] at h; subst h
       first
         | exact hn
         | exact GoMap.nodupKeys_set hn _ _
         | exact GoMap.nodupKeys_del hn _)

theorem nodup_updateLoop (l : List Tx) (v : Nat) (m : Snapshot) (hn : GoMap.NodupKeys m) :
    GoMap.NodupKeys (DB.updateLoop l v m).2.1 := by
  induction l generalizing v m with
  | nil => exact hn
  | cons tx l ih =>
    simp only [DB.updateLoop]
    cases h : applyTx m tx with
    | error e => exact hn
    | ok m' => exact ih _ _ (nodup_applyTx hn h)

theorem nodup_update {s : DB} (hn : GoMap.NodupKeys s.snapshot) :
    GoMap.NodupKeys s.updateSnapshot.1.snapshot := by
  unfold DB.updateSnapshot
  split
  · exact hn
  · exact nodup_updateLoop _ _ _ hn

/-- the entries of a snapshot are maps -/
def Inner (m : Snapshot) : Prop := ∀ u e, m.get? u = some e → GoMap.NodupKeys e

theorem inner_nil : Inner [] := fun _ _ h => by cases h

theorem inner_set {m : Snapshot} (h : Inner m) (u : Str) {e : Entry} (he : GoMap.NodupKeys e) : Inner (m.set u e) := by
  intro v f hf
  rw [GoMap.get?_set] at hf
  split at hf
  · cases hf; exact he
  · exact h v f hf

theorem inner_del {m : Snapshot} (h : Inner m) (u : Str) : Inner (m.del u) := by
  intro v f hf
  rw [GoMap.get?_del] at hf
  split at hf
  · cases hf
  · exact h v f hf

theorem inner_applyTx {m m' : Snapshot} {tx : Tx} (hn : Inner m) (h : applyTx m tx = .ok m') : Inner m' := by
  unfold applyTx getEntry at h
  repeat' split at h
  all_goals first
    | (cases h; done)
    | (simp only [Except.ok.injEq] at h; subst h
       first
         | exact hn
         | exact inner_set hn _ GoMap.nodupKeys_nil
         | exact inner_del hn _
         | (rename_i hg
            split at hg
            · cases hg
            · cases hg
              first
                | exact inner_set hn _ (GoMap.nodupKeys_set (hn _ _ (by assumption)) _ _)
                | exact inner_set hn _ (GoMap.nodupKeys_del (hn _ _ (by assumption)) _)))

theorem inner_updateLoop (l : List Tx) (v : Nat) (m : Snapshot) (hn : Inner m) : Inner (DB.updateLoop l v m).2.1 := by
  induction l generalizing v m with
  | nil => exact hn
  | cons tx l ih =>
    simp only [DB.updateLoop]
    cases h : applyTx m tx with
    | error e => exact hn
    | ok m' => exact ih _ _ (inner_applyTx hn h)

theorem inner_update {s : DB} (hn : Inner s.snapshot) : Inner s.updateSnapshot.1.snapshot := by
  unfold DB.updateSnapshot
  split
  · exact hn
  · exact inner_updateLoop _ _ _ hn

/-- A store whose snapshot is a Go map of Go maps holding the replay of the first `version` operations. -/
structure Ok (s : DB) : Prop where
  coh : Coherent s
  nodup : GoMap.NodupKeys s.snapshot
  inner : Inner s.snapshot

theorem ok_new : Ok DB.new := ⟨coherent_new, GoMap.nodupKeys_nil, inner_nil⟩

theorem ok_append {s s' : DB} {txs : List Tx} (h : Ok s) (hl : s'.log = s.log ++ txs)
    (hv : s'.version = s.version) (hs : s'.snapshot = s.snapshot) : Ok s' :=
  ⟨coherent_append h.coh hl hv hs, by rw [hs]; exact h.nodup, by rw [hs]; exact h.inner⟩

theorem ok_update {s : DB} (h : Ok s) : Ok s.updateSnapshot.1 :=
  ⟨coherent_update h.coh, nodup_update h.nodup, inner_update h.inner⟩

/-- a store whose snapshot is the whole log -/
structure Fresh (s : DB) : Prop extends Ok s where
  current : s.version = s.log.length

theorem Fresh.meaning {s : DB} (h : Fresh s) :
    Spec.meaning Spec.empty s.log = some (Spec.view s.snapshot) := by
  have := h.coh.2
  rwa [h.current, List.take_length] at this

/-- what `withSnapshot` does -/
theorem withSnapshot_cases {α : Type} {s : DB} (h : Ok s) (k : DB → Out α) :
    (∃ e, withSnapshot s k = (s.updateSnapshot.1, .err (.tx e)) ∧
      Spec.meaning Spec.empty s.log = none) ∨
    (withSnapshot s k = k s.updateSnapshot.1 ∧ Fresh s.updateSnapshot.1 ∧
      s.updateSnapshot.1.log = s.log) := by
  unfold withSnapshot
  rcases updateSnapshot_spec h.coh with ⟨snap, h1, h2⟩ | ⟨e, n, snap, h1, -, -, -, h2, -⟩
  · right
    have ho := ok_update h
    rw [h2] at ho ⊢
    exact ⟨rfl, ⟨ho, rfl⟩, rfl⟩
  · left
    rw [h2]; exact ⟨e, rfl, h1⟩

theorem withSnapshot_ok {α : Type} {s s' : DB} (h : Ok s) {k : DB → Out α} {r : α}
    (hr : withSnapshot s k = (s', .ok r)) :
    k s.updateSnapshot.1 = (s', .ok r) ∧ Fresh s.updateSnapshot.1 ∧ s.updateSnapshot.1.log = s.log := by
  rcases withSnapshot_cases h k with ⟨e, h1, -⟩ | ⟨h1, h2, h3⟩
  · rw [h1] at hr; cases hr
  · exact ⟨h1 ▸ hr, h2, h3⟩

theorem withSnapshot_log {α : Type} {s : DB} (k : DB → Out α)
    (hk : ∀ s', (k s').1.log = s'.log) : (withSnapshot s k).1.log = s.log := by
  unfold withSnapshot
  cases h : s.updateSnapshot with
  | mk s' e =>
    have := updateSnapshot_log s
    rw [h] at this
    cases e with
    | none => simp only [hk]; exact this
    | some e => exact this

/-! ## Loops -/

theorem nameTaken_spec (nm : Str) (l : List (Str × Entry)) :
    (nameTaken nm l = some false → ∀ p ∈ l, ∃ n, name p.2 = some n ∧ n ≠ nm) ∧
    (nameTaken nm l = some true → ∃ p ∈ l, name p.2 = some nm) ∧
    ((∀ p ∈ l, (name p.2).isSome) → ∃ b, nameTaken nm l = some b) := by
  induction l with
  | nil => simp [nameTaken]
  | cons p l ih =>
    obtain ⟨u, e⟩ := p
    simp only [nameTaken]
    cases hn : name e with
    | none => simp [hn]
    | some n =>
      by_cases h : n = nm
      · subst h; simp [hn]
      · simp only [h, if_false]
        refine ⟨?_, ?_, ?_⟩
        · intro h1 p hp
          rcases List.mem_cons.1 hp with rfl | hp
          · exact ⟨n, hn, h⟩
          · exact ih.1 h1 p hp
        · intro h1
          obtain ⟨p, hp, h2⟩ := ih.2.1 h1
          exact ⟨p, List.mem_cons_of_mem _ hp, h2⟩
        · intro h1
          exact ih.2.2 (fun p hp => h1 p (List.mem_cons_of_mem _ hp))

theorem nameTaken_true_of (nm : Str) (l : List (Str × Entry)) (p : Str × Entry) (hp : p ∈ l)
    (hn : name p.2 = some nm) (hall : ∀ p ∈ l, (name p.2).isSome) : nameTaken nm l = some true := by
  obtain ⟨b, hb⟩ := (nameTaken_spec nm l).2.2 hall
  cases b with
  | true => exact hb
  | false =>
    obtain ⟨n, h1, h2⟩ := (nameTaken_spec nm l).1 hb p hp
    rw [hn] at h1; cases h1; exact absurd rfl h2

theorem collect_acc (keep : Entry → Option Bool) (l : List (Str × Entry)) (acc r : Results)
    (hnd : (l.map Prod.fst).Nodup) (h : collect keep l acc = some r) (u n : Str) :
    r.get? u = some n ↔
      (∃ e, (u, e) ∈ l ∧ keep e = some true ∧ name e = some n) ∨
      (acc.get? u = some n ∧ ¬ ∃ e, (u, e) ∈ l ∧ keep e = some true) := by
  induction l generalizing acc with
  | nil => simp [collect] at h; subst h; simp
  | cons p l ih =>
    obtain ⟨u', e'⟩ := p
    simp only [List.map_cons, List.nodup_cons] at hnd
    have hnot : ∀ e, (u', e) ∉ l := fun e he => hnd.1 (List.mem_map.2 ⟨_, he, rfl⟩)
    simp only [collect] at h
    cases hk : keep e' with
    | none => simp [hk] at h
    | some b =>
      cases b with
      | false =>
        simp only [hk] at h
        rw [ih acc hnd.2 h]
        constructor
        · rintro (⟨e, h1, h2, h3⟩ | ⟨h1, h2⟩)
          · exact Or.inl ⟨e, by simp [h1], h2, h3⟩
          · refine Or.inr ⟨h1, ?_⟩
            rintro ⟨e, h3, h4⟩
            rcases List.mem_cons.1 h3 with h3 | h3
            · cases h3; rw [hk] at h4; cases h4
            · exact h2 ⟨e, h3, h4⟩
        · rintro (⟨e, h1, h2, h3⟩ | ⟨h1, h2⟩)
          · rcases List.mem_cons.1 h1 with h1 | h1
            · cases h1; rw [hk] at h2; cases h2
            · exact Or.inl ⟨e, h1, h2, h3⟩
          · exact Or.inr ⟨h1, fun ⟨e, h3, h4⟩ => h2 ⟨e, by simp [h3], h4⟩⟩
      | true =>
        simp only [hk] at h
        cases hn : name e' with
        | none => simp [hn] at h
        | some n' =>
          simp only [hn] at h
          rw [ih _ hnd.2 h, GoMap.get?_set]
          by_cases huu : u = u'
          · subst huu
            constructor
            · rintro (⟨e, h1, _⟩ | ⟨h1, _⟩)
              · exact absurd h1 (hnot e)
              · simp at h1; subst h1
                exact Or.inl ⟨e', by simp, hk, hn⟩
            · rintro (⟨e, h1, h2, h3⟩ | ⟨h1, h2⟩)
              · rcases List.mem_cons.1 h1 with h1 | h1
                · cases h1
                  rw [hn] at h3; cases h3
                  exact Or.inr ⟨by simp, fun ⟨e, h4, _⟩ => hnot e h4⟩
                · exact absurd h1 (hnot e)
              · exact absurd ⟨e', by simp, hk⟩ h2
          · simp only [huu, if_false]
            have hmem : ∀ e, (u, e) ∈ (u', e') :: l ↔ (u, e) ∈ l := by
              intro e; simp [huu]
            simp only [hmem]

theorem collect_spec (keep : Entry → Option Bool) (l : List (Str × Entry)) (r : Results)
    (hnd : (l.map Prod.fst).Nodup) (h : collect keep l [] = some r) (u n : Str) :
    r.get? u = some n ↔ ∃ e, (u, e) ∈ l ∧ keep e = some true ∧ name e = some n := by
  rw [collect_acc keep l [] r hnd h]; simp

theorem collect_nodup (keep : Entry → Option Bool) (l : List (Str × Entry)) (acc r : Results)
    (ha : GoMap.NodupKeys acc) (h : collect keep l acc = some r) : GoMap.NodupKeys r := by
  induction l generalizing acc with
  | nil => simp [collect] at h; subst h; exact ha
  | cons p l ih =>
    obtain ⟨u, e⟩ := p
    simp only [collect] at h
    repeat' split at h
    · cases h
    · exact ih _ ha h
    · cases h
    · exact ih _ (GoMap.nodupKeys_set ha _ _) h

theorem collect_some (keep : Entry → Option Bool) (l : List (Str × Entry)) (acc : Results)
    (hk : ∀ p ∈ l, (keep p.2).isSome) (hn : ∀ p ∈ l, (name p.2).isSome) :
    ∃ r, collect keep l acc = some r := by
  induction l generalizing acc with
  | nil => exact ⟨acc, rfl⟩
  | cons p l ih =>
    obtain ⟨u, e⟩ := p
    have h1 := hk (u, e) (by simp)
    have h2 := hn (u, e) (by simp)
    have ih' := fun acc => ih acc (fun p hp => hk p (List.mem_cons_of_mem _ hp))
      (fun p hp => hn p (List.mem_cons_of_mem _ hp))
    obtain ⟨b, hb⟩ := Option.isSome_iff_exists.1 h1
    obtain ⟨n, hn'⟩ := Option.isSome_iff_exists.1 h2
    simp only at hb hn'
    simp only [collect, hb, hn']
    cases b <;> simp [ih']

/-- membership in any visiting order of a map is lookup -/
theorem mem_order {m o : Snapshot} (hn : GoMap.NodupKeys m) (ho : o.Perm m) (u : Str) (e : Entry) :
    (u, e) ∈ o ↔ m.get? u = some e := by
  rw [ho.mem_iff, GoMap.mem_iff_get? hn]

theorem order_nodup {m o : Snapshot} (hn : GoMap.NodupKeys m) (ho : o.Perm m) :
    (o.map Prod.fst).Nodup := (ho.map Prod.fst).nodup_iff.2 hn

/-! ## Names in the specification state -/

/-- no two visible entries carry the same name -/
def UniqueNames (st : Spec.State) : Prop :=
  ∀ u v e f n, st u = some e → st v = some f → e keyName = some n → f keyName = some n → u = v

/-- every visible entry has a name -/
def AllNamed (st : Spec.State) : Prop := ∀ u e, st u = some e → (e keyName).isSome

theorem unique_empty : UniqueNames Spec.empty := by
  intro u v e f n h; simp [Spec.empty] at h

/-- operations that cannot create a duplicate name -/
theorem unique_apply {st st' : Spec.State} {tx : Tx} (hu : UniqueNames st)
    (h : Spec.apply st tx = some st')
    (hset : tx.kind = .setk → tx.key = keyName →
      ∀ u e, st u = some e → e keyName = some tx.value → u = tx.uuid) : UniqueNames st' := by
  have hmono : ∀ u e n, st' u = some e → e keyName = some n →
      (∃ e', st u = some e' ∧ e' keyName = some n) ∨
        (u = tx.uuid ∧ tx.kind = .setk ∧ tx.key = keyName ∧ n = tx.value) := by
    intro u e n h1 h2
    unfold Spec.apply at h
    split at h <;> simp only [Option.some.injEq, reduceCtorEq] at h
    all_goals subst h
    all_goals try simp only [Spec.upd] at h1
    · split at h1
      · cases h1; simp at h2
      · exact Or.inl ⟨e, h1, h2⟩
    · split at h1
      · cases h1
      · exact Or.inl ⟨e, h1, h2⟩
    · rename_i e0 hk he0
      split at h1
      · rename_i huu
        cases h1
        simp only [Spec.upd] at h2
        split at h2
        · rename_i hkey
          simp at h2
          exact Or.inr ⟨huu, hk, hkey.symm, h2.symm⟩
        · exact Or.inl ⟨e0, by rw [huu]; exact he0, h2⟩
      · exact Or.inl ⟨e, h1, h2⟩
    · rename_i e0 hk he0
      split at h1
      · rename_i huu
        cases h1
        simp only [Spec.upd] at h2
        split at h2
        · cases h2
        · exact Or.inl ⟨e0, by rw [huu]; exact he0, h2⟩
      · exact Or.inl ⟨e, h1, h2⟩
    · exact Or.inl ⟨e, h1, h2⟩
  intro u v e f n h1 h2 h3 h4
  rcases hmono u e n h1 h3 with ⟨e', a1, a2⟩ | ⟨a1, a2, a3, a4⟩
  · rcases hmono v f n h2 h4 with ⟨f', b1, b2⟩ | ⟨b1, b2, b3, b4⟩
    · exact hu u v e' f' n a1 b1 a2 b2
    · rw [b1]; exact hset b2 b3 u e' a1 (by rw [a2, b4])
  · rcases hmono v f n h2 h4 with ⟨f', b1, b2⟩ | ⟨b1, b2, b3, b4⟩
    · rw [a1]; exact (hset a2 a3 v f' b1 (by rw [b2, a4])).symm
    · rw [a1, b1]

/-- every replayable prefix of the log has unique names -/
def LogUnique (log : List Tx) : Prop :=
  ∀ n st, Spec.meaning Spec.empty (log.take n) = some st → UniqueNames st

theorem logUnique_nil : LogUnique [] := by
  intro n st h
  simp [Spec.meaning] at h; subst h; exact unique_empty

theorem logUnique_snoc {log : List Tx} {tx : Tx} (h : LogUnique log)
    (hset : tx.kind = .setk → tx.key = keyName → ∀ st, Spec.meaning Spec.empty log = some st →
      ∀ u e, st u = some e → e keyName = some tx.value → u = tx.uuid) : LogUnique (log ++ [tx]) := by
  intro n st hst
  by_cases hn : n ≤ log.length
  · rw [List.take_append_of_le_length hn] at hst
    exact h n st hst
  · rw [List.take_of_length_le (by simp; omega), meaning_snoc] at hst
    cases hm : Spec.meaning Spec.empty log with
    | none => rw [hm] at hst; simp at hst
    | some st0 =>
      rw [hm] at hst
      simp only [Option.bind_some] at hst
      exact unique_apply (h log.length st0 (by rwa [List.take_length])) hst
        (fun a b => hset a b st0 hm)

theorem logUnique_snoc_other {log : List Tx} {tx : Tx} (h : LogUnique log)
    (hk : tx.kind = .setk → tx.key ≠ keyName) : LogUnique (log ++ [tx]) :=
  logUnique_snoc h (fun a b => absurd b (hk a))

theorem keyUpdated_ne : keyUpdated ≠ keyName := by decide
theorem keyLabels_ne : keyLabels ≠ keyName := by decide
theorem keyTwoFactor_ne : keyTwoFactor ≠ keyName := by decide

theorem logUnique_touch {s : DB} (now : Nat → Int) (u : Str) (h : LogUnique s.log) :
    LogUnique (touchUpdated s now u).log :=
  logUnique_snoc_other h (fun _ => keyUpdated_ne)

theorem logUnique_setKey {s : DB} (t : Int) (u k v : Str) (hk : k ≠ keyName) (h : LogUnique s.log) :
    LogUnique (s.setKey t u k v).log :=
  logUnique_snoc_other h (fun _ => hk)

theorem logUnique_deleteKey {s : DB} (t : Int) (u k : Str) (h : LogUnique s.log) :
    LogUnique (s.deleteKey t u k).log :=
  logUnique_snoc_other h (by simp)

theorem ok_touch {s : DB} (now : Nat → Int) (u : Str) (h : Ok s) : Ok (touchUpdated s now u) :=
  ok_append h rfl rfl rfl
theorem ok_setKey {s : DB} (t : Int) (u k v : Str) (h : Ok s) : Ok (s.setKey t u k v) :=
  ok_append h rfl rfl rfl
theorem ok_deleteKey {s : DB} (t : Int) (u k : Str) (h : Ok s) : Ok (s.deleteKey t u k) :=
  ok_append h rfl rfl rfl

theorem equalFold_refl (s : Str) : equalFold s s = true := by simp [equalFold]

theorem protected_name : protectedKeys.any (fun p => equalFold keyName p) = true := by decide

/-- a key accepted by `Set` is not `name` -/
theorem not_protected_ne {k : Str} (h : ¬ (protectedKeys.any (fun p => equalFold k p)) = true) :
    k ≠ keyName := by
  rintro rfl; exact h protected_name

/-- names visible in a snapshot, through the view -/
theorem view_some {m : Snapshot} {u : Str} {e : Str → Option Str} (h : Spec.view m u = some e) :
    ∃ en, m.get? u = some en ∧ e = fun k => en.get? k := by
  simp only [Spec.view, Option.map_eq_some_iff] at h
  obtain ⟨en, h1, h2⟩ := h
  exact ⟨en, h1, h2.symm⟩

theorem view_of_get {m : Snapshot} {u : Str} {en : Entry} (h : m.get? u = some en) :
    Spec.view m u = some (fun k => en.get? k) := by
  simp [Spec.view, h]

/-! ## Fresh names -/

theorem freshName_not_mem (names : List Str) (fuel : Nat) (nm : Str)
    (hf : (names.filter (fun x => nm.length < x.length)).length < fuel) :
    freshName names fuel nm ∉ names ∧ ∃ k, freshName names fuel nm = nm ++ List.replicate (k + 1) 49 := by
  induction fuel generalizing nm with
  | zero => omega
  | succ fuel ih =>
    simp only [freshName]
    split
    · rename_i hmem
      have hlt : (names.filter (fun x => (nm ++ [(49 : UInt8)]).length < x.length)).length <
          (names.filter (fun x => nm.length < x.length)).length := by
        have hin : nm ++ [49] ∈ names.filter (fun x => nm.length < x.length) := by
          rw [List.mem_filter]; exact ⟨hmem, by simp⟩
        have hsub : names.filter (fun x => (nm ++ [(49 : UInt8)]).length < x.length) =
            (names.filter (fun x => nm.length < x.length)).filter
              (fun x => (nm ++ [(49 : UInt8)]).length < x.length) := by
          rw [List.filter_filter]
          congr 1
          funext x
          simp
          omega
        rw [hsub]
        apply Nat.lt_of_le_of_ne (List.length_filter_le _ _)
        intro heq
        have := List.length_filter_eq_length_iff.1 heq _ hin
        simp at this
      obtain ⟨h1, k, h2⟩ := ih (nm ++ [49]) (by omega)
      refine ⟨h1, k + 1, ?_⟩
      rw [h2, List.append_assoc]
      congr 1
    · rename_i hmem
      exact ⟨hmem, 0, rfl⟩

end Verif.Blob
