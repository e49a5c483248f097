import Verif.Blob.Reach
/-!
# Lemmas about searching, labels and renaming
-/
set_option linter.unusedSimpArgs false
namespace Verif.Blob
open Verif Verif.Txlogs

/-- visible entries of a fresh store are its snapshot -/
theorem visible_fresh {s : DB} (hf : Fresh s) (u : Str) (e : Str → Option Str) :
    Spec.Visible s u e ↔ ∃ en, s.snapshot.get? u = some en ∧ e = fun k => en.get? k := by
  unfold Spec.Visible
  rw [hf.meaning]
  constructor
  · rintro ⟨st, h1, h2⟩; cases h1; exact view_some h2
  · rintro ⟨en, h1, rfl⟩; exact ⟨_, rfl, view_of_get h1⟩

theorem named_fresh {s : DB} (hf : Fresh s) (u n : Str) :
    Spec.Named s u n ↔ ∃ en, s.snapshot.get? u = some en ∧ name en = some n := by
  unfold Spec.Named
  constructor
  · rintro ⟨e, h1, h2⟩
    obtain ⟨en, h3, rfl⟩ := (visible_fresh hf u e).1 h1
    exact ⟨en, h3, h2⟩
  · rintro ⟨en, h1, h2⟩
    exact ⟨_, (visible_fresh hf u _).2 ⟨en, h1, rfl⟩, h2⟩

theorem visible_log {s s' : DB} (h : s'.log = s.log) (u : Str) (e : Str → Option Str) :
    Spec.Visible s' u e ↔ Spec.Visible s u e := by unfold Spec.Visible; rw [h]
theorem named_log {s s' : DB} (h : s'.log = s.log) (u n : Str) :
    Spec.Named s' u n ↔ Spec.Named s u n := by unfold Spec.Named Spec.Visible; rw [h]

/-! ## Search -/

theorem fuzzyMatch_self (lower : Nat → Nat) (s : Str) : Fuzzy.fuzzyMatch lower s s = some true := by
  simp [Fuzzy.fuzzyMatch]

theorem fragsMatch_iff (lower : Nat → Nat) (fs ks : List Str) (hl : fs.length ≤ ks.length) :
    fragsMatch lower fs ks = some true ↔
      ∃ k1 rest, ks = k1 ++ rest ∧ k1.length = fs.length ∧
        ∀ p ∈ k1.zip fs, Fuzzy.fuzzyMatch lower p.1 p.2 = some true := by
  induction fs generalizing ks with
  | nil =>
    simp only [fragsMatch, List.length_nil, true_iff]
    exact ⟨[], ks, rfl, rfl, by simp⟩
  | cons f fs ih =>
    cases ks with
    | nil => simp at hl
    | cons k ks =>
      simp at hl
      simp only [fragsMatch]
      have key : (∃ k1 rest, k :: ks = k1 ++ rest ∧ k1.length = (f :: fs).length ∧
          ∀ p ∈ k1.zip (f :: fs), Fuzzy.fuzzyMatch lower p.1 p.2 = some true) ↔
          Fuzzy.fuzzyMatch lower k f = some true ∧ ∃ k1 rest, ks = k1 ++ rest ∧
            k1.length = fs.length ∧ ∀ p ∈ k1.zip fs, Fuzzy.fuzzyMatch lower p.1 p.2 = some true := by
        constructor
        · rintro ⟨k1, rest, h1, h2, h3⟩
          cases k1 with
          | nil => simp at h2
          | cons k' k1 =>
            simp only [List.cons_append, List.cons.injEq] at h1
            obtain ⟨rfl, h1⟩ := h1
            simp only [List.zip_cons_cons] at h3
            exact ⟨h3 (k, f) (by simp), k1, rest, h1, by simpa using h2,
              fun p hp => h3 p (by simp [hp])⟩
        · rintro ⟨h0, k1, rest, h1, h2, h3⟩
          refine ⟨k :: k1, rest, by simp [h1], by simp [h2], ?_⟩
          intro p hp
          simp only [List.zip_cons_cons] at hp
          rcases List.mem_cons.1 hp with rfl | hp
          · exact h0
          · exact h3 p hp
      rw [key, ← ih ks hl]
      cases hm : Fuzzy.fuzzyMatch lower k f with
      | none => simp
      | some b => cases b <;> simp

theorem split_singleton_iff (sep : UInt8) (q f : Str) : split sep q = [f] ↔ sep ∉ q ∧ f = q := by
  constructor
  · intro h
    have h1 := join_split sep q
    rw [h] at h1
    simp [join] at h1
    subst h1
    exact ⟨split_notMem sep f f (by rw [h]; simp), rfl⟩
  · rintro ⟨h, rfl⟩
    exact split_of_notMem sep f h

theorem searchKeep_iff (lower : Nat → Nat) (q : Str) (hq : q ≠ []) (e : Entry) (n : Str)
    (hn : name e = some n) :
    searchKeep lower (split slash q) e = some true ↔ Spec.Selects lower q n := by
  unfold searchKeep
  rw [hn]
  simp only
  split
  · rename_i f hf
    obtain ⟨h1, rfl⟩ := (split_singleton_iff slash q f).1 hf
    unfold Spec.Selects
    simp [hq, h1]
  · rename_i hf
    have hmem : slash ∈ q := by
      false_or_by_contra
      rename_i h
      exact hf q (split_of_notMem slash q h)
    unfold Spec.Selects
    split
    · rename_i hlt
      simp only [Option.some.injEq, Bool.false_eq_true, false_iff, not_or]
      refine ⟨hq, by simp [hmem], ?_⟩
      rintro ⟨-, ks, rest, h1, h2, -⟩
      rw [h1] at hlt
      simp at hlt
      omega
    · rename_i hlt
      rw [fragsMatch_iff lower _ _ (by omega)]
      simp [hq, hmem]

theorem selects_self (lower : Nat → Nat) (q : Str) : Spec.Selects lower q q := by
  unfold Spec.Selects
  by_cases hq : q = []
  · exact Or.inl hq
  · by_cases hm : slash ∈ q
    · refine Or.inr (Or.inr ⟨hm, split slash q, [], by simp, rfl, ?_⟩)
      intro p hp
      have : ∀ (l : List Str), ∀ p ∈ l.zip l, p.1 = p.2 := by
        intro l
        induction l with
        | nil => simp
        | cons x l ih =>
          intro p hp
          simp only [List.zip_cons_cons] at hp
          rcases List.mem_cons.1 hp with rfl | hp
          · rfl
          · exact ih p hp
      rw [this _ p hp]; exact fuzzyMatch_self lower _
    · exact Or.inr (Or.inl ⟨hq, hm, fuzzyMatch_self lower q⟩)

theorem fragsMatch_isSome (lower : Nat → Nat) (fs ks : List Str) (hl : fs.length ≤ ks.length)
    (hv : ∀ k ∈ ks, ValidUtf8 k) : (fragsMatch lower fs ks).isSome := by
  induction fs generalizing ks with
  | nil => rfl
  | cons f fs ih =>
    cases ks with
    | nil => simp at hl
    | cons k ks =>
      obtain ⟨b, h1, -⟩ := Fuzzy.C34_match_partial lower k f (hv k (by simp))
      simp only [fragsMatch, h1]
      cases b with
      | false => rfl
      | true => exact ih ks (by simpa using hl) (fun x hx => hv x (by simp [hx]))

theorem searchKeep_isSome (lower : Nat → Nat) (fs : List Str) (e : Entry) (n : Str)
    (hn : name e = some n) (hv : ValidUtf8 n) : (searchKeep lower fs e).isSome := by
  unfold searchKeep
  rw [hn]
  simp only
  split
  · rename_i f
    obtain ⟨b, h1, -⟩ := Fuzzy.C34_match_partial lower n f hv
    rw [h1]; rfl
  · split
    · rfl
    · rename_i hlt
      exact fragsMatch_isSome lower _ _ (by omega) (split_valid slash (by decide) n hv)

/-! ## Label counting -/

theorem countInner_nodup (n : Nat) (w : Str) (hs : List Str) (found : Nat) (hn : hs.Nodup) :
    countInner n w hs found = found + if w ∈ hs then 1 else 0 := by
  induction hs generalizing found with
  | nil => simp [countInner]
  | cons h hs ih =>
    simp only [List.nodup_cons] at hn
    simp only [countInner]
    by_cases hw : h = w
    · subst hw
      have h0 := ih (found + 1) hn.2
      simp only [hn.1, if_false, Nat.add_zero] at h0
      simp [h0]
    · simp only [ne_eq, hw, not_false_eq_true, if_true, ih _ hn.2]
      simp [Ne.symm hw]

theorem countOuter_nodup (n : Nat) (hs ws : List Str) (found : Nat) (hn : hs.Nodup) :
    countOuter n hs ws found = found + (ws.filter (fun w => w ∈ hs)).length := by
  induction ws generalizing found with
  | nil => simp [countOuter]
  | cons w ws ih =>
    simp only [countOuter, countInner_nodup _ _ _ _ hn, ih]
    by_cases hw : w ∈ hs <;> simp [hw] <;> omega

theorem labelsKeep_iff (ls : List Str) (hls : ls ≠ []) (e : Entry) (hn : (Spec.labelsOf (fun k => e.get? k)).Nodup) :
    labelsKeep ls e = some true ↔ ∀ l ∈ ls, l ∈ Spec.labelsOf (fun k => e.get? k) := by
  have hno : (∀ l ∈ ls, l ∈ ([] : List Str)) ↔ False := by
    cases ls with
    | nil => exact absurd rfl hls
    | cons l ls => exact iff_of_false (fun h => by simpa using h l (by simp)) id
  generalize hL : Spec.labelsOf (fun k => e.get? k) = L at *
  unfold Spec.labelsOf at hL
  unfold labelsKeep val
  cases hv : e.get? keyLabels with
  | none =>
    simp only [hv] at hL
    subst hL
    simp only [Option.getD_none, if_true, hno]
    simp
  | some v =>
    simp only [hv] at hL
    simp only [Option.getD_some]
    by_cases hv0 : v = []
    · simp only [hv0, if_true] at hL
      subst hL
      simp only [hv0, if_true, hno]
      simp
    · simp only [hv0, if_false] at hL ⊢
      subst hL
      simp only [countOuter_nodup _ _ _ _ hn, Nat.zero_add, Option.some.injEq, decide_eq_true_eq]
      rw [List.length_filter_eq_length_iff]
      simp

/-! ## One write -/

theorem visible_setKey {s : DB} (t : Int) (u k v : Str) (e : Str → Option Str)
    (h : Spec.Visible s u e) :
    Spec.Visible (s.setKey t u k v) u (Spec.upd e k (some v)) ∧
    ∀ w f, w ≠ u → (Spec.Visible (s.setKey t u k v) w f ↔ Spec.Visible s w f) := by
  obtain ⟨st, h1, h2⟩ := h
  have hm : Spec.meaning Spec.empty (s.setKey t u k v).log =
      some (Spec.upd st u (some (Spec.upd e k (some v)))) := by
    simp only [DB.setKey, DB.appendLog, meaning_snoc, h1, Option.bind_some, Spec.apply, h2]
  refine ⟨⟨_, hm, by simp [Spec.upd]⟩, ?_⟩
  intro w f hw
  unfold Spec.Visible
  rw [hm, h1]
  constructor
  · rintro ⟨st', h3, h4⟩; cases h3; exact ⟨st, rfl, by simpa [Spec.upd, hw] using h4⟩
  · rintro ⟨st', h3, h4⟩; cases h3; exact ⟨_, rfl, by simpa [Spec.upd, hw] using h4⟩

theorem visible_deleteKey {s : DB} (t : Int) (u k : Str) (e : Str → Option Str)
    (h : Spec.Visible s u e) :
    Spec.Visible (s.deleteKey t u k) u (Spec.upd e k none) ∧
    ∀ w f, w ≠ u → (Spec.Visible (s.deleteKey t u k) w f ↔ Spec.Visible s w f) := by
  obtain ⟨st, h1, h2⟩ := h
  have hm : Spec.meaning Spec.empty (s.deleteKey t u k).log =
      some (Spec.upd st u (some (Spec.upd e k none))) := by
    simp only [DB.deleteKey, DB.appendLog, meaning_snoc, h1, Option.bind_some, Spec.apply, h2]
  refine ⟨⟨_, hm, by simp [Spec.upd]⟩, ?_⟩
  intro w f hw
  unfold Spec.Visible
  rw [hm, h1]
  constructor
  · rintro ⟨st', h3, h4⟩; cases h3; exact ⟨st, rfl, by simpa [Spec.upd, hw] using h4⟩
  · rintro ⟨st', h3, h4⟩; cases h3; exact ⟨_, rfl, by simpa [Spec.upd, hw] using h4⟩

theorem mustFind_visible {s : DB} (h : Ok s) (u : Str) (e : Str → Option Str)
    (hv : Spec.Visible s u e) :
    ∃ en, mustFind s u = (s.updateSnapshot.1, .ok en) ∧ (e = fun k => en.get? k) ∧
      s.updateSnapshot.1.log = s.log ∧ Fresh s.updateSnapshot.1 := by
  unfold mustFind find
  rcases withSnapshot_cases h (fun s => ((s, .ok (s.snapshot.get? u)) : Out (Option Entry))) with
    ⟨er, -, h1⟩ | ⟨h1, h2, h3⟩
  · obtain ⟨st, h2, -⟩ := hv; rw [h1] at h2; cases h2
  · obtain ⟨en, h4, h5⟩ := (visible_fresh h2 u e).1 ((visible_log h3 u e).2 hv)
    rw [h1, h4]
    exact ⟨en, rfl, h5, h3, h2⟩

/-! ## Renaming duplicates -/

theorem set_name_rejected (now : Nat → Int) (s : DB) (u v : Str) :
    set now s u keyName v = (s, .err (.keyNotAllowed keyName)) := by
  simp only [set, protected_name, if_true]

theorem named_touch {s : DB} (now : Nat → Int) (u : Str) (h : Exists s u) :
    (∀ w n, Spec.Named (touchUpdated s now u) w n ↔ Spec.Named s w n) ∧
      ∀ w, Exists (touchUpdated s now u) w ↔ Exists s w := by
  obtain ⟨e, he⟩ := h
  obtain ⟨h1, h2⟩ := visible_setKey (now 1) u keyUpdated (fmtInt (now 0)) e he
  have huniq : ∀ (s : DB) (w : Str) e f, Spec.Visible s w e → Spec.Visible s w f → e = f := by
    rintro s w e f ⟨st, a, b⟩ ⟨st', c, d⟩
    rw [a] at c; cases c; rw [b] at d; cases d; rfl
  constructor
  · intro w n
    by_cases hw : w = u
    · subst hw
      constructor
      · rintro ⟨f, h3, h4⟩
        have := huniq _ _ _ _ h3 h1
        subst this
        exact ⟨e, he, by simpa [Spec.upd, keyUpdated_ne.symm] using h4⟩
      · rintro ⟨f, h3, h4⟩
        have := huniq _ _ _ _ h3 he
        subst this
        exact ⟨_, h1, by simpa [Spec.upd, keyUpdated_ne.symm] using h4⟩
    · unfold Spec.Named
      constructor
      · rintro ⟨f, h3, h4⟩; exact ⟨f, (h2 w f hw).1 h3, h4⟩
      · rintro ⟨f, h3, h4⟩; exact ⟨f, (h2 w f hw).2 h3, h4⟩
  · intro w
    by_cases hw : w = u
    · subst hw; exact ⟨fun _ => ⟨e, he⟩, fun _ => ⟨_, h1⟩⟩
    · constructor
      · rintro ⟨f, h3⟩; exact ⟨f, (h2 w f hw).1 h3⟩
      · rintro ⟨f, h3⟩; exact ⟨f, (h2 w f hw).2 h3⟩

theorem renameLoop_names (l : List (Str × Entry)) (now : Nat → Int) (names : List Str)
    (ren : GoMap Str Str) (s s' : DB) (r : GoMap Str Str) (hl : ∀ p ∈ l, Exists s p.1)
    (h : renameLoop l now names ren s = some (s', r)) (w n : Str) :
    Spec.Named s' w n ↔ Spec.Named s w n := by
  induction l generalizing now names ren s with
  | nil => simp [renameLoop] at h; rw [h.1]
  | cons p l ih =>
    obtain ⟨u, e⟩ := p
    simp only [renameLoop] at h
    split at h
    · cases h
    · split at h
      · rw [set_name_rejected] at h
        simp only at h
        obtain ⟨h1, h2⟩ := named_touch (s := s) now u (hl (u, e) (by simp))
        rw [ih _ _ _ _ (fun p hp => (h2 p.1).2 (hl p (by simp [hp]))) h, h1]
      · exact ih _ _ _ _ (fun p hp => hl p (by simp [hp])) h

theorem renameLoop_unique (l : List (Str × Entry)) (now : Nat → Int) (names : List Str)
    (ren : GoMap Str Str) (s : DB) (hn : ∀ p ∈ l, (name p.2).isSome)
    (hd : (l.map (fun p => name p.2)).Nodup) (hnames : ∀ p ∈ l, ∀ n, name p.2 = some n → n ∉ names) :
    renameLoop l now names ren s = some (s, ren) := by
  induction l generalizing names with
  | nil => rfl
  | cons p l ih =>
    obtain ⟨u, e⟩ := p
    obtain ⟨n, hn'⟩ := Option.isSome_iff_exists.1 (hn (u, e) (by simp))
    simp only at hn'
    simp only [List.map_cons, List.nodup_cons] at hd
    simp only [renameLoop, hn', hnames (u, e) (by simp) n hn', if_false]
    refine ih _ (fun p hp => hn p (by simp [hp])) hd.2 (fun p hp m hm => ?_)
    simp only [List.mem_cons, not_or]
    refine ⟨?_, hnames p (by simp [hp]) m hm⟩
    rintro rfl
    exact hd.1 (List.mem_map.2 ⟨p, hp, by simp only [hn', hm]⟩)

end Verif.Blob
