import Verif.App.SoundSpec
import Verif.App.ReplLemmas
import Verif.App.AccountsLemmas
import Verif.App.PassGenProps
import Verif.Json.StrLemmas
import Verif.Blob.Props
/-!
# Every command keeps the file in order
-/
set_option linter.unusedSimpArgs false
namespace Verif.App
open Verif Verif.Txlogs Verif.Blob Verif.Crypt Verif.App.Spec

/-! ## Valid UTF-8 -/

theorem valid_nil : ValidUtf8 [] := ⟨[], by simp, rfl⟩

theorem valid_append {a b : Str} (ha : ValidUtf8 a) (hb : ValidUtf8 b) : ValidUtf8 (a ++ b) := by
  obtain ⟨x, h1, rfl⟩ := ha
  obtain ⟨y, h2, rfl⟩ := hb
  exact ⟨x ++ y, fun r hr => (List.mem_append.1 hr).elim (h1 r) (h2 r), by simp [encodeRunes]⟩

theorem valid_flatten {l : List Str} (h : ∀ s ∈ l, ValidUtf8 s) : ValidUtf8 l.flatten := by
  induction l with
  | nil => exact valid_nil
  | cons s l ih =>
    rw [List.flatten_cons]
    exact valid_append (h s (by simp)) (ih (fun t ht => h t (by simp [ht])))

theorem valid_pieces {s : Str} (h : ValidUtf8 s) : ∀ p ∈ pieces s, ValidUtf8 p.2 := by
  obtain ⟨rs, h1, rfl⟩ := h
  rw [Json.pieces_encode rs h1]
  intro p hp
  obtain ⟨r, hr, rfl⟩ := List.mem_map.1 hp
  exact ⟨[r], by simpa using h1 r hr, by simp [encodeRunes]⟩

theorem valid_fieldsAux (ps : List (Nat × Str)) (cur : Str) (hp : ∀ p ∈ ps, ValidUtf8 p.2) (hc : ValidUtf8 cur) :
    ∀ f ∈ fieldsAux ps cur, ValidUtf8 f := by
  induction ps generalizing cur with
  | nil =>
    intro f hf
    unfold fieldsAux at hf
    split at hf
    · simp at hf
    · simp at hf; subst hf; exact hc
  | cons p ps ih =>
    obtain ⟨r, b⟩ := p
    have hp' : ∀ p ∈ ps, ValidUtf8 p.2 := fun p h => hp p (by simp [h])
    intro f hf
    unfold fieldsAux at hf
    split at hf
    · split at hf
      · exact ih [] hp' valid_nil f hf
      · rcases List.mem_cons.1 hf with rfl | hf
        · exact hc
        · exact ih [] hp' valid_nil f hf
    · exact ih _ hp' (valid_append hc (hp (r, b) (by simp))) f hf

theorem valid_fields {s : Str} (h : ValidUtf8 s) : ∀ f ∈ fields s, ValidUtf8 f :=
  valid_fieldsAux _ _ (valid_pieces h) valid_nil

theorem valid_trimSpace {s : Str} (h : ValidUtf8 s) : ValidUtf8 (trimSpace s) := by
  unfold trimSpace
  apply valid_flatten
  intro t ht
  obtain ⟨p, hp, rfl⟩ := List.mem_map.1 ht
  rw [List.mem_reverse] at hp
  have hp := (List.dropWhile_sublist _).subset hp
  rw [List.mem_reverse] at hp
  exact valid_pieces h p ((List.dropWhile_sublist _).subset hp)

theorem valid_ascii (s : Str) (h : s.all (fun b => b.toNat < 0x80) = true) : ValidUtf8 s :=
  (validUtf8_ascii s (by simpa using h)).1

/-! ## Calls of the blob API -/

theorem wf_named {s s' : DB} (h : WellFormed s) (hg : Good s')
    (hn : ∀ w n, Blob.Spec.Named s' w n → Blob.Spec.Named s w n) : WellFormed s' :=
  ⟨hg, fun u v n a b => h.unique u v n (hn _ _ a) (hn _ _ b), fun u n a => h.uuids u n (hn _ _ a),
    fun u n a => h.utf8 u n (hn _ _ a)⟩

theorem good_log {s s' : DB} (h : Good s) (ho : Ok s') (hl : s'.log = s.log) : Good s' :=
  ⟨ho, by rw [hl]; exact h.named⟩

theorem wf_log {s s' : DB} (h : WellFormed s) (ho : Ok s') (hl : s'.log = s.log) : WellFormed s' :=
  wf_named h (good_log h.good ho hl) (fun w n a => (named_log hl w n).1 a)

theorem wf_update {s : DB} (h : WellFormed s) : WellFormed s.updateSnapshot.1 :=
  wf_log h (ok_update h.good.ok) (updateSnapshot_log s)

theorem ok_begin {s : DB} (h : Ok s) : Ok s.begin := ⟨h.coh, h.nodup, h.inner⟩

theorem wf_begin {s : DB} (h : WellFormed s) : WellFormed s.begin := wf_log h (ok_begin h.good.ok) rfl

theorem exists_of_named {s : DB} {u n : Str} (h : Blob.Spec.Named s u n) : Blob.Exists s u := ⟨_, h.choose_spec.1⟩

/-- Checking by computation that a file is in order, and what is in it. -/
theorem wf_check {s : DB} (ho : Ok s) (l : List (Str × Str))
    (hv : s.updateSnapshot.1.version = s.updateSnapshot.1.log.length)
    (hl : s.updateSnapshot.1.snapshot.map (fun p => (p.1, name p.2)) = l.map (fun p => (p.1, some p.2)))
    (hn : ∀ x ∈ l, ∀ y ∈ l, x.2 = y.2 → x.1 = y.1) (hu : ∀ x ∈ l, x.1 ≠ [] ∧ x.2.all (fun b => b.toNat < 0x80) = true) :
    WellFormed s ∧ ∀ w n, Blob.Spec.Named s w n ↔ (w, n) ∈ l := by
  have hf : Fresh s.updateSnapshot.1 := ⟨ok_update ho, hv⟩
  have hlog := updateSnapshot_log s
  have hm := hf.meaning
  rw [hlog] at hm
  have hmem : ∀ w n, (w, n) ∈ l ↔ (w, some n) ∈ s.updateSnapshot.1.snapshot.map (fun p => (p.1, name p.2)) := by
    intro w n
    rw [hl, List.mem_map]
    constructor
    · intro h; exact ⟨_, h, rfl⟩
    · rintro ⟨⟨a, b⟩, h, h'⟩
      simp only [Prod.mk.injEq, Option.some.injEq] at h'
      obtain ⟨rfl, rfl⟩ := h'
      exact h
  have hnamed : ∀ w n, Blob.Spec.Named s w n ↔ (w, n) ∈ l := by
    intro w n
    rw [← named_log hlog, named_fresh hf, hmem, List.mem_map]
    constructor
    · rintro ⟨e, h1, h2⟩
      exact ⟨(w, e), GoMap.mem_of_get? h1, by simp [h2]⟩
    · rintro ⟨⟨a, e⟩, h1, h2⟩
      simp only [Prod.mk.injEq] at h2
      obtain ⟨rfl, h2⟩ := h2
      exact ⟨e, GoMap.get?_of_mem hf.nodup h1, h2⟩
  refine ⟨⟨⟨ho, _, hm, ?_⟩, ?_, ?_, ?_⟩, hnamed⟩
  · intro u e hue
    obtain ⟨en, h1, h2⟩ := view_some hue
    have h3 : (u, name en) ∈ s.updateSnapshot.1.snapshot.map (fun p => (p.1, name p.2)) :=
      List.mem_map.2 ⟨(u, en), GoMap.mem_of_get? h1, rfl⟩
    rw [hl, List.mem_map] at h3
    obtain ⟨x, -, h4⟩ := h3
    simp only [Prod.mk.injEq] at h4
    rw [h2]
    show (name en).isSome = true
    rw [← h4.2]; rfl
  · intro a b n h1 h2
    exact hn _ ((hnamed _ _).1 h1) _ ((hnamed _ _).1 h2) rfl
  · intro a n h1; exact (hu _ ((hnamed _ _).1 h1)).1
  · intro a n h1; exact valid_ascii _ (hu _ ((hnamed _ _).1 h1)).2

/-- what a write to an entry that does not touch its name does -/
structure Kept (u : Str) (s s' : DB) : Prop where
  wf : WellFormed s'
  ex : Blob.Exists s' u
  named : ∀ w n, Blob.Spec.Named s' w n ↔ Blob.Spec.Named s w n
  tx : s'.txPoint = s.txPoint
  version : s'.version = s.version
  log : ∃ l, s'.log = s.log ++ l
  others : ∀ w f, w ≠ u → (Blob.Spec.Visible s' w f ↔ Blob.Spec.Visible s w f)

theorem Kept.refl {u : Str} {s : DB} (h : WellFormed s) (he : Blob.Exists s u) : Kept u s s :=
  ⟨h, he, fun _ _ => Iff.rfl, rfl, rfl, ⟨[], by simp⟩, fun _ _ _ => Iff.rfl⟩

theorem Kept.trans {u : Str} {a b c : DB} (h : Kept u a b) (h' : Kept u b c) : Kept u a c :=
  ⟨h'.wf, h'.ex, fun w n => (h'.named w n).trans (h.named w n), h'.tx.trans h.tx, h'.version.trans h.version, by
    obtain ⟨l, hl⟩ := h.log; obtain ⟨l', hl'⟩ := h'.log
    exact ⟨l ++ l', by rw [hl', hl, List.append_assoc]⟩,
    fun w f hw => (h'.others w f hw).trans (h.others w f hw)⟩

theorem kept_setKey {s : DB} (t : Int) (u k v : Str) (hk : k ≠ keyName) (h : WellFormed s) (he : Blob.Exists s u) :
    Kept u s (s.setKey t u k v) := by
  obtain ⟨g, e⟩ := good_setKey t u k v h.good he
  obtain ⟨f, hf⟩ := he
  obtain ⟨h1, h2⟩ := visible_setKey t u k v f hf
  have hn := named_of_visible hf h1 (by simp [Txlogs.Spec.upd, Ne.symm hk]) h2
  exact ⟨wf_named h g (fun w n => (hn w n).1), e, hn, rfl, rfl, ⟨_, rfl⟩, h2⟩

theorem kept_deleteKey {s : DB} (t : Int) (u k : Str) (hk : k ≠ keyName) (h : WellFormed s) (he : Blob.Exists s u) :
    Kept u s (s.deleteKey t u k) := by
  obtain ⟨g, e⟩ := good_deleteKey t u k hk h.good he
  obtain ⟨f, hf⟩ := he
  obtain ⟨h1, h2⟩ := visible_deleteKey t u k f hf
  have hn := named_of_visible hf h1 (by simp [Txlogs.Spec.upd, Ne.symm hk]) h2
  exact ⟨wf_named h g (fun w n => (hn w n).1), e, hn, rfl, rfl, ⟨_, rfl⟩, h2⟩

theorem kept_touch {s : DB} (now : Nat → Int) (u : Str) (h : WellFormed s) (he : Blob.Exists s u) :
    Kept u s (touchUpdated s now u) := kept_setKey _ _ _ _ keyUpdated_ne h he

theorem kept_set {s : DB} (now : Nat → Int) (u k v : Str) (h : WellFormed s) (he : Blob.Exists s u) :
    Kept u s (Blob.set now s u k v).1 ∧ (Blob.set now s u k v).2 ≠ .panic := by
  unfold Blob.set
  split
  · exact ⟨Kept.refl h he, by simp⟩
  · rename_i hp
    have h1 := kept_touch now u h he
    exact ⟨h1.trans (kept_setKey _ _ _ _ (not_protected_ne hp) h1.wf h1.ex), by simp⟩

theorem kept_deleteKeyOp {s : DB} (now : Nat → Int) (u k : Str) (h : WellFormed s) (he : Blob.Exists s u) :
    Kept u s (Blob.deleteKey now s u k).1 ∧ (Blob.deleteKey now s u k).2 ≠ .panic := by
  unfold Blob.deleteKey
  split
  · exact ⟨Kept.refl h he, by simp⟩
  · rename_i hp
    have h1 := kept_touch now u h he
    exact ⟨h1.trans (kept_deleteKey _ _ _ (fun hk => hp (.inl hk)) h1.wf h1.ex), by simp⟩

theorem kept_setTwofactor {s : DB} (uri : Str → Str → Str) (ok : Str → Bool) (now : Nat → Int) (u k : Str)
    (h : WellFormed s) (he : Blob.Exists s u) :
    Kept u s (setTwofactor uri ok now s u k).1 ∧ (setTwofactor uri ok now s u k).2 ≠ .panic := by
  unfold setTwofactor
  dsimp only
  generalize (if hasPrefix _ _ = true then _ else _ : Str) = x
  split
  · have h1 := kept_touch now u h he
    exact ⟨h1.trans (kept_setKey _ _ _ _ keyTwoFactor_ne h1.wf h1.ex), by simp⟩
  · exact ⟨Kept.refl h he, by simp⟩

theorem kept_setRecord {s : DB} (now : Nat → Int) (u a b c : Str) (h : WellFormed s) (he : Blob.Exists s u) :
    Kept u s (setRecord now s u a b c) := by
  unfold setRecord
  have h1 := kept_setKey (now 0) u keySalt (hexEncode a) (by decide) h he
  have h2 := kept_setKey (now 1) u keyIV (hexEncode b) (by decide) h1.wf h1.ex
  have h3 := kept_setKey (now 2) u keyMKey (hexEncode c) (by decide) h2.wf h2.ex
  exact (h1.trans h2).trans h3

theorem kept_setNonEmpty {s : DB} (t : Int) (u k v : Str) (hk : k ≠ keyName) (h : WellFormed s) (he : Blob.Exists s u) :
    Kept u s (setNonEmpty s t u k v) := by
  unfold setNonEmpty
  split
  · exact Kept.refl h he
  · exact kept_setKey t u k v hk h he

theorem wf_delete {s : DB} (t : Int) (u : Str) (h : WellFormed s) (he : Blob.Exists s u) : WellFormed (s.delete t u) := by
  have hg := good_delete t u h.good he
  obtain ⟨e, st, h1, h2⟩ := he
  have hm : Txlogs.Spec.meaning Txlogs.Spec.empty (s.delete t u).log = some (Txlogs.Spec.upd st u none) := by
    simp only [DB.delete, DB.appendLog, meaning_snoc, h1, Option.bind_some, Txlogs.Spec.apply, h2]
  refine wf_named h hg ?_
  rintro w n ⟨f, ⟨st', a, b⟩, c⟩
  rw [hm] at a
  cases a
  simp only [Txlogs.Spec.upd] at b
  split at b
  · cases b
  · exact ⟨f, ⟨st, h1, b⟩, c⟩

theorem upd_tx (s : DB) : s.updateSnapshot.1.txPoint = s.txPoint := updateSnapshot_txPoint s

/-- what `New` does in an ordered file -/
theorem wf_new {s : DB} {ord : Order} (hord : ∀ m, (ord m).Perm m) (now : Nat → Int) {u nm : Str} (h : WellFormed s)
    (hfresh : ¬ Blob.Exists s u) (hu : u ≠ []) (hv : ValidUtf8 nm) :
    (new ord now u s nm = (s.updateSnapshot.1, .err .nameNotUnique)) ∨
    (∃ s', new ord now u s nm = (s', .ok u) ∧ WellFormed s' ∧ Blob.Exists s' u ∧ s'.txPoint = s.txPoint ∧
      s'.version = s.log.length ∧ (∃ l, s'.log = s.log ++ l) ∧
      (∀ w f, w ≠ u → (Blob.Spec.Visible s' w f ↔ Blob.Spec.Visible s w f)) ∧ Blob.Spec.Named s' u nm ∧
      (∀ w, ¬ Blob.Spec.Named s w nm)) := by
  have hcase : (new ord now u s nm = (s.updateSnapshot.1, .err .nameNotUnique)) ∨
      (∃ s', new ord now u s nm = (s', .ok u) ∧ s'.txPoint = s.txPoint ∧ s'.version = s.log.length ∧
        ∃ l, s'.log = s.log ++ l ∧ ∀ tx ∈ l, tx.uuid = u) := by
    obtain ⟨-, hf, hg, hlog⟩ := good_withSnapshot h.good (fun s => ((s, .panic) : Out Str))
    unfold new
    rw [(good_withSnapshot h.good _).1]
    obtain ⟨b, hb⟩ := good_nameTaken hg hf (hord _) nm
    simp only [hb]
    cases b with
    | true => exact .inl rfl
    | false =>
      refine .inr ⟨_, rfl, upd_tx s, ?_, ?_⟩
      · show s.updateSnapshot.1.version = _
        rw [hf.current, hlog]
      · simp only [touchUpdated, DB.setKey, DB.appendLog, DB.add, updateSnapshot_log, List.append_assoc]
        exact ⟨_, rfl, by simp⟩
  rcases hcase with h1 | ⟨s', h1, h2, h3, l, h4, h5⟩
  · exact .inl h1
  rcases good_newOp ord hord now u nm h.good hfresh with ⟨s2, a, -⟩ | ⟨s2, a, hg, hn, hfree⟩
  · rw [h1] at a; cases a
  rw [h1] at a
  obtain ⟨rfl, -⟩ := Prod.mk.inj a
  clear a
  have hvis : ∀ w f, w ≠ u → (Blob.Spec.Visible s' w f ↔ Blob.Spec.Visible s w f) :=
    fun w f hw => visible_other hw h4 h5 hg f
  have hnamed : ∀ w n, Blob.Spec.Named s' w n → Blob.Spec.Named s w n ∨ (w = u ∧ n = nm) := by
    rintro w n ⟨f, a, b⟩
    by_cases hw : w = u
    · subst hw
      obtain ⟨f', a', b'⟩ := hn
      rw [visible_unique a a', b'] at b
      exact .inr ⟨rfl, by simpa using b.symm⟩
    · exact .inl ⟨f, (hvis w f hw).1 a, b⟩
  refine .inr ⟨s', h1, ⟨hg, ?_, ?_, ?_⟩, exists_of_named hn, h2, h3, ⟨l, h4⟩, hvis, hn, hfree⟩
  · intro v w n a b
    rcases hnamed _ _ a with a' | ⟨rfl, rfl⟩ <;> rcases hnamed _ _ b with b' | ⟨rfl, hb⟩
    · exact h.unique _ _ _ a' b'
    · subst hb; exact absurd a' (hfree _)
    · exact absurd b' (hfree _)
    · rfl
  · intro w n a
    rcases hnamed _ _ a with a | ⟨rfl, rfl⟩
    · exact h.uuids _ _ a
    · exact hu
  · intro w n a
    rcases hnamed _ _ a with a | ⟨rfl, rfl⟩
    · exact h.utf8 _ _ a
    · exact hv

theorem wf_rename {s : DB} {ord : Order} (hord : ∀ m, (ord m).Perm m) (now : Nat → Int) {u nm : Str} (h : WellFormed s)
    (hv : ValidUtf8 nm) :
    WellFormed (rename ord now s u nm).1 ∧ (rename ord now s u nm).2 ≠ .panic ∧
      (rename ord now s u nm).1.txPoint = s.txPoint ∧ s.log <+: (rename ord now s u nm).1.log ∧
      (∀ w n, w ≠ u → Blob.Spec.Named s w n → Blob.Spec.Named (rename ord now s u nm).1 w n) := by
  obtain ⟨-, hf, hg, hlog⟩ := good_withSnapshot h.good (fun s => ((s, .panic) : Out Str))
  have hw := wf_update h
  unfold rename
  rw [(good_withSnapshot h.good _).1]
  have htx := upd_tx s
  have hpre : s.log <+: s.updateSnapshot.1.log := by rw [hlog]; exact List.prefix_refl _
  have hnm : ∀ w n, w ≠ u → Blob.Spec.Named s w n → Blob.Spec.Named s.updateSnapshot.1 w n :=
    fun w n _ hh => (named_log hlog w n).2 hh
  generalize s.updateSnapshot.1 = s1 at *
  obtain ⟨b, hb⟩ := good_nameTaken hg hf (hord s1.snapshot) nm
  simp only [hb]
  cases b with
  | true => exact ⟨hw, by simp, htx, hpre, hnm⟩
  | false =>
    cases hm : s1.snapshot.get? u with
    | none => exact ⟨hw, by simp, htx, hpre, hnm⟩
    | some e =>
      simp only
      have hfree := free_of_nameTaken hf (hord _) hb
      have hex : Blob.Exists s1 u := (exists_iff hf u).2 ⟨e, hm⟩
      have h1 := kept_touch now u hw hex
      obtain ⟨g2, e2⟩ := good_setKey (now 2) u keyName nm h1.wf.good h1.ex
      obtain ⟨f, hfv⟩ := h1.ex
      obtain ⟨v1, v2⟩ := visible_setKey (now 2) u keyName nm f hfv
      have hnamed : ∀ w n, Blob.Spec.Named ((touchUpdated s1 now u).setKey (now 2) u keyName nm) w n →
          Blob.Spec.Named s1 w n ∧ w ≠ u ∨ (w = u ∧ n = nm) := by
        rintro w n ⟨g, a, b⟩
        by_cases hwu : w = u
        · subst hwu
          rw [visible_unique a v1] at b
          exact .inr ⟨rfl, by simpa [Txlogs.Spec.upd] using b.symm⟩
        · exact .inl ⟨(h1.named w n).1 ⟨g, (v2 w g hwu).1 a, b⟩, hwu⟩
      refine ⟨?_, by simp, htx, ?_, ?_⟩
      rotate_left
      · obtain ⟨l, hl⟩ := h1.log
        show _ <+: (touchUpdated s1 now u).log ++ _
        rw [hl]
        exact (hpre.trans (List.prefix_append _ _)).trans (List.prefix_append _ _)
      · intro w n hwu hh
        obtain ⟨g, a, b⟩ := (h1.named w n).2 (hnm w n hwu hh)
        exact ⟨g, (v2 w g hwu).2 a, b⟩
      have hfree' : ∀ v, ¬ Blob.Spec.Named s1 v nm := by
        rintro v ⟨g, ⟨st, a, b⟩, c⟩
        exact hfree st a v g b c
      refine ⟨g2, ?_, ?_, ?_⟩
      · intro v w n a b
        rcases hnamed _ _ a with ⟨a', -⟩ | ⟨rfl, rfl⟩ <;> rcases hnamed _ _ b with ⟨b', -⟩ | ⟨rfl, hb⟩
        · exact hw.unique _ _ _ a' b'
        · subst hb; exact absurd a' (hfree' _)
        · exact absurd b' (hfree' _)
        · rfl
      · intro w n a
        rcases hnamed _ _ a with ⟨a, -⟩ | ⟨rfl, rfl⟩
        · exact hw.uuids _ _ a
        · obtain ⟨st, m1, m2⟩ := hw.good.named
          obtain ⟨g, st', k1, k2⟩ := hex
          have : (g keyName).isSome := m2 w g (by rw [m1] at k1; cases k1; exact k2)
          obtain ⟨n', hn'⟩ := Option.isSome_iff_exists.1 this
          exact hw.uuids w n' ⟨g, ⟨st', k1, k2⟩, hn'⟩
      · intro w n a
        rcases hnamed _ _ a with ⟨a, -⟩ | ⟨rfl, rfl⟩
        · exact hw.utf8 _ _ a
        · exact hv

/-! ## Lookups -/

theorem wf_search {s : DB} (lower : Nat → Nat) {ord : Order} (hord : ∀ m, (ord m).Perm m) (h : WellFormed s) (q : Str) :
    ∃ r, search lower ord s q = (s.updateSnapshot.1, .ok r) ∧ ∀ u n, r.get? u = some n → Blob.Spec.Named s u n := by
  obtain ⟨st, h1, h2⟩ := h.good.named
  obtain ⟨s', r, hr⟩ := C33_search_total lower ord hord h.good.ok q (by simp [Blob.Spec.Readable, h1]) (by
    rintro u e ⟨st', a, b⟩
    rw [h1] at a; cases a
    obtain ⟨n, hn⟩ := Option.isSome_iff_exists.1 (h2 u e b)
    exact ⟨n, hn, h.utf8 u n ⟨e, ⟨st, h1, b⟩, hn⟩⟩)
  have hs : s' = s.updateSnapshot.1 := by
    have h3 : (search lower ord s q).1 = s' := by rw [hr]
    rw [← h3]
    unfold search
    rw [(good_withSnapshot h.good _).1]
    dsimp only
    repeat' split
    all_goals rfl
  obtain ⟨-, h4⟩ := C33_search_exact lower ord hord h.good.ok q r hr
  exact ⟨r, by rw [hr, hs], fun u n hu => ((h4 u n).1 hu).1⟩

theorem wf_findOne {s : DB} (lower : Nat → Nat) {ord : Order} {ord' : Results → Results} (hord : ∀ m, (ord m).Perm m)
    (hord' : ∀ m, (ord' m).Perm m) (h : WellFormed s) (q : Str) :
    ∃ id, findOne lower ord ord' s q = (s.updateSnapshot.1, .ok id) ∧ (id ≠ [] → ∃ n, Blob.Spec.Named s id n) := by
  obtain ⟨r, hr, -⟩ := wf_search lower hord h q
  have : ∃ id, findOne lower ord ord' s q = (s.updateSnapshot.1, .ok id) := by
    unfold findOne
    rw [hr]
    dsimp only
    split
    · exact ⟨_, rfl⟩
    · exact ⟨_, rfl⟩
    · exact ⟨_, rfl⟩
  obtain ⟨id, hid⟩ := this
  obtain ⟨-, h1, -⟩ := C39_selects lower ord hord ord' hord' h.good.ok q id h.uuids hid
  exact ⟨id, hid, fun hne => by obtain ⟨n, hn, -⟩ := h1 hne; exact ⟨n, hn⟩⟩

theorem wf_searchLabels {s : DB} {ord : Order} (hord : ∀ m, (ord m).Perm m) (h : WellFormed s) (ls : List Str) :
    ∃ r, searchLabels ord s ls = (s.updateSnapshot.1, .ok r) := by
  obtain ⟨-, hf, hg, hlog⟩ := good_withSnapshot h.good (fun s => ((s, .panic) : Out Str))
  have hn := good_names hg hf (hord s.updateSnapshot.1.snapshot)
  unfold searchLabels
  rw [(good_withSnapshot h.good _).1]
  split
  · exact ⟨_, rfl⟩
  · dsimp only
    obtain ⟨r, hr⟩ := collect_some (if ls = [] then fun _ => some true else labelsKeep ls)
      (ord s.updateSnapshot.1.snapshot) [] (fun p _ => by
        split
        · rfl
        · unfold labelsKeep; dsimp only; split <;> rfl) hn
    rw [hr]
    exact ⟨r, rfl⟩

/-- an entry of an ordered file has a name -/
theorem name_of_visible {s : DB} {u : Str} {e : Entry} (h : WellFormed s) (hv : Blob.Spec.Visible s u (fun k => e.get? k)) :
    ∃ n, name e = some n := by
  obtain ⟨st, h1, h2⟩ := h.good.named
  obtain ⟨st', a, b⟩ := hv
  rw [h1] at a; cases a
  exact Option.isSome_iff_exists.1 (h2 u _ b)

theorem wrap_noPanic {P : Prims} (hP : Crypt.Spec.Lawful P) {key master iv : Str} (hi : iv.length = 40) :
    encryptMasterKey P 1 key master iv ≠ .panic := by
  obtain ⟨z1, z2, -⟩ := sizes
  by_cases hm : master.length = 80
  · by_cases hk : key.length = 80
    · obtain ⟨mk, h, -⟩ := wrap_ok P hP hk hm hi
      rw [h]; simp
    · unfold encryptMasterKey
      rw [if_neg (by simp), if_neg (by omega), if_pos (by omega)]; simp
  · unfold encryptMasterKey
    rw [if_neg (by simp), if_pos (by omega)]; simp

theorem applyIdx_noPanic (log : List Tx) (is : List Nat) (snap : Snapshot) (h : ∀ i ∈ is, i < log.length) :
    DB.applyIdx log is snap ≠ .panic := by
  induction is generalizing snap with
  | nil => simp [DB.applyIdx]
  | cons i is ih =>
    unfold DB.applyIdx
    rw [List.getElem?_eq_getElem (h i (by simp))]
    dsimp only
    split
    · simp
    · exact ih _ (fun j hj => h j (by simp [hj]))

theorem entryTxIndices_lt (u : Str) (log : List Tx) (i : Nat) :
    ∀ j ∈ DB.entryTxIndices u log i, j < i + log.length := by
  induction log generalizing i with
  | nil => intro j hj; simp [DB.entryTxIndices] at hj
  | cons tx log ih =>
    intro j hj
    have h1 := ih (i + 1) j
    unfold DB.entryTxIndices at hj
    split at hj
    · have := h1 hj
      simp only [List.length_cons]; omega
    · rcases List.mem_cons.1 hj with rfl | hj
      · simp
      · have := h1 hj
        simp only [List.length_cons]; omega

theorem entrySnapshotAt_noPanic (s : DB) (u : Str) (n : Int) (h : 0 ≤ n) : s.entrySnapshotAt u n ≠ .panic := by
  unfold DB.entrySnapshotAt
  split
  · simp
  · dsimp only
    split
    · simp
    · have := applyIdx_noPanic s.log
        ((DB.entryTxIndices u s.log 0).take (((DB.entryTxIndices u s.log 0).length : Int) - 1 - n + 1).toNat) []
        (fun i hi => by have := entryTxIndices_lt u s.log 0 i (List.mem_of_mem_take hi); omega)
      split
      · simp
      · contradiction
      · rw [if_neg (by omega)]
        split <;> simp

/-! ## Commands -/

/-- what commands may do to the file: operations are only added, and names other than those in `L` stay where they are -/
structure Grow (L : Str → Prop) (s s' : DB) : Prop where
  tx : s'.txPoint = s.txPoint
  log : s.log <+: s'.log
  names : ∀ w n, ¬ L n → Blob.Spec.Named s w n → Blob.Spec.Named s' w n

theorem Grow.refl {L : Str → Prop} (s : DB) : Grow L s s := ⟨rfl, List.prefix_refl _, fun _ _ _ h => h⟩

theorem Grow.trans {L : Str → Prop} {a b c : DB} (h : Grow L a b) (h' : Grow L b c) : Grow L a c :=
  ⟨h'.tx.trans h.tx, h.log.trans h'.log, fun w n hn hw => h'.names w n hn (h.names w n hn hw)⟩

theorem grow_log {L : Str → Prop} {s s' : DB} (ht : s'.txPoint = s.txPoint) (hl : s'.log = s.log) : Grow L s s' :=
  ⟨ht, by rw [hl]; exact List.prefix_refl _, fun w n _ h => (named_log hl w n).2 h⟩

theorem grow_upd {L : Str → Prop} (s : DB) : Grow L s s.updateSnapshot.1 := grow_log (upd_tx s) (updateSnapshot_log s)

theorem Kept.grow {L : Str → Prop} {u : Str} {s s' : DB} (h : Kept u s s') : Grow L s s' :=
  ⟨h.tx, by obtain ⟨l, hl⟩ := h.log; rw [hl]; exact List.prefix_append _ _, fun w n _ hw => (h.named w n).2 hw⟩

theorem grow_new {L : Str → Prop} {s s' : DB} {u : Str} {l : List Tx} (hfr : ¬ Blob.Exists s u) (ht : s'.txPoint = s.txPoint)
    (hl : s'.log = s.log ++ l) (ho : ∀ w f, w ≠ u → (Blob.Spec.Visible s' w f ↔ Blob.Spec.Visible s w f)) : Grow L s s' :=
  ⟨ht, by rw [hl]; exact List.prefix_append _ _, fun w n _ ⟨f, a, b⟩ =>
    ⟨f, (ho w f (by rintro rfl; exact hfr ⟨f, a⟩)).2 a, b⟩⟩

/-- The outcome of a command: under `p` it does not crash; and unless it crashes the file stays in order, is outside a transaction
iff it was, and only grew. -/
def Fine {α : Type} (p : Prop) (L : Str → Prop) (u : Session) (x : Session × Res AppErr α) : Prop :=
  (p → x.2 ≠ .panic) ∧ (x.2 ≠ .panic → WellFormed x.1.store ∧ Grow L u.store x.1.store)

theorem fine_mk {α : Type} {p : Prop} {L : Str → Prop} {u u' : Session} {o : Res AppErr α} (ho : p → o ≠ .panic)
    (h : WellFormed u'.store) (ht : Grow L u.store u'.store) : Fine p L u (u', o) := ⟨ho, fun _ => ⟨h, ht⟩⟩

theorem fine_crash {α : Type} {p : Prop} {L : Str → Prop} {u u' : Session} (hp : ¬ p) :
    Fine p L u (u', (.panic : Res AppErr α)) := ⟨fun h => absurd h hp, fun h => absurd rfl h⟩

theorem Fine.of_tx {α : Type} {p : Prop} {L : Str → Prop} {u u' : Session} {x : Session × Res AppErr α} (h : Fine p L u' x)
    (ht : Grow L u.store u'.store) : Fine p L u x := ⟨h.1, fun hx => ⟨(h.2 hx).1, ht.trans (h.2 hx).2⟩⟩

theorem fine_lift_ {p : Prop} {L : Str → Prop} {u : Session} {uuid : Str} {o : Out Unit}
    (h : Kept uuid u.store o.1 ∧ o.2 ≠ .panic) : Fine p L u (lift_ u o) := by
  obtain ⟨s, r⟩ := o
  cases r with
  | panic => exact absurd rfl h.2
  | ok a => exact fine_mk (by simp) h.1.wf h.1.grow
  | err e => exact fine_mk (by simp) h.1.wf h.1.grow

/-- the start of most commands -/
theorem fine_one {α : Type} {p : Prop} {L : Str → Prop} {v : Env} {u : Session} (hv : EnvOk v u.store) (h : WellFormed u.store) (q : Str) (d : α)
    (k : Session → Str → Session × Res AppErr α)
    (hk : ∀ u' uuid, Same u u' → WellFormed u'.store → Fresh u'.store → uuid ≠ [] →
      (∃ n, Blob.Spec.Named u'.store uuid n) → Fine p L u' (k u' uuid)) : Fine p L u (one v u q d k) := by
  obtain ⟨id, h1, h2⟩ := wf_findOne v.lower hv.ord hv.ord' h q
  obtain ⟨-, hf, hg, hlog⟩ := good_withSnapshot h.good (fun s => ((s, .panic) : Out Str))
  have hw := wf_update h
  have ht : Grow L u.store u.store.updateSnapshot.1 := grow_upd u.store
  unfold one
  rw [h1]
  simp only [lift]
  split
  · exact fine_mk (by simp) hw ht
  · rename_i hid
    obtain ⟨n, hn⟩ := h2 hid
    exact (hk { u with store := u.store.updateSnapshot.1 } _ ⟨hlog, ht.tx, rfl, rfl, rfl⟩ hw hf hid ⟨n, (named_log hlog _ _).2 hn⟩).of_tx ht

theorem fine_oneEntry {α : Type} {p : Prop} {L : Str → Prop} {v : Env} {u : Session} (hv : EnvOk v u.store) (h : WellFormed u.store) (q : Str)
    (d : α) (k : Session → Str → Entry → Session × Res AppErr α)
    (hk : ∀ u' uuid e, Same u u' → WellFormed u'.store → Fresh u'.store → uuid ≠ [] →
      Blob.Spec.Visible u'.store uuid (fun k => e.get? k) → (∃ n, name e = some n) → Fine p L u' (k u' uuid e)) :
    Fine p L u (oneEntry v u q d k) := by
  unfold oneEntry
  refine fine_one hv h q d _ ?_
  rintro u' uuid hs hw hf hne ⟨n, e, he, hn⟩
  obtain ⟨en, h1, rfl, h3, -⟩ := mustFind_visible hw.good.ok uuid e he
  rw [h1, update_fresh hf]
  simp only [lift]
  exact hk _ _ _ hs hw hf hne he (name_of_visible hw he)

theorem fine_list {p : Prop} {L : Str → Prop} {v : Env} {u : Session} (hv : EnvOk v u.store) (h : WellFormed u.store) (q : Str) :
    Fine p L u (list v u q) := by
  obtain ⟨r, hr, -⟩ := wf_search v.lower hv.ord h q
  unfold list
  rw [hr]
  exact fine_mk (by simp) (wf_update h) (grow_upd _)

theorem fine_listByLabels {p : Prop} {L : Str → Prop} {v : Env} {u : Session} (hv : EnvOk v u.store) (h : WellFormed u.store) (ls : List Str) :
    Fine p L u (listByLabels v u ls) := by
  obtain ⟨r, hr⟩ := wf_searchLabels hv.ord h ls
  unfold listByLabels
  rw [hr]
  exact fine_mk (by simp) (wf_update h) (grow_upd _)

theorem fine_getCmd {p : Prop} {L : Str → Prop} {v : Env} {u : Session} (hv : EnvOk v u.store) (h : WellFormed u.store) (q key : Str) :
    Fine p L u (getCmd v u q key) := by
  unfold getCmd
  refine fine_oneEntry hv h q _ _ ?_
  rintro u' uuid e hs hw hf hne he ⟨n, hn⟩
  simp only [hn, reduceCtorEq, if_false]
  repeat' split
  all_goals exact fine_mk (by simp) hw (Grow.refl _)

theorem fine_entryName {p : Prop} {L : Str → Prop} {v : Env} {u : Session} (hv : EnvOk v u.store) (h : WellFormed u.store) (q : Str) :
    Fine p L u (entryName v u q) := by
  unfold entryName
  refine fine_oneEntry hv h q _ _ ?_
  rintro u' uuid e hs hw hf hne he ⟨n, hn⟩
  simp only [hn]
  exact fine_mk (by simp) hw (Grow.refl _)

theorem fine_showCmd {p : Prop} {L : Str → Prop} {v : Env} {u : Session} (hv : EnvOk v u.store) (h : WellFormed u.store) (q : Str) (i : Int)
    (hi : p → 0 ≤ i) : Fine p L u (showCmd v u q i) := by
  unfold showCmd
  refine fine_oneEntry hv h q _ _ ?_
  rintro u' uuid e hs hw hf hne he ⟨n, hn⟩
  simp only [hn, reduceCtorEq, if_false]
  split
  · split
    · exact fine_mk (by simp) hw (Grow.refl _)
    · split
      · rename_i hpan
        exact fine_crash (fun hp => entrySnapshotAt_noPanic _ _ _ (hi hp) hpan)
      · exact fine_mk (by simp) hw (Grow.refl _)
      · repeat' split
        all_goals exact fine_mk (by simp) hw (Grow.refl _)
  · repeat' split
    all_goals exact fine_mk (by simp) hw (Grow.refl _)

theorem fine_openurl {p : Prop} {L : Str → Prop} {v : Env} {u : Session} (hv : EnvOk v u.store) (h : WellFormed u.store) (q : Str) :
    Fine p L u (openurl v u q) := by
  have h1 : Fine p L u (oneEntry v u q none (openLink v)) := by
    refine fine_oneEntry hv h q _ _ ?_
    rintro u' uuid e hs hw hf hne he ⟨n, hn⟩
    simp only [openLink, hn, reduceCtorEq, if_false]
    repeat' split
    all_goals exact fine_mk (by simp) hw (Grow.refl _)
  rcases openurl_cases v u q with ⟨u', e, h', h2⟩ | h2
  · rw [h'] at h1
    have := h1.2 (by simp)
    rw [h2]
    exact fine_mk (by simp) this.1 this.2
  · rw [h2]; exact h1

theorem fine_dump {p : Prop} {L : Str → Prop} {v : Env} {u : Session} (hv : EnvOk v u.store) (h : WellFormed u.store) (q : Str) :
    Fine p L u (dump v u q) := by
  unfold dump
  refine fine_oneEntry hv h q _ _ ?_
  intro u' uuid e hs hw hf hne he hn
  exact fine_mk (by simp) hw (Grow.refl _)

theorem fine_login {p : Prop} {L : Str → Prop} {v : Env} {u : Session} (hv : EnvOk v u.store) (h : WellFormed u.store) (q : Str) :
    Fine p L u (login v u q) := by
  unfold login
  refine fine_one hv h q _ _ ?_
  rintro u' uuid hs hw hf hne hn
  have : find u'.store uuid = (u'.store, .ok (u'.store.snapshot.get? uuid)) := by
    unfold find
    rw [(good_withSnapshot hw.good _).1, update_fresh hf]
  rw [this]
  simp only [lift]
  repeat' split
  all_goals exact fine_mk (by simp) hw (Grow.refl _)

theorem fine_setCmd {p : Prop} {L : Str → Prop} {v : Env} {u : Session} (hv : EnvOk v u.store) (h : WellFormed u.store) (q key value : Str)
    (hp : p → PromptOk v) : Fine p L u (setCmd v u q key value) := by
  unfold setCmd
  refine fine_one hv h q _ _ ?_
  rintro u' uuid hs hw hf hne ⟨n, hn⟩
  have he := exists_of_named hn
  have hset : ∀ x, Fine p L u' (lift_ u' (Blob.set v.d.now u'.store uuid key x)) :=
    fun x => fine_lift_ (kept_set v.d.now uuid key x hw he)
  split
  · split
    · split
      · rename_i hpan
        exact fine_crash (fun h => hp h _ (List.suffix_refl _) hpan)
      · exact fine_mk (by simp) hw (Grow.refl _)
      · exact hset _
    · exact hset _
  · split
    · exact fine_lift_ (kept_setTwofactor _ _ _ _ _ hw he)
    · split
      · split
        · exact hset _
        · exact fine_mk (by simp) hw (Grow.refl _)
      · split
        · split
          · exact fine_mk (by simp) hw (Grow.refl _)
          · exact hset _
        · exact hset _

theorem fine_edit {p : Prop} {L : Str → Prop} {v : Env} {u : Session} (hv : EnvOk v u.store) (h : WellFormed u.store) (q key : Str) :
    Fine p L u (edit v u q key) := by
  unfold edit
  refine fine_one hv h q _ _ ?_
  rintro u' uuid hs hw hf hne ⟨n, e, he, hn⟩
  obtain ⟨en, h1, rfl, h3, -⟩ := mustFind_visible hw.good.ok uuid e he
  rw [h1, update_fresh hf]
  simp only [lift]
  split
  · exact fine_mk (by simp) hw (Grow.refl _)
  · exact fine_mk (by simp) hw (Grow.refl _)
  · split
    · exact fine_lift_ (kept_deleteKeyOp _ _ _ hw ⟨_, he⟩)
    · exact fine_lift_ (kept_set _ _ _ _ hw ⟨_, he⟩)

theorem fine_deleteKeyCmd {p : Prop} {L : Str → Prop} {v : Env} {u : Session} (hv : EnvOk v u.store) (h : WellFormed u.store) (q key : Str) :
    Fine p L u (deleteKeyCmd v u q key) := by
  unfold deleteKeyCmd
  refine fine_oneEntry hv h q _ _ ?_
  intro u' uuid e hs hw hf hne he hn
  split
  · exact fine_lift_ (kept_deleteKeyOp _ _ _ hw ⟨_, he⟩)
  · exact fine_mk (by simp) hw (Grow.refl _)

theorem fine_addLabels {p : Prop} {L : Str → Prop} {v : Env} {u : Session} (hv : EnvOk v u.store) (h : WellFormed u.store) (q : Str) :
    Fine p L u (addLabels v u q) := by
  unfold addLabels
  refine fine_oneEntry hv h q _ _ ?_
  rintro u' uuid e hs hw hf hne he ⟨n, hn⟩
  split
  · exact fine_mk (by simp) hw (Grow.refl _)
  · exact fine_mk (by simp) hw (Grow.refl _)
  · rename_i ls hls
    have h1 : Fine p L u' (lift_ u' (Blob.set v.d.now u'.store uuid keyLabels (join comma ls))) :=
      fine_lift_ (kept_set _ _ _ _ hw ⟨_, he⟩)
    split
    · rename_i h'
      rw [h'] at h1
      rw [if_neg (by simp [hn])]
      exact h1
    · exact h1

theorem findIdx_lt {α : Type} (l : List α) (f : α → Bool) (i : Nat) (h : l.findIdx? f = some i) : i < l.length := by
  rw [List.findIdx?_eq_some_iff_findIdx_eq] at h
  exact h.1

theorem kept_removeLabel {s : DB} (now : Nat → Int) (u : Str) (i : Nat) (h : WellFormed s) (hf : Fresh s)
    (he : Blob.Exists s u) : Kept u s (removeLabel now s u i).1 ∧ (removeLabel now s u i).2 ≠ .panic := by
  obtain ⟨e, hv⟩ := he
  obtain ⟨en, h1, rfl, h3, -⟩ := mustFind_visible h.good.ok u e hv
  unfold removeLabel
  rw [h1, update_fresh hf]
  dsimp only
  split
  · exact ⟨Kept.refl h ⟨_, hv⟩, by simp⟩
  · split
    · exact ⟨kept_deleteKey _ _ _ (by decide) h ⟨_, hv⟩, by simp⟩
    · rw [if_neg (by omega)]
      have h2 := kept_touch now u h ⟨_, hv⟩
      exact ⟨h2.trans (kept_setKey _ _ _ _ (by decide) h2.wf h2.ex), by simp⟩

theorem fine_deleteLabel {p : Prop} {L : Str → Prop} {v : Env} {u : Session} (hv : EnvOk v u.store) (h : WellFormed u.store) (q l : Str) :
    Fine p L u (deleteLabel v u q l) := by
  unfold deleteLabel
  refine fine_oneEntry hv h q _ _ ?_
  rintro u' uuid e hs hw hf hne he ⟨n, hn⟩
  split
  · exact fine_mk (by simp) hw (Grow.refl _)
  · rename_i i hi
    obtain ⟨k1, k2⟩ := kept_removeLabel v.d.now uuid i hw hf ⟨_, he⟩
    cases hr : removeLabel v.d.now u'.store uuid i with
    | mk s o =>
      rw [hr] at k1 k2
      cases o with
      | panic => exact absurd rfl k2
      | err e => exact fine_mk (by simp) k1.wf k1.grow
      | ok a =>
        simp only [lift, hn, reduceCtorEq, if_false]
        exact fine_mk (by simp) k1.wf k1.grow

theorem fine_renameCmd {p : Prop} {L : Str → Prop} {v : Env} {u : Session} (hv : EnvOk v u.store) (h : WellFormed u.store) (src dst : Str)
    (hd : ValidUtf8 dst) (hL : L src) : Fine p L u (renameCmd v u src dst) := by
  unfold renameCmd
  have hw := wf_update h
  have ht : Grow L u.store u.store.updateSnapshot.1 := grow_upd u.store
  rcases findByName_spec hv.ord h.good src with ⟨id, e, h1, hvis, hnam⟩ | ⟨h1, -⟩
  · rw [h1]
    simp only [lift]
    split
    · exact fine_mk (by simp) hw ht
    · obtain ⟨r1, r2, r3, r4, r5⟩ := wf_rename (u := id) hv.ord v.d.now hw hd
      have ht' : Grow L u.store _ := ht.trans ⟨r3, r4, fun w n hn hw' => r5 w n (by
        rintro rfl
        obtain ⟨f, f1, f2⟩ := (named_log (updateSnapshot_log u.store) _ _).1 hw'
        rw [visible_unique f1 hvis] at f2
        exact hn (by rw [show n = src from Option.some.inj (f2.symm.trans hnam)]; exact hL)) hw'⟩
      split <;> rename_i h' <;> rw [h'] at r1 r2 ht'
      · exact absurd rfl r2
      · exact fine_mk (by simp) r1 ht'
      · exact fine_mk (by simp) r1 ht'
      · exact fine_mk (by simp) r1 ht'
  · rw [h1]
    simp only [lift]
    exact fine_mk (by simp) hw ht

theorem fine_deleteEntry {p : Prop} {L : Str → Prop} {v : Env} {u : Session} (hv : EnvOk v u.store) (h : WellFormed u.store) (t : Int)
    (inp : Input) (nm : Str) (hL : L nm) : Fine p L u (deleteEntry v.ord t inp u nm) := by
  unfold deleteEntry
  have hw := wf_update h
  have ht : Grow L u.store u.store.updateSnapshot.1 := grow_upd u.store
  have hl := updateSnapshot_log u.store
  obtain ⟨-, hf, -, -⟩ := good_withSnapshot h.good (fun s => ((s, .panic) : Out Str))
  rcases findByName_spec hv.ord h.good nm with ⟨id, e, h1, h2, h3⟩ | ⟨h1, -⟩
  · rw [h1]
    simp only
    have hex : Blob.Exists u.store.updateSnapshot.1 id := ⟨_, (visible_log hl _ _).2 h2⟩
    have hdel := wf_delete t id hw hex
    have hgd : Grow L u.store (u.store.updateSnapshot.1.delete t id) := by
      refine ht.trans ⟨rfl, List.prefix_append _ _, ?_⟩
      rintro w n hn ⟨f, f1, f2⟩
      have hne : w ≠ id := by
        rintro rfl
        rw [visible_unique ((visible_log hl _ _).1 f1) h2] at f2
        exact hn (by rw [show n = nm from Option.some.inj (f2.symm.trans h3)]; exact hL)
      obtain ⟨st, a, b⟩ := f1
      obtain ⟨e', st', a', b'⟩ := hex
      rw [a] at a'; cases a'
      refine ⟨f, ⟨Txlogs.Spec.upd st id none, ?_, ?_⟩, f2⟩
      · simp only [DB.delete, DB.appendLog, meaning_snoc, a, Option.bind_some, Txlogs.Spec.apply, b']
      · simp [Txlogs.Spec.upd, hne, b]
    split
    · exact fine_mk (by simp) hw ht
    · split
      · obtain ⟨us, hu, -⟩ := users_spec hv.ord hw.good
        rw [update_fresh hf] at hu
        rw [hu]
        simp only
        repeat' split
        all_goals first | exact fine_mk (by simp) hw ht | exact fine_mk (by simp) hdel hgd
      · repeat' split
        all_goals first | exact fine_mk (by simp) hw ht | exact fine_mk (by simp) hdel hgd
  · rw [h1]
    exact fine_mk (by simp) hw ht

/-! ## Account commands -/

theorem fine_storeUser {p : Prop} {L : Str → Prop} {P : Prims} {v : Env} {u : Session} (hv : EnvOk v u.store) (h : WellFormed u.store)
    (user key salt : Str)
    (hp : p → Crypt.Spec.Lawful P ∧ v.d.iv.length = 40 ∧ ∃ uuid, IsUser u.store uuid user) :
    Fine p L u (storeUser P v.ord v.d u user key salt) := by
  unfold storeUser
  have hw := wf_update h
  have ht : Grow L u.store u.store.updateSnapshot.1 := grow_upd u.store
  have hl := updateSnapshot_log u.store
  by_cases hex : ∃ uuid, IsUser u.store uuid user
  · obtain ⟨uuid, hu⟩ := hex
    obtain ⟨e, h1⟩ := mustFindUser_spec hv.ord h.good hu (fun w hw => h.unique _ _ _ hw hu) (h.uuids _ _ hu)
    rw [h1]
    simp only
    split
    · rename_i hpan
      exact fine_crash (fun h => wrap_noPanic (hp h).1 (hp h).2.1 hpan)
    · exact fine_mk (by simp) hw ht
    · rename_i mk iv _
      have k := kept_setRecord v.d.now uuid salt iv mk hw (exists_of_named ((named_log hl _ _).2 hu))
      exact fine_mk (by simp) k.wf (ht.trans k.grow)
  · rw [mustFindUser_none hv.ord h.good (fun uuid hu => hex ⟨uuid, hu⟩)]
    exact fine_crash (fun h => hex (hp h).2.2)

theorem fine_storeUser' {p : Prop} {L : Str → Prop} {P : Prims} {v : Env} {u : Session} (hv : EnvOk v u.store) (h : WellFormed u.store)
    (u' : Session) (hu : u'.store = u.store) (user key salt : Str)
    (hp : p → Crypt.Spec.Lawful P ∧ v.d.iv.length = 40 ∧ ∃ uuid, IsUser u.store uuid user) :
    Fine p L u (storeUser P v.ord v.d u' user key salt) :=
  (fine_storeUser (u := u') (by rw [hu]; exact hv) (by rw [hu]; exact h) user key salt (by rw [hu]; exact hp)).of_tx
    (by rw [hu]; exact Grow.refl _)

theorem fine_creds {α : Type} {p : Prop} {L : Str → Prop} {u : Session} {c : Creds} {x : Session × Res AppErr α}
    (h : Fine p L { u with creds := c } x) : Fine p L u x := ⟨h.1, h.2⟩

theorem fine_passwd {p : Prop} {L : Str → Prop} {P : Prims} {v : Env} {u : Session} (hv : EnvOk v u.store) (h : WellFormed u.store) (user : Str)
    (hp : p → Crypt.Spec.Lawful P ∧ v.d.iv.length = 40 ∧ PromptOk v ∧
      (u.creds.master ≠ [] → ∃ uuid, IsUser u.store uuid u.creds.user)) :
    Fine p L u (passwd P v.ord v.d u user) := by
  unfold passwd
  split
  · rename_i hpan
    exact fine_crash (fun h => (hp h).2.2.1 _ (List.suffix_refl _) hpan)
  · exact fine_mk (by simp) h (Grow.refl _)
  · split
    · exact fine_mk (by simp) h (Grow.refl _)
    · simp only [deriveKey, ne_eq, not_true, if_false]
      split
      · split
        · exact fine_mk (by simp) h (Grow.refl _)
        · rename_i hm
          refine fine_storeUser' hv h _ ?_ _ _ _ ?_
          · rfl
          · exact fun k => ⟨(hp k).1, (hp k).2.1, (hp k).2.2.2 hm⟩
      · split
        · exact fine_mk (by simp) h (Grow.refl _)
        · rename_i hm
          exact fine_storeUser hv h _ _ _ (fun k => ⟨(hp k).1, (hp k).2.1, (hp k).2.2.2 hm⟩)

theorem fine_finishUser {p : Prop} {L : Str → Prop} {P : Prims} {d : Draw} {u : Session} (h : WellFormed u.store) {uuid : Str}
    (he : Blob.Exists u.store uuid) (key salt : Str) (hp : p → Crypt.Spec.Lawful P ∧ d.iv.length = 40) :
    Fine p L u (finishUser P d u uuid key salt) := by
  unfold finishUser
  split
  · rename_i hpan
    exact fine_crash (fun h => wrap_noPanic (hp h).1 (hp h).2 hpan)
  · exact fine_mk (by simp) h (Grow.refl _)
  · rename_i mk iv _
    have k := kept_setRecord (fun i => d.now (i + 4)) uuid salt iv mk h he
    exact fine_mk (by simp) k.wf k.grow

theorem fine_adduser {p : Prop} {L : Str → Prop} {P : Prims} {v : Env} {u : Session} (hv : EnvOk v u.store) (h : WellFormed u.store) (user : Str)
    (hu : ValidUtf8 user) (hp : p → Crypt.Spec.Lawful P ∧ v.d.iv.length = 40 ∧ PromptOk v) :
    Fine p L u (adduser P v.ord v.d u user) := by
  unfold adduser newUser
  have hval : ValidUtf8 (userPrefix ++ user) := valid_append (valid_ascii _ (by decide)) hu
  rcases wf_new hv.ord v.d.now h hv.fresh hv.uuid_ne hval with h1 | ⟨s', h1, h2, h3, h4', -, ⟨l, hl⟩, hoth, -, -⟩
  · rw [h1]
    exact fine_mk (by simp) (wf_update h) (grow_upd _)
  · rw [h1]
    have h4 : Grow L u.store s' := grow_new hv.fresh h4' hl hoth
    simp only
    split
    · refine ((fine_finishUser (p := p) (P := P) (d := v.d)
        (u := { u with store := s', creds := { u.creds with master := v.d.master, ivm := v.d.ivm, user := user } })
        h2 h3 _ _ (fun k => ⟨(hp k).1, (hp k).2.1⟩)).of_tx ?_)
      exact h4
    · split
      · rename_i hpan
        exact fine_crash (fun h => (hp h).2.2 _ (List.suffix_refl _) hpan)
      · exact fine_mk (by simp) h2 h4
      · simp only [deriveKey, ne_eq, not_true, if_false]
        refine ((fine_finishUser (p := p) (P := P) (d := v.d) (u := { u with store := s' })
          h2 h3 _ _ (fun k => ⟨(hp k).1, (hp k).2.1⟩)).of_tx ?_)
        exact h4

theorem fine_rekey {p : Prop} {L : Str → Prop} {P : Prims} {v : Env} {u : Session} (hv : EnvOk v u.store) (h : WellFormed u.store) (user : Str)
    (hp : p → Crypt.Spec.Lawful P ∧ v.d.iv.length = 40 ∧ PromptOk v ∧
      (u.creds.master ≠ [] → ∃ uuid, IsUser u.store uuid (if user = [] then u.creds.user else user))) :
    Fine p L u (rekey P v.ord v.d u user) := by
  unfold rekey
  dsimp only
  split
  · rename_i hpan
    refine fine_crash (fun h => ?_)
    split at hpan
    · cases hpan
    · exact (hp h).2.2.1 _ (List.suffix_refl _) hpan
  · exact fine_mk (by simp) h (Grow.refl _)
  · split
    · exact fine_mk (by simp) h (Grow.refl _)
    · simp only [deriveKey, ne_eq, not_true, if_false]
      by_cases hu : user = []
      · simp only [hu, if_true]
        split
        · exact fine_mk (by simp) h (Grow.refl _)
        · rename_i hm
          refine fine_storeUser' hv h _ ?_ _ _ _ ?_
          · rfl
          · intro k
            have := (hp k).2.2.2 hm
            rw [if_pos hu] at this
            exact ⟨(hp k).1, (hp k).2.1, this⟩
      · simp only [hu, if_false]
        split
        · exact fine_mk (by simp) h (Grow.refl _)
        · rename_i hm
          refine fine_storeUser hv h _ _ _ (fun k => ⟨(hp k).1, (hp k).2.1, ?_⟩)
          have := (hp k).2.2.2 hm
          rwa [if_neg hu] at this

theorem genPassword_noPanic (ent : Nat → UInt8) : genPassword ent 32 {} ≠ .panic := by
  obtain ⟨h1, h2⟩ := C54_meets_partial ent 32 {} (by decide)
  by_cases h : Impossible 32 {}
  · rw [h1 h]; simp
  · obtain ⟨pw, hpw, -⟩ := h2 h
    rw [hpw]; simp

theorem fine_rekeyLoop {p : Prop} {L : Str → Prop} {P : Prims} (l : List (Str × Str)) (ds : Nat → Draw) (u : Session) (out : List (Str × Str))
    (h : WellFormed u.store) (hl : ∀ x ∈ l, Blob.Exists u.store x.1)
    (hp : p → Crypt.Spec.Lawful P ∧ ∀ i, (ds i).iv.length = 40) : Fine p L u (rekeyLoop P l ds u out) := by
  induction l generalizing ds u out with
  | nil => exact fine_mk (by simp) h (Grow.refl _)
  | cons x l ih =>
    obtain ⟨uuid, nm⟩ := x
    unfold rekeyLoop
    dsimp only
    split
    · rename_i hpan
      exact absurd hpan (genPassword_noPanic _)
    · exact fine_mk (by simp) h (Grow.refl _)
    · rename_i pass _
      simp only [deriveKey, ne_eq, not_true, if_false]
      have key : ∀ u' : Session, u'.store = u.store → ∀ (k salt : Str), Fine p L u
          (match encryptMasterKey P 1 k u'.creds.master (ds 0).iv with
          | .panic => (u', .panic)
          | .err e => (u', .err (.crypt e))
          | .ok (mkey, iv) =>
            rekeyLoop P l (fun i => ds (i + 1))
              { u' with store := setRecord (ds 0).now u'.store uuid salt iv mkey } (out ++ [(splitUsername nm, pass)])) := by
        intro u' hu' k salt
        split
        · rename_i hpan
          exact fine_crash (fun h => wrap_noPanic (hp h).1 ((hp h).2 0) hpan)
        · exact fine_mk (by simp) (by rw [hu']; exact h) (by rw [hu']; exact Grow.refl _)
        · rename_i mk iv _
          have kk := kept_setRecord (ds 0).now uuid salt iv mk (by rw [hu']; exact h : WellFormed u'.store)
            (by rw [hu']; exact hl (uuid, nm) (by simp))
          refine (ih (fun i => ds (i + 1)) _ _ kk.wf ?_ (fun k => ⟨(hp k).1, fun i => (hp k).2 (i + 1)⟩)).of_tx
            (by rw [hu'] at kk; show Grow L u.store (setRecord _ u'.store _ _ _ _); rw [hu']; exact kk.grow)
          intro x hx
          obtain ⟨f, hf⟩ := hl x (by simp [hx])
          obtain ⟨st, m1, m2⟩ := h.good.named
          obtain ⟨st', a, b⟩ := hf
          rw [m1] at a; cases a
          obtain ⟨n, hn⟩ := Option.isSome_iff_exists.1 (m2 _ _ b)
          exact exists_of_named ((kk.named x.1 n).2 (by rw [hu']; exact ⟨f, ⟨st, m1, b⟩, hn⟩))
      exact key _ (by split <;> rfl) _ _

theorem fine_rekeyAll {p : Prop} {L : Str → Prop} {P : Prims} {v : Env} {u : Session} (hv : EnvOk v u.store) (h : WellFormed u.store)
    (hp : p → Crypt.Spec.Lawful P ∧ SizesOk v) : Fine p L u (rekeyAll P v.ord v.ord' v.d v.ds u) := by
  unfold rekeyAll
  split
  · exact fine_mk (by simp) h (Grow.refl _)
  · split
    · exact fine_mk (by simp) h (Grow.refl _)
    · exact fine_mk (by simp) h (Grow.refl _)
    · obtain ⟨us, hu, -, hl, hnd, h2⟩ := users_spec hv.ord h.good
      rw [hu]
      simp only
      have h3 := fine_rekeyLoop (p := p) (L := L) (P := P) (v.ord' us) v.ds { u with store := u.store.updateSnapshot.1 } []
        (wf_update h) (by
          rintro ⟨uuid, n⟩ hx
          have hx := (hv.ord' us).mem_iff.1 hx
          have := ((h2 uuid n).1 (GoMap.get?_of_mem hnd hx)).1
          exact exists_of_named ((named_log hl _ _).2 this)) (fun k => ⟨(hp k).1, (hp k).2.ivs⟩)
      split
      · rename_i h'
        rw [h'] at h3
        have := h3.2 (by simp)
        exact fine_mk (by simp) this.1 ((grow_upd _).trans this.2)
      · exact h3.of_tx (grow_upd _)

end Verif.App
