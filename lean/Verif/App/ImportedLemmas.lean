import Verif.App.ImportedSpec
import Verif.App.ImportLemmas
import Verif.App.DateLemmas
import Verif.App.AccessLemmas
import Verif.Json.StrLemmas
/-!
# Lemmas about files after an import
-/
set_option linter.unusedSimpArgs false
namespace Verif.App
open Verif Verif.Txlogs Verif.Blob Verif.Crypt Verif.App.Spec
open Verif.Txlogs.Spec (GoodHistory Replays)

theorem valid_underscores {s : Str} (h : ValidUtf8 s) : ValidUtf8 (underscores s) := by
  obtain ⟨rs, h1, rfl⟩ := h
  refine ⟨rs.map (fun r => if r = 32 then 95 else r), ?_, ?_⟩
  · intro r hr
    obtain ⟨r, hr', rfl⟩ := List.mem_map.1 hr
    split
    · exact Or.inl (by decide)
    · exact h1 r hr'
  · induction rs with
    | nil => rfl
    | cons r rs ih =>
      have ih' := ih (fun x hx => h1 x (by simp [hx]))
      simp only [encodeRunes, List.flatMap_cons, List.map_cons, underscores, List.map_append] at ih' ⊢
      rw [ih']
      refine congrArg (· ++ _) ?_
      by_cases hr : 0x80 ≤ r
      · rw [if_neg (by omega)]
        refine (List.map_congr_left (g := id) ?_).trans (List.map_id _)
        intro b hb
        have := Json.encodeRune_high (h1 r (by simp)) hr b hb
        rw [if_neg]
        · rfl
        · rintro rfl; exact absurd this (by decide)
      · have he : ∀ n, n < 0x80 → encodeRune n = [UInt8.ofNat n] := by
          intro n hn
          unfold encodeRune
          rw [if_pos (by omega)]
        rw [he r (by omega)]
        by_cases h32 : r = 32
        · subst h32; rfl
        · rw [if_neg h32, he r (by omega)]
          have : UInt8.ofNat r ≠ 32 := by
            intro hc
            have := congrArg UInt8.toNat hc
            rw [toNat_ofNat_lt (by omega)] at this
            exact h32 this
          simp [this]

theorem valid_ones (k : Nat) : ValidUtf8 (List.replicate k 49) :=
  valid_ascii _ (by rw [List.all_eq_true]; intro x hx; rw [(List.mem_replicate.1 hx).2]; decide)

/-- text cut at a byte that is a character -/
theorem valid_cut {c : UInt8} (hc : c.toNat < 0x80) {x y : Str} (h : ValidUtf8 (x ++ c :: y)) : ValidUtf8 x ∧ ValidUtf8 y := by
  obtain ⟨rs, h1, h2⟩ := h
  induction rs generalizing x with
  | nil =>
    have := congrArg List.length h2
    simp [encodeRunes] at this
  | cons r rs ih =>
    have hr := h1 r (by simp)
    have h2' : encodeRune r ++ encodeRunes rs = x ++ c :: y := by rw [h2]; simp [encodeRunes]
    have hrest : ValidUtf8 (encodeRunes rs) := ⟨rs, fun q hq => h1 q (by simp [hq]), rfl⟩
    rcases List.append_eq_append_iff.1 h2' with ⟨a, ha, hb⟩ | ⟨a, ha, hb⟩
    · obtain ⟨h3, h4⟩ := ih (x := a) (fun q hq => h1 q (by simp [hq])) hb.symm
      exact ⟨by rw [ha]; exact valid_append ⟨[r], by simpa using hr, by simp [encodeRunes]⟩ h3, h4⟩
    · cases a with
      | nil =>
        rw [List.append_nil] at ha
        obtain ⟨h3, h4⟩ := ih (x := []) (fun q hq => h1 q (by simp [hq])) (by simpa using hb)
        exact ⟨by rw [← ha]; exact ⟨[r], by simpa using hr, by simp [encodeRunes]⟩, h4⟩
      | cons d a =>
        simp only [List.cons_append, List.cons.injEq] at hb
        obtain ⟨rfl, hb⟩ := hb
        by_cases h80 : 0x80 ≤ r
        · have := Json.encodeRune_high hr h80 c (by rw [ha]; simp)
          omega
        · have he : encodeRune r = [UInt8.ofNat r] := by
            unfold encodeRune
            rw [if_pos (by omega)]
          rw [he] at ha
          have hl := congrArg List.length ha
          simp only [List.length_cons, List.length_nil, List.length_append] at hl
          have hx : x = [] := List.eq_nil_of_length_eq_zero (by omega)
          have ha' : a = [] := List.eq_nil_of_length_eq_zero (by omega)
          subst hx ha'
          exact ⟨valid_nil, by rw [hb]; exact hrest⟩

theorem valid_normalize (s : Str) : ∀ p, ValidUtf8 (p ++ s) → ValidUtf8 (p ++ Csv.normalize s) := by
  induction s using Csv.normalize.induct with
  | case1 => intro p h; exact h
  | case2 => intro p h; simpa [Csv.normalize] using (valid_cut (c := Csv.cr) (by decide) h).1
  | case3 c hc => intro p h; simpa [Csv.normalize, hc] using h
  | case4 c d rest hcd ih =>
    intro p h
    obtain ⟨rfl, rfl⟩ := hcd
    obtain ⟨h1, h2⟩ := valid_cut (c := Csv.cr) (by decide) h
    obtain ⟨-, h3⟩ := valid_cut (c := Csv.lf) (x := []) (by decide) h2
    simp only [Csv.normalize, and_self, if_true]
    exact valid_append h1 (valid_append (valid_ascii [Csv.lf] (by decide)) (ih [] h3))
  | case5 c d rest hcd ih =>
    intro p h
    rw [Csv.normalize, if_neg hcd]
    have := ih (p ++ [c]) (by simpa using h)
    simpa using this

/-- what `parse` knows about the texts while it reads -/
def ParseText : Csv.St → Str → Str → Prop
  | .start, _, s => ValidUtf8 s
  | .field, cur, s => cur = [] ∧ ValidUtf8 s
  | .closing, cur, s => ValidUtf8 cur ∧ ValidUtf8 s
  | _, cur, s => ValidUtf8 (cur ++ s)

theorem text_parse (st : Csv.St) (cur : Str) (rec : List Str) (s : Str) (h : ParseText st cur s) (hrec : ∀ f ∈ rec, ValidUtf8 f) :
    ∀ r ∈ (Csv.parse st cur rec s).1, ∀ f ∈ r, ValidUtf8 f := by
  have snoc : ∀ {rec : List Str} {x : Str}, (∀ f ∈ rec, ValidUtf8 f) → ValidUtf8 x → ∀ f ∈ rec ++ [x], ValidUtf8 f := by
    intro rec x h1 h2 f hf
    rcases List.mem_append.1 hf with hf | hf
    · exact h1 f hf
    · rw [List.mem_singleton.1 hf]; exact h2
  have hone : ∀ {rec : List Str} {x : Str}, (∀ f ∈ rec, ValidUtf8 f) → ValidUtf8 x → ∀ r ∈ [rec ++ [x]], ∀ f ∈ r, ValidUtf8 f := by
    intro rec x h1 h2 r hr
    rw [List.mem_singleton.1 hr]; exact snoc h1 h2
  have nilrec : ∀ f ∈ ([] : List Str), ValidUtf8 f := by simp
  induction s generalizing st cur rec with
  | nil =>
    cases st with
    | start => simp [Csv.parse]
    | field => rw [Csv.parse]; exact hone hrec (by rw [h.1]; exact valid_nil)
    | bare => rw [Csv.parse]; exact hone hrec (by simpa [ParseText] using h)
    | quoted => simp [Csv.parse]
    | closing => rw [Csv.parse]; exact hone hrec h.1
  | cons c s ih =>
    have tail : ∀ {d : UInt8}, c = d → d.toNat < 0x80 → ∀ {x : Str}, ValidUtf8 (x ++ c :: s) → ValidUtf8 x ∧ ValidUtf8 s := by
      intro d hd hlt x hv
      subst hd
      exact valid_cut hlt hv
    have line : ∀ {x : Str}, (∀ f ∈ rec, ValidUtf8 f) → ValidUtf8 x → ValidUtf8 s →
        ∀ r ∈ (rec ++ [x]) :: (Csv.parse .start [] [] s).1, ∀ f ∈ r, ValidUtf8 f := by
      intro x h1 h2 h3 r hr
      rcases List.mem_cons.1 hr with rfl | hr
      · exact snoc h1 h2
      · exact ih .start [] [] h3 nilrec r hr
    cases st with
    | start =>
      rw [Csv.parse]
      have h' : ValidUtf8 ([] ++ c :: s) := h
      split
      · rename_i hc; exact ih _ _ _ (tail hc (by decide) h').2 nilrec
      split
      · rename_i hc; exact ih _ _ _ (tail hc (by decide) h').2 nilrec
      split
      · rename_i hc; exact ih _ _ _ ⟨rfl, (tail hc (by decide) h').2⟩ (by simp [valid_nil])
      · exact ih _ _ _ h' nilrec
    | field =>
      obtain ⟨rfl, h'⟩ := h
      rw [Csv.parse]
      have h' : ValidUtf8 ([] ++ c :: s) := h'
      split
      · rename_i hc; exact line hrec valid_nil (tail hc (by decide) h').2
      split
      · rename_i hc; exact ih _ _ _ (tail hc (by decide) h').2 hrec
      split
      · rename_i hc; exact ih _ _ _ ⟨rfl, (tail hc (by decide) h').2⟩ (snoc hrec valid_nil)
      · exact ih _ _ _ h' hrec
    | bare =>
      rw [Csv.parse]
      have h' : ValidUtf8 (cur ++ c :: s) := h
      split
      · rename_i hc; exact line hrec (tail hc (by decide) h').1 (tail hc (by decide) h').2
      split
      · rename_i hc; exact ih _ _ _ ⟨rfl, (tail hc (by decide) h').2⟩ (snoc hrec (tail hc (by decide) h').1)
      split
      · simp
      · exact ih _ _ _ (by simpa [ParseText] using h') hrec
    | quoted =>
      rw [Csv.parse]
      have h' : ValidUtf8 (cur ++ c :: s) := h
      split
      · rename_i hc; exact ih _ _ _ (tail hc (by decide) h') hrec
      · exact ih _ _ _ (by simpa [ParseText] using h') hrec
    | closing =>
      obtain ⟨hcur, h'⟩ := h
      rw [Csv.parse]
      have h' : ValidUtf8 ([] ++ c :: s) := h'
      split
      · rename_i hc
        exact ih _ _ _ (valid_append (valid_append hcur (valid_ascii [Csv.quote] (by decide))) (tail hc (by decide) h').2) hrec
      split
      · rename_i hc; exact ih _ _ _ ⟨rfl, (tail hc (by decide) h').2⟩ (snoc hrec hcur)
      split
      · rename_i hc; exact line hrec hcur (tail hc (by decide) h').2
      · simp

theorem sameWidth_sub (n : Nat) (rs : List (List Str)) : ∀ r ∈ (Csv.sameWidth n rs).1, r ∈ rs := by
  induction rs with
  | nil => simp [Csv.sameWidth]
  | cons r rs ih =>
    intro x hx
    unfold Csv.sameWidth at hx
    split at hx
    · simp only [Prod.map_fst, List.mem_cons] at hx
      exact hx.elim (fun h => by simp [h]) (fun h => by simp [ih x h])
    · cases hx

/-- the fields of a table of well-formed text are well-formed -/
theorem text_read {out : Str} (h : ValidUtf8 out) : ∀ r ∈ (Csv.read out).1, ∀ f ∈ r, ValidUtf8 f := by
  have hp := text_parse .start [] [] (Csv.normalize out) (valid_normalize out [] h) (by simp)
  unfold Csv.read
  intro r hr
  revert hp hr
  generalize Csv.parse .start [] [] (Csv.normalize out) = p
  obtain ⟨ps, ok⟩ := p
  intro hp hr
  cases ps with
  | nil => cases hr
  | cons r0 rest => exact hp r (sameWidth_sub _ _ r hr)

/-- the keys of an imported record other than name and date -/
def recordKeys : List Str := [keyUser, keyPass, keyURL, keyNotes, keyLabels]

/-- `s'` is `s1` with values written into the entry `u` at some of the times `T`, all of them `V` -/
structure Rec1 (u : Str) (V : Str → Prop) (s1 : DB) (T : List Int) (s' : DB) : Prop where
  wf : WellFormed s'
  ex : Exists s' u
  tx : s'.txPoint = s1.txPoint
  log : ∃ l, s'.log = s1.log ++ l ∧ (l.map Tx.time).Sublist T ∧
    ∀ t ∈ l, t.kind = .setk ∧ t.uuid = u ∧ t.key ∈ recordKeys ∧ V t.value

theorem wf_value {s : DB} (h : WellFormed s) (t : Int) (u k v : Str) (he : Exists s u) (hk : k ≠ keyName) :
    WellFormed (s.setKey t u k v) := by
  obtain ⟨e, hv⟩ := he
  refine wf_named h (good_setKey t u k v h.good ⟨e, hv⟩).1 ?_
  rintro w n ⟨f, hf, hn⟩
  obtain ⟨h1, h2⟩ := visible_setKey t u k v e hv
  by_cases hw : w = u
  · subst hw
    have := visible_unique hf h1
    subst this
    exact ⟨e, hv, by rwa [Txlogs.Spec.upd, if_neg (Ne.symm hk)] at hn⟩
  · exact ⟨f, (h2 w f hw).1 hf, hn⟩

theorem Rec1.put {u : Str} {V : Str → Prop} {s1 s' : DB} {T : List Int} (h : Rec1 u V s1 T s') (t : Int) {k v : Str}
    (hk : k ∈ recordKeys) (hv : V v) : Rec1 u V s1 (T ++ [t]) (s'.setKey t u k v) where
  wf := wf_value h.wf t u k v h.ex (by
    intro hc; subst hc; revert hk; decide)
  ex := (good_setKey t u k v h.wf.good h.ex).2
  tx := h.tx
  log := by
    obtain ⟨l, h1, h2, h3⟩ := h.log
    refine ⟨l ++ [⟨t, .setk, u, k, v⟩], ?_, ?_, ?_⟩
    · rw [← List.append_assoc, ← h1]; rfl
    · rw [List.map_append]; exact h2.append (List.Sublist.refl _)
    · intro x hx
      rcases List.mem_append.1 hx with hx | hx
      · exact h3 x hx
      · obtain rfl := List.mem_singleton.1 hx
        exact ⟨rfl, rfl, hk, hv⟩

theorem Rec1.mono {u : Str} {V : Str → Prop} {s1 s' : DB} {T T' : List Int} (h : Rec1 u V s1 T s') (hT : T.Sublist T') :
    Rec1 u V s1 T' s' :=
  ⟨h.wf, h.ex, h.tx, by obtain ⟨l, h1, h2, h3⟩ := h.log; exact ⟨l, h1, h2.trans hT, h3⟩⟩

theorem Rec1.some {u : Str} {V : Str → Prop} {s1 s' : DB} {T : List Int} (h : Rec1 u V s1 T s') (t : Int) {k v : Str}
    (hk : k ∈ recordKeys) (hv : V v) : Rec1 u V s1 (T ++ [t]) (setSome s' t u k v) := by
  unfold setSome
  split
  · exact h.mono (List.sublist_append_left _ _)
  · exact h.put t hk hv

/-- one record: the operations of `New`, then the values -/
theorem importRecord_ops {toLower : Str → Str} (hlow : ∀ x, ValidUtf8 (toLower x)) {ord : Order} (hord : ∀ m, (ord m).Perm m)
    {d : Draw} {s : DB} (r : List Str) (h : WellFormed s) (hf : ¬ Exists s d.uuid) (hne : d.uuid ≠ []) :
    importRecord toLower ord d s r = (s, .panic) ∨
    ∃ s' nm l, importRecord toLower ord d s r = (s', .ok ()) ∧ WellFormed s' ∧ s'.txPoint = s.txPoint ∧
      (ValidUtf8 nm ∧ ∃ k, nm = underscores (toLower (r.getD 4 [])) ++ List.replicate k 49) ∧
      s'.log = s.log ++ newOps d.now d.uuid nm ++ l ∧ (l.map Tx.time).Sublist [d.now 4, d.now 5, d.now 6, d.now 7, d.now 8] ∧
      ∀ t ∈ l, t.kind = .setk ∧ t.uuid = d.uuid ∧ t.key ∈ recordKeys ∧ ((∀ f ∈ r, ValidUtf8 f) → ValidUtf8 t.value) := by
  unfold importRecord
  split
  case h_2 => exact .inl rfl
  rename_i url user pass extra nm grouping fav
  refine .inr ?_
  obtain ⟨s1, k, h1, h2, h3, h4, -⟩ := newLoop_good ord hord d.now d.uuid (underscores (toLower nm)) h.good hf
    (s.log.length + 2) (by omega)
  obtain ⟨-, ht, k', hl⟩ := newLoop_log h1
  obtain ⟨hv, ho⟩ := visible_newOps h.good hf hl
  have hname : ∀ n, Blob.Spec.Named s1 d.uuid n → n = underscores (toLower nm) ++ List.replicate k 49 := by
    rintro n ⟨e, he, hn⟩
    obtain ⟨e', he', hn'⟩ := h3
    have := visible_unique he he'
    subst this
    rw [hn] at hn'
    exact Option.some.inj hn'
  have hother : ∀ w n, w ≠ d.uuid → Blob.Spec.Named s1 w n → Blob.Spec.Named s w n := by
    rintro w n hw ⟨e, he, hn⟩
    exact ⟨e, (ho w e hw).1 he, hn⟩
  have hval : ∀ j, ValidUtf8 (underscores (toLower nm) ++ List.replicate j 49) := fun j =>
    valid_append (valid_underscores (hlow nm)) (valid_ones j)
  have hw1 : WellFormed s1 := by
    refine ⟨h2, ?_, ?_, ?_⟩
    · intro a b n ha hb
      by_cases h5 : a = d.uuid <;> by_cases h6 : b = d.uuid
      · rw [h5, h6]
      · subst h5; exact absurd (hname n ha ▸ hother b n h6 hb) (h4 b)
      · subst h6; exact absurd (hname n hb ▸ hother a n h5 ha) (h4 a)
      · exact h.unique a b n (hother a n h5 ha) (hother b n h6 hb)
    · intro a n ha
      by_cases h5 : a = d.uuid
      · rw [h5]; exact hne
      · exact h.uuids a n (hother a n h5 ha)
    · intro a n ha
      by_cases h5 : a = d.uuid
      · subst h5; rw [hname n ha]; exact hval k
      · exact h.utf8 a n (hother a n h5 ha)
  have r0 : Rec1 d.uuid (fun x => (∀ f ∈ [url, user, pass, extra, nm, grouping, fav], ValidUtf8 f) → ValidUtf8 x) s1 [] s1 :=
    ⟨hw1, ⟨_, hv⟩, rfl, [], by simp, List.Sublist.refl _, by simp⟩
  have r4 := (((r0.some (d.now 4) (k := keyUser) (v := user) (by decide) (fun hx => hx _ (by simp))).some (d.now 5)
    (k := keyPass) (v := pass) (by decide) (fun hx => hx _ (by simp))).some (d.now 6) (k := keyURL) (v := url) (by decide)
    (fun hx => hx _ (by simp))).some (d.now 7) (k := keyNotes) (v := extra) (by decide) (fun hx => hx _ (by simp))
  have r5 := r4.put (d.now 8) (k := keyLabels) (v := join comma (importLabels toLower grouping fav)) (by decide) (fun _ => by
    refine valid_join comma _ (by decide) ?_
    intro x hx
    unfold importLabels at hx
    rcases List.mem_append.1 hx with hx | hx
    · split at hx
      · cases hx
      · obtain rfl := List.mem_singleton.1 hx; exact hlow _
    · split at hx
      · obtain rfl := List.mem_singleton.1 hx; exact valid_ascii _ (by decide)
      · cases hx)
  simp only [h1]
  have fin : ∀ s', Rec1 d.uuid (fun x => (∀ f ∈ [url, user, pass, extra, nm, grouping, fav], ValidUtf8 f) → ValidUtf8 x) s1
      [d.now 4, d.now 5, d.now 6, d.now 7, d.now 8] s' → ∃ s'' nm' l, (s', (Res.ok () : Res AppErr Unit)) = (s'', .ok ()) ∧
      WellFormed s'' ∧ s''.txPoint = s.txPoint ∧ (ValidUtf8 nm' ∧ ∃ k, nm' = underscores (toLower nm) ++ List.replicate k 49) ∧ s''.log = s.log ++ newOps d.now d.uuid nm' ++ l ∧
      (l.map Tx.time).Sublist [d.now 4, d.now 5, d.now 6, d.now 7, d.now 8] ∧
      ∀ t ∈ l, t.kind = .setk ∧ t.uuid = d.uuid ∧ t.key ∈ recordKeys ∧
        ((∀ f ∈ [url, user, pass, extra, nm, grouping, fav], ValidUtf8 f) → ValidUtf8 t.value) := by
    intro s' hr
    obtain ⟨l, a, b, c⟩ := hr.log
    exact ⟨s', _, l, rfl, hr.wf, hr.tx.trans ht, ⟨hval k', k', rfl⟩, by rw [a, hl], b, c⟩
  by_cases hls : importLabels toLower grouping fav = []
  · rw [if_pos hls]
    exact fin _ (r4.mono (by simp))
  · rw [if_neg hls]
    exact fin _ r5

theorem importOk_fresh {ds : Nat → Draw} {n : Nat} {s : DB} (h : ImportOk ds n s) {i : Nat} (hi : i < n) : ¬ Exists s (ds i).uuid := by
  rintro ⟨e, st, h1, h2⟩
  rcases visible_added s.log _ st h1 (by rw [h2]; rfl) with h3 | ⟨x, hx, -, hu⟩
  · cases h3
  · exact h.fresh i hi x hx hu

/-- what one record leaves -/
theorem imported_one {toLower : Str → Str} (hlow : ∀ x, ValidUtf8 (toLower x)) {ord : Order} (hord : ∀ m, (ord m).Perm m)
    {ds : Nat → Draw} {n : Nat} {s : DB} (r : List Str) (h : Sound s) (hi : ImportOk ds (n + 1) s) :
    importRecord toLower ord (ds 0) s r = (s, .panic) ∨
    ∃ s', importRecord toLower ord (ds 0) s r = (s', .ok ()) ∧ Sound s' ∧ ImportOk (fun i => ds (i + 1)) n s' ∧ s.log <+: s'.log ∧
      (DatedHistory s.log → DatedHistory s'.log) ∧ (CleanLog s → (∀ f ∈ r, ValidUtf8 f) → CleanLog s') ∧
      s'.log.length ≤ s.log.length + 8 := by
  rcases importRecord_ops hlow hord r h.wf (importOk_fresh hi (Nat.succ_pos n)) (hi.uuid_ne 0 (Nat.succ_pos n)) with hp | hp
  · exact .inl hp
  refine .inr ?_
  obtain ⟨s', nm, l, hr, hw, htx, ⟨hnm, -⟩, hlog, hs, hl⟩ := hp
  have tk := hi.tick 0 (Nat.succ_pos n)
  have hft := hi.fits 0 (Nat.succ_pos n)
  have hnew := hi.fresh 0 (Nat.succ_pos n)
  have hlate := hi.late (Nat.succ_pos n)
  have hsub : ((newOps (ds 0).now (ds 0).uuid nm ++ l).map Tx.time).Sublist
      [(ds 0).now 0, (ds 0).now 2, (ds 0).now 3, (ds 0).now 4, (ds 0).now 5, (ds 0).now 6, (ds 0).now 7, (ds 0).now 8] := by
    rw [List.map_append]
    exact List.Sublist.append (List.Sublist.refl [(ds 0).now 0, (ds 0).now 2, (ds 0).now 3]) hs
  have htime : ∀ t ∈ newOps (ds 0).now (ds 0).uuid nm ++ l, ∃ i, i < 9 ∧ t.time = (ds 0).now i := by
    intro t ht
    have := hsub.subset (List.mem_map.2 ⟨t, ht, rfl⟩)
    simp only [List.mem_cons, List.not_mem_nil, or_false] at this
    rcases this with h | h | h | h | h | h | h | h
    · exact ⟨0, by omega, h⟩
    · exact ⟨2, by omega, h⟩
    · exact ⟨3, by omega, h⟩
    · exact ⟨4, by omega, h⟩
    · exact ⟨5, by omega, h⟩
    · exact ⟨6, by omega, h⟩
    · exact ⟨7, by omega, h⟩
    · exact ⟨8, by omega, h⟩
  rw [List.append_assoc] at hlog
  have hmem : ∀ t, t ∈ s'.log → t ∈ s.log ∨ (t.kind = .add ∧ t = ⟨(ds 0).now 0, .add, (ds 0).uuid, [], []⟩) ∨
      (t = ⟨(ds 0).now 2, .setk, (ds 0).uuid, keyUpdated, fmtInt ((ds 0).now 1)⟩) ∨
      (t = ⟨(ds 0).now 3, .setk, (ds 0).uuid, keyName, nm⟩) ∨ t ∈ l := by
    intro t ht
    rw [hlog] at ht
    simp only [newOps, List.mem_append, List.mem_cons, List.not_mem_nil, or_false] at ht
    rcases ht with h | (rfl | rfl | rfl) | h
    · exact .inl h
    · exact .inr (.inl ⟨rfl, rfl⟩)
    · exact .inr (.inr (.inl rfl))
    · exact .inr (.inr (.inr (.inl rfl)))
    · exact .inr (.inr (.inr (.inr h)))
  have hkey : ∀ k, k ∈ recordKeys → k ≠ keyName ∧ k ≠ keyUpdated := by decide
  have hadd : ∀ t ∈ s'.log, t.kind = .add → t ∈ s.log ∨ t = ⟨(ds 0).now 0, .add, (ds 0).uuid, [], []⟩ := by
    intro t ht hk
    rcases hmem t ht with h | ⟨-, h⟩ | h | h | h
    · exact .inl h
    · exact .inr h
    · rw [h] at hk; cases hk
    · rw [h] at hk; cases hk
    · rw [(hl t h).1] at hk; cases hk
  have hdelk : ∀ t ∈ s'.log, t.kind = .delk → t ∈ s.log := by
    intro t ht hk
    rcases hmem t ht with h | ⟨h, -⟩ | h | h | h
    · exact h
    · rw [h] at hk; cases hk
    · rw [h] at hk; cases hk
    · rw [h] at hk; cases hk
    · rw [(hl t h).1] at hk; cases hk
  have hname' : (⟨(ds 0).now 3, .setk, (ds 0).uuid, keyName, nm⟩ : Tx) ∈ s'.log := by rw [hlog]; simp [newOps]
  have hdate' : (⟨(ds 0).now 2, .setk, (ds 0).uuid, keyUpdated, fmtInt ((ds 0).now 1)⟩ : Tx) ∈ s'.log := by rw [hlog]; simp [newOps]
  have hold : ∀ t ∈ s.log, t ∈ s'.log := fun t ht => by rw [hlog]; simp [ht]
  have hown : OwnHistory s'.log := by
    obtain ⟨st, hm, -⟩ := hw.good.named
    refine ⟨⟨?_, by unfold Replays; rw [hm]; rfl, ?_, ?_⟩, ?_, ?_, ?_, ?_⟩
    · rw [hlog]
      refine own_append h.own.good.chrono (t0 := (ds 0).now 0) ?_ ?_ hlate hsub
      · have e1 := tk 0 2 (by omega) (by omega)
        have e2 := tk 2 3 (by omega) (by omega)
        have e3 := tk 3 4 (by omega) (by omega)
        have e4 := tk 4 5 (by omega) (by omega)
        have e5 := tk 5 6 (by omega) (by omega)
        have e6 := tk 6 7 (by omega) (by omega)
        have e7 := tk 7 8 (by omega) (by omega)
        simp only [List.pairwise_cons, List.mem_cons, List.not_mem_nil, or_false, forall_eq_or_imp, forall_eq, List.Pairwise.nil,
          and_true, false_imp_iff, implies_true]
        omega
      · intro x hx
        simp only [List.mem_cons, List.not_mem_nil, or_false] at hx
        have e : ∀ j, 0 < j → j < 9 → (ds 0).now 0 < (ds 0).now j := fun j a b => tk 0 j a b
        rcases hx with rfl | rfl | rfl | rfl | rfl | rfl | rfl | rfl <;>
          first
          | exact Int.le_refl _
          | exact Int.le_of_lt (e _ (by omega) (by omega))
    · intro t ht x hx
      rcases hmem t ht with h' | ⟨h', -⟩ | h' | h' | h'
      · exact h.own.good.kinds t h' x hx
      · rw [h'] at hx; cases hx
      · rw [h'] at hx; cases hx
      · rw [h'] at hx; cases hx
      · rw [(hl t h').1] at hx; cases hx
    · intro x hx y hy hxk hyk hu
      rcases hadd x hx hxk with h1 | h1 <;> rcases hadd y hy hyk with h2 | h2
      · exact h.own.good.addsOnce x h1 y h2 hxk hyk hu
      · subst h2; exact absurd hu (hnew x h1)
      · subst h1; exact absurd hu.symm (hnew y h2)
      · rw [h1, h2]
    · intro x hx hk
      rcases hadd x hx hk with h1 | h1
      · obtain ⟨y, hy, h2⟩ := h.own.given x h1 hk
        exact ⟨y, hold y hy, h2⟩
      · subst h1; exact ⟨_, hname', rfl, rfl, rfl⟩
    · intro x hx hk
      exact h.own.kept x (hdelk x hx hk) hk
    · intro x hx hk hn
      rcases hmem x hx with h' | ⟨h', -⟩ | h' | h' | h'
      · exact h.own.utf8 x h' hk hn
      · rw [h'] at hk; cases hk
      · rw [h'] at hn; exact absurd (show keyUpdated = keyName from hn) (by decide)
      · rw [h']; exact hnm
      · exact absurd hn (hkey _ (hl x h').2.2.1).1
    · intro x hx hk
      rcases hadd x hx hk with h1 | h1
      · exact h.own.uuids x h1 hk
      · subst h1; exact hi.uuid_ne 0 (Nat.succ_pos n)
  refine ⟨s', hr, ⟨hw, hown, htx.trans h.tx⟩, ?_, ⟨_, hlog.symm⟩, ?_, ?_, ?_⟩
  · refine ⟨?_, fun i j a b => hi.apart (i + 1) (j + 1) (by omega) (by omega), fun i a => hi.uuid_ne (i + 1) (by omega),
      fun i a => hi.text (i + 1) (by omega), fun k a => hi.tick (k + 1) (by omega), fun k a => hi.rounds (k + 1) (by omega), ?_,
      fun k a => hi.fits (k + 1) (by omega)⟩
    · intro i a t ht
      have hap := hi.apart 0 (i + 1) (by omega) (by omega)
      rcases hmem t ht with h' | ⟨-, h'⟩ | h' | h' | h'
      · exact hi.fresh (i + 1) (by omega) t h'
      · rw [h']; exact hap
      · rw [h']; exact hap
      · rw [h']; exact hap
      · rw [(hl t h').2.1]; exact hap
    · intro hn t ht
      have hrd : (ds 0).now 8 < (ds 1).now 0 := hi.rounds 0 (by omega)
      have h08 := tk 0 8 (by omega) (by omega)
      rw [hlog] at ht
      rcases List.mem_append.1 ht with h' | h'
      · have := hlate t h'
        show t.time < (ds 1).now 0
        omega
      · obtain ⟨i, hi', he⟩ := htime t h'
        show t.time < (ds 1).now 0
        rw [he]
        by_cases h8 : i = 8
        · subst h8; exact hrd
        · have := tk i 8 (by omega) (by omega)
          omega
  · intro hd
    refine ⟨?_, ?_, ?_⟩
    · intro x hx hk
      rcases hadd x hx hk with h1 | h1
      · obtain ⟨y, hy, h2⟩ := hd.given x h1 hk
        exact ⟨y, hold y hy, h2⟩
      · subst h1; exact ⟨_, hdate', rfl, rfl, rfl⟩
    · intro x hx hk
      exact hd.kept x (hdelk x hx hk) hk
    · intro x hx hk hn
      rcases hmem x hx with h' | ⟨h', -⟩ | h' | h' | h'
      · exact hd.date x h' hk hn
      · rw [h'] at hk; cases hk
      · subst h'; exact ⟨_, hft 1 (by omega), tk 1 2 (by omega) (by omega), rfl⟩
      · rw [h'] at hn; exact absurd (show keyName = keyUpdated from hn) (by decide)
      · exact absurd hn (hkey _ (hl x h').2.2.1).2
  · intro hc hf t ht
    have hu := hi.text 0 (Nat.succ_pos n)
    have asc : ∀ k, k ∈ recordKeys → ValidUtf8 k := by
      intro k hk
      refine valid_ascii k ?_
      revert k
      decide
    rcases hmem t ht with h' | ⟨-, h'⟩ | h' | h' | h'
    · exact hc t h'
    · subst h'; exact ⟨cleanTx_mk (by simp) hu valid_nil valid_nil, hft 0 (by omega)⟩
    · subst h'; exact ⟨cleanTx_mk (by simp) hu (valid_ascii _ (by decide)) (valid_ascii _ (fmtInt_ascii _)), hft 2 (by omega)⟩
    · subst h'; exact ⟨cleanTx_mk (by simp) hu (valid_ascii _ (by decide)) hnm, hft 3 (by omega)⟩
    · obtain ⟨a, b, c, d⟩ := hl t h'
      obtain ⟨i, hi', he⟩ := htime t (List.mem_append.2 (.inr h'))
      obtain ⟨tt, tk, tu, tkey, tv⟩ := t
      simp only at a b c d he
      subst a b
      exact ⟨cleanTx_mk (by simp) hu (asc _ c) (d hf), by rw [show (Tx.mk tt .setk (ds 0).uuid tkey tv).time = _ from he]; exact hft i hi'⟩
  · rw [hlog, List.length_append]
    have := hsub.length_le
    simp only [List.length_map, List.length_cons, List.length_nil] at this
    omega

theorem imported_all {toLower : Str → Str} (hlow : ∀ x, ValidUtf8 (toLower x)) {ord : Order} (hord : ∀ m, (ord m).Perm m)
    (rs : List (List Str)) : ∀ {ds : Nat → Draw} {s : DB}, Sound s → ImportOk ds rs.length s →
    Sound (importRecords toLower ord ds s rs).1 ∧ s.log <+: (importRecords toLower ord ds s rs).1.log ∧
      (DatedHistory s.log → DatedHistory (importRecords toLower ord ds s rs).1.log) ∧
      (CleanLog s → (∀ r ∈ rs, ∀ f ∈ r, ValidUtf8 f) → CleanLog (importRecords toLower ord ds s rs).1) ∧
      (importRecords toLower ord ds s rs).1.log.length ≤ s.log.length + 8 * rs.length := by
  induction rs with
  | nil => intro ds s h hi; exact ⟨h, List.prefix_rfl, id, fun hc _ => hc, by simp [importRecords]⟩
  | cons r rs ih =>
    intro ds s h hi
    unfold importRecords
    rcases imported_one hlow hord r h hi with h1 | ⟨s', h1, h2, h3, h4, h5, h6, h7⟩
    · rw [h1]
      exact ⟨h, List.prefix_rfl, id, fun hc _ => hc, by simp⟩
    · rw [h1]
      obtain ⟨g1, g2, g3, g4, g5⟩ := ih h2 h3
      refine ⟨g1, h4.trans g2, fun hd => g3 (h5 hd), fun hc hf => g4 (h6 hc (hf r (by simp))) (fun x hx => hf x (by simp [hx])), ?_⟩
      simp only [List.length_cons]
      omega

end Verif.App
