import Verif.App.FleetLemmas
/-!
# What always holds of several machines and the file they share
-/
set_option linter.unusedSimpArgs false
namespace Verif.App
open Verif Verif.Txlogs Verif.Blob Verif.Crypt Verif.App.Spec
open Verif.Txlogs.Spec (GoodHistory Replays KnownKinds AddsOnce SameFile SameIds Distinguishable LooksSame NoCommonRoot TouchedAfterDelete)

/-- two operations that may occur in one file -/
structure Like (t x : Tx) : Prop where
  time : t.time = x.time → t = x
  add : t.kind = .add → x.kind = .add → t.uuid = x.uuid → t = x
  name : t.kind = .setk → x.kind = .setk → t.key = keyName → x.key = keyName → t.value = x.value → t.uuid = x.uuid

theorem Like.symm {t x : Tx} (h : Like t x) : Like x t :=
  ⟨fun k => (h.time k.symm).symm, fun a b k => (h.add b a k.symm).symm, fun a b k l m => (h.name b a l k m.symm).symm⟩

theorem like_of_foreign {t x : Tx} (h : Foreign t x) : Like t x :=
  ⟨fun k => absurd k h.time, fun a b k => absurd ⟨a, b, k⟩ h.add, h.name⟩

theorem chrono_time {l : List Tx} (h : Txlogs.Spec.Chrono l) {t x : Tx} (ht : t ∈ l) (hx : x ∈ l) (he : t.time = x.time) : t = x := by
  induction l with
  | nil => cases ht
  | cons a l ih =>
    obtain ⟨h1, h2⟩ := List.pairwise_cons.1 h
    rcases List.mem_cons.1 ht with rfl | ht' <;> rcases List.mem_cons.1 hx with rfl | hx'
    · rfl
    · have := h1 x hx'; omega
    · have := h1 t ht'; omega
    · exact ih h2 ht' hx'

theorem like_within {l : List Tx} (h : OwnHistory l) (hn : NamesApart l) {t x : Tx} (ht : t ∈ l) (hx : x ∈ l) : Like t x :=
  ⟨chrono_time h.good.chrono ht hx, h.good.addsOnce t ht x hx, hn t ht x hx⟩

theorem chrono_distinct {l : List Tx} (h : Txlogs.Spec.Chrono l) : l.Nodup :=
  List.Pairwise.imp (S := fun a b => a ≠ b) (fun k e => by subst e; omega) h

/-- a chronological list within another is a sublist of it -/
theorem chrono_sublist {a b : List Tx} (ha : Txlogs.Spec.Chrono a) (hb : Txlogs.Spec.Chrono b) (h : ∀ t ∈ a, t ∈ b) : a.Sublist b := by
  induction b generalizing a with
  | nil =>
    cases a with
    | nil => exact List.Sublist.refl _
    | cons x a => have := h x (by simp); simp at this
  | cons y b ih =>
    obtain ⟨h1, h2⟩ := List.pairwise_cons.1 hb
    cases a with
    | nil => exact List.nil_sublist _
    | cons x a =>
      obtain ⟨h3, h4⟩ := List.pairwise_cons.1 ha
      by_cases hxy : x = y
      · subst hxy
        refine List.Sublist.cons_cons _ (ih h4 h2 fun t ht => ?_)
        rcases List.mem_cons.1 (h t (by simp [ht])) with rfl | h5
        · have := h3 t ht; omega
        · exact h5
      · refine List.Sublist.cons _ (ih ha h2 fun t ht => ?_)
        rcases List.mem_cons.1 (h t ht) with rfl | h5
        · exfalso
          rcases List.mem_cons.1 ht with rfl | h6
          · exact hxy rfl
          · rcases List.mem_cons.1 (h x (by simp)) with rfl | h7
            · exact hxy rfl
            · have := h1 x h7; have := h3 t h6; omega
        · exact h5

theorem chrono_head {a b c : List Tx} {x : Tx} (ha : Txlogs.Spec.Chrono a) (hb : Txlogs.Spec.Chrono b) (hc : Txlogs.Spec.Chrono c)
    (hxa : a.head? = some x) (hxb : b.head? = some x) (h : ∀ t, t ∈ c ↔ t ∈ a ∨ t ∈ b) : c.head? = some x := by
  have least : ∀ l : List Tx, Txlogs.Spec.Chrono l → l.head? = some x → ∀ t ∈ l, x.time ≤ t.time := by
    intro l hl hx t ht
    cases l with
    | nil => cases ht
    | cons y l =>
      simp only [List.head?_cons, Option.some.injEq] at hx
      subst hx
      rcases List.mem_cons.1 ht with rfl | ht
      · omega
      · have := (List.pairwise_cons.1 hl).1 t ht; omega
  have hx : x ∈ c := (h x).2 (.inl (List.mem_of_head? hxa))
  cases c with
  | nil => cases hx
  | cons y c =>
    have hy : x.time ≤ y.time := by
      rcases (h y).1 (by simp) with k | k
      · exact least a ha hxa y k
      · exact least b hb hxb y k
    rcases List.mem_cons.1 hx with rfl | k
    · rfl
    · have := (List.pairwise_cons.1 hc).1 x k; omega

/-- what always holds, `R` being the log in the shared file -/
structure Inv {P : Prims} {C : Codec} (K : Scheme P C) (F : Fleet) (R : List Tx) : Prop where
  creds : ∀ i, (F.machine i).creds = K.creds i
  logs : ∀ i, K.log (F.log i)
  log : K.log R
  sound : ∀ i, Sound (F.machine i).store
  own : OwnHistory R
  saved : K.saved F.share R
  root : ∃ x, R.head? = some x ∧ ∀ i, (F.log i).head? = some x
  alike : ∀ i j, ∀ t ∈ F.log i, ∀ x ∈ F.log j, Like t x
  src : ∀ t ∈ R, ∃ j, t ∈ F.log j
  priv : ∀ i j, i ≠ j → ∀ t ∈ F.log i, t ∈ F.log j → t ∈ R
  last : ∀ i, (∀ t ∈ F.log i, t ∈ R) ∨ ∃ t, (F.log i).getLast? = some t ∧ t ∉ R

theorem Scheme.start {P : Prims} {C : Codec} {K : Scheme P C} {F : Fleet} {base : List Tx} (hc : ∀ i, (F.machine i).creds = K.creds i)
    (hs : ∀ i, Sound (F.machine i).store) (hl : ∀ i, F.log i = base) (hne : base ≠ []) (hn : NamesApart base) (hK : K.log base)
    (hsh : K.saved F.share base) : Inv K F base := by
  have hown : OwnHistory base := by rw [← hl 0]; exact (hs 0).own
  obtain ⟨x, l, hb⟩ := List.exists_cons_of_ne_nil hne
  refine ⟨hc, fun i => by rw [hl i]; exact hK, hK, hs, hown, hsh, ⟨x, by rw [hb]; rfl, fun i => by rw [hl i, hb]; rfl⟩, ?_, ?_, ?_, ?_⟩
  · intro i j t ht x hx
    rw [hl] at ht hx
    exact like_within hown hn ht hx
  · intro t ht; exact ⟨0, by rw [hl]; exact ht⟩
  · intro i j _ t ht _; rw [hl] at ht; exact ht
  · intro i; left; intro t ht; rw [hl] at ht; exact ht

theorem Inv.told {P : Prims} {C : Codec} {K : Scheme P C} {F : Fleet} {R : List Tx} (h : Inv K F R) (i : Nat)
    (hs : LooksSame R (F.log i)) : R = F.log i := by
  have hL := (h.sound i).own.good.chrono
  have hR := h.own.good.chrono
  rcases h.last i with hsub | ⟨t, ht, htR⟩
  · exact ((chrono_sublist hL hR hsub).eq_of_length hs.1.symm).symm
  · exfalso
    obtain ⟨r, hr⟩ : ∃ r, R.getLast? = some r := by
      obtain ⟨x, hx, -⟩ := h.root
      cases hl : R.getLast? with
      | none => rw [List.getLast?_eq_none_iff] at hl; rw [hl] at hx; cases hx
      | some r => exact ⟨r, rfl⟩
    have h3 := hs.2.2
    rw [hr, ht] at h3
    simp only [Option.map_some, Option.some.injEq] at h3
    have hrR := List.mem_of_getLast? hr
    obtain ⟨j, hj⟩ := h.src r hrR
    have := (h.alike j i r hj t (List.mem_of_getLast? ht)).time h3
    subst this
    exact htR hrR

theorem Inv.shareFor {P : Prims} {C : Codec} {K : Scheme P C} {F : Fleet} {R : List Tx} (h : Inv K F R) (i : Nat) :
    ShareFor K i (F.machine i) F.share R := by
  obtain ⟨x, hx, hxi⟩ := h.root
  have hlike : ∀ t ∈ F.log i, ∀ y ∈ R, Like t y := by
    intro t ht y hy
    obtain ⟨j, hj⟩ := h.src y hy
    exact h.alike i j t ht y hj
  refine ⟨h.creds i, h.sound i, h.saved, h.logs i, h.log, h.own, ?_, ?_, ⟨?_, ?_⟩, ?_, h.told i, ?_⟩
  · intro k; rw [k] at hx; cases hx
  · intro k; have := hxi i; unfold Fleet.log at this; rw [k] at this; cases this
  · intro t ht y hy; exact (hlike t ht y hy).time
  · intro t ht y hy; exact (hlike t ht y hy).add
  · rintro ⟨a, a', b, b', h1, h2, h3⟩
    have := hxi i
    unfold Fleet.log at this
    rw [h1] at this
    rw [h2] at hx
    cases hx; cases this
    exact h3 rfl
  · intro c hc t ht y hy
    have hsrc : ∀ z ∈ c, ∃ j, z ∈ F.log j := by
      intro z hz
      rcases (hc z).1 hz with k | k
      · exact ⟨i, k⟩
      · exact h.src z k
    obtain ⟨j, hj⟩ := hsrc t ht
    obtain ⟨k, hk⟩ := hsrc y hy
    exact (h.alike j k t hj y hk).name

@[simp] theorem Fleet.set_same (F : Fleet) (i : Nat) (u : Session) : (F.set i u).machine i = u := by simp [Fleet.set]
theorem Fleet.set_other (F : Fleet) {i j : Nat} (u : Session) (h : j ≠ i) : (F.set i u).machine j = F.machine j := by
  simp [Fleet.set, h]

theorem Inv.reads {P : Prims} {C : Codec} {K : Scheme P C} {F : Fleet} {R : List Tx} (h : Inv K F R) (i : Nat) :
    readShare P C (F.machine i).creds F.share = some R := by
  rw [h.creds i]; exact K.reads i h.own h.log h.saved

theorem Inv.quiet {P : Prims} {C : Codec} {K : Scheme P C} {F : Fleet} {R : List Tx} (h : Inv K F R) {i : Nat}
    (hq : ¬ ∃ d x, Spec.Conflict P C F i d x) : ¬ ∃ d x, TouchedAfterDelete (F.log i) R d x := by
  rintro ⟨d, x, k⟩
  exact hq ⟨d, x, R, h.reads i, k⟩

/-- the step of a machine that syncs -/
theorem Inv.sync {P : Prims} {C : Codec} {K : Scheme P C} {F : Fleet} {R : List Tx} (h : Inv K F R)
    {i : Nat} {v : SyncEnv} {inp : Input} (he : ShareEnv P C F i v inp) (hv : K.env v)
    (hq : ¬ ∃ d x, TouchedAfterDelete (F.log i) R d x) :
    ∃ R', Inv K (F.step P C (.sync i v inp)) R' ∧ (F.step P C (.sync i v inp)).log i = R' ∧
      (∀ t, t ∈ R' ↔ t ∈ F.log i ∨ t ∈ R) ∧ ∀ j, j ≠ i → (F.step P C (.sync i v inp)).log j = F.log j := by
  obtain ⟨x, hx, hone⟩ := he.one
  have hsf := h.shareFor i
  obtain ⟨-, -, h3, h4, h5, h6, h7⟩ := sync_share (v := v) (inp := inp) hsf hv he.iv he.ordH hx hone he.codec
    hq
  have hi : (F.step P C (.sync i v inp)).machine i = (App.sync P C (shareWorld F.share) v [] true (F.machine i) inp).session := by
    simp [Fleet.step, Fleet.set]
  have hj : ∀ j, j ≠ i → (F.step P C (.sync i v inp)).machine j = F.machine j := by
    intro j k; simp [Fleet.step, Fleet.set, k]
  have hlj : ∀ j, j ≠ i → (F.step P C (.sync i v inp)).log j = F.log j := by
    intro j k; simp only [Fleet.log, hj j k]
  have hli : (F.step P C (.sync i v inp)).log i =
      (App.sync P C (shareWorld F.share) v [] true (F.machine i) inp).session.store.log := by simp only [Fleet.log, hi]
  have hsh : (F.step P C (.sync i v inp)).share =
      if (App.sync P C (shareWorld F.share) v [] true (F.machine i) inp).pushed = [] then F.share
      else (App.sync P C (shareWorld F.share) v [] true (F.machine i) inp).sent := rfl
  generalize App.sync P C (shareWorld F.share) v [] true (F.machine i) inp = r at h3 h4 h5 h6 h7 hi hli hsh
  generalize F.step P C (.sync i v inp) = F' at hi hj hlj hli hsh
  have hsrc : ∀ t ∈ r.session.store.log, ∃ j, t ∈ F.log j := by
    intro t ht
    rcases (h5 t).1 ht with k | k
    · exact ⟨i, k⟩
    · exact h.src t k
  have hold : ∀ j, ∀ t ∈ F'.log j, ∃ k, t ∈ F.log k := by
    intro j t ht
    by_cases hji : j = i
    · subst hji; rw [hli] at ht; exact hsrc t ht
    · rw [hlj j hji] at ht; exact ⟨j, ht⟩
  have hRR : ∀ t ∈ R, t ∈ r.session.store.log := fun t ht => (h5 t).2 (.inr ht)
  refine ⟨r.session.store.log, ⟨?_, ?_, h7, ?_, h4.own, ?_, ?_, ?_, ?_, ?_, ?_⟩, hli, h5, hlj⟩
  · intro j
    by_cases hji : j = i
    · subst hji; rw [hi, h3, h.creds]
    · rw [hj j hji, h.creds]
  · intro j
    by_cases hji : j = i
    · subst hji; rw [hli]; exact h7
    · rw [hlj j hji]; exact h.logs j
  · intro j
    by_cases hji : j = i
    · subst hji; rw [hi]; exact h4
    · rw [hj j hji]; exact h.sound j
  · rw [hsh]; exact h6
  · obtain ⟨y, hy, hyi⟩ := h.root
    have hh := chrono_head (h.sound i).own.good.chrono h.own.good.chrono h4.own.good.chrono (hyi i) hy h5
    refine ⟨y, hh, fun j => ?_⟩
    by_cases hji : j = i
    · subst hji; rw [hli]; exact hh
    · rw [hlj j hji]; exact hyi j
  · intro j k t ht y hy
    obtain ⟨j', hj'⟩ := hold j t ht
    obtain ⟨k', hk'⟩ := hold k y hy
    exact h.alike j' k' t hj' y hk'
  · intro t ht; exact ⟨i, by rw [hli]; exact ht⟩
  · intro j k hjk t ht ht'
    by_cases hji : j = i
    · subst hji; rw [hli] at ht; exact ht
    · by_cases hki : k = i
      · subst hki; rw [hli] at ht'; exact ht'
      · rw [hlj j hji] at ht; rw [hlj k hki] at ht'
        exact hRR t (h.priv j k hjk t ht ht')
  · intro j
    by_cases hji : j = i
    · subst hji; left; intro t ht; rw [hli] at ht; exact ht
    · rw [hlj j hji]
      rcases h.last j with k | ⟨t, ht, htR⟩
      · left; intro t ht; exact hRR t (k t ht)
      · right
        refine ⟨t, ht, fun k => ?_⟩
        rcases (h5 t).1 k with k | k
        · exact htR (h.priv j i hji t (List.mem_of_getLast? ht) k)
        · exact htR k

theorem along_weaken {P : Prims} {C : Codec} {A B : Env → Str → Repl → Prop} (h : ∀ v l r, A v l r → B v l r) :
    ∀ (turns : List Turn) (r : Repl), Along P C A turns r → Along P C B turns r := by
  intro turns
  induction turns with
  | nil => intro r _; trivial
  | cons t rest ih =>
    intro r hr
    obtain ⟨o, v⟩ := t
    cases o with
    | none => trivial
    | some line => exact ⟨h _ _ _ hr.1, ih _ hr.2⟩

/-- the step of a machine someone works on -/
theorem Inv.work {P : Prims} {C : Codec} {K : Scheme P C} {F : Fleet} {R : List Tx} (h : Inv K F R)
    {i : Nat} {turns : List Turn} (he : WorkOk P C F i turns) (hv : K.event F (.work i turns)) :
    Inv K (F.step P C (.work i turns)) R ∧ F.log i <+: (F.step P C (.work i turns)).log i ∧
      ∀ j, j ≠ i → (F.step P C (.work i turns)).log j = F.log j := by
  have hs := h.sound i
  have hn : (runRepl P C turns { u := F.machine i }).2 ≠ .panic := by rw [he.ends]; simp
  have hl := along_weaken (fun v l r (k : HistoryTurn v l r) => k.legal) turns _ he.legal
  have h1 := C67_session_partial P C turns { u := F.machine i } hs.tx hs.wf hl hn
  have h2 := C76_session_partial P C turns { u := F.machine i } hs.tx hs.wf hl hn
  have h3 := C86_session_partial P C turns { u := F.machine i } hs.tx hs.wf hs.own he.legal hn
  have hcr := he.creds
  have hv' : K.log (runRepl P C turns { u := F.machine i }).1.u.store.log := hv (h.logs i) h2
  have hnames := he.names
  have hfresh := he.fresh
  have hi : (F.step P C (.work i turns)).machine i = (runRepl P C turns { u := F.machine i }).1.u := by
    simp [Fleet.step, Fleet.set]
  have hj : ∀ j, j ≠ i → (F.step P C (.work i turns)).machine j = F.machine j := by
    intro j k; simp [Fleet.step, Fleet.set, k]
  have hlj : ∀ j, j ≠ i → (F.step P C (.work i turns)).log j = F.log j := by
    intro j k; simp only [Fleet.log, hj j k]
  have hsh : (F.step P C (.work i turns)).share = F.share := rfl
  have hli : (F.step P C (.work i turns)).log i = (runRepl P C turns { u := F.machine i }).1.u.store.log := by
    simp only [Fleet.log, hi]
  generalize (runRepl P C turns { u := F.machine i }).1.u = u at h1 h2 h3 hv' hcr hnames hfresh hi hli
  generalize F.step P C (.work i turns) = F' at hi hj hlj hli hsh
  have h2 : F.log i <+: u.store.log := h2
  have hsrc : ∀ t ∈ R, ∃ j, t ∈ F'.log j := by
    intro t ht
    obtain ⟨j, hj'⟩ := h.src t ht
    by_cases hji : j = i
    · subst hji; exact ⟨j, by rw [hli]; exact h2.subset hj'⟩
    · exact ⟨j, by rw [hlj j hji]; exact hj'⟩
  have hcross : ∀ j, j ≠ i → ∀ t ∈ u.store.log, ∀ x ∈ F.log j, Like t x := by
    intro j hji t ht x hx
    rcases hfresh t ht with k | k
    · exact h.alike i j t k x hx
    · exact like_of_foreign (k j x hx)
  refine ⟨⟨?_, ?_, h.log, ?_, h.own, by rw [hsh]; exact h.saved, ?_, ?_, hsrc, ?_, ?_⟩, by rw [hli]; exact h2, hlj⟩
  · intro j
    by_cases hji : j = i
    · subst hji; rw [hi, hcr, h.creds]
    · rw [hj j hji, h.creds]
  · intro j
    by_cases hji : j = i
    · subst hji; rw [hli]; exact hv'
    · rw [hlj j hji]; exact h.logs j
  · intro j
    by_cases hji : j = i
    · subst hji; rw [hi]; exact ⟨h1.1, h3, h1.2⟩
    · rw [hj j hji]; exact h.sound j
  · obtain ⟨y, hy, hyi⟩ := h.root
    refine ⟨y, hy, fun j => ?_⟩
    by_cases hji : j = i
    · subst hji
      rw [hli]
      obtain ⟨suf, hsuf⟩ := h2
      have := hyi j
      rw [← hsuf, List.head?_append, this]
      rfl
    · rw [hlj j hji]; exact hyi j
  · intro j k t ht y hy
    by_cases hji : j = i
    · subst hji
      rw [hli] at ht
      by_cases hkj : k = j
      · subst hkj; rw [hli] at hy; exact like_within h3 hnames ht hy
      · rw [hlj k hkj] at hy; exact hcross k hkj t ht y hy
    · rw [hlj j hji] at ht
      by_cases hki : k = i
      · subst hki; rw [hli] at hy; exact (hcross j hji y hy t ht).symm
      · rw [hlj k hki] at hy; exact h.alike j k t ht y hy
  · have key : ∀ j, j ≠ i → ∀ t ∈ u.store.log, t ∈ F.log j → t ∈ R := by
      intro j hji t ht ht'
      rcases hfresh t ht with k | k
      · exact h.priv i j (Ne.symm hji) t k ht'
      · exact absurd rfl (k j t ht').time
    intro j k hjk t ht ht'
    by_cases hji : j = i
    · subst hji
      rw [hli] at ht; rw [hlj k (Ne.symm hjk)] at ht'
      exact key k (Ne.symm hjk) t ht ht'
    · rw [hlj j hji] at ht
      by_cases hki : k = i
      · subst hki; rw [hli] at ht'; exact key j hji t ht' ht
      · rw [hlj k hki] at ht'; exact h.priv j k hjk t ht ht'
  · intro j
    by_cases hji : j = i
    · subst hji
      rw [hli]
      obtain ⟨suf, hsuf⟩ := h2
      by_cases hse : suf = []
      · subst hse
        rw [List.append_nil] at hsuf
        rw [← hsuf]; exact h.last j
      · right
        have hlast : u.store.log.getLast? = some (suf.getLast hse) := by
          rw [← hsuf, List.getLast?_append, List.getLast?_eq_some_getLast hse]; rfl
        refine ⟨_, hlast, fun hR => ?_⟩
        have hnd := chrono_distinct h3.good.chrono
        rw [← hsuf] at hnd
        have hm := List.getLast_mem hse
        rcases hfresh _ (List.mem_of_getLast? hlast) with k | k
        · exact (List.nodup_append.1 hnd).2.2 _ k _ hm rfl
        · obtain ⟨k', hk'⟩ := h.src _ hR
          exact absurd rfl (k k' _ hk').time
    · rw [hlj j hji]; exact h.last j

/-- any step: the invariant goes on, and nothing is lost -/
theorem Inv.step {P : Prims} {C : Codec} {K : Scheme P C} {F : Fleet} {R : List Tx} (h : Inv K F R)
    {e : Event} (he : EventOk P C true F e) (hv : K.event F e) : ∃ R', Inv K (F.step P C e) R' ∧ (∀ t ∈ R, t ∈ R') ∧
      ∀ i, ∀ t ∈ F.log i, t ∈ (F.step P C e).log i := by
  cases e with
  | work i turns =>
    obtain ⟨h1, h2, h3⟩ := h.work he hv
    refine ⟨R, h1, fun _ k => k, fun j t ht => ?_⟩
    by_cases hji : j = i
    · subst hji; exact h2.subset ht
    · rw [h3 j hji]; exact ht
  | sync i v inp =>
    obtain ⟨R', h1, h2, h3, h4⟩ := h.sync he.1 hv (h.quiet (he.2 rfl))
    refine ⟨R', h1, fun t k => (h3 t).2 (.inr k), fun j t ht => ?_⟩
    by_cases hji : j = i
    · subst hji; rw [h2]; exact (h3 t).2 (.inl ht)
    · rw [h4 j hji]; exact ht

theorem Inv.run {P : Prims} {C : Codec} {K : Scheme P C} : ∀ (es : List Event) {F : Fleet} {R : List Tx},
    Inv K F R → RunOk P C true es F → K.run es F → ∃ R', Inv K (F.run P C es) R' ∧ (∀ t ∈ R, t ∈ R') ∧
      ∀ i, ∀ t ∈ F.log i, t ∈ (F.run P C es).log i := by
  intro es
  induction es with
  | nil => intro F R h _ _; exact ⟨R, h, fun _ k => k, fun _ _ k => k⟩
  | cons e es ih =>
    intro F R h hr hv
    obtain ⟨R1, h1, h2, h3⟩ := h.step hr.1 hv.1
    obtain ⟨R2, h4, h5, h6⟩ := ih h1 hr.2 hv.2
    exact ⟨R2, h4, fun t k => h5 t (h2 t k), fun i t k => h6 i t (h3 i t k)⟩

theorem run_append (P : Prims) (C : Codec) (a b : List Event) (F : Fleet) :
    F.run P C (a ++ b) = (F.run P C a).run P C b := by
  induction a generalizing F with
  | nil => rfl
  | cons e a ih => exact ih _

theorem schemeRun_append {P : Prims} {C : Codec} {K : Scheme P C} {a b : List Event} {F : Fleet} (h : K.run (a ++ b) F) :
    K.run a F ∧ K.run b (F.run P C a) := by
  induction a generalizing F with
  | nil => exact ⟨trivial, h⟩
  | cons e a ih =>
    obtain ⟨h1, h2⟩ := ih h.2
    exact ⟨⟨h.1, h1⟩, h2⟩

theorem runOk_append {P : Prims} {C : Codec} {q : Bool} {a b : List Event} {F : Fleet} (h : RunOk P C q (a ++ b) F) :
    RunOk P C q a F ∧ RunOk P C q b (F.run P C a) := by
  induction a generalizing F with
  | nil => exact ⟨trivial, h⟩
  | cons e a ih =>
    obtain ⟨h1, h2⟩ := ih h.2
    exact ⟨⟨h.1, h1⟩, h2⟩

/-- a round of syncs collects what the machines had -/
theorem Inv.collect {P : Prims} {C : Codec} {K : Scheme P C} : ∀ (es : List Event) {F : Fleet} {R : List Tx},
    Inv K F R → RunOk P C true es F → K.run es F → OnlySyncs es → ∃ R', Inv K (F.run P C es) R' ∧
      (∀ t, t ∈ R' ↔ t ∈ R ∨ ∃ i ∈ syncers es, t ∈ F.log i) ∧
      (∀ i ∈ syncers es, ∀ t ∈ (F.run P C es).log i, t ∈ R') ∧ ∀ i, i ∉ syncers es → (F.run P C es).log i = F.log i := by
  intro es
  induction es with
  | nil => intro F R h _ _ _; exact ⟨R, h, by simp [syncers], by simp [syncers], fun _ _ => rfl⟩
  | cons e es ih =>
    intro F R h hr hv ho
    cases e with
    | work i turns => exact absurd List.mem_cons_self (ho i turns)
    | sync i v inp =>
      obtain ⟨R1, h1, h2, h3, h4⟩ := h.sync hr.1.1 hv.1 (h.quiet (hr.1.2 rfl))
      obtain ⟨R2, g1, g2, g3, g4⟩ := ih h1 hr.2 hv.2 (fun j t k => ho j t (List.mem_cons_of_mem _ k))
      refine ⟨R2, g1, ?_, ?_, ?_⟩
      · intro t
        rw [g2 t, h3 t]
        simp only [syncers, List.mem_cons, exists_eq_or_imp]
        constructor
        · rintro ((k | k) | ⟨j, hj, k⟩)
          · exact .inr (.inl k)
          · exact .inl k
          · by_cases hji : j = i
            · subst hji
              rw [h2] at k
              rcases (h3 t).1 k with k | k
              · exact .inr (.inl k)
              · exact .inl k
            · rw [h4 j hji] at k
              exact .inr (.inr ⟨j, hj, k⟩)
        · rintro (k | k | ⟨j, hj, k⟩)
          · exact .inl (.inr k)
          · exact .inl (.inl k)
          · by_cases hji : j = i
            · subst hji; exact .inl (.inl k)
            · exact .inr ⟨j, hj, by rw [h4 j hji]; exact k⟩
      · intro j hj t ht
        simp only [syncers, List.mem_cons] at hj
        by_cases hjs : j ∈ syncers es
        · exact g3 j hjs t ht
        · rcases hj with rfl | hj
          · have ht' : t ∈ (Fleet.run P C es (F.step P C (.sync j v inp))).log j := ht
            rw [g4 j hjs, h2] at ht'
            exact (g2 t).2 (.inl ht')
          · exact absurd hj hjs
      · intro j hj
        simp only [syncers, List.mem_cons, not_or] at hj
        exact (g4 j hj.2).trans (h4 j hj.1)

/-- a round of syncs of machines that have nothing new -/
theorem Inv.spread {P : Prims} {C : Codec} {K : Scheme P C} : ∀ (es : List Event) {F : Fleet} {R : List Tx},
    Inv K F R → RunOk P C true es F → K.run es F → OnlySyncs es → (∀ i ∈ syncers es, ∀ t ∈ F.log i, t ∈ R) →
      Inv K (F.run P C es) R ∧ (∀ i ∈ syncers es, (F.run P C es).log i = R) ∧
        ∀ i, i ∉ syncers es → (F.run P C es).log i = F.log i := by
  intro es
  induction es with
  | nil => intro F R h _ _ _ _; exact ⟨h, by simp [syncers], fun _ _ => rfl⟩
  | cons e es ih =>
    intro F R h hr hv ho hsub
    cases e with
    | work i turns => exact absurd List.mem_cons_self (ho i turns)
    | sync i v inp =>
      obtain ⟨R1, h1, h2, h3, h4⟩ := h.sync hr.1.1 hv.1 (h.quiet (hr.1.2 rfl))
      have hR : R1 = R := by
        refine chrono_ext h1.own.good.chrono h.own.good.chrono fun t => ?_
        rw [h3 t]
        exact ⟨fun k => k.elim (hsub i (by simp [syncers]) t) id, .inr⟩
      subst hR
      obtain ⟨g1, g2, g4⟩ := ih h1 hr.2 hv.2 (fun j t k => ho j t (List.mem_cons_of_mem _ k)) (by
        intro j hj t ht
        by_cases hji : j = i
        · subst hji; rw [h2] at ht; exact ht
        · rw [h4 j hji] at ht; exact hsub j (by simp [syncers, hj]) t ht)
      refine ⟨g1, ?_, ?_⟩
      · intro j hj
        simp only [syncers, List.mem_cons] at hj
        by_cases hjs : j ∈ syncers es
        · exact g2 j hjs
        · rcases hj with rfl | hj
          · exact (g4 j hjs).trans h2
          · exact absurd hj hjs
      · intro j hj
        simp only [syncers, List.mem_cons, not_or] at hj
        exact (g4 j hj.2).trans (h4 j hj.1)

theorem Inv.names {P : Prims} {C : Codec} {K : Scheme P C} {F : Fleet} {R : List Tx} (h : Inv K F R) (i : Nat) : NamesApart (F.log i) :=
  fun t ht x hx => (h.alike i i t ht x hx).name

/-- the step of a machine that syncs when there is a conflict -/
theorem Inv.blocked {P : Prims} {C : Codec} {K : Scheme P C} {F : Fleet} {R : List Tx} (h : Inv K F R)
    {i : Nat} {v : SyncEnv} {inp : Input} {y : Str}
    (hone : collectSyncs (shareWorld F.share) v.ord (F.machine i).store.updateSnapshot.1 = [y])
    {d x : Tx} (hq : TouchedAfterDelete (F.log i) R d x) :
    Inv K (F.step P C (.sync i v inp)) R ∧ (F.step P C (.sync i v inp)).share = F.share ∧
      ∀ j, (F.step P C (.sync i v inp)).log j = F.log j := by
  obtain ⟨h1, h2, -⟩ := sync_conflict (v := v) (inp := inp) (h.shareFor i) hone hq
  have hi : (F.step P C (.sync i v inp)).machine i = (App.sync P C (shareWorld F.share) v [] true (F.machine i) inp).session := by
    simp [Fleet.step, Fleet.set]
  have hj : ∀ j, j ≠ i → (F.step P C (.sync i v inp)).machine j = F.machine j := by
    intro j k; simp [Fleet.step, Fleet.set, k]
  have hsh : (F.step P C (.sync i v inp)).share = F.share := by simp only [Fleet.step, h2, if_true]
  rw [h1] at hi
  generalize F.step P C (.sync i v inp) = F' at hi hj hsh
  have hlog : ∀ j, F'.log j = F.log j := by
    intro j
    by_cases hji : j = i
    · subst hji; simp only [Fleet.log, hi, updateSnapshot_log]
    · simp only [Fleet.log, hj j hji]
  refine ⟨⟨?_, fun j => by rw [hlog]; exact h.logs j, h.log, ?_, h.own, by rw [hsh]; exact h.saved, ?_, ?_, ?_, ?_, ?_⟩, hsh, hlog⟩
  · intro j
    by_cases hji : j = i
    · subst hji; rw [hi]; exact h.creds j
    · rw [hj j hji, h.creds]
  · intro j
    by_cases hji : j = i
    · subst hji
      rw [hi]
      have hs := h.sound j
      have hl := updateSnapshot_log (F.machine j).store
      refine ⟨(own_wf (ok_update hs.wf.good.ok) (by rw [hl]; exact hs.own)).2.2 (by rw [hl]; exact h.names j), ?_, ?_⟩
      · rw [hl]; exact hs.own
      · rw [updateSnapshot_txPoint]; exact hs.tx
    · rw [hj j hji]; exact h.sound j
  · simp only [hlog]; exact h.root
  · simp only [hlog]; exact h.alike
  · simp only [hlog]; exact h.src
  · simp only [hlog]; exact h.priv
  · simp only [hlog]; exact h.last

/-- a conflict stays, and keeps what is on one side apart from the other -/
structure Apart (i : Nat) (d x : Tx) (F : Fleet) (R : List Tx) (F' : Fleet) (R' : List Tx) : Prop where
  conflict : TouchedAfterDelete (F'.log i) R' d x
  log : ∀ t ∈ F.log i, t ∈ F'.log i
  share : ∀ t ∈ R, t ∈ R'
  here : ∀ t ∈ F.log i, t ∉ R → t ∉ R'
  there : ∀ t ∈ R, t ∉ F.log i → t ∉ F'.log i

theorem Inv.stays {P : Prims} {C : Codec} {K : Scheme P C} {F : Fleet} {R : List Tx} (h : Inv K F R)
    {e : Event} (he : EventOk P C false F e) (hv : K.event F e) {i : Nat} {d x : Tx} (hq : TouchedAfterDelete (F.log i) R d x) :
    ∃ R', Inv K (F.step P C e) R' ∧ Apart i d x F R (F.step P C e) R' := by
  have hq0 := hq
  obtain ⟨q1, q2, q3, q4, q5, q6⟩ := hq
  have key : ∀ {F' : Fleet} {R' : List Tx}, (∀ t ∈ F.log i, t ∈ F'.log i) → (∀ t ∈ R, t ∈ R') →
      (∀ t ∈ F.log i, t ∉ R → t ∉ R') → (∀ t ∈ R, t ∉ F.log i → t ∉ F'.log i) → Inv K F' R' →
      ∃ R', Inv K F' R' ∧ Apart i d x F R F' R' := by
    intro F' R' h1 h2 h3 h4 h5
    refine ⟨R', h5, ⟨q1.imp (h1 d) (h2 d), q2.imp (h1 x) (h2 x), q3, q4, q5, ?_⟩, h1, h2, h3, h4⟩
    rintro ⟨k1, k2⟩
    rcases q2 with k | k
    · exact h3 x k (fun k' => q6 ⟨k, k'⟩) k2
    · exact h4 x k (fun k' => q6 ⟨k', k⟩) k1
  cases e with
  | work j turns =>
    obtain ⟨h1, h2, h3⟩ := h.work he hv
    by_cases hji : i = j
    · subst hji
      refine key (fun t k => h2.subset k) (fun _ k => k) (fun _ _ k => k) ?_ h1
      intro t k2 k3 k1
      have hnew := he.fresh t (by simpa [Fleet.log, Fleet.step, Fleet.set] using k1)
      rcases hnew with k | k
      · exact k3 k
      · obtain ⟨j, hj⟩ := h.src t k2
        exact (k j t hj).time rfl
    · exact key (fun t k => by rw [h3 i hji]; exact k) (fun _ k => k) (fun _ _ k => k) (fun t _ k => by rw [h3 i hji]; exact k) h1
  | sync j v inp =>
    by_cases hc : ∃ d x, TouchedAfterDelete (F.log j) R d x
    · obtain ⟨d', x', hc⟩ := hc
      obtain ⟨y, -, hone⟩ := he.1.one
      obtain ⟨h1, -, h3⟩ := h.blocked (inp := inp) hone hc
      exact key (fun t k => by rw [h3]; exact k) (fun _ k => k) (fun _ _ k => k) (fun t _ k => by rw [h3]; exact k) h1
    · obtain ⟨R', h1, h2, h3, h4⟩ := h.sync he.1 hv hc
      by_cases hji : i = j
      · subst hji; exact absurd ⟨d, x, hq0⟩ hc
      · refine key (fun t k => by rw [h4 i hji]; exact k) (fun t k => (h3 t).2 (.inr k)) ?_ (fun t _ k => by rw [h4 i hji]; exact k) h1
        intro t k1 k2 k3
        rcases (h3 t).1 k3 with k | k
        · exact k2 (h.priv i j hji t k1 k)
        · exact k2 k

theorem Inv.stuck {P : Prims} {C : Codec} {K : Scheme P C} {i : Nat} {d x : Tx} :
    ∀ (es : List Event) {F : Fleet} {R : List Tx}, Inv K F R → RunOk P C false es F → K.run es F → TouchedAfterDelete (F.log i) R d x →
      ∃ R', Inv K (F.run P C es) R' ∧ Apart i d x F R (F.run P C es) R' := by
  intro es
  induction es with
  | nil => intro F R h _ _ hq; exact ⟨R, h, hq, fun _ k => k, fun _ k => k, fun _ _ k => k, fun _ _ k => k⟩
  | cons e es ih =>
    intro F R h hr hv hq
    obtain ⟨R1, h1, a⟩ := h.stays hr.1 hv.1 hq
    obtain ⟨R2, g1, b⟩ := ih h1 hr.2 hv.2 a.conflict
    exact ⟨R2, g1, b.conflict, fun t k => b.log t (a.log t k), fun t k => b.share t (a.share t k),
      fun t k k' => b.here t (a.log t k) (a.here t k k'), fun t k k' => b.there t (a.share t k) (a.there t k k')⟩

/-- any run, with conflicts or without: the invariant goes on -/
theorem Inv.any {P : Prims} {C : Codec} {K : Scheme P C} : ∀ (es : List Event) {F : Fleet} {R : List Tx},
    Inv K F R → RunOk P C false es F → K.run es F → ∃ R', Inv K (F.run P C es) R' ∧ (∀ t ∈ R, t ∈ R') ∧
      ∀ i, ∀ t ∈ F.log i, t ∈ (F.run P C es).log i := by
  intro es
  induction es with
  | nil => intro F R h _ _; exact ⟨R, h, fun _ k => k, fun _ _ k => k⟩
  | cons e es ih =>
    intro F R h hr hv
    have : ∃ R', Inv K (F.step P C e) R' ∧ (∀ t ∈ R, t ∈ R') ∧ ∀ i, ∀ t ∈ F.log i, t ∈ (F.step P C e).log i := by
      cases e with
      | work i turns => exact h.step (e := .work i turns) hr.1 hv.1
      | sync i v inp =>
        by_cases hc : ∃ d x, TouchedAfterDelete (F.log i) R d x
        · obtain ⟨d', x', hc⟩ := hc
          obtain ⟨y, -, hone⟩ := hr.1.1.one
          obtain ⟨h1, -, h3⟩ := h.blocked (inp := inp) hone hc
          exact ⟨R, h1, fun _ k => k, fun j t k => by rw [h3]; exact k⟩
        · refine h.step (e := .sync i v inp) ⟨hr.1.1, fun _ => ?_⟩ hv.1
          rintro ⟨d, x, R', k1, k2⟩
          rw [h.reads i] at k1
          cases k1
          exact hc ⟨d, x, k2⟩
    obtain ⟨R1, h1, h2, h3⟩ := this
    obtain ⟨R2, h4, h5, h6⟩ := ih h1 hr.2 hv.2
    exact ⟨R2, h4, fun t k => h5 t (h2 t k), fun i t k => h6 i t (h3 i t k)⟩

end Verif.App
