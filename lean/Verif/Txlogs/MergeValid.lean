import Verif.Txlogs.MergeLemmas
/-! Helper lemmas: life cycle of entries, and the resolving pass of `Merge`. -/
set_option linter.unusedSimpArgs false
namespace Verif.Txlogs
open Verif Spec

/-! ## Life cycle of an entry -/

/-- Does a sequence of kinds on one entry replay, starting absent/present? -/
def okSeq : Bool → List TxKind → Bool
  | _, [] => true
  | b, .add :: ks => !b && okSeq true ks
  | b, .del :: ks => b && okSeq false ks
  | b, .setk :: ks => b && okSeq b ks
  | b, .delk :: ks => b && okSeq b ks
  | b, .other _ :: ks => okSeq b ks

theorem meaning_okSeq (u : Str) (f : List Tx) (hf : ∀ t ∈ f, t.uuid = u) (st : Spec.State) :
    (meaning st f).isSome = okSeq (st u).isSome (f.map Tx.kind) := by
  induction f generalizing st with
  | nil => rfl
  | cons x f ih =>
    have hx : x.uuid = u := hf x (by simp)
    have hf' : ∀ t ∈ f, t.uuid = u := fun t ht => hf t (by simp [ht])
    subst hx
    simp only [meaning, List.map_cons]
    unfold Spec.apply
    cases hk : x.kind <;> cases hg : st x.uuid <;> simp [okSeq, ih hf', Spec.upd, hg]

theorem okSeq_true_of {ks : List TxKind} (h1 : ∀ k ∈ ks, k ≠ .add)
    (h2 : ks.Pairwise (fun k _ => k ≠ .del)) : okSeq true ks = true := by
  induction ks with
  | nil => rfl
  | cons k ks ih =>
    rw [List.pairwise_cons] at h2
    have ih' := ih (fun k hk => h1 k (by simp [hk])) h2.2
    cases k with
    | add => exact absurd rfl (h1 _ (by simp))
    | del =>
      cases ks with
      | nil => rfl
      | cons k' ks => exact absurd rfl (h2.1 k' (by simp))
    | setk => simpa [okSeq] using ih'
    | delk => simpa [okSeq] using ih'
    | other s => simpa [okSeq] using ih'

theorem of_okSeq_true {ks : List TxKind} (h : okSeq true ks = true) (h1 : ∀ k ∈ ks, k ≠ .add)
    (ho : ∀ k ∈ ks, ∀ s, k ≠ .other s) : ks.Pairwise (fun k _ => k ≠ .del) := by
  induction ks with
  | nil => simp
  | cons k ks ih =>
    have h1' : ∀ k ∈ ks, k ≠ .add := fun k hk => h1 k (by simp [hk])
    have ho' : ∀ k ∈ ks, ∀ s, k ≠ .other s := fun k hk => ho k (by simp [hk])
    rw [List.pairwise_cons]
    cases k with
    | add => exact absurd rfl (h1 _ (by simp))
    | other s => exact absurd rfl (ho _ (by simp) s)
    | setk => exact ⟨by simp, ih (by simpa [okSeq] using h) h1' ho'⟩
    | delk => exact ⟨by simp, ih (by simpa [okSeq] using h) h1' ho'⟩
    | del =>
      simp only [okSeq, Bool.true_and] at h
      cases ks with
      | nil => simp
      | cons k' ks =>
        cases k' with
        | add => exact absurd rfl (h1' _ (by simp))
        | other s => exact absurd rfl (ho' _ (by simp) s)
        | setk => simp [okSeq] at h
        | delk => simp [okSeq] at h
        | del => simp [okSeq] at h

/-- Order-free life cycle conditions. -/
structure Life (l : List Tx) : Prop where
  addFirst : ∀ x ∈ l, x.kind ≠ .add → ∃ y ∈ l, y.kind = .add ∧ y.uuid = x.uuid ∧ y.time < x.time
  addsOnce : AddsOnce l
  noAfterDel : ∀ d ∈ l, ∀ x ∈ l, d.kind = .del → d.uuid = x.uuid → ¬ d.time < x.time

theorem chrono_filter {l : List Tx} (h : Chrono l) (p : Tx → Bool) : Chrono (l.filter p) :=
  List.Pairwise.sublist List.filter_sublist h

theorem replays_of_life {l : List Tx} (hc : Chrono l) (h : Life l) : Replays l := by
  unfold Replays
  rw [meaning_isSome_iff]
  intro u
  have hu : ∀ t ∈ l.filter (fun t => t.uuid = u), t.uuid = u ∧ t ∈ l := by
    intro t ht; simp at ht; exact ⟨ht.2, ht.1⟩
  have hcf := chrono_filter hc (fun t => t.uuid = u)
  rw [meaning_okSeq u _ (fun t ht => (hu t ht).1)]
  generalize hf : l.filter (fun t => t.uuid = u) = f at *
  have hmem : ∀ t, t ∈ l → t.uuid = u → t ∈ f := by
    intro t h1 h2; rw [← hf]; simp [h1, h2]
  cases f with
  | nil => rfl
  | cons x r =>
    rw [chrono_cons] at hcf
    have hx := hu x (by simp)
    have hxa : x.kind = .add := by
      by_cases hk : x.kind = .add
      · exact hk
      · obtain ⟨y, h1, h2, h3, h4⟩ := h.addFirst x hx.2 hk
        rcases List.mem_cons.1 (hmem y h1 (h3.trans hx.1)) with rfl | hy
        · omega
        · have := hcf.1 y hy; omega
    simp only [List.map_cons, hxa, okSeq, Spec.empty, Option.isSome_none, Bool.not_false,
      Bool.true_and]
    apply okSeq_true_of
    · intro k hk
      obtain ⟨y, hy, rfl⟩ := List.mem_map.1 hk
      intro hya
      have h2 := hu y (by simp [hy])
      have := h.addsOnce x hx.2 y h2.2 hxa hya (hx.1.trans h2.1.symm)
      subst this
      have := hcf.1 x hy; omega
    · rw [List.pairwise_map]
      refine List.Pairwise.imp_of_mem ?_ hcf.2
      intro d z hd hz hlt hdel
      have h2 := hu d (by simp [hd])
      have h3 := hu z (by simp [hz])
      exact h.noAfterDel d h2.2 z h3.2 hdel (h2.1.trans h3.1.symm) hlt

theorem life_of_good {l : List Tx} (h : GoodHistory l) : Life l := by
  have key : ∀ u, ∃ f, (∀ t, t ∈ f ↔ t ∈ l ∧ t.uuid = u) ∧
      (f = [] ∨ ∃ x r, f = x :: r ∧ x.kind = .add ∧ (∀ y ∈ r, x.time < y.time) ∧
        (x :: r).Pairwise (fun a b => a.kind ≠ .del ∧ a.time < b.time)) := by
    intro u
    refine ⟨l.filter (fun t => t.uuid = u), by simp, ?_⟩
    have hr := h.replays
    unfold Replays at hr
    rw [meaning_isSome_iff] at hr
    have hr := hr u
    have hu : ∀ t ∈ l.filter (fun t => t.uuid = u), t.uuid = u ∧ t ∈ l := by
      intro t ht; simp at ht; exact ⟨ht.2, ht.1⟩
    have hcf := chrono_filter h.chrono (fun t => t.uuid = u)
    rw [meaning_okSeq u _ (fun t ht => (hu t ht).1)] at hr
    generalize hf : l.filter (fun t => t.uuid = u) = f at *
    cases f with
    | nil => left; rfl
    | cons x r =>
      right
      have hcf' := hcf
      rw [chrono_cons] at hcf
      have hx := hu x (by simp)
      have hkx : x.kind = .add := by
        cases hk : x.kind <;> simp [okSeq, hk, Spec.empty] at hr ⊢
        exact h.kinds x hx.2 _ hk
      simp only [List.map_cons, hkx, okSeq, Spec.empty, Option.isSome_none, Bool.not_false,
        Bool.true_and] at hr
      refine ⟨x, r, rfl, hkx, hcf.1, ?_⟩
      have hp := of_okSeq_true hr ?_ ?_
      · rw [List.pairwise_map] at hp
        rw [List.pairwise_cons]
        refine ⟨fun y hy => ⟨by simp [hkx], hcf.1 y hy⟩, ?_⟩
        exact List.Pairwise.imp (fun h => h) (hp.and hcf.2)
      · intro k hk
        obtain ⟨y, hy, rfl⟩ := List.mem_map.1 hk
        intro hya
        have h2 := hu y (by simp [hy])
        have := h.addsOnce x hx.2 y h2.2 hkx hya (hx.1.trans h2.1.symm)
        subst this
        have := hcf.1 x hy; omega
      · intro k hk
        obtain ⟨y, hy, rfl⟩ := List.mem_map.1 hk
        exact h.kinds y (hu y (by simp [hy])).2
  refine ⟨?_, h.addsOnce, ?_⟩
  · intro x hx hk
    obtain ⟨f, hf, rfl | ⟨y, r, rfl, h1, h2, h3⟩⟩ := key x.uuid
    · have := (hf x).2 ⟨hx, rfl⟩; simp at this
    · have hy := (hf y).1 (by simp)
      rcases List.mem_cons.1 ((hf x).2 ⟨hx, rfl⟩) with rfl | hxr
      · exact absurd h1 hk
      · exact ⟨y, hy.1, h1, hy.2, h2 x hxr⟩
  · intro d hd x hx hk hu hlt
    obtain ⟨f, hf, rfl | ⟨y, r, rfl, h1, h2, h3⟩⟩ := key x.uuid
    · have := (hf x).2 ⟨hx, rfl⟩; simp at this
    · have hd' := (hf d).2 ⟨hd, hu⟩
      have hx' := (hf x).2 ⟨hx, rfl⟩
      have : ∀ (l : List Tx), l.Pairwise (fun a b => a.kind ≠ .del ∧ a.time < b.time) →
          d ∈ l → x ∈ l → False := by
        intro l
        induction l with
        | nil => simp
        | cons z l ih =>
          intro hp h4 h5
          rw [List.pairwise_cons] at hp
          rcases List.mem_cons.1 h4 with rfl | h6
          · rcases List.mem_cons.1 h5 with rfl | h7
            · omega
            · exact (hp.1 x h7).1 hk
          · rcases List.mem_cons.1 h5 with rfl | h7
            · have := (hp.1 d h6).2; omega
            · exact ih hp.2 h6 h7
      exact this _ h3 hd' hx'

/-! ## What is special about tagged unions of good histories -/

/-- A chronological tagged list in which nothing follows a shared delete, no shared operation follows a delete,
and nothing follows two deletes of an entry. -/
structure TOk (T : List (Tx × Option Nat)) : Prop where
  chrono : Chrono (T.map Prod.fst)
  noAfterShared : ∀ d k, (d, some k) ∈ T → d.kind = .del → ∀ x ∈ T.map Prod.fst,
    x.uuid = d.uuid → ¬ d.time < x.time
  sharedNotAfter : ∀ x k, (x, some k) ∈ T → ∀ d ∈ T.map Prod.fst, d.kind = .del →
    d.uuid = x.uuid → ¬ d.time < x.time
  twoDels : ∀ d ∈ T.map Prod.fst, ∀ d' ∈ T.map Prod.fst, ∀ x ∈ T.map Prod.fst, d.kind = .del →
    d'.kind = .del → d.uuid = x.uuid → d'.uuid = x.uuid → d.time < d'.time → ¬ d'.time < x.time

theorem tok_of_good {a b : List Tx} (ha : GoodHistory a) (hb : GoodHistory b) (hs : SameFile a b)
    (i : Nat) : TOk (mt i a b) := by
  have la := life_of_good ha
  have lb := life_of_good hb
  have hm : ∀ x ∈ (mt i a b).map Prod.fst, x ∈ a ∨ x ∈ b := by
    intro x hx
    obtain ⟨p, hp, rfl⟩ := List.mem_map.1 hx
    exact mt_mem _ _ _ p hp
  have hsh : ∀ x k, (x, some k) ∈ mt i a b → x ∈ a ∧ x ∈ b := by
    intro x k h
    obtain ⟨h1, y, h2, h3⟩ := mt_shared _ _ _ _ _ h
    have := hs.ids x h1 y h2 h3.symm
    subst this; exact ⟨h1, h2⟩
  refine ⟨mt_chrono i a b ha.chrono hb.chrono, ?_, ?_, ?_⟩
  · intro d k hd hk x hx hu
    obtain ⟨h1, h2⟩ := hsh d k hd
    rcases hm x hx with h | h
    · exact la.noAfterDel d h1 x h hk hu.symm
    · exact lb.noAfterDel d h2 x h hk hu.symm
  · intro x k hx d hd hk hu
    obtain ⟨h1, h2⟩ := hsh x k hx
    rcases hm d hd with h | h
    · exact la.noAfterDel d h x h1 hk hu
    · exact lb.noAfterDel d h x h2 hk hu
  · intro d hd d' hd' x hx hk hk' hu hu' hlt hlt'
    rcases hm d hd with h | h <;> rcases hm x hx with h' | h' <;> rcases hm d' hd' with h'' | h''
    · exact la.noAfterDel d h x h' hk hu (by omega)
    · exact la.noAfterDel d h x h' hk hu (by omega)
    · exact la.noAfterDel d h d' h'' hk (hu.trans hu'.symm) hlt
    · exact lb.noAfterDel d' h'' x h' hk' hu' hlt'
    · exact la.noAfterDel d' h'' x h' hk' hu' hlt'
    · exact lb.noAfterDel d h d' h'' hk (hu.trans hu'.symm) hlt
    · exact lb.noAfterDel d h x h' hk hu (by omega)
    · exact lb.noAfterDel d h x h' hk hu (by omega)

theorem chrono_time_inj {l : List Tx} (h : Chrono l) {x y : Tx} (hx : x ∈ l) (hy : y ∈ l)
    (ht : x.time = y.time) : x = y := by
  induction l with
  | nil => simp at hx
  | cons z l ih =>
    rw [chrono_cons] at h
    rcases List.mem_cons.1 hx with rfl | hx' <;> rcases List.mem_cons.1 hy with rfl | hy'
    · rfl
    · have := h.1 y hy'; omega
    · have := h.1 x hx'; omega
    · exact ih h.2 hx' hy'

/-! ## The first pass: exactly which conflicts -/

def IsFirstDel (l : List Tx) (d : Tx) : Prop :=
  d ∈ l ∧ d.kind = .del ∧ ∀ d' ∈ l, d'.kind = .del → d'.uuid = d.uuid → d.time ≤ d'.time

theorem isFirstDel_append {P Q : List Tx} {d : Tx} (hc : Chrono (P ++ Q)) (h : IsFirstDel P d) :
    IsFirstDel (P ++ Q) d := by
  refine ⟨by simp [h.1], h.2.1, ?_⟩
  intro d' hd' hk hu
  rcases List.mem_append.1 hd' with h' | h'
  · exact h.2.2 d' h' hk hu
  · unfold Chrono at hc
    rw [List.pairwise_append] at hc
    have := hc.2.2 d h.1 d' h'; omega

theorem isFirstDel_unique {l : List Tx} (hc : Chrono l) {d d' : Tx} (h : IsFirstDel l d)
    (h' : IsFirstDel l d') (hu : d.uuid = d'.uuid) : d = d' := by
  have h1 := h.2.2 d' h'.1 h'.2.1 hu.symm
  have h2 := h'.2.2 d h.1 h.2.1 hu
  exact chrono_time_inj hc h.1 h'.1 (by omega)

theorem exists_firstDel {l : List Tx} {d : Tx} (hc : Chrono l) (hd : d ∈ l) (hk : d.kind = .del) :
    ∃ d0, IsFirstDel l d0 ∧ d0.uuid = d.uuid ∧ d0.time ≤ d.time := by
  induction l with
  | nil => simp at hd
  | cons z l ih =>
    have hc' := hc
    rw [chrono_cons] at hc'
    by_cases hz : z.kind = .del ∧ z.uuid = d.uuid
    · refine ⟨z, ⟨by simp, hz.1, ?_⟩, hz.2, ?_⟩
      · intro d' hd' _ _
        rcases List.mem_cons.1 hd' with rfl | h'
        · omega
        · have := hc'.1 d' h'; omega
      · rcases List.mem_cons.1 hd with rfl | h'
        · omega
        · have := hc'.1 d h'; omega
    · rcases List.mem_cons.1 hd with rfl | hd
      · exact absurd ⟨hk, rfl⟩ hz
      · obtain ⟨d0, h1, h2, h3⟩ := ih hc'.2 hd
        refine ⟨d0, ⟨by simp [h1.1], h1.2.1, ?_⟩, h2, h3⟩
        intro d' hd' hk' hu'
        rcases List.mem_cons.1 hd' with rfl | h'
        · exact absurd ⟨hk', hu'.trans h2⟩ hz
        · exact h1.2.2 d' h' hk' hu'

/-- A recorded delete conflict: the first delete of the entry, and a later one-sided operation on it. -/
structure ConfOk (P : List (Tx × Option Nat)) (con : Conflict) : Prop where
  kind : con.kind = .deleteSet
  res : con.resolution = .none
  first : IsFirstDel (P.map Prod.fst) con.initial
  mem : (con.conflict, none) ∈ P
  uuid : con.conflict.uuid = con.initial.uuid
  later : con.initial.time < con.conflict.time

theorem confOk_append {P : List (Tx × Option Nat)} {q : Tx × Option Nat} {con : Conflict}
    (hc : Chrono ((P ++ [q]).map Prod.fst)) (h : ConfOk P con) : ConfOk (P ++ [q]) con := by
  refine ⟨h.kind, h.res, ?_, by simp [h.mem], h.uuid, h.later⟩
  rw [List.map_append] at hc ⊢
  exact isFirstDel_append hc h.first

structure Inv1 (root : List Conflict) (P : List (Tx × Option Nat)) (st : MState) : Prop where
  inv0 : Inv0 (P.map Prod.fst) st
  idx : ∀ u ind, st.deleted.get? u = some ind →
    (∃ d, st.c[ind]? = some d ∧ IsFirstDel (P.map Prod.fst) d ∧ d.uuid = u) ∨
    (∃ d k, (d, some k) ∈ P ∧ d.kind = .del ∧ d.uuid = u)
  conf : ∃ cs, st.conflicts = root ++ cs ∧ (∀ con ∈ cs, ConfOk P con) ∧
    ∀ x, (x, none) ∈ P → ∀ d, IsFirstDel (P.map Prod.fst) d → d.uuid = x.uuid → d.time < x.time →
      ∃ con ∈ cs, con.initial = d

theorem inv1_step {root : List Conflict} {T P Q : List (Tx × Option Nat)} {p : Tx × Option Nat}
    (hT : TOk T) (hs : T = P ++ p :: Q)
    (hroot : ∀ r ∈ root, r.initial.kind ≠ .del ∧ r.initial ∈ T.map Prod.fst) {st : MState}
    (h : Inv1 root P st) (ht : ∀ k, p.2 = some k → k ≤ P.length) :
    ∃ st', procStep [] st p = some st' ∧ Inv1 root (P ++ [p]) st' := by
  obtain ⟨x, tag⟩ := p
  have hTmap : T.map Prod.fst = P.map Prod.fst ++ x :: Q.map Prod.fst := by simp [hs]
  have hch : Chrono (P.map Prod.fst ++ [x]) := by
    have := hT.chrono
    rw [hTmap] at this
    unfold Chrono at this ⊢
    rw [List.pairwise_append] at this ⊢
    refine ⟨this.1, by simp, ?_⟩
    intro a ha b hb
    simp only [List.mem_singleton] at hb
    subst hb
    exact this.2.2 a ha _ (by simp)
  have hch' : Chrono ((P ++ [(x, tag)]).map Prod.fst) := by simpa using hch
  have hPx : ∀ d ∈ P.map Prod.fst, d.time < x.time := by
    unfold Chrono at hch
    rw [List.pairwise_append] at hch
    exact fun d hd => hch.2.2 d hd x (by simp)
  have hPT : ∀ d ∈ P.map Prod.fst, d ∈ T.map Prod.fst := by
    intro d hd; rw [hTmap]; simp only [List.mem_append]; exact Or.inl hd
  have hxT : x ∈ T.map Prod.fst := by rw [hTmap]; simp
  obtain ⟨st', hst, h0, -, -⟩ := procStep_nil h.inv0 (x, tag) (by simpa using ht)
  refine ⟨st', hst, ?_⟩
  obtain ⟨cs, hcs, hcs1, hcs2⟩ := h.conf
  have h0' : Inv0 ((P ++ [(x, tag)]).map Prod.fst) st' := by simpa using h0
  -- no new one-sided touch
  have conf_same : (tag = none → ∀ d ∈ P.map Prod.fst, d.kind = .del → d.uuid ≠ x.uuid) →
      (∀ con ∈ cs, ConfOk (P ++ [(x, tag)]) con) ∧
      ∀ y, (y, none) ∈ P ++ [(x, tag)] → ∀ d, IsFirstDel ((P ++ [(x, tag)]).map Prod.fst) d →
        d.uuid = y.uuid → d.time < y.time → ∃ con ∈ cs, con.initial = d := by
    intro hno
    refine ⟨fun con hc => confOk_append hch' (hcs1 con hc), ?_⟩
    intro y hy d hd hu hlt
    have hdP : d ∈ P.map Prod.fst ∨ d = x := by
      have := hd.1; simp only [List.map_append, List.mem_append] at this
      rcases this with h | h
      · exact Or.inl h
      · right; simpa using h
    rcases List.mem_append.1 hy with hy | hy
    · have hyP : y ∈ P.map Prod.fst := List.mem_map.2 ⟨_, hy, rfl⟩
      rcases hdP with hdP | rfl
      · refine hcs2 y hy d ⟨hdP, hd.2.1, ?_⟩ hu hlt
        intro d' hd' hk hu'
        exact hd.2.2 d' (by rw [List.map_append]; exact List.mem_append_left _ hd') hk hu'
      · have := hPx y hyP; omega
    · simp only [List.mem_singleton, Prod.mk.injEq] at hy
      obtain ⟨rfl, rfl⟩ := hy
      rcases hdP with hdP | rfl
      · exact absurd hu (hno rfl d hdP hd.2.1)
      · omega
  cases tag with
  | some k =>
    simp only [procStep, Option.some.injEq] at hst
    subst hst
    obtain ⟨c1, c2⟩ := conf_same (by simp)
    refine ⟨h0', ?_, cs, hcs, c1, c2⟩
    intro u ind hg
    by_cases hdel : x.kind = .del ∧ u = x.uuid
    · right; exact ⟨x, k, by simp, hdel.1, hdel.2.symm⟩
    · have hg' : st.deleted.get? u = some ind := by
        by_cases hk : x.kind = .del
        · have hu : u ≠ x.uuid := fun hu => hdel ⟨hk, hu⟩
          simpa [hk, GoMap.get?_set, hu] using hg
        · simpa [hk] using hg
      rcases h.idx u ind hg' with ⟨d, h1, h2, h3⟩ | ⟨d, k', h1, h2, h3⟩
      · left
        refine ⟨d, ?_, ?_, h3⟩
        · have hl := h.inv0.lt u ind hg'
          simp only [List.getElem?_append_left hl, h1]
        · rw [List.map_append]; exact isFirstDel_append hch h2
      · right; exact ⟨d, k', by simp [h1], h2, h3⟩
  | none =>
    simp only [procStep, checkConflict, MState.push, List.getLast?_append, List.getLast?_singleton,
      Option.some_or] at hst
    cases hg : st.deleted.get? x.uuid with
    | none =>
      have hno := (h.inv0.none_iff x.uuid).1 hg
      obtain ⟨c1, c2⟩ := conf_same (fun _ => hno)
      simp only [hg] at hst
      by_cases hk : x.kind = .del
      · simp only [hk, ne_eq, not_true_eq_false, if_false, List.any_nil, Bool.false_eq_true,
          Option.some.injEq] at hst
        subst hst
        refine ⟨h0', ?_, cs, hcs, c1, c2⟩
        intro u ind hgu
        simp only [GoMap.get?_set] at hgu
        by_cases hu : u = x.uuid
        · left
          simp only [hu, if_true, Option.some.injEq] at hgu
          refine ⟨x, ?_, ?_, hu.symm⟩
          · subst hgu; simp
          · refine ⟨by simp, hk, ?_⟩
            intro d' hd' hk' hu'
            simp only [List.map_append, List.mem_append] at hd'
            rcases hd' with hd' | hd'
            · exact absurd hu' (hno d' hd' hk')
            · simp at hd'; subst hd'; omega
        · simp only [hu, if_false] at hgu
          rcases h.idx u ind hgu with ⟨d, h1, h2, h3⟩ | ⟨d, k', h1, h2, h3⟩
          · left
            refine ⟨d, ?_, ?_, h3⟩
            · have hl := h.inv0.lt u ind hgu
              simp only [List.getElem?_append_left hl, h1]
            · rw [List.map_append]; exact isFirstDel_append hch h2
          · right; exact ⟨d, k', by simp [h1], h2, h3⟩
      · simp only [ne_eq, hk, not_false_eq_true, if_true, Option.some.injEq] at hst
        subst hst
        refine ⟨h0', ?_, cs, hcs, c1, c2⟩
        intro u ind hgu
        rcases h.idx u ind hgu with ⟨d, h1, h2, h3⟩ | ⟨d, k', h1, h2, h3⟩
        · left
          refine ⟨d, ?_, ?_, h3⟩
          · have hl := h.inv0.lt u ind hgu
            simp only [List.getElem?_append_left hl, h1]
          · rw [List.map_append]; exact isFirstDel_append hch h2
        · right; exact ⟨d, k', by simp [h1], h2, h3⟩
    | some ind =>
      have hlt := h.inv0.lt _ _ hg
      rcases h.idx _ _ hg with ⟨d, hd1, hd2, hd3⟩ | ⟨d, k', h1, h2, h3⟩
      · have hget : (st.c ++ [x])[ind]? = some d := by rw [List.getElem?_append_left hlt, hd1]
        simp only [hg, hget, List.find?_nil] at hst
        have hidx : ∀ u i, st.deleted.get? u = some i →
            (∃ d, (st.c ++ [x])[i]? = some d ∧
              IsFirstDel ((P ++ [(x, (none : Option Nat))]).map Prod.fst) d ∧ d.uuid = u) ∨
            (∃ d k, (d, some k) ∈ P ++ [(x, none)] ∧ d.kind = .del ∧ d.uuid = u) := by
          intro u i hgu
          rcases h.idx u i hgu with ⟨d, h1, h2, h3⟩ | ⟨d, k', h1, h2, h3⟩
          · left
            refine ⟨d, ?_, ?_, h3⟩
            · have hl := h.inv0.lt u i hgu
              rw [List.getElem?_append_left hl, h1]
            · rw [List.map_append]; exact isFirstDel_append hch h2
          · right; exact ⟨d, k', by simp [h1], h2, h3⟩
        have hdT := hPT d hd2.1
        -- the required conflict exists after this step, given it is d's
        have comp : ∀ cs' : List Conflict, (∀ c ∈ cs, c ∈ cs') → (∃ con ∈ cs', con.initial = d) →
            ∀ y, (y, none) ∈ P ++ [(x, (none : Option Nat))] →
            ∀ d', IsFirstDel ((P ++ [(x, (none : Option Nat))]).map Prod.fst) d' →
              d'.uuid = y.uuid → d'.time < y.time → ∃ con ∈ cs', con.initial = d' := by
          intro cs' hsub hex y hy d' hd' hu hltt
          have hdfirst : IsFirstDel ((P ++ [(x, (none : Option Nat))]).map Prod.fst) d := by
            rw [List.map_append]; exact isFirstDel_append hch hd2
          rcases List.mem_append.1 hy with hy | hy
          · have hyP : y ∈ P.map Prod.fst := List.mem_map.2 ⟨_, hy, rfl⟩
            have hd'P : d' ∈ P.map Prod.fst := by
              have := hd'.1; simp only [List.map_append, List.mem_append] at this
              rcases this with h | h
              · exact h
              · simp at h; subst h; have := hPx y hyP; omega
            obtain ⟨con, hc1, hc2⟩ := hcs2 y hy d' ⟨hd'P, hd'.2.1, fun d'' h1 h2 h3 =>
              hd'.2.2 d'' (by rw [List.map_append]; exact List.mem_append_left _ h1) h2 h3⟩ hu hltt
            exact ⟨con, hsub con hc1, hc2⟩
          · simp only [List.mem_singleton, Prod.mk.injEq, and_true] at hy
            subst hy
            have : d' = d := isFirstDel_unique hch' hd' hdfirst (hu.trans hd3.symm)
            subst this; exact hex
        by_cases hany : (st.conflicts.any fun r => decide (r.initial.time = d.time)) = true
        · simp only [hany, if_true, Option.some.injEq] at hst
          subst hst
          refine ⟨h0', hidx, cs, hcs, fun con hc => confOk_append hch' (hcs1 con hc), ?_⟩
          refine comp cs (fun c hc => hc) ?_
          rw [List.any_eq_true] at hany
          obtain ⟨con, hc, hct⟩ := hany
          simp only [decide_eq_true_eq] at hct
          rw [hcs] at hc
          rcases List.mem_append.1 hc with hc | hc
          · obtain ⟨r1, r2⟩ := hroot con hc
            have := chrono_time_inj hT.chrono r2 hdT hct
            rw [this] at r1
            exact absurd hd2.2.1 r1
          · have := chrono_time_inj hT.chrono (hPT _ (hcs1 con hc).first.1) hdT hct
            exact ⟨con, hc, this⟩
        · simp only [hany, if_false, Option.some.injEq, Bool.false_eq_true] at hst
          subst hst
          refine ⟨h0', hidx, cs ++ [{ kind := .deleteSet, initial := d, conflict := x }],
            by simp [hcs], ?_, comp _ (fun c hc => by simp [hc])
              ⟨{ kind := .deleteSet, initial := d, conflict := x }, by simp, rfl⟩⟩
          intro con hc
          rcases List.mem_append.1 hc with hc | hc
          · exact confOk_append hch' (hcs1 con hc)
          · simp only [List.mem_singleton] at hc
            subst hc
            refine ⟨rfl, rfl, ?_, by simp, hd3.symm, hPx d hd2.1⟩
            rw [List.map_append]; exact isFirstDel_append hch hd2
      · exfalso
        have hdP : d ∈ P.map Prod.fst := List.mem_map.2 ⟨_, h1, rfl⟩
        exact hT.noAfterShared d k' (by rw [hs]; simp [h1]) h2 x hxT h3.symm (hPx d hdP)

theorem inv1_proc {root : List Conflict} {T : List (Tx × Option Nat)}
    (hT : TOk T) (hroot : ∀ r ∈ root, r.initial.kind ≠ .del ∧ r.initial ∈ T.map Prod.fst)
    (Q P : List (Tx × Option Nat)) (hs : T = P ++ Q) {st : MState} (h : Inv1 root P st)
    (ht : TagsOk P.length Q) :
    ∃ st', proc [] Q st = some st' ∧ Inv1 root T st' := by
  induction Q generalizing P st with
  | nil => simp at hs; subst hs; exact ⟨st, rfl, h⟩
  | cons p Q ih =>
    obtain ⟨st1, h1, h2⟩ := inv1_step hT hs hroot h ht.1
    obtain ⟨st2, h3, h4⟩ := ih (P ++ [p]) (by simp [hs]) h2 (by simpa using ht.2)
    exact ⟨st2, by simp only [proc, h1, h3], h4⟩

/-! ## The second pass: with all conflicts resolved -/

structure ROk (T : List (Tx × Option Nat)) (R : List Conflict) : Prop where
  root : ∀ r ∈ R, r.kind = .root →
    r.resolution = .force ∧ r.initial.kind ≠ .del ∧ r.initial ∈ T.map Prod.fst
  res : ∀ r ∈ R, r.kind = .deleteSet →
    (r.resolution = .discardInitial ∨ r.resolution = .discardConflict) ∧
    IsFirstDel (T.map Prod.fst) r.initial ∧
    ∃ x, (x, none) ∈ T ∧ x.uuid = r.initial.uuid ∧ r.initial.time < x.time
  fn : ∀ r ∈ R, ∀ r' ∈ R, r.kind = .deleteSet → r'.kind = .deleteSet → r.initial = r'.initial →
    r.resolution = r'.resolution
  complete : ∀ x, (x, none) ∈ T → ∀ d, IsFirstDel (T.map Prod.fst) d → d.uuid = x.uuid →
    d.time < x.time → ∃ r ∈ R, r.kind = .deleteSet ∧ r.initial = d

/-- Dropped by the chosen resolutions. -/
def Dropped (R : List Conflict) (t : Tx) : Prop :=
  ∃ r ∈ R, r.kind = .deleteSet ∧
    ((r.resolution = .discardInitial ∧ t = r.initial) ∨
     (r.resolution = .discardConflict ∧ t.uuid = r.initial.uuid ∧ r.initial.time < t.time))

instance (R : List Conflict) (t : Tx) : Decidable (Dropped R t) := by
  unfold Dropped; infer_instance

structure Inv2 (R : List Conflict) (P : List (Tx × Option Nat)) (st : MState) : Prop where
  c : st.c = (P.map Prod.fst).filter (fun t => ¬ Dropped R t)
  conf : st.conflicts = []
  idx : ∀ u ind, st.deleted.get? u = some ind →
    (∃ d, st.c[ind]? = some d ∧ d.kind = .del ∧ d.uuid = u) ∨
    (∃ d k, (d, some k) ∈ P ∧ d.kind = .del ∧ d.uuid = u)
  marked : ∀ d ∈ st.c, d.kind = .del → st.deleted.get? d.uuid ≠ none

theorem inv2_step {R : List Conflict} {T P Q : List (Tx × Option Nat)} {p : Tx × Option Nat}
    (hT : TOk T) (hR : ROk T R) (hs : T = P ++ p :: Q) {st : MState}
    (h : Inv2 R P st) :
    ∃ st', procStep R st p = some st' ∧ Inv2 R (P ++ [p]) st' := by
  obtain ⟨x, tag⟩ := p
  have hTmap : T.map Prod.fst = P.map Prod.fst ++ x :: Q.map Prod.fst := by simp [hs]
  have hchT := hT.chrono
  have hPx : ∀ d ∈ P.map Prod.fst, d.time < x.time := by
    have := hT.chrono
    rw [hTmap] at this
    unfold Chrono at this
    rw [List.pairwise_append] at this
    exact fun d hd => this.2.2 d hd x (by simp)
  have hTP : ∀ d ∈ T.map Prod.fst, d.time < x.time → d ∈ P.map Prod.fst := by
    intro d hd hlt
    rw [hTmap] at hd hchT
    rcases List.mem_append.1 hd with h | h
    · exact h
    · exfalso
      unfold Chrono at hchT
      rw [List.pairwise_append, List.pairwise_cons] at hchT
      rcases List.mem_cons.1 h with rfl | h
      · omega
      · have := hchT.2.1.1 d h; omega
  have hxT : x ∈ T.map Prod.fst := by rw [hTmap]; simp
  have hcP : ∀ d, d ∈ st.c ↔ d ∈ P.map Prod.fst ∧ ¬ Dropped R d := by
    intro d; rw [h.c]; simp
  have hPT : ∀ d ∈ P.map Prod.fst, d ∈ T.map Prod.fst := by
    intro d hd; rw [hTmap]; exact List.mem_append_left _ hd
  -- the first delete of an entry is dropped only by discardInitial
  have hinit : ∀ r ∈ R, r.kind = .deleteSet → r.resolution = .discardConflict →
      ¬ Dropped R r.initial := by
    rintro r hr hk hres ⟨r', hr', hk', ⟨h1, h2⟩ | ⟨h1, h2, h3⟩⟩
    · have := hR.fn r hr r' hr' hk hk' h2
      rw [hres, h1] at this; cases this
    · have hf := (hR.res r hr hk).2.1
      have hf' := (hR.res r' hr' hk').2.1
      have := isFirstDel_unique hT.chrono hf hf' h2
      rw [this] at h3; omega
  -- if x comes after a kept-delete resolution then its delete is marked
  have hlate : ∀ r ∈ R, r.kind = .deleteSet → r.resolution = .discardConflict →
      x.uuid = r.initial.uuid → r.initial.time < x.time → st.deleted.get? x.uuid ≠ none := by
    intro r hr hk hres hu hlt
    have hf := (hR.res r hr hk).2.1
    have hin : r.initial ∈ st.c := (hcP _).2 ⟨hTP _ hf.1 hlt, hinit r hr hk hres⟩
    rw [hu]
    exact h.marked _ hin hf.2.1
  have keepc : ¬ Dropped R x → st.c ++ [x] =
      ((P ++ [(x, tag)]).map Prod.fst).filter (fun t => ¬ Dropped R t) := by
    intro hk; rw [h.c]; simp [List.filter_append, hk]
  have dropc : Dropped R x → st.c =
      ((P ++ [(x, tag)]).map Prod.fst).filter (fun t => ¬ Dropped R t) := by
    intro hk; rw [h.c]; simp [List.filter_append, hk]
  have idxpush : ∀ u ind, st.deleted.get? u = some ind →
      (∃ d, (st.c ++ [x])[ind]? = some d ∧ d.kind = .del ∧ d.uuid = u) ∨
      (∃ d k, (d, some k) ∈ P ++ [(x, tag)] ∧ d.kind = .del ∧ d.uuid = u) := by
    intro u ind hg
    rcases h.idx u ind hg with ⟨d, h1, h2, h3⟩ | ⟨d, k, h1, h2, h3⟩
    · left
      have hl : ind < st.c.length := by
        rw [List.getElem?_eq_some_iff] at h1; exact h1.1
      exact ⟨d, by rw [List.getElem?_append_left hl, h1], h2, h3⟩
    · right; exact ⟨d, k, by simp [h1], h2, h3⟩
  have idxsame : ∀ u ind, st.deleted.get? u = some ind →
      (∃ d, st.c[ind]? = some d ∧ d.kind = .del ∧ d.uuid = u) ∨
      (∃ d k, (d, some k) ∈ P ++ [(x, tag)] ∧ d.kind = .del ∧ d.uuid = u) := by
    intro u ind hg
    rcases h.idx u ind hg with h1 | ⟨d, k, h1, h2, h3⟩
    · exact Or.inl h1
    · right; exact ⟨d, k, by simp [h1], h2, h3⟩
  cases tag with
  | some k =>
    have hkeep : ¬ Dropped R x := by
      rintro ⟨r, hr, hk, ⟨h1, h2⟩ | ⟨h1, h2, h3⟩⟩
      · obtain ⟨-, hf, y, hy, hyu, hlt⟩ := hR.res r hr hk
        rw [← h2] at hf hlt hyu
        exact hT.noAfterShared x k (by rw [hs]; simp) hf.2.1 y
          (List.mem_map.2 ⟨_, hy, rfl⟩) hyu hlt
      · have hf := (hR.res r hr hk).2.1
        exact hT.sharedNotAfter x k (by rw [hs]; simp) r.initial hf.1 hf.2.1 h2.symm h3
    refine ⟨_, rfl, ⟨keepc hkeep, h.conf, ?_, ?_⟩⟩
    · intro u ind hg
      by_cases hdel : x.kind = .del ∧ u = x.uuid
      · right; exact ⟨x, k, by simp, hdel.1, hdel.2.symm⟩
      · refine idxpush u ind ?_
        by_cases hk : x.kind = .del
        · have hu : u ≠ x.uuid := fun hu => hdel ⟨hk, hu⟩
          simpa [hk, GoMap.get?_set, hu] using hg
        · simpa [hk] using hg
    · intro d hd hk
      simp only [List.mem_append, List.mem_singleton] at hd
      rcases hd with hd | rfl
      · split
        · rw [GoMap.get?_set]; split
          · simp
          · exact h.marked d hd hk
        · exact h.marked d hd hk
      · simp [hk]
  | none =>
    simp only [procStep, checkConflict, MState.push, List.getLast?_append, List.getLast?_singleton,
      Option.some_or, List.dropLast_concat]
    cases hg : st.deleted.get? x.uuid with
    | none =>
      have hno2 : ¬ ∃ r ∈ R, r.kind = .deleteSet ∧ r.resolution = .discardConflict ∧
          x.uuid = r.initial.uuid ∧ r.initial.time < x.time := by
        rintro ⟨r, hr, h1, h2, h3, h4⟩
        exact hlate r hr h1 h2 h3 h4 hg
      by_cases hk : x.kind = .del
      · simp only [hk, ne_eq, not_true_eq_false, if_false]
        by_cases hany : (R.any fun r => decide (r.initial.time = x.time) &&
            decide (r.resolution = .discardInitial)) = true
        · simp only [hany, if_true]
          have hdrop : Dropped R x := by
            rw [List.any_eq_true] at hany
            obtain ⟨r, hr, hh⟩ := hany
            simp only [Bool.and_eq_true, decide_eq_true_eq] at hh
            cases hrk : r.kind with
            | root => have := (hR.root r hr hrk).1; rw [this] at hh; simp at hh
            | deleteSet =>
              have hf := (hR.res r hr hrk).2.1
              exact ⟨r, hr, hrk, Or.inl ⟨hh.2, (chrono_time_inj hT.chrono hf.1 hxT hh.1).symm⟩⟩
          exact ⟨_, rfl, ⟨dropc hdrop, h.conf, idxsame, h.marked⟩⟩
        · simp only [hany, if_false, Bool.false_eq_true]
          have hkeep : ¬ Dropped R x := by
            rintro ⟨r, hr, hk', ⟨h1, h2⟩ | ⟨h1, h2, h3⟩⟩
            · apply hany
              rw [List.any_eq_true]
              exact ⟨r, hr, by simp [h1, h2]⟩
            · exact hno2 ⟨r, hr, hk', h1, h2, h3⟩
          refine ⟨_, rfl, ⟨keepc hkeep, h.conf, ?_, ?_⟩⟩
          · intro u ind hgu
            simp only [GoMap.get?_set] at hgu
            by_cases hu : u = x.uuid
            · left
              simp only [hu, if_true, Option.some.injEq] at hgu
              refine ⟨x, ?_, hk, hu.symm⟩
              subst hgu; simp
            · simp only [hu, if_false] at hgu
              exact idxpush u ind hgu
          · intro d hd hk'
            simp only [List.mem_append, List.mem_singleton] at hd
            rw [GoMap.get?_set]
            rcases hd with hd | rfl
            · split
              · simp
              · exact h.marked d hd hk'
            · simp
      · simp only [ne_eq, hk, not_false_eq_true, if_true]
        have hkeep : ¬ Dropped R x := by
          rintro ⟨r, hr, hk', ⟨h1, h2⟩ | ⟨h1, h2, h3⟩⟩
          · rw [h2] at hk; exact hk (hR.res r hr hk').2.1.2.1
          · exact hno2 ⟨r, hr, hk', h1, h2, h3⟩
        refine ⟨_, rfl, ⟨keepc hkeep, h.conf, idxpush, ?_⟩⟩
        intro d hd hk'
        simp only [List.mem_append, List.mem_singleton] at hd
        rcases hd with hd | rfl
        · exact h.marked d hd hk'
        · exact absurd hk' hk
    | some ind =>
      rcases h.idx _ _ hg with ⟨d, hd1, hd2, hd3⟩ | ⟨d, k', h1, h2, h3⟩
      · have hl : ind < st.c.length := by
          rw [List.getElem?_eq_some_iff] at hd1; exact hd1.1
        have hget : (st.c ++ [x])[ind]? = some d := by rw [List.getElem?_append_left hl, hd1]
        have hdc : d ∈ st.c := List.mem_of_getElem? hd1
        obtain ⟨hdP, hdk⟩ := (hcP d).1 hdc
        have hdT := hPT d hdP
        have hlt := hPx d hdP
        -- d is the first delete
        obtain ⟨d0, hf0, hu0, hle0⟩ := exists_firstDel hT.chrono hdT hd2
        have hd0 : d0 = d := by
          by_cases he : d0.time = d.time
          · exact chrono_time_inj hT.chrono hf0.1 hdT he
          · exfalso
            exact hT.twoDels d0 hf0.1 d hdT x hxT hf0.2.1 hd2 (hu0.trans hd3) hd3 (by omega) hlt
        subst hd0
        obtain ⟨r0, hr0, hrk0, hri0⟩ := hR.complete x (by rw [hs]; simp) d0 hf0 hd3 hlt
        cases hfind : R.find? (fun r => decide (r.initial.time = d0.time)) with
        | none =>
          rw [List.find?_eq_none] at hfind
          have := hfind r0 hr0
          simp [hri0] at this
        | some r =>
          have hrR := List.mem_of_find?_eq_some hfind
          have hrt := List.find?_some hfind
          simp only [decide_eq_true_eq] at hrt
          have hrk : r.kind = .deleteSet := by
            cases hrk : r.kind with
            | deleteSet => rfl
            | root =>
              obtain ⟨h1, h2, h3⟩ := hR.root r hrR hrk
              have := chrono_time_inj hT.chrono h3 hdT hrt
              rw [this] at h2; exact absurd hd2 h2
          have hri : r.initial = d0 :=
            chrono_time_inj hT.chrono (hR.res r hrR hrk).2.1.1 hdT hrt
          have hres : r.resolution = .discardConflict := by
            rcases (hR.res r hrR hrk).1 with h1 | h1
            · exact absurd ⟨r, hrR, hrk, Or.inl ⟨h1, hri.symm⟩⟩ hdk
            · exact h1
          have hdrop : Dropped R x := ⟨r, hrR, hrk, Or.inr ⟨hres, by rw [hri]; exact hd3.symm,
            by rw [hri]; exact hlt⟩⟩
          simp only [hget, hfind, hres, ne_eq, not_true_eq_false, if_false]
          exact ⟨_, rfl, ⟨dropc hdrop, h.conf, idxsame, h.marked⟩⟩
      · exfalso
        have hdP : d ∈ P.map Prod.fst := List.mem_map.2 ⟨_, h1, rfl⟩
        exact hT.noAfterShared d k' (by rw [hs]; simp [h1]) h2 x hxT h3.symm (hPx d hdP)

theorem inv2_proc {R : List Conflict} {T : List (Tx × Option Nat)} (hT : TOk T) (hR : ROk T R)
    (Q P : List (Tx × Option Nat)) (hs : T = P ++ Q) {st : MState} (h : Inv2 R P st) :
    ∃ st', proc R Q st = some st' ∧ Inv2 R T st' := by
  induction Q generalizing P st with
  | nil => simp at hs; subst hs; exact ⟨st, rfl, h⟩
  | cons p Q ih =>
    obtain ⟨st1, h1, h2⟩ := inv2_step hT hR hs h
    obtain ⟨st2, h3, h4⟩ := ih (P ++ [p]) (by simp [hs]) h2
    exact ⟨st2, by simp only [proc, h1, h3], h4⟩

/-! ## Visibility in a good history -/

theorem present_noadd (u : Str) (f : List Tx) (hf : ∀ t ∈ f, t.uuid = u ∧ t.kind ≠ .add)
    (st st' : Spec.State) (h : meaning st f = some st') :
    (st' u).isSome = ((st u).isSome && f.all (fun t => t.kind ≠ .del)) := by
  induction f generalizing st with
  | nil => simp [meaning] at h; subst h; simp
  | cons x f ih =>
    obtain ⟨hx, hka⟩ := hf x (by simp)
    have hf' : ∀ t ∈ f, t.uuid = u ∧ t.kind ≠ .add := fun t ht => hf t (by simp [ht])
    subst hx
    simp only [meaning] at h
    cases hap : Spec.apply st x with
    | none => simp [hap] at h
    | some s1 =>
      simp only [hap] at h
      rw [ih hf' s1 h]
      unfold Spec.apply at hap
      cases hk : x.kind <;> cases hg : st x.uuid <;> simp [hk, hg] at hap <;>
        first | (exact absurd hk hka) | (subst hap; simp [Spec.upd, hk, hg])

theorem visible_iff {l : List Tx} (h : GoodHistory l) {st : Spec.State}
    (hm : meaning Spec.empty l = some st) (u : Str) :
    (st u).isSome = true ↔ (∃ x ∈ l, x.uuid = u) ∧ ∀ d ∈ l, d.uuid = u → d.kind ≠ .del := by
  obtain ⟨st2, h1, h2⟩ := meaning_filter (u := u) (st2 := Spec.empty) rfl hm
  have hl := life_of_good h
  rw [h2]
  have hu : ∀ t, t ∈ l.filter (fun t => t.uuid = u) ↔ t ∈ l ∧ t.uuid = u := by simp
  have hcf := chrono_filter h.chrono (fun t => t.uuid = u)
  generalize hf : l.filter (fun t => t.uuid = u) = f at *
  cases f with
  | nil =>
    simp [meaning] at h1; subst h1
    simp only [Spec.empty, Option.isSome_none, Bool.false_eq_true, false_iff]
    rintro ⟨⟨x, hx, hxu⟩, -⟩
    have := (hu x).2 ⟨hx, hxu⟩; simp at this
  | cons x r =>
    rw [chrono_cons] at hcf
    have hx := (hu x).1 (by simp)
    have hxa : x.kind = .add := by
      by_cases hk : x.kind = .add
      · exact hk
      · obtain ⟨y, y1, y2, y3, y4⟩ := hl.addFirst x hx.1 hk
        rcases List.mem_cons.1 ((hu y).2 ⟨y1, y3.trans hx.2⟩) with rfl | hy
        · omega
        · have := hcf.1 y hy; omega
    have hna : ∀ t ∈ r, t.uuid = u ∧ t.kind ≠ .add := by
      intro t ht
      have h2 := (hu t).1 (by simp [ht])
      refine ⟨h2.2, fun hta => ?_⟩
      have := hl.addsOnce x hx.1 t h2.1 hxa hta (hx.2.trans h2.2.symm)
      subst this
      have := hcf.1 x ht; omega
    simp only [meaning, Spec.apply, hxa, Spec.empty] at h1
    rw [present_noadd u r hna _ _ h1]
    simp only [Spec.upd, hx.2, if_true, Option.isSome_some, Bool.true_and, List.all_eq_true,
      decide_eq_true_eq]
    constructor
    · intro hh
      refine ⟨⟨x, hx⟩, ?_⟩
      intro d hd hdu
      rcases List.mem_cons.1 ((hu d).2 ⟨hd, hdu⟩) with rfl | hd'
      · simp [hxa]
      · exact hh d hd'
    · rintro ⟨-, hh⟩ d hd
      have := (hu d).1 (by simp [hd])
      exact hh d this.1 this.2

end Verif.Txlogs
