import Verif.App.FieldsSpec
import Verif.App.LockoutLemmas
import Verif.App.HistoryProps
import Verif.App.FleetInv
import Verif.App.FleetTextLemmas
/-!
# What a file says after `sync`: C96, and C66, C76, C77 with `sync`
-/
set_option linter.unusedSimpArgs false
namespace Verif.App
open Verif Verif.Txlogs Verif.Blob Verif.Crypt Verif.App.Spec
open Verif.Txlogs.Spec (GoodHistory Replays KnownKinds AddsOnce)

/-! ## One history -/

/-- In a good history an entry is there if it was added and not deleted. -/
theorem lives_iff {l : List Tx} (h : GoodHistory l) {st : Txlogs.Spec.State} (hm : Spec.meaning Spec.empty l = some st) (w : Str) :
    (st w).isSome = true ↔ Lives (· ∈ l) w := by
  constructor
  · intro hs
    rcases visible_added l _ st hm hs with h1 | ⟨z, hz, hzk, hzu⟩
    · cases h1
    · refine ⟨⟨z, hz, hzk, hzu⟩, ?_⟩
      rintro ⟨t, ht, htk, htu⟩
      obtain ⟨a, b, rfl⟩ := List.append_of_mem ht
      rw [meaning_append] at hm
      cases hma : Spec.meaning Spec.empty a with
      | none => rw [hma] at hm; cases hm
      | some st1 =>
        rw [hma] at hm
        simp only [Option.bind_some, Spec.meaning] at hm
        cases hap : Spec.apply st1 t with
        | none => rw [hap] at hm; cases hm
        | some st2 =>
          rw [hap] at hm
          unfold Spec.apply at hap
          rw [htk, htu] at hap
          cases hst : st1 w with
          | none => rw [hst] at hap; cases hap
          | some e1 =>
            rw [hst] at hap
            simp only [Option.some.injEq] at hap
            have hadd : ∀ t' ∈ b, t'.kind = .add → t'.uuid ≠ w := by
              intro t' ht' hk' hu'
              rcases visible_added a _ st1 hma (by rw [hst]; rfl) with h1 | ⟨y, hy, hyk, hyu⟩
              · cases h1
              · have := h.addsOnce y (by simp [hy]) t' (by simp [ht']) hyk hk' (hyu.trans hu'.symm)
                subst this
                exact chrono_nodup (a := a) (b := t :: b) h.chrono hy (by simp [ht'])
            rw [absent_stays b st2 st hm (by rw [← hap]; simp [Spec.upd]) hadd] at hs
            cases hs
  · rintro ⟨⟨t, ht, htk, htu⟩, hd⟩
    obtain ⟨a, b, rfl⟩ := List.append_of_mem ht
    rw [meaning_append] at hm
    cases hma : Spec.meaning Spec.empty a with
    | none => rw [hma] at hm; cases hm
    | some st1 =>
      rw [hma] at hm
      simp only [Option.bind_some, Spec.meaning] at hm
      cases hap : Spec.apply st1 t with
      | none => rw [hap] at hm; cases hm
      | some st2 =>
        rw [hap] at hm
        have h2 : (st2 w).isSome = true := by
          unfold Spec.apply at hap
          rw [htk, htu] at hap
          cases hst : st1 w with
          | some e1 => rw [hst] at hap; cases hap
          | none =>
            rw [hst] at hap
            simp only [Option.some.injEq] at hap
            rw [← hap]; simp [Spec.upd]
        clear hap hma
        have hd' : ∀ t ∈ b, t.kind = .del → t.uuid ≠ w := fun t ht hk hu => hd ⟨t, by simp [ht], hk, hu⟩
        clear h hd ht
        induction b generalizing st2 with
        | nil => cases hm; exact h2
        | cons x b ih =>
          simp only [Spec.meaning] at hm
          cases hx : Spec.apply st2 x with
          | none => rw [hx] at hm; cases hm
          | some st3 =>
            rw [hx] at hm
            refine ih st3 hm ?_ fun t ht => hd' t (by simp [ht])
            by_cases hxu : x.uuid = w
            · unfold Spec.apply at hx
              have hne := hd' x (by simp)
              subst hxu
              obtain ⟨e, he⟩ := Option.isSome_iff_exists.1 h2
              cases hk : x.kind <;> rw [hk, he] at hx <;> simp only [Option.some.injEq, reduceCtorEq] at hx
              · exact absurd rfl (hne hk)
              · rw [← hx]; simp [Spec.upd]
              · rw [← hx]; simp [Spec.upd]
              · rw [← hx]; exact h2
            · rw [apply_other hxu hx]; exact h2

theorem last_such (p : Tx → Prop) : ∀ l : List Tx, (∃ t ∈ l, p t) → ∃ a t b, l = a ++ t :: b ∧ p t ∧ ∀ x ∈ b, ¬ p x := by
  intro l
  induction l with
  | nil => rintro ⟨t, h, -⟩; cases h
  | cons y l ih =>
    rintro ⟨t, ht, hp⟩
    by_cases h : ∃ t ∈ l, p t
    · obtain ⟨a, t, b, rfl, h1, h2⟩ := ih h
      exact ⟨y :: a, t, b, rfl, h1, h2⟩
    · rcases List.mem_cons.1 ht with rfl | ht
      · exact ⟨[], t, l, rfl, hp, fun x hx hpx => h ⟨x, hx, hpx⟩⟩
      · exact absurd ⟨t, ht, hp⟩ h

/-- In a good history a field holds what was written last. -/
theorem says_good {l : List Tx} (h : GoodHistory l) {st : Txlogs.Spec.State} (hm : Spec.meaning Spec.empty l = some st) {w : Str}
    {e : Str → Option Str} (he : st w = some e) (k : Str) : Says (· ∈ l) w k (e k) := by
  -- what comes after a point where the entry is there does not add it again
  have hadd : ∀ a t b st1 e1, l = a ++ t :: b → Spec.meaning Spec.empty a = some st1 → (st1 w = some e1 ∨ t.kind = .add ∧ t.uuid = w) →
      ∀ t' ∈ b, t'.kind = .add → t'.uuid ≠ w := by
    rintro a t b st1 e1 rfl hma hst t' ht' htk htu
    rcases hst with hst | ⟨hk, hu⟩
    · rcases visible_added a _ st1 hma (by rw [hst]; rfl) with h1 | ⟨z, hz, hzk, hzu⟩
      · cases h1
      · have := h.addsOnce z (by simp [hz]) t' (by simp [ht']) hzk htk (hzu.trans htu.symm)
        subst this
        exact chrono_nodup (a := a) (b := t :: b) h.chrono hz (by simp [ht'])
    · have := h.addsOnce t (by simp) t' (by simp [ht']) hk htk (hu.trans htu.symm)
      subst this
      exact chrono_nodup (a := a ++ [t]) (b := b) (by simpa using h.chrono) (by simp) ht'
  by_cases hw : ∃ t ∈ l, Writes w k t
  · obtain ⟨a, t, b, hl, ht, hb⟩ := last_such (Writes w k) l hw
    have hlast : LastWrite (· ∈ l) w k t := by
      refine ⟨by simp [hl], ht, fun t' h1 h2 => ?_⟩
      rw [hl] at h1
      rcases List.mem_append.1 h1 with h1 | h1
      · have := (List.pairwise_append.1 (hl ▸ h.chrono)).2.2 t' h1 t (by simp)
        exact .inr this
      · rcases List.mem_cons.1 h1 with h1 | h1
        · exact .inl h1
        · exact absurd h2 (hb t' h1)
    have hval : e k = if t.kind = .setk then some t.value else none := by
      have hm' := hm
      rw [hl, meaning_append] at hm'
      cases hma : Spec.meaning Spec.empty a with
      | none => rw [hma] at hm'; cases hm'
      | some st1 =>
        rw [hma] at hm'
        simp only [Option.bind_some, Spec.meaning] at hm'
        cases hap : Spec.apply st1 t with
        | none => rw [hap] at hm'; cases hm'
        | some st2 =>
          rw [hap] at hm'
          obtain ⟨hk, hu, hkey⟩ := ht
          unfold Spec.apply at hap
          cases hst : st1 w with
          | none => rcases hk with hk | hk <;> rw [hk, hu, hst] at hap <;> cases hap
          | some e1 =>
            have hno := hadd a t b st1 e1 hl hma (.inl hst)
            have hb' : ∀ t ∈ b, t.kind = .setk ∨ t.kind = .delk → t.uuid = w → t.key ≠ k := fun t ht h1 h2 h3 => hb t ht ⟨h1, h2, h3⟩
            rcases hk with hk | hk <;> rw [hk, hu, hst] at hap <;> simp only [Option.some.injEq] at hap <;>
              rw [value_fixed b st2 st _ e hm' (by rw [← hap]; exact if_pos rfl) he hno hb', hk] <;> simp [Spec.upd, hkey]
    rw [hval]
    obtain ⟨hk | hk, -, -⟩ := ht
    · rw [if_pos hk]; exact ⟨t, hlast, hk, rfl⟩
    · rw [if_neg (by rw [hk]; simp)]; exact .inr ⟨t, hlast, hk⟩
  · have hnone : e k = none := by
      rcases visible_added l _ st hm (by rw [he]; rfl) with h1 | ⟨z, hz, hzk, hzu⟩
      · cases h1
      · obtain ⟨a, b, hl⟩ := List.append_of_mem hz
        have hm' := hm
        rw [hl, meaning_append] at hm'
        cases hma : Spec.meaning Spec.empty a with
        | none => rw [hma] at hm'; cases hm'
        | some st1 =>
          rw [hma] at hm'
          simp only [Option.bind_some, Spec.meaning] at hm'
          cases hap : Spec.apply st1 z with
          | none => rw [hap] at hm'; cases hm'
          | some st2 =>
            rw [hap] at hm'
            unfold Spec.apply at hap
            rw [hzk, hzu] at hap
            cases hst : st1 w with
            | some e1 => rw [hst] at hap; cases hap
            | none =>
              rw [hst] at hap
              simp only [Option.some.injEq] at hap
              rw [value_fixed b st2 st _ e hm' (by rw [← hap]; exact if_pos rfl) he
                (hadd a z b st1 (fun _ => none) hl hma (.inr ⟨hzk, hzu⟩))
                (fun t ht h1 h2 h3 => hw ⟨t, by simp [hl, ht], h1, h2, h3⟩)]
    rw [hnone]
    exact .inl fun t ht h1 => hw ⟨t, ht, h1⟩

/-! ## C96 -/

theorem lives_congr {a b : Tx → Prop} {w : Str} (h : ∀ t, t.kind = .add ∨ t.kind = .del → (a t ↔ b t)) : Lives a w ↔ Lives b w := by
  unfold Lives
  constructor
  · rintro ⟨⟨t, h1, h2, h3⟩, h4⟩
    exact ⟨⟨t, (h t (.inl h2)).1 h1, h2, h3⟩, fun ⟨t, h1, h2, h3⟩ => h4 ⟨t, (h t (.inr h2)).2 h1, h2, h3⟩⟩
  · rintro ⟨⟨t, h1, h2, h3⟩, h4⟩
    exact ⟨⟨t, (h t (.inl h2)).2 h1, h2, h3⟩, fun ⟨t, h1, h2, h3⟩ => h4 ⟨t, (h t (.inr h2)).1 h1, h2, h3⟩⟩

theorem lastWrite_congr {a b : Tx → Prop} {w k : Str} {t : Tx} (h : ∀ t, Writes w k t → (a t ↔ b t)) (hl : LastWrite a w k t) :
    LastWrite b w k t :=
  ⟨(h t hl.2.1).1 hl.1, hl.2.1, fun t' h1 h2 => hl.2.2 t' ((h t' h2).2 h1) h2⟩

theorem says_congr {a b : Tx → Prop} {w k : Str} {x : Option Str} (h : ∀ t, Writes w k t → (a t ↔ b t)) (hs : Says a w k x) :
    Says b w k x := by
  cases x with
  | some x => obtain ⟨t, h1, h2⟩ := hs; exact ⟨t, lastWrite_congr h h1, h2⟩
  | none =>
    rcases hs with h1 | ⟨t, h1, h2⟩
    · exact .inl fun t ht hw => h1 t ((h t hw).2 ht) hw
    · exact .inr ⟨t, lastWrite_congr h h1, h2⟩

/-- A file as bpass writes it: an entry is there if and only if it was added and not deleted, and each field holds what was written
last. -/
theorem C96_file (s : DB) (h : OwnHistory s.log) (w : Str) :
    (Blob.Exists s w ↔ Lives (· ∈ s.log) w) ∧ ∀ e, Blob.Spec.Visible s w e → ∀ k, Says (· ∈ s.log) w k (e k) := by
  obtain ⟨st, hm⟩ := Option.isSome_iff_exists.1 h.good.replays
  constructor
  · rw [← lives_iff h.good hm]
    constructor
    · rintro ⟨e, st', h1, h2⟩
      rw [hm] at h1; cases h1; rw [h2]; rfl
    · intro h1
      obtain ⟨e, he⟩ := Option.isSome_iff_exists.1 h1
      exact ⟨e, st, hm, he⟩
  · rintro e ⟨st', h1, h2⟩ k
    rw [hm] at h1; cases h1
    exact says_good h.good hm h2 k

/-- After `sync` with any number of remotes, an entry is there if and only if it was added on some machine and deleted on none, and
each field but the known hosts holds what was written last on any of the machines. -/
theorem C96_sync_partial (P : Prims) (C : Codec) (w : World) (v : SyncEnv) (push : Bool) (u : Session) (inp i1 i2 : Input)
    (l : List (Str × Fate × Str)) (m : Merged) (hok : Ok u.store) (h : OwnHistory u.store.log) (hs : SyncOk P C w v [] u inp)
    (hl : pullAll P C w { u with store := u.store.updateSnapshot.1 } (collectSyncs w v.ord u.store.updateSnapshot.1) inp = (some l, i1))
    (hm : mergeBlobs v.ord u.creds u.store.log (remotes l) i1 = (.ok m, i2))
    (hr : (sync P C w v [] push u inp).result = .ok ()) (x : Str) :
    let s := (sync P C w v [] push u inp).session.store
    (Blob.Exists s x ↔ Lives (Anywhere u.store.log l) x) ∧
      ∀ e, Blob.Spec.Visible s x e → ∀ k, k ≠ keyKnownHosts → Says (Anywhere u.store.log l) x k (e k) := by
  intro s
  obtain ⟨-, -, c, d⟩ := own_sync (push := push) hok h hs hr
  have hsel : Selected w v u [] (collectSyncs w v.ord u.store.updateSnapshot.1) := ⟨fun _ => rfl, fun k => absurd rfl k⟩
  have hpl := hs.pulled _ l i1 hsel hl
  obtain ⟨-, hun⟩ := C80_blobs_partial v.ord u.creds u.store.log (remotes l) i1 i2 m hpl.family hpl.told hm
  have hlog := updateSnapshot_log u.store
  have hrun : sync P C w v [] push u inp =
      syncWith P C w v push { u with store := u.store.updateSnapshot.1 } (collectSyncs w v.ord u.store.updateSnapshot.1) inp := by
    cases hup : u.store.updateSnapshot with
    | mk s0 o =>
      cases o with
      | some e => simp only [sync, hup] at hr; cases hr
      | none => simp only [sync, hup, ne_eq, not_true, if_false]
  have hpre : m.log <+: s.log := by
    show m.log <+: (sync P C w v [] push u inp).session.store.log
    rw [hrun]
    exact syncWith_log P C w v push _ _ inp i1 i2 l m hl (by simp only [hlog]; exact hm)
  have hmem : ∀ t, ¬ HostOp t → (t ∈ s.log ↔ Anywhere u.store.log l t) := by
    intro t ht
    constructor
    · intro h1
      rcases d with d | ⟨syncs, l', rest, d1, d2, -, -, d3⟩
      · exact .inl (d ▸ h1)
      · rw [d1.1 rfl, hl] at d2
        cases d2
        rcases d3 t h1 with h2 | h2 | h2
        · exact .inl h2
        · exact .inr h2
        · exact absurd h2 ht
    · intro h1
      exact hpre.subset ((hun t).2 h1)
  obtain ⟨f1, f2⟩ := C96_file s c x
  refine ⟨f1.trans (lives_congr fun t ht => hmem t ?_), fun e he k hk => says_congr (fun t ht => hmem t ?_) (f2 e he k)⟩
  · rintro ⟨h1, -⟩; rw [h1] at ht; rcases ht with ht | ht <;> cases ht
  · rintro ⟨-, h1⟩; exact hk (ht.2.2.symm.trans h1)

/-! ### What this machine wrote -/

theorem lastWrite_unique {ops : Tx → Prop} {w k : Str} {t t' : Tx} (h : LastWrite ops w k t) (h' : LastWrite ops w k t') : t = t' := by
  rcases h.2.2 t' h'.1 h'.2.1 with h1 | h1
  · exact h1.symm
  · rcases h'.2.2 t h.1 h.2.1 with h2 | h2
    · exact h2
    · omega

/-- What a field ought to hold is determined. -/
theorem says_unique {ops : Tx → Prop} {w k : Str} {a b : Option Str} (ha : Says ops w k a) (hb : Says ops w k b) : a = b := by
  have hx : ∀ {x : Str}, Says ops w k (some x) → ¬ Says ops w k none := by
    rintro x ⟨t, h1, h2, -⟩ (h3 | ⟨t', h3, h4⟩)
    · exact h3 t h1.1 h1.2.1
    · rw [lastWrite_unique h1 h3, h4] at h2; cases h2
  cases a with
  | none =>
    cases b with
    | none => rfl
    | some y => exact absurd ha (hx hb)
  | some x =>
    cases b with
    | none => exact absurd hb (hx ha)
    | some y =>
      obtain ⟨t, h1, -, rfl⟩ := ha
      obtain ⟨t', h3, -, rfl⟩ := hb
      rw [lastWrite_unique h1 h3]

/-- `sync` leaves an entry that no remote deleted, and a field of it that no remote wrote, as they were. -/
theorem C96_mine_partial (P : Prims) (C : Codec) (w : World) (v : SyncEnv) (push : Bool) (u : Session) (inp i1 i2 : Input)
    (l : List (Str × Fate × Str)) (m : Merged) (hok : Ok u.store) (h : OwnHistory u.store.log) (hs : SyncOk P C w v [] u inp)
    (hl : pullAll P C w { u with store := u.store.updateSnapshot.1 } (collectSyncs w v.ord u.store.updateSnapshot.1) inp = (some l, i1))
    (hm : mergeBlobs v.ord u.creds u.store.log (remotes l) i1 = (.ok m, i2))
    (hr : (sync P C w v [] push u inp).result = .ok ()) (x : Str) (e : Str → Option Str) (hx : Blob.Spec.Visible u.store x e)
    (hd : ∀ q ∈ remotes l, ∀ t ∈ q.log, t.kind = .del → t.uuid ≠ x) :
    ∃ e', Blob.Spec.Visible (sync P C w v [] push u inp).session.store x e' ∧
      ∀ k, k ≠ keyKnownHosts → (∀ q ∈ remotes l, ∀ t ∈ q.log, Writes x k t → t ∈ u.store.log) → e' k = e k := by
  obtain ⟨f1, f2⟩ := C96_sync_partial P C w v push u inp i1 i2 l m hok h hs hl hm hr x
  obtain ⟨g1, g2⟩ := C96_file u.store h x
  obtain ⟨⟨t, h1, h2, h3⟩, h4⟩ := g1.1 ⟨e, hx⟩
  obtain ⟨e', he'⟩ := f1.2 ⟨⟨t, .inl h1, h2, h3⟩, by
    rintro ⟨t, h5 | ⟨q, hq, h5⟩, h6, h7⟩
    · exact h4 ⟨t, h5, h6, h7⟩
    · exact hd q hq t h5 h6 h7⟩
  refine ⟨e', he', fun k hk hw => says_unique (f2 e' he' k hk) (says_congr (fun t ht => ?_) (g2 e hx k))⟩
  constructor
  · exact .inl
  · rintro (h5 | ⟨q, hq, h5⟩)
    · exact h5
    · exact hw q hq t h5 ht

/-! ## C76 with `sync` -/

/-- `sync` that succeeds keeps every operation, in the order they had. -/
theorem C76_sync_partial (P : Prims) (C : Codec) (w : World) (v : SyncEnv) (nm : Str) (push : Bool) (u : Session) (inp : Input)
    (hok : Ok u.store) (h : OwnHistory u.store.log) (hs : SyncOk P C w v nm u inp) (hr : (sync P C w v nm push u inp).result = .ok ()) :
    u.store.log.Sublist (sync P C w v nm push u inp).session.store.log := by
  obtain ⟨a, -, -, b, -⟩ := C87_sync_partial P C w v nm push u inp hok h hs hr
  exact chrono_sublist h.good.chrono a.good.chrono b

theorem runLine_sync {P : Prims} {C : Codec} {v : Env} {line : Str} {r : Repl} {args : List Str}
    (hp : parseLine line = some (b! "sync", args)) :
    runLine P C v line r = (r, .ok false) ∨
      (runLine P C v line r).1.u = (sync P C v.w v.v (args.head?.getD []) true r.u v.d.inp).session ∧
      (∀ b, (runLine P C v line r).2 = .ok b → (sync P C v.w v.v (args.head?.getD []) true r.u v.d.inp).result = .ok ()) := by
  have hrun : runLine P C v line r = if r.u.readOnly then (r, .ok false) else execWrite P C v (b! "sync") args r := by
    unfold runLine
    rw [hp]
    rfl
  rw [hrun]
  by_cases hro : r.u.readOnly
  · rw [if_pos hro]; exact .inl rfl
  · rw [if_neg hro]
    right
    have hx : execWrite P C v (b! "sync") args r =
        let x := sync P C v.w v.v (args.head?.getD []) true r.u v.d.inp
        let r := if x.pushed = [] then r else { r with pushed := r.pushed ++ [(x.sent, x.pushed)] }
        back r (x.session, x.result) := by
      unfold execWrite
      simp (decide := true) only [if_false, if_true]
    rw [hx]
    simp only
    cases hres : (sync P C v.w v.v (args.head?.getD []) true r.u v.d.inp).result with
    | panic => exact ⟨rfl, fun b h => by cases h⟩
    | err e => exact ⟨rfl, fun b h => by cases h⟩
    | ok x => exact ⟨rfl, fun _ _ => rfl⟩

/-- Any line, `sync` included, that succeeds. -/
theorem C76_whole_line_partial (P : Prims) (C : Codec) (v : Env) (line : Str) (r : Repl) (b : Bool) (h : Sound r.u.store)
    (hl : WholeTurn P C v line r) (hr : (runLine P C v line r).2 = .ok b) :
    r.u.store.log.Sublist (runLine P C v line r).1.u.store.log := by
  rcases hl with hl | ⟨args, hp, hs, -⟩
  · exact (C76_line_partial P C v line r h.tx h.wf hl.legal (by rw [hr]; simp)).1.sublist
  · rcases runLine_sync (P := P) (C := C) (v := v) (r := r) hp with h1 | ⟨h1, h2⟩
    · rw [h1]; exact List.Sublist.refl _
    · rw [h1]
      exact C76_sync_partial P C _ _ _ _ _ _ h.wf.good.ok h.own hs (h2 b hr)

/-- After any number of lines, `sync` included, of a session that ends normally, every operation the session began with is still
there, and in the same order: nothing is ever removed from the history. -/
theorem C76_whole_session_partial (P : Prims) (C : Codec) (turns : List Turn) (r : Repl) (h : Sound r.u.store)
    (hl : Along P C (WholeTurn P C) turns r) (hr : (runRepl P C turns r).2 = .ok ()) :
    r.u.store.log.Sublist (runRepl P C turns r).1.u.store.log := by
  induction turns generalizing r with
  | nil => exact List.Sublist.refl _
  | cons t rest ih =>
    obtain ⟨o, v⟩ := t
    cases o with
    | none => exact List.Sublist.refl _
    | some line =>
      obtain ⟨hl1, hl2⟩ := hl
      have key := C87_line_partial P C v line r (h := h) (hl := hl1)
      have key2 := C76_whole_line_partial P C v line r (h := h) (hl := hl1)
      unfold runRepl at hr ⊢
      cases hx : runLine P C v line r with
      | mk r' o =>
        rw [hx] at hr key key2 hl2
        cases o with
        | panic => cases hr
        | err e => cases hr
        | ok b =>
          cases b with
          | true => exact key2 _ rfl
          | false => exact (key2 _ rfl).trans (ih r' (key _ rfl) hl2 hr)

namespace FieldsDemo
open HistoryDemo
open Verif.Crypt.Spec (toy toy_lawful)

theorem pulls : pullAll toy (D (b! "shop")) w { u with store := u.store.updateSnapshot.1 }
    (collectSyncs w v.ord u.store.updateSnapshot.1) [] = (some (got (b! "shop")), []) := by decide +kernel

def merged : Merged := { creds := u.creds, log := (sync toy (D (b! "shop")) w v [] true u []).session.store.log }

theorem merges : mergeBlobs v.ord u.creds u.store.log (remotes (got (b! "shop"))) [] = (.ok merged, []) := by decide +kernel

theorem synced : (sync toy (D (b! "shop")) w v [] true u []).result = .ok () := by decide +kernel

/-- C96, C76: here "shop" comes from the other machine -/
example (x : Str) : (Blob.Exists (sync toy (D (b! "shop")) w v [] true u []).session.store x ↔ Lives (Anywhere logL (got (b! "shop"))) x) ∧
    logL.Sublist (sync toy (D (b! "shop")) w v [] true u []).session.store.log :=
  ⟨(C96_sync_partial toy (D (b! "shop")) w v true u [] [] [] _ _ sound.wf.good.ok sound.own syncOk_shop pulls merges synced x).1,
    C76_sync_partial toy (D (b! "shop")) w v [] true u [] sound.wf.good.ok sound.own syncOk_shop synced⟩

example : Lives (Anywhere logL (got (b! "shop"))) [2] ∧ ¬ Lives (· ∈ logL) [2] := by
  refine ⟨⟨⟨⟨7, .add, [2], [], []⟩, .inr ⟨_, List.mem_singleton.2 rfl, by decide +kernel⟩, rfl, rfl⟩, ?_⟩, ?_⟩
  · rintro ⟨t, h | ⟨q, hq, h⟩, hk, -⟩
    · revert t; decide +kernel
    · rw [List.mem_singleton.1 (show q ∈ [_] from hq)] at h
      revert t; decide +kernel
  · rintro ⟨⟨t, h, hk, hu⟩, -⟩
    revert t; decide +kernel

/-- its name and its note are those that were written there -/
example : Says (Anywhere logL (got (b! "shop"))) [2] (b! "note") (some [1]) := by
  refine ⟨⟨9, .setk, [2], b! "note", [1]⟩, ⟨.inr ⟨_, List.mem_singleton.2 rfl, by decide +kernel⟩, ⟨.inl rfl, rfl, rfl⟩, ?_⟩, rfl, rfl⟩
  rintro t (h | ⟨q, hq, h⟩) ⟨-, hu, hk⟩
  · revert t; decide +kernel
  · rw [List.mem_singleton.1 (show q ∈ [_] from hq)] at h
    revert t; decide +kernel

/-- "bank" keeps its name -/
example : ∃ e', Blob.Spec.Visible (sync toy (D (b! "shop")) w v [] true u []).session.store [1] e' ∧ e' keyName = some (b! "bank") := by
  obtain ⟨e, hv, hn⟩ : Blob.Spec.Named u.store [1] (b! "bank") := by
    rw [Demo.named_concrete sound.wf.good]
    exact ⟨[(keyName, b! "bank")], by decide +kernel, by decide +kernel⟩
  obtain ⟨e', h1, h2⟩ := C96_mine_partial toy (D (b! "shop")) w v true u [] [] [] _ _ sound.wf.good.ok sound.own syncOk_shop pulls merges synced [1] _ hv
    (by
      intro q hq t h hk
      rw [List.mem_singleton.1 (show q ∈ [_] from hq)] at h
      revert t; decide +kernel)
  refine ⟨e', h1, (h2 keyName (by decide) ?_).trans hn⟩
  rintro q hq t h ⟨-, hu, hk⟩
  rw [List.mem_singleton.1 (show q ∈ [_] from hq)] at h
  revert t; decide +kernel

end FieldsDemo

end Verif.App
