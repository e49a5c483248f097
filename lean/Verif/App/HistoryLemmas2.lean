import Verif.App.HistoryLemmas
import Verif.App.SoundProps
import Verif.App.AccessLemmas
import Verif.App.KeepProps
/-!
# Facts about replaying histories, and about one line
-/
set_option linter.unusedSimpArgs false
namespace Verif.App
open Verif Verif.Txlogs Verif.Blob Verif.Crypt Verif.App.Spec
open Verif.Txlogs.Spec (GoodHistory Replays KnownKinds AddsOnce)

/-! ## Replaying -/

/-- once there, an entry stays if it is not deleted, and is not added again -/
theorem stays {u : Str} : ∀ (l : List Tx) (st st' : Spec.State), Spec.meaning st l = some st' → (st u).isSome = true →
    (∀ t ∈ l, t.kind = .del → t.uuid ≠ u) → (st' u).isSome = true ∧ ∀ t ∈ l, t.kind = .add → t.uuid ≠ u := by
  intro l
  induction l with
  | nil => intro st st' h hs _; cases h; exact ⟨hs, by simp⟩
  | cons x l ih =>
    intro st st' h hs hd
    simp only [Spec.meaning] at h
    cases ha : Spec.apply st x with
    | none => rw [ha] at h; cases h
    | some st1 =>
      rw [ha] at h
      have hd' := hd x (by simp)
      have key : (st1 u).isSome = true ∧ (x.kind = .add → x.uuid ≠ u) := by
        by_cases hx : x.uuid = u
        · subst hx
          unfold Spec.apply at ha
          cases hk : x.kind <;> cases hst : st x.uuid <;> rw [hk, hst] at ha <;> simp only [Option.some.injEq, reduceCtorEq] at ha
          all_goals first
            | (rw [hst] at hs; cases hs; done)
            | exact absurd rfl (hd' hk)
            | (subst ha; simp [Spec.upd, hst])
        · exact ⟨by rw [apply_other hx ha]; exact hs, fun _ => hx⟩
      obtain ⟨a, b⟩ := ih st1 st' h key.1 (fun t ht => hd t (by simp [ht]))
      refine ⟨a, fun t ht => ?_⟩
      rcases List.mem_cons.1 ht with rfl | ht
      · exact key.2
      · exact b t ht

/-- what was added and not deleted is there, and was added once -/
theorem added {u : Str} : ∀ (l : List Tx) (st st' : Spec.State), Spec.meaning st l = some st' →
    (∀ t ∈ l, t.kind = .del → t.uuid ≠ u) → ∀ x ∈ l, x.kind = .add → x.uuid = u →
      (st' u).isSome = true ∧ ∀ y ∈ l, y.kind = .add → y.uuid = u → y = x := by
  intro l
  induction l with
  | nil => intro _ _ _ _ x hx; cases hx
  | cons a l ih =>
    intro st st' h hd x hx hk hu
    simp only [Spec.meaning] at h
    cases ha : Spec.apply st a with
    | none => rw [ha] at h; cases h
    | some st1 =>
      rw [ha] at h
      have hd' : ∀ t ∈ l, t.kind = .del → t.uuid ≠ u := fun t ht => hd t (by simp [ht])
      by_cases hau : a.kind = .add ∧ a.uuid = u
      · have h1 : (st1 u).isSome = true := by
          obtain ⟨h1, rfl⟩ := hau
          unfold Spec.apply at ha
          cases hst : st a.uuid <;> rw [h1, hst] at ha <;> simp only [Option.some.injEq, reduceCtorEq] at ha
          subst ha
          simp [Spec.upd]
        obtain ⟨g1, g2⟩ := stays l st1 st' h h1 hd'
        refine ⟨g1, fun y hy hyk hyu => ?_⟩
        have : ∀ z ∈ a :: l, z.kind = .add → z.uuid = u → z = a := by
          intro z hz hzk hzu
          rcases List.mem_cons.1 hz with rfl | hz
          · rfl
          · exact absurd hzu (g2 z hz hzk)
        rw [this y hy hyk hyu, this x hx hk hu]
      · rcases List.mem_cons.1 hx with rfl | hx
        · exact absurd ⟨hk, hu⟩ hau
        · obtain ⟨g1, g2⟩ := ih st1 st' h hd' x hx hk hu
          refine ⟨g1, fun y hy hyk hyu => ?_⟩
          rcases List.mem_cons.1 hy with rfl | hy
          · exact absurd ⟨hyk, hyu⟩ hau
          · exact g2 y hy hyk hyu

/-- every entry was added -/
theorem visible_added {u : Str} : ∀ (l : List Tx) (st st' : Spec.State), Spec.meaning st l = some st' → (st' u).isSome = true →
    (st u).isSome = true ∨ ∃ x ∈ l, x.kind = .add ∧ x.uuid = u := by
  intro l
  induction l with
  | nil => intro st st' h hs; cases h; exact .inl hs
  | cons x l ih =>
    intro st st' h hs
    simp only [Spec.meaning] at h
    cases ha : Spec.apply st x with
    | none => rw [ha] at h; cases h
    | some st1 =>
      rw [ha] at h
      rcases ih st1 st' h hs with h1 | ⟨y, hy, h1⟩
      · by_cases hx : x.uuid = u
        · subst hx
          unfold Spec.apply at ha
          cases hk : x.kind with
          | add => exact .inr ⟨x, by simp, hk, rfl⟩
          | _ =>
            left
            cases hst : st x.uuid with
            | some e => rfl
            | none =>
              rw [hk, hst] at ha
              simp only [reduceCtorEq, Option.some.injEq] at ha
              try (subst ha; rw [hst] at h1; cases h1)
        · left
          rw [← apply_other hx ha]; exact h1
      · exact .inr ⟨y, by simp [hy], h1⟩

/-- every value was written -/
theorem value_written {u k n : Str} : ∀ (l : List Tx) (st st' : Spec.State) (e' : Str → Option Str),
    Spec.meaning st l = some st' → st' u = some e' → e' k = some n →
    (∃ e, st u = some e ∧ e k = some n) ∨ ∃ x ∈ l, x.kind = .setk ∧ x.uuid = u ∧ x.key = k ∧ x.value = n := by
  intro l
  induction l with
  | nil => intro st st' e' h hs hn; cases h; exact .inl ⟨e', hs, hn⟩
  | cons x l ih =>
    intro st st' e' h hs hn
    simp only [Spec.meaning] at h
    cases ha : Spec.apply st x with
    | none => rw [ha] at h; cases h
    | some st1 =>
      rw [ha] at h
      rcases ih st1 st' e' h hs hn with ⟨e, h1, h2⟩ | ⟨y, hy, h1⟩
      · by_cases hx : x.uuid = u
        · subst hx
          unfold Spec.apply at ha
          cases hk : x.kind <;> cases hst : st x.uuid <;> rw [hk, hst] at ha <;>
            simp only [Option.some.injEq, reduceCtorEq] at ha <;> subst ha <;>
            try simp only [Spec.upd, if_true, Option.some.injEq, reduceCtorEq] at h1
          · subst h1; cases h2
          · rename_i e0
            subst h1
            unfold Spec.upd at h2
            split at h2
            · rename_i hkk
              cases h2
              exact .inr ⟨x, by simp, hk, rfl, hkk.symm, rfl⟩
            · exact .inl ⟨e0, rfl, h2⟩
          · rename_i e0
            subst h1
            unfold Spec.upd at h2
            split at h2
            · cases h2
            · exact .inl ⟨e0, rfl, h2⟩
          all_goals first
            | (rw [hst] at h1; cases h1; done)
            | (rw [hst] at h1; cases h1; exact .inl ⟨_, rfl, h2⟩)
        · left
          exact ⟨e, by rw [← apply_other hx ha]; exact h1, h2⟩
      · exact .inr ⟨y, by simp [hy], h1⟩

/-- an entry that is not there and not added is not there afterwards -/
theorem absent_stays {u : Str} (l : List Tx) (st st' : Spec.State) (h : Spec.meaning st l = some st') (hs : st u = none)
    (ha : ∀ t ∈ l, t.kind = .add → t.uuid ≠ u) : st' u = none := by
  cases hs' : st' u with
  | none => rfl
  | some e =>
    rcases visible_added l st st' h (by rw [hs']; rfl) with h1 | ⟨x, hx, h1, h2⟩
    · rw [hs] at h1; cases h1
    · exact absurd h2 (ha x hx h1)

/-- a value stays if nothing takes it away -/
theorem value_stays {u k : Str} : ∀ (l : List Tx) (st st' : Spec.State) (e e' : Str → Option Str),
    Spec.meaning st l = some st' → st u = some e → (e k).isSome = true → st' u = some e' →
    (∀ t ∈ l, t.kind = .add → t.uuid ≠ u) → (∀ t ∈ l, t.kind = .delk → t.uuid = u → t.key ≠ k) → (e' k).isSome = true := by
  intro l
  induction l with
  | nil => intro st st' e e' h h1 h2 h3 _ _; cases h; rw [h1] at h3; cases h3; exact h2
  | cons x l ih =>
    intro st st' e e' h h1 h2 h3 hadd hdel
    simp only [Spec.meaning] at h
    cases ha : Spec.apply st x with
    | none => rw [ha] at h; cases h
    | some st1 =>
      rw [ha] at h
      have hadd' : ∀ t ∈ l, t.kind = .add → t.uuid ≠ u := fun t ht => hadd t (by simp [ht])
      have hdel' : ∀ t ∈ l, t.kind = .delk → t.uuid = u → t.key ≠ k := fun t ht => hdel t (by simp [ht])
      by_cases hx : x.uuid = u
      · subst hx
        unfold Spec.apply at ha
        cases hk : x.kind <;> rw [hk, h1] at ha <;> simp only [Option.some.injEq, reduceCtorEq] at ha <;> subst ha
        · have := absent_stays l _ st' h (by simp [Spec.upd]) hadd'
          rw [this] at h3; cases h3
        · refine ih _ st' _ e' h (if_pos rfl) ?_ h3 hadd' hdel'
          simp only [Spec.upd]
          split
          · rfl
          · exact h2
        · refine ih _ st' _ e' h (if_pos rfl) ?_ h3 hadd' hdel'
          simp only [Spec.upd]
          rw [if_neg (fun hkk => hdel x (by simp) hk rfl hkk.symm)]
          exact h2
        · exact ih _ st' e e' h h1 h2 h3 hadd' hdel'
      · exact ih st1 st' e e' h (by rw [apply_other hx ha]; exact h1) h2 h3 hadd' hdel'

/-! ## What an own history shows -/

theorem chrono_nodup {a b : List Tx} {x : Tx} (h : Txlogs.Spec.Chrono (a ++ b)) (ha : x ∈ a) (hb : x ∈ b) : False := by
  have := (List.pairwise_append.1 h).2.2 x ha x hb
  omega

theorem own_named {l : List Tx} (h : OwnHistory l) {st : Spec.State} (hm : Spec.meaning Spec.empty l = some st) {u : Str}
    {e : Str → Option Str} (he : st u = some e) : (e keyName).isSome = true ∧ u ≠ [] := by
  rcases visible_added l _ st hm (by rw [he]; rfl) with h1 | ⟨x, hx, hxk, hxu⟩
  · cases h1
  subst hxu
  refine ⟨?_, h.uuids x hx hxk⟩
  obtain ⟨y, hy, hyk, hyu, hyn⟩ := h.given x hx hxk
  obtain ⟨a, b, rfl⟩ := List.append_of_mem hy
  rw [meaning_append] at hm
  cases hma : Spec.meaning Spec.empty a with
  | none => rw [hma] at hm; cases hm
  | some st1 =>
    rw [hma] at hm
    simp only [Option.bind_some, Spec.meaning] at hm
    cases hap : Spec.apply st1 y with
    | none => rw [hap] at hm; cases hm
    | some st2 =>
      rw [hap] at hm
      unfold Spec.apply at hap
      rw [hyk, hyu] at hap
      cases hst : st1 x.uuid with
      | none => rw [hst] at hap; cases hap
      | some e1 =>
        rw [hst] at hap
        simp only [Option.some.injEq] at hap
        have hadd : ∀ t ∈ b, t.kind = .add → t.uuid ≠ x.uuid := by
          intro t ht htk htu
          rcases visible_added a _ st1 hma (by rw [hst]; rfl) with h1 | ⟨z, hz, hzk, hzu⟩
          · cases h1
          · have := h.good.addsOnce z (by simp [hz]) t (by simp [ht]) hzk htk (hzu.trans htu.symm)
            subst this
            exact chrono_nodup (a := a) (b := y :: b) h.good.chrono hz (by simp [ht])
        refine value_stays b st2 st _ e hm (by rw [← hap]; exact if_pos rfl) ?_ he hadd
          (fun t ht htk _ => h.kept t (by simp [ht]) htk)
        simp [Spec.upd, hyn]

/-- A readable store whose log is such a history is in order, except that names may be given twice. -/
theorem own_wf {s : DB} (ho : Ok s) (h : OwnHistory s.log) :
    Good s ∧ (∀ u n, Blob.Spec.Named s u n → u ≠ [] ∧ ValidUtf8 n) ∧ (NamesApart s.log → WellFormed s) := by
  have hr := h.good.replays
  unfold Replays at hr
  cases hm : Spec.meaning Spec.empty s.log with
  | none => rw [hm] at hr; cases hr
  | some st =>
    have hg : Good s := ⟨ho, st, hm, fun u e he => (own_named h hm he).1⟩
    have hn : ∀ u n, Blob.Spec.Named s u n → u ≠ [] ∧ ∃ x ∈ s.log, x.kind = .setk ∧ x.uuid = u ∧ x.key = keyName ∧ x.value = n := by
      rintro u n ⟨e, ⟨st', h1, h2⟩, h3⟩
      rw [hm] at h1
      cases h1
      refine ⟨(own_named h hm h2).2, ?_⟩
      rcases value_written s.log _ st e hm h2 h3 with ⟨_, h4, -⟩ | h4
      · cases h4
      · exact h4
    have h2 : ∀ u n, Blob.Spec.Named s u n → u ≠ [] ∧ ValidUtf8 n := by
      intro u n hnm
      obtain ⟨h1, x, hx, hk, -, hkey, rfl⟩ := hn u n hnm
      exact ⟨h1, h.utf8 x hx hk hkey⟩
    refine ⟨hg, h2, fun hap => ⟨hg, ?_, fun u n h => (h2 u n h).1, fun u n h => (h2 u n h).2⟩⟩
    intro u w n hu hw
    obtain ⟨-, x, hx, hk, rfl, hkey, rfl⟩ := hn u n hu
    obtain ⟨-, y, hy, hk', rfl, hkey', hv⟩ := hn w _ hw
    exact hap x hx y hy hk hk' hkey hkey' hv.symm

/-! ## One line -/

/-- what the operations of a turn may be -/
def OwnOp (v : Env) (s : DB) (t : Tx) : Prop :=
  (t.kind = .add → t.uuid = v.d.uuid) ∧ (t.kind = .del → Blob.Exists s t.uuid) ∧ (t.kind = .delk → t.key ≠ keyName) ∧
    (t.kind = .setk → t.key = keyName → ValidUtf8 t.value) ∧ ∀ x, t.kind ≠ .other x

theorem ownOp_put {v : Env} {s : DB} {i : Int} {w k x : Str} (h : k = keyName → ValidUtf8 x) : OwnOp v s ⟨i, .setk, w, k, x⟩ :=
  ⟨by simp, by simp, by simp, fun _ => h, by simp⟩

theorem history_lineRules {v : Env} {r : Repl} {cmd : Str} {args : List Str}
    (ha : cmd ≠ b! "set" → ∀ a ∈ args, ValidUtf8 a) :
    LineRules v r cmd args (fun _ => True) (fun k => k ≠ keyName) (OwnOp v r.u.store) := by
  have hrec : ∀ (now : Nat → Int) uuid, RecordRules r.u.store uuid now (OwnOp v r.u.store) := by
    intro now uuid i w k x hw hk
    refine ownOp_put (fun hkn => ?_)
    subst hkn
    exact absurd hk (by decide)
  exact
    { rules :=
        { put := fun i w k x _ hk _ => ownOp_put (fun h => absurd h hk)
          cut := fun i w k _ hk => ⟨by simp, by simp, fun _ => hk, by simp, by simp⟩
          add := fun i => ⟨by simp, by simp, by simp, by simp, by simp⟩
          touch := fun i w _ _ => ownOp_put (fun h => absurd h (by decide))
          keys := by decide
          ascii := fun _ _ => trivial
          inp := fun _ _ => trivial
          join := fun _ _ _ _ => trivial
          split := fun _ _ _ _ => trivial
          old := fun _ _ _ _ _ _ => trivial
          otp := fun _ _ _ _ => trivial
          editor := fun _ _ _ _ => trivial
          fileUrl := fun _ _ _ _ => trivial
          scpUrl := fun _ _ _ _ _ _ _ _ _ _ => trivial
          keypair := fun _ _ _ => ⟨trivial, trivial⟩ }
      value := fun _ _ _ _ _ => trivial
      setKey := fun _ q k x hx hp => not_protected_ne (by rw [hp]; simp)
      editKey := fun _ q k l hx hp => not_protected_ne (by rw [hp]; simp)
      cutKey := fun _ q k l hx h1 _ => h1
      addName := fun hc nm l hx i => ownOp_put (fun _ => ha (by rw [hc]; decide) nm (by simp [hx]))
      syncName := fun hc kind l hx _ j => ownOp_put (fun _ =>
        valid_append (valid_append (valid_ascii _ (by decide)) (ha (by rw [hc]; decide) kind (by simp [hx])))
          (valid_ascii _ (by simp [List.all_replicate])))
      mvName := fun hc src dst l hx w hw => ownOp_put (fun _ => ha (by rw [hc]; decide) dst (by simp [hx]))
      del := fun _ nm l hx w hw => ⟨by simp, fun _ => exists_of_named hw, by simp, by simp, by simp⟩
      record := fun _ => hrec _ _
      userName := fun hc nm l hx => ownOp_put (fun _ => valid_append (valid_ascii _ (by decide)) (ha (by rw [hc]; decide) nm (by simp [hx])))
      records := fun _ j => hrec _ _ }

theorem rounds_facts (n : Nat) : ∀ (ds : Nat → Draw), (∀ k i j, i < j → (ds k).now i < (ds k).now j) →
    (∀ k, (ds k).now 2 < (ds (k + 1)).now 0) →
    (roundTimes ds n).Pairwise (· < ·) ∧ ∀ x ∈ roundTimes ds n, (ds 0).now 0 ≤ x := by
  induction n with
  | zero => intro ds _ _; exact ⟨List.Pairwise.nil, by simp [roundTimes]⟩
  | succ n ih =>
    intro ds h1 h2
    obtain ⟨a, b⟩ := ih (fun i => ds (i + 1)) (fun k => h1 (k + 1)) (fun k => h2 (k + 1))
    have h01 := h1 0 0 1 (by decide)
    have h12 := h1 0 1 2 (by decide)
    have h2' := h2 0
    unfold roundTimes
    refine ⟨?_, ?_⟩
    · rw [List.pairwise_append]
      refine ⟨by simp; omega, a, ?_⟩
      intro x hx y hy
      have := b y hy
      simp only [List.mem_cons, List.not_mem_nil, or_false] at hx
      simp only [Nat.zero_add] at this h2'
      rcases hx with rfl | rfl | rfl <;> omega
    · intro x hx
      rw [List.mem_append] at hx
      rcases hx with hx | hx
      · simp only [List.mem_cons, List.not_mem_nil, or_false] at hx
        rcases hx with rfl | rfl | rfl <;> omega
      · have := b x hx
        simp only [Nat.zero_add] at this h2'
        omega

theorem dozen_facts {now : Nat → Int} (h : ∀ i j, i < j → now i < now j) :
    (dozen now).Pairwise (· < ·) ∧ ∀ x ∈ dozen now, now 0 ≤ x := by
  unfold dozen
  refine ⟨?_, ?_⟩
  · rw [List.pairwise_map]
    exact List.Pairwise.imp (fun h' => h _ _ h') List.pairwise_lt_range
  · intro x hx
    obtain ⟨i, -, rfl⟩ := List.mem_map.1 hx
    cases i with
    | zero => omega
    | succ i => have := h 0 (i + 1) (by omega); omega

/-- appending operations of the own kind with later times -/
theorem own_append {log l : List Tx} {T : List Int} {t0 : Int} (h : Txlogs.Spec.Chrono log) (hT : T.Pairwise (· < ·)) (h0 : ∀ x ∈ T, t0 ≤ x)
    (hlate : ∀ t ∈ log, t.time < t0) (hs : (l.map Tx.time).Sublist T) : Txlogs.Spec.Chrono (log ++ l) := by
  refine List.pairwise_append.2 ⟨h, ?_, ?_⟩
  · have := List.Pairwise.sublist hs hT
    rwa [List.pairwise_map] at this
  · intro x hx y hy
    have := h0 y.time (hs.subset (List.mem_map.2 ⟨y, hy, rfl⟩))
    have := hlate x hx
    omega

theorem history_line {P : Prims} {C : Codec} {v : Env} {line : Str} {r : Repl} (h0 : r.u.store.txPoint = 0)
    (h : WellFormed r.u.store) (ho : OwnHistory r.u.store.log) (hl : HistoryTurn v line r)
    (hn : (runLine P C v line r).2 ≠ .panic) : OwnHistory (runLine P C v line r).1.u.store.log := by
  have hw := (C67_line_partial P C v line r h0 h hl.legal hn).1
  have hadd := addsR_line (P := P) (C := C) h0 hl.legal.env h line hl.legal.utf8 hl.legal.noSync
    (fun _ _ _ hpl _ => history_lineRules (parseLine_valid hl.legal.utf8 hpl)) hn
  have htick := ticksR_line (P := P) (C := C) h0 h line hl.legal hn
  obtain ⟨l, hlog, hq, -⟩ := hadd
  have hch : Txlogs.Spec.Chrono (runLine P C v line r).1.u.store.log := by
    rcases htick with ⟨l', hl', hs⟩ | ⟨n, l', hl', hs⟩
    · obtain ⟨a, b⟩ := dozen_facts hl.clock.tick
      rw [hl']
      exact own_append ho.good.chrono a b hl.clock.late hs
    · obtain ⟨a, b⟩ := rounds_facts n v.ds hl.clock.ticks hl.clock.rounds
      rw [hl']
      exact own_append ho.good.chrono a b hl.clock.lates hs
  generalize (runLine P C v line r).1.u.store = s' at *
  obtain ⟨st, hm, hnamed⟩ := hw.good.named
  have hnodel : ∀ t ∈ l, t.kind = .del → t.uuid ≠ v.d.uuid := by
    intro t ht hk hu
    have := (hq t ht).2.1 hk
    rw [hu] at this
    exact hl.legal.env.fresh this
  have hnew : ∀ t ∈ s'.log, t.kind = .add → t ∈ r.u.store.log ∨ (t ∈ l ∧ t.uuid = v.d.uuid) := by
    intro t ht hk
    rw [hlog, List.mem_append] at ht
    exact ht.imp id (fun h => ⟨h, (hq t h).1 hk⟩)
  have hsplit : ∃ st0, Spec.meaning Spec.empty r.u.store.log = some st0 ∧ Spec.meaning st0 l = some st := by
    rw [hlog, meaning_append] at hm
    cases h1 : Spec.meaning Spec.empty r.u.store.log with
    | none => rw [h1] at hm; cases hm
    | some st0 => rw [h1] at hm; exact ⟨st0, rfl, hm⟩
  obtain ⟨st0, -, hm2⟩ := hsplit
  refine ⟨⟨hch, by unfold Replays; rw [hm]; rfl, ?_, ?_⟩, ?_, ?_, ?_, ?_⟩
  · intro t ht
    rw [hlog, List.mem_append] at ht
    exact ht.elim (ho.good.kinds t) (fun h => (hq t h).2.2.2.2)
  · intro x hx y hy hxk hyk hu
    rcases hnew x hx hxk with hx' | ⟨hx', hxu⟩ <;> rcases hnew y hy hyk with hy' | ⟨hy', hyu⟩
    · exact ho.good.addsOnce x hx' y hy' hxk hyk hu
    · exact absurd (hu.trans hyu) (hl.uuid x hx')
    · exact absurd (hu.symm.trans hxu) (hl.uuid y hy')
    · exact ((added l st0 st hm2 hnodel x hx' hxk hxu).2 y hy' hyk hyu).symm
  · intro x hx hxk
    rcases hnew x hx hxk with hx' | ⟨hx', hxu⟩
    · obtain ⟨y, hy, h1⟩ := ho.given x hx' hxk
      exact ⟨y, by rw [hlog]; simp [hy], h1⟩
    · have h1 := (added l st0 st hm2 hnodel x hx' hxk hxu).1
      cases he : st v.d.uuid with
      | none => rw [he] at h1; cases h1
      | some e =>
        have h2 := hnamed _ _ he
        cases hen : e keyName with
        | none => rw [hen] at h2; cases h2
        | some n =>
          rcases value_written s'.log _ st e hm he hen with ⟨_, h3, -⟩ | ⟨y, hy, a, b, c, -⟩
          · cases h3
          · exact ⟨y, hy, a, by rw [b, hxu], c⟩
  · intro t ht
    rw [hlog, List.mem_append] at ht
    exact ht.elim (ho.kept t) (fun h => (hq t h).2.2.1)
  · intro t ht
    rw [hlog, List.mem_append] at ht
    exact ht.elim (ho.utf8 t) (fun h => (hq t h).2.2.2.1)
  · intro t ht hk
    rcases hnew t ht hk with h1 | ⟨-, h1⟩
    · exact ho.uuids t h1 hk
    · rw [h1]; exact hl.legal.env.uuid_ne

end Verif.App
