import Verif.App.DateSpec
import Verif.App.HistoryLemmas3
import Verif.App.LockoutLemmas
/-!
# Lemmas about the dates of entries
-/
set_option linter.unusedSimpArgs false
namespace Verif.App
open Verif Verif.Txlogs Verif.Blob Verif.Crypt Verif.App.Spec
open Verif.Txlogs.Spec (GoodHistory)

/-- what a line may write under the date -/
structure DateOp (v : Env) (t : Tx) : Prop where
  add : t.kind = .add → t.uuid = v.d.uuid
  cut : t.kind = .delk → t.key ≠ keyUpdated
  date : t.kind = .setk → t.key = keyUpdated → ∃ j, j < 12 ∧ t.time = v.d.now (j + 1) ∧ t.value = fmtInt (v.d.now j)

theorem dateOp_put {v : Env} {i : Int} {w k x : Str} (h : k ≠ keyUpdated) : DateOp v ⟨i, .setk, w, k, x⟩ :=
  ⟨by simp, by simp, fun _ hk => absurd hk h⟩

theorem notDate_of_free {k : Str} (h : protectedKeys.any (fun p => equalFold k p) = false) : k ≠ keyUpdated := by
  rintro rfl
  revert h
  decide

theorem date_rules {v : Env} {r : Repl} {cmd : Str} {args : List Str} :
    LineRules v r cmd args (fun _ => True) (fun k => k ≠ keyUpdated) (DateOp v) := by
  have hname : keyName ≠ keyUpdated := by decide
  have hrec : ∀ (now : Nat → Int) uuid, RecordRules r.u.store uuid now (DateOp v) := by
    intro now uuid i w k x hw hk
    refine dateOp_put (fun hkn => ?_)
    subst hkn
    exact absurd hk (by decide)
  exact
    { rules :=
        { put := fun i w k x _ hk _ => dateOp_put hk
          cut := fun i w k _ hk => ⟨by simp, fun _ => hk, by simp⟩
          add := fun i => ⟨by simp, by simp, by simp⟩
          touch := fun j w hj _ => ⟨by simp, by simp, fun _ _ => ⟨j, hj, rfl, rfl⟩⟩
          keys := by decide
          ascii := fun _ _ => trivial
          inp := fun _ _ => trivial
          join := fun _ _ _ _ => trivial
          split := fun _ _ _ _ => trivial
          old := fun _ _ _ _ _ _ => trivial
          otp := fun _ _ _ _ => trivial
          editor := fun _ _ _ _ => trivial
          fileUrl := fun _ _ _ _ => trivial
          scpUrl := fun _ _ _ _ _ _ _ _ _ _ => trivial
          keypair := fun _ _ _ => ⟨trivial, trivial⟩ }
      value := fun _ _ _ _ _ => trivial
      setKey := fun _ q k x hx hp => notDate_of_free hp
      editKey := fun _ q k l hx hp => notDate_of_free hp
      cutKey := fun _ q k l hx _ h2 => h2
      addName := fun _ _ _ _ _ => dateOp_put hname
      syncName := fun _ _ _ _ _ _ => dateOp_put hname
      mvName := fun _ _ _ _ _ _ _ => dateOp_put hname
      del := fun _ _ _ _ _ _ => ⟨by simp, by simp, by simp⟩
      record := fun _ => hrec _ _
      userName := fun _ _ _ _ => dateOp_put hname
      records := fun _ _ => hrec _ _ }

/-- what a line appends -/
theorem date_line {P : Prims} {C : Codec} {v : Env} {line : Str} {r : Repl} (h0 : r.u.store.txPoint = 0) (h : WellFormed r.u.store)
    (hl : LegalTurn v line r) (hn : (runLine P C v line r).2 ≠ .panic) :
    Adds (DateOp v) v.d.uuid r.u.store (runLine P C v line r).1.u.store :=
  addsR_line (P := P) (C := C) h0 hl.env h line hl.utf8 hl.noSync (fun _ _ _ _ _ => date_rules) hn

theorem dated_append {v : Env} {F : Str} {s s' : DB} (h : DatedHistory s.log) (hf : ClockFits v) (ht : ∀ i j, i < j → v.d.now i < v.d.now j)
    (ha : Adds (DateOp v) F s s') : DatedHistory s'.log := by
  obtain ⟨l, hlog, hq, hm⟩ := ha
  rw [hlog]
  refine ⟨?_, ?_, ?_⟩
  · intro x hx hk
    rcases List.mem_append.1 hx with hx | hx
    · obtain ⟨y, hy, h1⟩ := h.given x hx hk
      exact ⟨y, by simp [hy], h1⟩
    · obtain ⟨y, hy, h1⟩ := hm x hx (.inl hk)
      exact ⟨y, by simp [hy], h1⟩
  · intro x hx hk
    exact (List.mem_append.1 hx).elim (fun hx => h.kept x hx hk) (fun hx => (hq x hx).cut hk)
  · intro x hx hk hd
    rcases List.mem_append.1 hx with hx | hx
    · exact h.date x hx hk hd
    · obtain ⟨j, hj, h1, h2⟩ := (hq x hx).date hk hd
      exact ⟨_, hf j hj, by rw [h1]; exact ht _ _ (by omega), h2⟩

/-- an entry has the date written last -/
theorem dated_entry {l : List Tx} (h : GoodHistory l) (hd : DatedHistory l) {st : Txlogs.Spec.State}
    (hm : Txlogs.Spec.meaning Txlogs.Spec.empty l = some st) {u : Str} {e : Str → Option Str} (he : st u = some e) :
    ∃ t ∈ l, t.kind = .setk ∧ t.uuid = u ∧ t.key = keyUpdated ∧ e keyUpdated = some t.value := by
  have hsome : (e keyUpdated).isSome = true := by
    rcases visible_added l _ st hm (by rw [he]; rfl) with h1 | ⟨x, hx, hxk, hxu⟩
    · cases h1
    subst hxu
    obtain ⟨y, hy, hyk, hyu, hyn⟩ := hd.given x hx hxk
    obtain ⟨a, b, rfl⟩ := List.append_of_mem hy
    rw [meaning_append] at hm
    cases hma : Txlogs.Spec.meaning Txlogs.Spec.empty a with
    | none => rw [hma] at hm; cases hm
    | some st1 =>
      rw [hma] at hm
      simp only [Option.bind_some, Txlogs.Spec.meaning] at hm
      cases hap : Txlogs.Spec.apply st1 y with
      | none => rw [hap] at hm; cases hm
      | some st2 =>
        rw [hap] at hm
        unfold Txlogs.Spec.apply at hap
        rw [hyk, hyu] at hap
        cases hst : st1 x.uuid with
        | none => rw [hst] at hap; cases hap
        | some e1 =>
          rw [hst] at hap
          simp only [Option.some.injEq] at hap
          have hadd : ∀ t ∈ b, t.kind = .add → t.uuid ≠ x.uuid := by
            intro t ht htk htu
            rcases visible_added a _ st1 hma (by rw [hst]; rfl) with h1 | ⟨z, hz, hzk, hzu⟩
            · cases h1
            · have := h.addsOnce z (by simp [hz]) t (by simp [ht]) hzk htk (hzu.trans htu.symm)
              subst this
              exact chrono_nodup (a := a) (b := y :: b) h.chrono hz (by simp [ht])
          refine value_stays b st2 st _ e hm (by rw [← hap]; exact if_pos rfl) ?_ he hadd
            (fun t ht htk _ => hd.kept t (by simp [ht]) htk)
          simp [Txlogs.Spec.upd, hyn]
  obtain ⟨x, hx⟩ := Option.isSome_iff_exists.1 hsome
  rcases value_written l _ st e hm he hx with ⟨_, h4, -⟩ | ⟨t, h1, h2, h3, h4, h5⟩
  · cases h4
  · exact ⟨t, h1, h2, h3, h4, by rw [hx, h5]⟩

/-- a date written in `l` is not from before -/
theorem date_written {u : Str} {l : List Tx} {st st' : Txlogs.Spec.State} {e' : Str → Option Str}
    (hm : Txlogs.Spec.meaning st l = some st') (he : st' u = some e') (hadd : ∀ t ∈ l, t.kind = .add → t.uuid ≠ u)
    (hcut : ∀ t ∈ l, t.kind = .delk → t.key ≠ keyUpdated) {y : Tx} (hy : y ∈ l) (hk : y.kind = .setk) (hu : y.uuid = u)
    (hkey : y.key = keyUpdated) :
    ∃ t ∈ l, t.kind = .setk ∧ t.uuid = u ∧ t.key = keyUpdated ∧ e' keyUpdated = some t.value := by
  obtain ⟨a, b, rfl⟩ := List.append_of_mem hy
  rw [meaning_append] at hm
  cases hma : Txlogs.Spec.meaning st a with
  | none => rw [hma] at hm; cases hm
  | some st1 =>
    rw [hma] at hm
    simp only [Option.bind_some, Txlogs.Spec.meaning] at hm
    cases hap : Txlogs.Spec.apply st1 y with
    | none => rw [hap] at hm; cases hm
    | some st2 =>
      rw [hap] at hm
      unfold Txlogs.Spec.apply at hap
      rw [hk, hu] at hap
      cases hst : st1 u with
      | none => rw [hst] at hap; cases hap
      | some e1 =>
        rw [hst] at hap
        simp only [Option.some.injEq] at hap
        have h2 : st2 u = some (Txlogs.Spec.upd e1 y.key (some y.value)) := by rw [← hap]; exact if_pos rfl
        have hs := value_stays (k := keyUpdated) b st2 st' _ e' hm h2 (by simp [Txlogs.Spec.upd, hkey]) he
          (fun t ht => hadd t (by simp [ht])) (fun t ht htk _ => hcut t (by simp [ht]) htk)
        obtain ⟨x, hx⟩ := Option.isSome_iff_exists.1 hs
        rcases value_written b _ st' e' hm he hx with ⟨e2, h4, h5⟩ | ⟨t, h1, h3, h4, h5, h6⟩
        · rw [h2] at h4
          cases h4
          simp only [Txlogs.Spec.upd, hkey, if_true, Option.some.injEq] at h5
          exact ⟨y, by simp, hk, hu, hkey, by rw [hx, h5]⟩
        · exact ⟨t, by simp [h1], h3, h4, h5, by rw [hx, h6]⟩

end Verif.App
