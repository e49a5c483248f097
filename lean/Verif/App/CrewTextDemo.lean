import Verif.App.CrewDemo
import Verif.App.FleetTextProps
/-!
# C89 for files with users written as JSON: the hypotheses can be met

The primitives are `Crypt.Spec.toy`.
-/
set_option linter.unusedSimpArgs false
namespace Verif.App
open Verif Verif.Txlogs Verif.Blob Verif.Crypt Verif.App.Spec
open Verif.Crypt.Spec (toy toy_lawful)

namespace CrewTextDemo
open CrewDemo hiding C file afterA afterB F0 F0_machine F0_share copies work step_work0 step_work1 Gives env0 env1 gives1 gives2
  quiet es s1 s2 legalN legalU runOk crewOk crew_work crew_env
open Verif.App.SyncDemo (iv)
open Demo (perm_id perm_id')
open HistoryDemo (own ownB)
open LockDemo (master)
open FleetDemo (opsN opsU upd upd_log sound_on v vt turnsN turnsU)
open FleetTextDemo (plainTx plain vt_text)

abbrev C : Codec := Json.Spec.codec

theorem clean_base : ∀ t ∈ base, Json.Spec.CleanTx t ∧ FitsInt64 t.time := fun t ht =>
  plain ((by decide +kernel : ∀ t ∈ base, plainTx t = true) t ht)

theorem clean_upd : Json.Spec.Clean (upd base) := by
  refine clean_of_log (ok_update (HistoryDemo.ok_log base)) (fun t ht => clean_base t ?_) ?_
  · rw [upd_log] at ht; exact ht
  · unfold Counted; rw [upd_log]; decide +kernel

theorem good_base : Txlogs.Spec.GoodHistory base := by
  have h := sound_base.own.good
  rwa [upd_log] at h

/-- "b" saved the file -/
theorem shared : ∃ f, SavedWith toy C master f base := by
  obtain ⟨f, -, h⟩ := crew_seals toy_lawful (C := C) (v := v) good_base ring_base roomy credsOf_B sound_base
    (by rw [upd_log]; exact leaves_refl _) ⟨perm_id, perm_id'⟩ (Json.C11_partial _ clean_upd) (sound_update sound_base.wf.good.ok sound_base.own.good.replays)
  rw [upd_log] at h
  exact ⟨f, h⟩

def afterA (turns : List Turn) : Session := (runRepl toy C turns { u := onA base }).1.u

theorem st_machine (f : Str) (i : Nat) :
    (st (onA base) (onB base) f).machine i = onA base ∨ (st (onA base) (onB base) f).machine i = onB base := by
  simp only [st]
  split
  · exact .inl rfl
  · split
    · exact .inr rfl
    · exact .inl rfl

theorem copies {f : Str} (h : SavedWith toy C master f base) : CrewCopies toy C master rs (st (onA base) (onB base) f) base := by
  refine ⟨ring_base, roomy, fun i => ?_, fun i => ?_, fun i => ?_, by decide +kernel, h⟩
  · rcases st_machine f i with h | h <;> rw [h]
    · exact credsOf_A
    · exact credsOf_B
  · rcases st_machine f i with h | h <;> rw [h] <;> exact sound_base
  · unfold Fleet.log
    rcases st_machine f i with h | h <;> rw [h] <;> exact upd_log _

theorem step_work0 (b : Session) (f : Str) (turns : List Turn) :
    (st (onA base) b f).step toy C (.work 0 turns) = st (afterA turns) b f := by
  simp only [Fleet.step, Fleet.set, st, afterA, Fleet.mk.injEq, and_true]
  funext j
  by_cases h : j = 0 <;> simp [h]

theorem legalN : Along toy C HistoryTurn turnsN { u := onA base } :=
  ⟨turn (cmd := b! "set") (args := [b! "bank", b! "note", b! "x"]) (by decide) (by decide +kernel) (by decide) (by decide), trivial⟩
theorem textN : Along toy C TextTurn turnsN { u := onA base } := ⟨⟨legalN.1.legal, vt_text _⟩, trivial⟩

theorem logN : (afterA turnsN).store.log = base ++ opsN := by decide +kernel
theorem credsN : (afterA turnsN).creds = credsA := by decide +kernel

theorem foreign : ∀ t ∈ base ++ opsN, t ∈ base ∨ ∀ x ∈ base, Foreign t x := by decide +kernel

theorem workN (f : Str) : WorkOk toy C (st (onA base) (onB base) f) 0 turnsN := by
  refine ⟨legalN, (by decide +kernel : (runRepl toy C turnsN { u := onA base }).2 = .ok ()), credsN, ?_, ?_⟩
  · show NamesApart (afterA turnsN).store.log
    rw [logN]; decide +kernel
  · show ∀ t ∈ (afterA turnsN).store.log, t ∈ (upd base).log ∨ _
    rw [logN, upd_log]
    intro t ht
    refine (foreign t ht).imp id fun h j x hx => h x ?_
    rcases st_log (onA base) (onB base) f j with k | k | k <;> rw [k] at hx
    · exact (upd_log base) ▸ hx
    · exact (upd_log base) ▸ hx
    · exact hx

theorem crewN (f : Str) : CrewEventOk toy C base (st (onA base) (onB base) f) (.work 0 turnsN) := by
  show ∀ t ∈ (afterA turnsN).store.log, t ∈ (upd base).log ∨ _
  rw [logN, upd_log]
  have h : ∀ t ∈ base ++ opsN, t ∈ base ∨ t.uuid = [1] ∧ t.key ∉ recordKeys ∧ t.key ≠ keyName := by decide +kernel
  exact fun t ht => (h t ht).imp id fun ⟨a, b, c⟩ => leaves a b c

def es : List Event := [.work 0 turnsN]
def s1 : List Event := [.sync 0 v []]

theorem crewOk (f : Str) : CrewRunOk toy C base (es ++ s1 ++ []) (st (onA base) (onB base) f) :=
  ⟨crewN f, ⟨perm_id, perm_id'⟩, trivial⟩

theorem runOk {f : Str} (hf : SavedWith toy C master f base) : TextRunOk toy true (es ++ s1 ++ []) (st (onA base) (onB base) f) := by
  have hinv := (((CrewCopies.inv toy_lawful (copies hf)).work (workN f) (crew_run toy_lawful _ ring_base roomy (copies hf).creds _ _ (crewOk f)).1).1)
  rw [step_work0] at hinv
  have hdel : ∀ t ∈ base ++ opsN, t.kind ≠ .del := by decide +kernel
  have hlog : (st (afterA turnsN) (onB base) f).log 0 = base ++ opsN := logN
  have hone : collectSyncs (shareWorld f) v.ord (afterA turnsN).store.updateSnapshot.1 = [[97]] :=
    (by decide +kernel : collectSyncs (shareWorld []) v.ord (afterA turnsN).store.updateSnapshot.1 = [[97]])
  have hcl : ∀ d x, ¬ Txlogs.Spec.TouchedAfterDelete (base ++ opsN) base d x := by
    rintro d x ⟨k, -, hd, -⟩
    exact hdel d (k.elim id fun k => List.mem_append_left _ k) hd
  have hm := sync_merged_store (v := v) (inp := []) (hinv.shareFor 0) perm_id' (by decide : ([97] : Str) ≠ []) hone
    (by rintro ⟨d, x, k⟩
        refine hcl d x ?_
        rw [← hlog]
        exact k)
  simp only [es, s1, List.cons_append, List.nil_append, TextRunOk, step_work0, and_true]
  refine ⟨⟨workN f, textN, ?_⟩, by decide, perm_id', ⟨[97], by decide, hone⟩, ?_, ?_⟩
  · show ∀ t ∈ (afterA turnsN).store.log, FitsInt64 t.time
    rw [logN]
    exact (by decide +kernel : ∀ t ∈ base ++ opsN, -9223372036854775808 ≤ t.time ∧ t.time ≤ 9223372036854775807)
  · have e := chrono_ext hm.1.own.good.chrono (own (by decide +kernel : ownB (base ++ opsN) = true)).good.chrono fun t => by
      rw [hm.2]
      show t ∈ (afterA turnsN).store.log ∨ _ ↔ _
      rw [logN, List.mem_append]
      constructor
      · rintro (k | k)
        · exact k
        · exact .inl k
      · exact .inl
    unfold Counted
    rw [e]
    decide +kernel
  · rintro - ⟨d, x, R, h1, h2⟩
    have hr := (crewScheme toy_lawful C good_base ring_base roomy (copies hf).creds).reads 0 (own (by decide +kernel : ownB base = true)) (leaves_refl _) hf
    have hr' : readShare toy C ((st (afterA turnsN) (onB base) f).machine 0).creds (st (afterA turnsN) (onB base) f).share = some base := by
      show readShare toy C (afterA turnsN).creds f = some base
      rw [credsN]
      exact hr
    rw [hr'] at h1
    cases h1
    rw [hlog] at h2
    exact hcl d x h2

-- C89: the hypotheses of `C89_users_text_agree_partial`
example : ∃ F, CrewCopies toy C master rs F base ∧ (∀ t ∈ base, Json.Spec.CleanTx t ∧ FitsInt64 t.time) ∧
    TextRunOk toy true (es ++ s1 ++ []) F ∧ CrewRunOk toy C base (es ++ s1 ++ []) F ∧ OnlySyncs s1 ∧ (F.run toy C es).log 0 = base ++ opsN := by
  obtain ⟨f, hf⟩ := shared
  exact ⟨_, copies hf, clean_base, runOk hf, crewOk f, by simp [OnlySyncs, s1], by simp only [es, Fleet.run, step_work0]; exact logN⟩

end CrewTextDemo
end Verif.App
