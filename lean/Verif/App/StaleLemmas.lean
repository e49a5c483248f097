import Verif.App.StaleSpec
import Verif.App.SyncProps
import Verif.App.CrashLemmas
import Verif.App.WordLemmas
import Verif.App.AccountsLemmas
/-!
# Lemmas on earlier versions of a file
-/
namespace Verif.App
open Verif Verif.Txlogs Verif.Blob Verif.Crypt Spec
open Verif.Txlogs.Spec (GoodHistory LooksSame)

theorem last_lt {a e : List Tx} {x y : Tx} (hc : Txlogs.Spec.Chrono (a ++ e)) (hx : a.getLast? = some x) (hy : (a ++ e).getLast? = some y) (he : e ≠ []) :
    x.time < y.time := by
  have h1 : x ∈ a := List.mem_of_getLast? hx
  have h2 : y ∈ e := by
    rw [List.getLast?_append] at hy
    cases h : e.getLast? with
    | none => exact absurd (List.getLast?_eq_none_iff.1 h) he
    | some z =>
      rw [h] at hy
      simp only [Option.some_or, Option.some.injEq] at hy
      rw [← hy]
      exact List.mem_of_getLast? h
  exact (List.pairwise_append.1 hc).2.2 x h1 y h2

/-- Whatever credentials an earlier version has, those of the session are kept, and nothing is asked. -/
theorem takeRemote_old {ord : Order} (hord : ∀ m, (ord m).Perm m) {c : Creds} {a e : List Tx} {r : Remote} (inp : Input)
    (ho : OwnHistory (a ++ e)) (hs : Settled c (a ++ e)) (hr : r.log = a) (ha : a ≠ []) (he : e ≠ []) :
    takeRemote ord c { creds := c, log := a ++ e } r (a ++ e) inp = (.ok false, inp) := by
  obtain ⟨us, g1, -⟩ := users_spec hord (good_own ho)
  have hus := users_hasUsers hord g1
  unfold takeRemote
  split
  · split
    · rfl
    · rw [hr]
      cases h1 : a.getLast? with
      | none => exact absurd (List.getLast?_eq_none_iff.1 h1) ha
      | some x =>
        cases h2 : (a ++ e).getLast? with
        | none => simp at h2; exact absurd h2.2 ha
        | some y =>
          have := last_lt ho.good.chrono h1 h2 he
          simp only
          rw [if_neg (by omega), if_neg (by omega)]
  · split
    · rw [g1]
      simp only
      rw [if_neg (fun h => h.2 (Decidable.byContradiction fun hm => (hus.2 (hs.mode.1 hm)) h.1)),
        if_neg (fun h => (hs.mode.2 (hus.1 h.1)) h.2)]
    · rename_i h0 hl
      split
      · have hm : c.master ≠ [] := by
          intro hm
          rw [hm] at hl
          simp only [List.length_nil, ne_eq, Decidable.not_not] at hl
          exact h0 ⟨hm, List.length_eq_zero_iff.1 hl.symm⟩
        obtain ⟨uuid, hme⟩ := hs.me hm
        simp only [findUser]
        rcases findByName_spec hord (good_own ho) (userPrefix ++ c.user) with ⟨x, en, k, hv, -⟩ | ⟨-, k⟩
        · rw [k]
          have hf : (find { log := a ++ e } x).2 = .ok ((DB.updateSnapshot { log := a ++ e }).1.snapshot.get? x) := by
            unfold find
            rw [(good_withSnapshot (good_own ho) _).1]
          simp only [Option.map_some, Option.getD_some, hf, g1]
          obtain ⟨-, hfr, -, hlog⟩ := good_withSnapshot (good_own ho) (fun s => ((s, .panic) : Out Str))
          have hv' : Blob.Spec.Visible (DB.updateSnapshot { log := a ++ e }).1 x (fun k => en.get? k) := by
            unfold Blob.Spec.Visible at hv ⊢
            rw [hlog]; exact hv
          obtain ⟨en', h1, h2⟩ := (visible_fresh hfr x _).1 hv'
          rw [h1]
          have : val en keyMKey = val en' keyMKey := by
            have := congrFun h2 keyMKey
            simp only [val, this]
          simp [this]
        · exact absurd hme (k uuid)
      · rfl

/-- Merging with earlier versions changes nothing, and uses up no answer. -/
theorem mergeRemotes_old {ord : Order} (hord : ∀ m, (ord m).Perm m) {c : Creds} {log : List Tx} (ho : OwnHistory log) (hs : Settled c log)
    (rs : List Remote) (hr : ∀ r ∈ rs, OldCopy log r.log ∧ r.log ≠ log) (inp : Input) :
    mergeRemotes ord c rs { creds := c, log := log } inp = (.ok { creds := c, log := log }, inp) := by
  induction rs with
  | nil => rfl
  | cons r rs ih =>
    obtain ⟨⟨h1, e, h2⟩, h3⟩ := hr r (by simp)
    have he : e ≠ [] := by rintro rfl; simp at h2; exact h3 h2
    subst h2
    have hm : mergeLogs (r.log ++ e) r.log inp = (.ok (r.log ++ e), inp) := by
      unfold mergeLogs
      rw [if_neg h1, mergeRounds_log inp (C14_own_past_good r.log e (by simp [h1]) ho.good).1]
    simp only [mergeRemotes, hm]
    rw [takeRemote_old hord inp ho hs rfl h1 he]
    simp only [Bool.false_eq_true, if_false]
    exact ih fun r' h' => hr r' (by simp [h'])

/-- What is merged was read, and differs. -/
theorem pullOne_changed {P : Prims} {C : Codec} {w : World} {u : Session} {uuid : Str} {inp inp' : Input} {r : Remote} {h : Str}
    (hp : pullOne P C w u uuid inp = (some (.merge r, h), inp')) :
    noChanges r.log u.store.log = some false ∧ ∃ ct, Reads w uuid ((u.store.snapshot.get? uuid).getD []) ct ∧ ∃ v p pt,
      decrypt P r.creds.user r.creds.pass (orNil u.creds.key) u.creds.salt ct = .ok (v, p, pt) ∧ pt ≠ [] ∧ C.loadLog pt = .ok r.log := by
  constructor
  · simp only [pullOne] at hp
    split at hp
    · cases hp
    · cases hp
    · cases hp
    · split at hp
      · cases hp
      · cases hp
      · cases hp
      · split at hp
        · cases hp
        · split at hp
          · cases hp
          · cases hp
          · split at hp
            · cases hp
            · cases hp
            · rename_i hn
              split at hp
              · cases hp; exact hn
              · cases hp
  · rcases pullOne_fate hp (by simp) with ⟨h1, -⟩ | ⟨ct, r', h1, h2⟩
    · cases h1
    · cases h1; exact ⟨ct, h2⟩

theorem noChanges_looksSame {a b : List Tx} (h : LooksSame a b) : noChanges a b ≠ some false := by
  obtain ⟨h1, h2, h3⟩ := h
  unfold noChanges
  rw [if_neg (by simp [h1])]
  split
  · rename_i x y z t e1 e2 e3 e4
    rw [e1, e2] at h2
    rw [e3, e4] at h3
    simp only [Option.map_some, Option.some.injEq] at h2 h3
    simp [h2, h3]
  · simp

end Verif.App
