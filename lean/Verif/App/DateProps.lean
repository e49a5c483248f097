import Verif.App.DateLemmas
import Verif.App.HistoryProps
import Verif.App.FieldsProps
import Verif.App.ShowProps
/-!
# C109: every entry has a date that tells when it was changed last
-/
set_option linter.unusedSimpArgs false
namespace Verif.App
open Verif Verif.Txlogs Verif.Blob Verif.Crypt Verif.App.Spec
open Verif.Txlogs.Spec (GoodHistory)

/-- In a file in order with a dated history every entry has a date: a number that fits into an `int64`. It is the one that the last
operation wrote that wrote a date for this entry, and lies before the time of that operation. -/
theorem C109_dated (s : DB) (h : OwnHistory s.log) (hd : DatedHistory s.log) (w : Str) (e : Str → Option Str)
    (he : Blob.Spec.Visible s w e) :
    ∃ n, FitsInt64 n ∧ e keyUpdated = some (fmtInt n) ∧
      ∃ t ∈ s.log, t.kind = .setk ∧ t.uuid = w ∧ t.key = keyUpdated ∧ t.value = fmtInt n ∧ n < t.time ∧
        ∀ t' ∈ s.log, t'.kind = .setk → t'.uuid = w → t'.key = keyUpdated → t'.time ≤ t.time := by
  obtain ⟨st, hm, hst⟩ := he
  obtain ⟨t0, ht0, hk0, hu0, hkey0, hv0⟩ := dated_entry h.good hd hm hst
  -- the last one
  have hmax : ∀ l : List Tx, (∃ t ∈ l, t.kind = .setk ∧ t.uuid = w ∧ t.key = keyUpdated) →
      ∃ t ∈ l, (t.kind = .setk ∧ t.uuid = w ∧ t.key = keyUpdated) ∧
        ∀ t' ∈ l, t'.kind = .setk → t'.uuid = w → t'.key = keyUpdated → t'.time ≤ t.time := by
    intro l
    induction l with
    | nil => rintro ⟨t, ht, -⟩; cases ht
    | cons x l ih =>
      intro hex
      by_cases hl : ∃ t ∈ l, t.kind = .setk ∧ t.uuid = w ∧ t.key = keyUpdated
      · obtain ⟨t, ht, h1, h2⟩ := ih hl
        by_cases hx : (x.kind = .setk ∧ x.uuid = w ∧ x.key = keyUpdated) ∧ t.time < x.time
        · refine ⟨x, by simp, hx.1, fun t' ht' a b c => ?_⟩
          rcases List.mem_cons.1 ht' with rfl | ht'
          · omega
          · have := h2 t' ht' a b c; omega
        · refine ⟨t, by simp [ht], h1, fun t' ht' a b c => ?_⟩
          rcases List.mem_cons.1 ht' with rfl | ht'
          · by_cases hlt : t.time < t'.time
            · exact absurd ⟨⟨a, b, c⟩, hlt⟩ hx
            · omega
          · exact h2 t' ht' a b c
      · obtain ⟨t, ht, h1⟩ := hex
        rcases List.mem_cons.1 ht with rfl | ht
        · refine ⟨t, by simp, h1, fun t' ht' a b c => ?_⟩
          rcases List.mem_cons.1 ht' with rfl | ht'
          · omega
          · exact absurd ⟨t', ht', a, b, c⟩ hl
        · exact absurd ⟨t, ht, h1⟩ hl
  obtain ⟨t, ht, ⟨hk, hu, hkey⟩, hlast⟩ := hmax s.log ⟨t0, ht0, hk0, hu0, hkey0⟩
  obtain ⟨n, hn, hlt, hv⟩ := hd.date t ht hk hkey
  refine ⟨n, hn, ?_, t, ht, hk, hu, hkey, hv, hlt, hlast⟩
  rw [← hv]
  refine last_written h.good hm hst ht hk hu hkey (fun t' ht' hk' hu' hkey' => ?_)
  rcases hk' with hk' | hk'
  · have := hlast t' ht' hk' hu' hkey'
    by_cases heq : t'.time = t.time
    · exact .inl (chrono_time_inj h.good.chrono ht' ht heq)
    · exact .inr (by omega)
  · exact absurd hkey' (hd.kept t' ht' hk')

/-- So `show` never fails because of the date. -/
theorem C109_show (v : Env) (u : Session) (q uuid : Str) (e : Str → Option Str) (hv : EnvOk v u.store) (h : Sound u.store)
    (hd : DatedHistory u.store.log) (hp : Picks v u.store q uuid) (he : Blob.Spec.Visible u.store uuid e) :
    ∃ en, (showCmd v u q 0).2 = .ok (some en) ∧ en ≠ [] ∧ (fun k => en.get? k) = e := by
  obtain ⟨n, hn, h1, -⟩ := C109_dated u.store h.own hd uuid e he
  refine (C81_show v u q uuid e hv h.wf hp he).2.1 ?_
  intro ts hts
  rw [h1] at hts
  cases hts
  rw [atoi_fmtInt n hn]
  rfl

/-- No date lies in the future. -/
theorem C109_past (v : Env) (s : DB) (h : OwnHistory s.log) (hd : DatedHistory s.log) (hc : ClockOk v s) (w : Str) (e : Str → Option Str)
    (he : Blob.Spec.Visible s w e) : ∃ n, e keyUpdated = some (fmtInt n) ∧ n < v.d.now 0 := by
  obtain ⟨n, -, h1, t, ht, -, -, -, -, h2, -⟩ := C109_dated s h hd w e he
  have := hc.late t ht
  exact ⟨n, h1, by omega⟩

/-! ## The dates stay -/

theorem C109_new : DatedHistory DB.new.log := ⟨fun _ h => (by cases h), fun _ h => (by cases h), fun _ h => (by cases h)⟩

theorem C109_sync_partial (P : Prims) (C : Codec) (w : World) (v : SyncEnv) (nm : Str) (push : Bool) (u : Session) (inp : Input)
    (hok : Ok u.store) (h : OwnHistory u.store.log) (hd : DatedHistory u.store.log) (hs : SyncOk P C w v nm u inp)
    (hp : PulledDated P C w v nm u inp) (hr : (sync P C w v nm push u inp).result = .ok ()) :
    DatedHistory (sync P C w v nm push u inp).session.store.log := by
  obtain ⟨-, -, -, d⟩ := own_sync (push := push) hok h hs hr
  rcases d with d | ⟨syncs, l, rest, d1, d2, d3, d4, d5⟩
  · rw [d]; exact hd
  · have hq := hp syncs l rest d1 d2
    have hk : keyKnownHosts ≠ keyUpdated := by decide
    refine ⟨fun x hx hxk => ?_, fun x hx hxk => ?_, fun x hx hxk hkey => ?_⟩
    · rcases d5 x hx with h1 | ⟨q, h1, h2⟩ | h1
      · obtain ⟨y, hy, h3⟩ := hd.given x h1 hxk
        exact ⟨y, d3 y hy, h3⟩
      · obtain ⟨y, hy, h3⟩ := (hq q h1).given x h2 hxk
        exact ⟨y, d4 q h1 y hy, h3⟩
      · rw [h1.1] at hxk; cases hxk
    · rcases d5 x hx with h1 | ⟨q, h1, h2⟩ | h1
      · exact hd.kept x h1 hxk
      · exact (hq q h1).kept x h2 hxk
      · rw [h1.1] at hxk; cases hxk
    · rcases d5 x hx with h1 | ⟨q, h1, h2⟩ | h1
      · exact hd.date x h1 hxk hkey
      · exact (hq q h1).date x h2 hxk hkey
      · exact absurd (h1.2.symm.trans hkey) hk

/-- Any line, `sync` included, that succeeds. -/
theorem C109_line_partial (P : Prims) (C : Codec) (v : Env) (line : Str) (r : Repl) (b : Bool) (h : Sound r.u.store)
    (hd : DatedHistory r.u.store.log) (hl : DatedTurn P C v line r) (hr : (runLine P C v line r).2 = .ok b) :
    DatedHistory (runLine P C v line r).1.u.store.log := by
  rcases hl.whole with hh | ⟨args, hp, hs, -⟩
  · exact dated_append hd hl.fits hh.clock.tick (date_line h.tx h.wf hh.legal (by rw [hr]; simp))
  · rcases runLine_sync (P := P) (C := C) (v := v) (r := r) hp with h1 | ⟨h1, h2⟩
    · rw [h1]; exact hd
    · rw [h1]
      exact C109_sync_partial P C _ _ _ _ _ _ h.wf.good.ok h.own hd hs (hl.pulled args hp) (h2 b hr)

/-- Any number of lines, `sync` included, of a session that ends normally. -/
theorem C109_session_partial (P : Prims) (C : Codec) (turns : List Turn) (r : Repl) (h : Sound r.u.store)
    (hd : DatedHistory r.u.store.log) (hl : Along P C (DatedTurn P C) turns r) (hr : (runRepl P C turns r).2 = .ok ()) :
    DatedHistory (runRepl P C turns r).1.u.store.log := by
  induction turns generalizing r with
  | nil => exact hd
  | cons t rest ih =>
    obtain ⟨o, v⟩ := t
    cases o with
    | none => exact hd
    | some line =>
      obtain ⟨hl1, hl2⟩ := hl
      have key := C87_line_partial P C v line r (h := h) (hl := hl1.whole)
      have key2 := C109_line_partial P C v line r (h := h) (hd := hd) (hl := hl1)
      unfold runRepl at hr ⊢
      cases hx : runLine P C v line r with
      | mk r' o =>
        rw [hx] at hr key key2 hl2
        cases o with
        | panic => cases hr
        | err e => cases hr
        | ok b =>
          cases b with
          | true => exact key2 _ rfl
          | false => exact ih r' (key _ rfl) (key2 _ rfl) hl2 hr

/-- an automatic `sync` meets dated files, if there is one -/
def AutoDated (P : Prims) (C : Codec) (v : Env) (u : Session) : Prop := AutoOk P C v u ∧ PulledDated P C v.w v.v [] u v.d.inp

theorem dated_autoSync {P : Prims} {C : Codec} {v : Env} {auto : Bool} {r : Repl} (h : Sound r.u.store) (hd : DatedHistory r.u.store.log)
    (ha : auto = true → AutoDated P C v r.u) (hr : (autoSync P C v auto r).2 = .ok ()) :
    DatedHistory (autoSync P C v auto r).1.u.store.log := by
  unfold autoSync at hr ⊢
  by_cases hc : r.u.readOnly = false ∧ auto = true
  · rw [if_pos hc] at hr ⊢
    obtain ⟨⟨hs, hn⟩, hp⟩ := ha hc.2
    exact C109_sync_partial P C _ _ _ _ _ _ h.wf.good.ok h.own hd hs hp hr
  · rw [if_neg hc]
    exact hd

/-- The whole program, from the opened file through the automatic `sync`s and everything typed to the file that is written. -/
theorem C109_program_partial (P : Prims) (C : Codec) (auto : Bool) (v v' : Env) (iv : Str) (turns : List Turn) (u : Session)
    (o : Option Str) (h : Sound u.store) (hd : DatedHistory u.store.log) (h1 : auto = true → AutoDated P C v u)
    (h2 : Along P C (DatedTurn P C) turns (autoSync P C v auto { u := u }).1)
    (h3 : auto = true → AutoDated P C v' (runRepl P C turns (autoSync P C v auto { u := u }).1).1.u)
    (hr : (session P C auto v v' iv turns u).2 = .ok o) : DatedHistory (session P C auto v v' iv turns u).1.u.store.log := by
  have a := dated_autoSync (P := P) (C := C) (v := v) (auto := auto) (r := { u := u }) h hd h1
  have a' := sound_autoSync (P := P) (C := C) (v := v) (auto := auto) (r := { u := u }) h (fun x => (h1 x).1)
  have hal : ∀ r, Along P C (DatedTurn P C) turns r → Along P C (WholeTurn P C) turns r :=
    fun r hr => along_weaken (fun _ _ _ hx => hx.whole) turns r hr
  unfold session at hr ⊢
  cases hx : autoSync P C v auto { u := u } with
  | mk r1 o1 =>
    rw [hx] at hr a a' h2 h3
    cases o1 with
    | panic => cases hr
    | err e => cases hr
    | ok x =>
      have a := a rfl
      have a' := a' rfl
      simp only at hr h2 h3 ⊢
      have b := C109_session_partial P C turns r1 a' a h2
      have b' := C87_session_partial P C turns r1 a' (hal _ h2)
      cases hy : runRepl P C turns r1 with
      | mk r2 o2 =>
        rw [hy] at hr b b' h3
        cases o2 with
        | panic => cases hr
        | err e => cases hr
        | ok x =>
          have b := b rfl
          have b' := b' rfl
          simp only at hr h3 ⊢
          have c := dated_autoSync (P := P) (C := C) (v := v') (auto := auto && r2.u.startTx ≠ r2.u.store.log.length) (r := r2) b' b
            (fun h => h3 (by simp only [Bool.and_eq_true] at h; exact h.1))
          cases hz : autoSync P C v' (auto && r2.u.startTx ≠ r2.u.store.log.length) r2 with
          | mk r3 o3 =>
            rw [hz] at hr c
            cases o3 with
            | panic => cases hr
            | err e => cases hr
            | ok x => exact c rfl

/-! ## What the date tells -/

/-- After a line other than `sync`, an entry either has a date that the clock showed during the line, or is as before, except that all
its labels may be gone and that the record of a user may be another one. -/
theorem C109_tells_partial (P : Prims) (C : Codec) (v : Env) (line : Str) (r : Repl) (h0 : r.u.store.txPoint = 0)
    (h : WellFormed r.u.store) (hl : LegalTurn v line r) (hn : (runLine P C v line r).2 ≠ .panic) (w : Str) (e e' : Str → Option Str)
    (he : Blob.Spec.Visible r.u.store w e) (he' : Blob.Spec.Visible (runLine P C v line r).1.u.store w e') :
    (∃ j, j < 12 ∧ e' keyUpdated = some (fmtInt (v.d.now j))) ∨ NotTold e e' := by
  obtain ⟨l, hlog, hq, hm⟩ := date_line (P := P) (C := C) h0 h hl hn
  have hw : w ≠ v.d.uuid := by rintro rfl; exact hl.env.fresh ⟨e, he⟩
  obtain ⟨st, h1, h2⟩ := he
  obtain ⟨st', h3, h4⟩ := he'
  rw [hlog, meaning_append, h1] at h3
  have h3 : Txlogs.Spec.meaning st l = some st' := h3
  have hadd : ∀ t ∈ l, t.kind = .add → t.uuid ≠ w := fun t ht hk hu => hw (hu.symm.trans ((hq t ht).add hk))
  by_cases hex : ∃ t ∈ l, t.kind = .setk ∧ t.uuid = w ∧ t.key = keyUpdated
  · obtain ⟨y, hy, hk, hu, hkey⟩ := hex
    obtain ⟨t, ht, a, -, b, c⟩ := date_written h3 h4 hadd (fun t ht hk => (hq t ht).cut hk) hy hk hu hkey
    obtain ⟨j, hj, -, hv⟩ := (hq t ht).date a b
    exact .inl ⟨j, hj, by rw [c, hv]⟩
  · right
    have hno : ∀ t ∈ l, t.kind = .setk ∨ t.kind = .delk → t.uuid = w →
        t.key ∈ [keySalt, keyIV, keyMKey] ∨ (t.kind = .delk ∧ t.key = keyLabels) := by
      intro t ht hk hu
      by_cases hs : ShowsDate v.d.uuid t
      · obtain ⟨t', a, b, c, d⟩ := hm t ht hs
        exact absurd ⟨t', a, b, c.trans hu, d⟩ hex
      · by_cases hd : t.key = keyUpdated
        · rcases hk with hk | hk
          · exact absurd ⟨t, ht, hk, hu, hd⟩ hex
          · exact absurd hd ((hq t ht).cut hk)
        · by_cases h5 : t.kind = .delk ∧ t.key = keyLabels
          · exact .inr h5
          · left
            by_cases h6 : t.key ∈ [keySalt, keyIV, keyMKey]
            · exact h6
            · refine absurd (.inr ⟨hk, by rw [hu]; exact hw, ?_, h5⟩) hs
              simp only [List.mem_cons, List.not_mem_nil, or_false] at h6 ⊢
              exact fun h => h.elim hd h6
    have hkeys : ∀ k, k ∉ [keySalt, keyIV, keyMKey, keyLabels] → e' k = e k := by
      intro k hk
      refine value_fixed l st st' e e' h3 h2 h4 hadd (fun t ht hk' hu hkey => hk ?_)
      rcases hno t ht hk' hu with h5 | h5
      · rw [← hkey]
        simp only [List.mem_cons, List.not_mem_nil, or_false] at h5 ⊢
        rcases h5 with h5 | h5 | h5 <;> simp [h5]
      · rw [← hkey, h5.2]; simp
    refine ⟨hkeys _ (by decide), hkeys, ?_⟩
    cases hx : e' keyLabels with
    | none => exact .inr rfl
    | some x =>
      left
      rcases value_written l st st' e' h3 h4 hx with ⟨e2, h5, h6⟩ | ⟨t, ht, a, b, c, -⟩
      · rw [h2] at h5; cases h5; exact h6.symm
      · rcases hno t ht (.inl a) b with h5 | h5
        · rw [c] at h5; exact absurd h5 (by decide)
        · rw [a] at h5; cases h5.1

/-- When the clock runs, a changed entry has a later date than before. -/
theorem C109_later_partial (P : Prims) (C : Codec) (v : Env) (line : Str) (r : Repl) (h : Sound r.u.store)
    (hd : DatedHistory r.u.store.log) (hl : HistoryTurn v line r) (hn : (runLine P C v line r).2 ≠ .panic) (w : Str)
    (e e' : Str → Option Str) (he : Blob.Spec.Visible r.u.store w e)
    (he' : Blob.Spec.Visible (runLine P C v line r).1.u.store w e') :
    ∃ n n', e keyUpdated = some (fmtInt n) ∧ e' keyUpdated = some (fmtInt n') ∧ n < v.d.now 0 ∧ n ≤ n' ∧ (n' ≤ n → NotTold e e') := by
  obtain ⟨n, h1, h2⟩ := C109_past v r.u.store h.own hd hl.clock w e he
  rcases C109_tells_partial P C v line r h.tx h.wf hl.legal hn w e e' he he' with ⟨j, -, h3⟩ | h3
  · have : v.d.now 0 ≤ v.d.now j := by
      cases j with
      | zero => omega
      | succ j => have := hl.clock.tick 0 (j + 1) (by omega); omega
    exact ⟨n, v.d.now j, h1, h3, h2, by omega, fun _ => by omega⟩
  · exact ⟨n, n, h1, h3.date.trans h1, h2, by omega, fun _ => h3⟩

/-- After `sync` the date of an entry is the one that was written last on any of the machines. -/
theorem C109_synced_partial (P : Prims) (C : Codec) (w : World) (v : SyncEnv) (push : Bool) (u : Session) (inp i1 i2 : Input)
    (l : List (Str × Fate × Str)) (m : Merged) (hok : Ok u.store) (h : OwnHistory u.store.log) (hs : SyncOk P C w v [] u inp)
    (hl : pullAll P C w { u with store := u.store.updateSnapshot.1 } (collectSyncs w v.ord u.store.updateSnapshot.1) inp = (some l, i1))
    (hm : mergeBlobs v.ord u.creds u.store.log (remotes l) i1 = (.ok m, i2))
    (hr : (sync P C w v [] push u inp).result = .ok ()) (x : Str) (e : Str → Option Str)
    (he : Blob.Spec.Visible (sync P C w v [] push u inp).session.store x e) :
    Says (Anywhere u.store.log l) x keyUpdated (e keyUpdated) :=
  (C96_sync_partial P C w v push u inp i1 i2 l m hok h hs hl hm hr x).2 e he keyUpdated (by decide)

end Verif.App
