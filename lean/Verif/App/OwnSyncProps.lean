import Verif.App.OwnSyncLemmas
import Verif.App.HistoryProps
import Verif.App.Net
/-!
# C98: `sync` does not lock anybody out of a file without users
-/
set_option linter.unusedSimpArgs false
namespace Verif.App
open Verif Verif.Txlogs Verif.Blob Verif.Crypt Verif.App.Spec

/-- Whatever `sync` does in a file without users, and however it ends: as long as the remotes hold files without users too, the
session afterwards has the key of a passphrase that is the one from before or one that was typed. -/
theorem C98_partial (P : Prims) (hP : Crypt.Spec.Lawful P) (C : Codec) (w : World) (v : SyncEnv) (nm : Str) (push : Bool) (u : Session)
    (inp : Input) (pass : Str) (ho : OwnSession P u pass) (hw : Listens w) (hn : NoUsersThere w v nm u) :
    ∃ pass', (pass' = pass ∨ some pass' ∈ inp) ∧ OwnSession P (sync P C w v nm push u inp).session pass' := by
  rcases sync_cases P C w v nm push u inp with h | ⟨syncs, -, h1, h2, h3⟩
  · exact ⟨pass, .inl rfl, own_store ho h.2.2.2.1 h.1⟩
  · rw [h3]
    have ho' : OwnSession P { u with store := u.store.updateSnapshot.1 } pass := own_store ho rfl rfl
    rcases syncWith_cases P C w v push { u with store := u.store.updateSnapshot.1 } syncs inp with ⟨h, -⟩ | ⟨l, i1, m, i2, a, b, c⟩
    · rw [h]; exact ⟨pass, .inl rfl, ho'⟩
    · have key : ∃ pass', (pass' = pass ∨ some pass' ∈ inp) ∧ OwnSession P { u with creds := m.creds } pass' := by
        rcases mergeRemotes_creds _ _ _ _ _ _ _ b with hc | ⟨q, hq, hc⟩
        · exact ⟨pass, .inl rfl, own_store ho rfl hc⟩
        · obtain ⟨uuid, h, hx⟩ := (mem_remotes l q).1 hq
          obtain ⟨hs, i, i', hi, hp⟩ := pullAll_inputs hw _ _ _ _ _ a _ hx
          obtain ⟨pass', hp1, hp2⟩ := own_remote hP ho' (fun f h rest hf => hn syncs uuid i f h rest ⟨h1, h2⟩ hs hf) hw hp
          exact ⟨pass', hp1.imp id (fun hh => hi.subset hh), own_store hp2 rfl (by rw [hc])⟩
      obtain ⟨pass', k1, k2⟩ := key
      refine ⟨pass', k1, ?_⟩
      rcases c with ⟨s, e, -, h⟩ | ⟨s, -, h⟩
      · rw [h]; exact own_store k2 rfl rfl
      · rw [h]
        exact own_store k2 (pushBack_readOnly P C w v push (newHosts l []) (targets l) _ i2)
          (pushBack_spec P C w v push (newHosts l []) (targets l) _ i2).1

/-- Any line but `adduser`. -/
theorem C98_line_partial (P : Prims) (hP : Crypt.Spec.Lawful P) (C : Codec) (v : Env) (line : Str) (r : Repl) (pass : Str)
    (ho : OwnSession P r.u pass) (hl : OwnSyncTurn v line r) :
    ∃ pass', PassStep v line pass pass' ∧ OwnSession P (runLine P C v line r).1.u pass' := by
  by_cases hs : ∃ args, parseLine line = some (b! "sync", args)
  · obtain ⟨args, hs⟩ := hs
    rcases runLine_sync (P := P) (C := C) (v := v) (r := r) hs with h | ⟨h, -⟩
    · rw [h]; exact ⟨pass, .same, ho⟩
    · rw [h]
      obtain ⟨hw, hn⟩ := hl.remotes _ hs
      obtain ⟨pass', h1, h2⟩ := C98_partial P hP C v.w v.v (args.head?.getD []) true r.u v.d.inp pass ho hw hn
      refine ⟨pass', ?_, h2⟩
      rcases h1 with rfl | h1
      · exact .same
      · exact .sync hs h1
  · refine ⟨_, ?_, own_line_of hP ho hl.salt hl.noAdd (fun args h => hs ⟨args, h⟩)⟩
    unfold passAfter
    cases hp : parseLine line with
    | none => exact .same
    | some x =>
      obtain ⟨cmd, args⟩ := x
      dsimp only
      by_cases h1 : cmd = b! "passwd"
      · rw [if_pos h1]
        cases hg : getPassword v.d.ent v.d.inp with
        | panic => exact .same
        | err e => exact .same
        | ok p =>
          dsimp only
          by_cases h2 : p = []
          · rw [if_pos h2]; exact .same
          · rw [if_neg h2]; exact .passwd (h1 ▸ hp) hg
      · rw [if_neg h1]; exact .same

/-- Any number of such lines. -/
theorem C98_session_partial (P : Prims) (hP : Crypt.Spec.Lawful P) (C : Codec) (turns : List Turn) (r : Repl) (pass : Str)
    (ho : OwnSession P r.u pass) (hl : Along P C OwnSyncTurn turns r) :
    ∃ pass', PassSteps turns pass pass' ∧ OwnSession P (runRepl P C turns r).1.u pass' := by
  induction turns generalizing r pass with
  | nil => exact ⟨pass, .nil, ho⟩
  | cons t rest ih =>
    obtain ⟨o, v⟩ := t
    cases o with
    | none => exact ⟨pass, .nil, ho⟩
    | some line =>
      obtain ⟨hl1, hl2⟩ := hl
      obtain ⟨p, k1, k2⟩ := C98_line_partial P hP C v line r pass ho hl1
      unfold runRepl
      cases hx : runLine P C v line r with
      | mk r' o =>
        rw [hx] at k2 hl2
        cases o with
        | panic => exact ⟨p, .cons k1 .nil, k2⟩
        | err e => exact ⟨p, .cons k1 .nil, k2⟩
        | ok b =>
          cases b with
          | true => exact ⟨p, .cons k1 .nil, k2⟩
          | false =>
            obtain ⟨q, j1, j2⟩ := ih r' p k2 hl2
            exact ⟨q, .cons k1 j1, j2⟩

theorem own_autoSync {P : Prims} (hP : Crypt.Spec.Lawful P) {C : Codec} {v : Env} {auto : Bool} {r : Repl} {pass : Str}
    (ho : OwnSession P r.u pass) (hn : auto = true → Listens v.w ∧ NoUsersThere v.w v.v [] r.u) :
    ∃ pass', (pass' = pass ∨ auto = true ∧ some pass' ∈ v.d.inp) ∧ OwnSession P (autoSync P C v auto r).1.u pass' := by
  unfold autoSync
  by_cases hc : r.u.readOnly = false ∧ auto = true
  · rw [if_pos hc]
    obtain ⟨hw, hn⟩ := hn hc.2
    obtain ⟨pass', h1, h2⟩ := C98_partial P hP C v.w v.v [] true r.u v.d.inp pass ho hw hn
    exact ⟨pass', h1.imp id (fun h => ⟨hc.2, h⟩), h2⟩
  · rw [if_neg hc]; exact ⟨pass, .inl rfl, ho⟩

/-- The whole program: after a run with `sync`s, automatic ones or not, the file that is written opens with a passphrase that the
user gave: the one it was opened with, one given to `passwd`, or one typed when a `sync` asked; and it holds what the session left. -/
theorem C98_program_partial (P : Prims) (hP : Crypt.Spec.Lawful P) (C : Codec) (auto : Bool) (v v' : Env) (iv : Str) (hiv : iv.length = 40)
    (turns : List Turn) (u : Session) (pass f : Str) (ho : OwnSession P u pass) (h : Sound u.store)
    (h1 : auto = true → AutoOk P C v u ∧ Listens v.w ∧ NoUsersThere v.w v.v [] u)
    (h2 : Along P C (fun v line r => WholeTurn P C v line r ∧ OwnSyncTurn v line r) turns (autoSync P C v auto { u := u }).1)
    (h3 : auto = true → AutoOk P C v' (runRepl P C turns (autoSync P C v auto { u := u }).1).1.u ∧ Listens v'.w ∧
      NoUsersThere v'.w v'.v [] (runRepl P C turns (autoSync P C v auto { u := u }).1).1.u)
    (hC : Faithful C (session P C auto v v' iv turns u).1.u.store)
    (hr : (session P C auto v v' iv turns u).2 = .ok (some f)) :
    ∃ p1 p2 p3 c s', (p1 = pass ∨ auto = true ∧ some p1 ∈ v.d.inp) ∧ PassSteps turns p1 p2 ∧
      (p3 = p2 ∨ auto = true ∧ some p3 ∈ v'.d.inp) ∧
      Spec.SameStore s' (session P C auto v v' iv turns u).1.u.store ∧
      openFile P C none f [some p3] = (.ok { creds := c, store := s', readOnly := false
                                             startTx := (session P C auto v v' iv turns u).1.u.store.log.length }, []) := by
  have hs := C87_program_partial P C auto v v' iv turns u (some f) h (fun hh => (h1 hh).1)
    (along_mono (fun _ _ _ h => h.1) _ _ h2) (fun hh => (h3 hh).1) hr
  obtain ⟨p1, a1, a2⟩ := own_autoSync hP (C := C) (v := v) (auto := auto) (r := { u := u }) ho (fun hh => (h1 hh).2)
  unfold session at hr hC hs ⊢
  cases hx : autoSync P C v auto { u := u } with
  | mk r1 o1 =>
    rw [hx] at hr hC hs a2 h2 h3
    cases o1 with
    | panic => cases hr
    | err e => cases hr
    | ok x =>
      simp only at h2 h3 hr hC hs a2 ⊢
      obtain ⟨p2, b1, b2⟩ := C98_session_partial P hP C turns r1 p1 a2 (along_mono (fun _ _ _ h => h.2) _ _ h2)
      cases hy : runRepl P C turns r1 with
      | mk r2 o2 =>
        rw [hy] at hr hC hs b2 h3
        cases o2 with
        | panic => cases hr
        | err e => cases hr
        | ok x =>
          simp only at hr hC hs b2 h3 ⊢
          obtain ⟨p3, c1, c2⟩ := own_autoSync hP (C := C) (v := v') (auto := auto && r2.u.startTx ≠ r2.u.store.log.length) (r := r2) b2
            (fun hh => (h3 (by simp only [Bool.and_eq_true] at hh; exact hh.1)).2)
          cases hz : autoSync P C v' (auto && r2.u.startTx ≠ r2.u.store.log.length) r2 with
          | mk r3 o3 =>
            rw [hz] at hr hC hs c2
            cases o3 with
            | panic => cases hr
            | err e => cases hr
            | ok x =>
              simp only at hr hC hs c2 ⊢
              obtain ⟨f', s', g1, g2, g3⟩ := C51_save_open_single P hP C v'.ord v'.ord' iv hiv r3.u c2.writable hs.tx hC c2.creds p3
                c2.pass_ne c2.key
              rw [g1] at hr
              cases hr
              exact ⟨p1, p2, p3, _, s', a1, b1, c1.imp id (fun hh => ⟨by simpa using And.left (by simpa using hh.1), hh.2⟩), g2, g3⟩

/-- What `sync` over ssh and in files takes from the user it takes from the front. -/
theorem netWorld_listens (o : Outside) : Listens (netWorld o) := by
  intro uuid e inp x rest h
  have hcb : ∀ known k i, (callback o.sha known k i).2 <:+ i := by
    intro known k i
    unfold callback
    cases checkKnown o.sha k (split newline known) with
    | panic => exact List.suffix_refl _
    | err e => exact List.suffix_refl _
    | ok b =>
      cases b with
      | true => exact List.suffix_refl _
      | false =>
        dsimp only
        have := prompt_suffix i
        cases hp : prompt i with
        | mk a b =>
          rw [hp] at this
          cases a with
          | none => exact this
          | some line => dsimp only; split <;> exact this
  have hdial : ∀ c known i, (dial o c known i).rest <:+ i := by
    intro c known i
    unfold dial
    split
    · exact List.suffix_refl _
    · rename_i s hs
      split
      · exact List.suffix_refl _
      · have := hcb known (hostKey c.address s) i
        cases hc : callback o.sha known (hostKey c.address s) i with
        | mk a b => rw [hc] at this; cases a <;> exact this
  simp only [netWorld] at h
  cases h
  unfold sshPull
  split
  · exact List.suffix_refl _
  · exact List.suffix_refl _
  · rename_i c hc
    dsimp only
    have := hdial c (val e keyKnownHosts) inp
    split <;> exact this

/-- So with the real network the hypothesis about the world is met. -/
theorem C98_net_partial (P : Prims) (hP : Crypt.Spec.Lawful P) (C : Codec) (o : Outside) (v : SyncEnv) (nm : Str) (push : Bool) (u : Session)
    (inp : Input) (pass : Str) (ho : OwnSession P u pass) (hn : NoUsersThere (netWorld o) v nm u) :
    ∃ pass', (pass' = pass ∨ some pass' ∈ inp) ∧ OwnSession P (sync P C (netWorld o) v nm push u inp).session pass' :=
  C98_partial P hP C _ v nm push u inp pass ho (netWorld_listens o) hn

end Verif.App
