import Verif.App.LockoutLemmas2
/-!
# C88: accounts on several machines
-/
set_option linter.unusedSimpArgs false
namespace Verif.App
open Verif Verif.Txlogs Verif.Blob Verif.Crypt Verif.App.Spec
open Verif.Crypt.Spec (toy toy_lawful)

/-- In a session whose records are in order everybody can open the file with the password set last, wherever it was set. -/
theorem C88_newest (P : Prims) (u : Session) (rs : List Rec) (h : Keyed P u rs) (uuid user : Str) (hu : IsUser u.store uuid user) :
    ∃ r, Newest rs r ∧ r.uuid = uuid ∧ Opens P u.store u.creds.master user r.pass r.salt :=
  keyring_opens h.sound.own.good h.ring hu

/-- ... that is, the file saved at the end opens with this password. -/
theorem C88_opens_partial (P : Prims) (hP : Crypt.Spec.Lawful P) (C : Codec) (ord : Order) (hord : ∀ m, (ord m).Perm m)
    (ord' : Results → Results) (hord' : ∀ m, (ord' m).Perm m) (iv : Str) (u : Session) (rs : List Rec) (h : Keyed P u rs)
    (hro : u.readOnly = false) (hC : Faithful C u.store) (hr : Roomy P u.store.log) (hs : ∃ uuid user, IsUser u.store uuid user) :
    ∃ f s', saveBlob P C ord ord' iv u = .ok (some f) ∧ Spec.SameStore s' u.store ∧
      ∀ uuid user, IsUser u.store uuid user → ∃ r c, Newest rs r ∧ r.uuid = uuid ∧
        openFile P C none f [some user, some r.pass] =
          (.ok { creds := c, store := s', readOnly := false, startTx := u.store.log.length }, []) ∧
        c.master = u.creds.master := by
  obtain ⟨f, s', g1, g2, g3⟩ := C51_save_open_multi P hP C ord hord ord' hord' iv u hro h.sound.tx h.sound.wf.good hC h.creds
    (keyring_wf h.sound.wf h.sound.own.good h.ring hr hs)
  refine ⟨f, s', g1, g2, fun uuid user hu => ?_⟩
  obtain ⟨r, h1, h2, h3⟩ := C88_newest P u rs h uuid user hu
  exact ⟨r, _, h1, h2, g3 user r.pass r.salt h3, rfl⟩

/-- Making a file a file with users starts such a record: of the first user, with the password the file had. -/
theorem C88_first_partial (P : Prims) (hP : Crypt.Spec.Lawful P) (C : Codec) (v : Env) (line : Str) (r : Repl) (pass user : Str)
    (args : List Str) (b : Bool) (hs : SingleSession P r.u pass) (h : Sound r.u.store)
    (hk : ∀ t ∈ r.u.store.log, t.kind = .setk ∨ t.kind = .delk → t.key ∉ recordKeys)
    (hn : ∀ t ∈ r.u.store.log, t.kind = .setk → t.key = keyName → hasPrefix t.value userPrefix = false)
    (hd : DrawOk v.d) (hl : HistoryTurn v line r) (hp : parseLine line = some (b! "adduser", user :: args)) (hne : user ≠ [])
    (ho : (runLine P C v line r).2 = .ok b) :
    ∃ x, Keyed P (runLine P C v line r).1.u [x] ∧ x.pass = pass ∧ x.uuid = v.d.uuid ∧
      (runLine P C v line r).1.u.creds.master = v.d.master ∧ (runLine P C v line r).1.u.creds.user = user := by
  have hsound := C87_line_partial P C v line r b h (.inl hl) ho
  have hrun : runLine P C v line r = back r (adduser P v.ord v.d r.u user) := by
    unfold runLine
    rw [hp]
    simp only [show readOnlyFlag (b! "adduser") = some false from rfl, hs.writable, Bool.false_eq_true, if_false]
    rfl
  rw [hrun] at hsound ⊢
  rw [back_fst] at hsound ⊢
  have hnone : ∀ w x, ¬ IsUser r.u.store w x := by
    intro w x hu
    obtain ⟨t, ht, a1, -, a3, a4⟩ := isUser_uuid hu
    have := hn t ht a1 a3
    rw [a4, user_prefix] at this
    cases this
  rcases newUser_spec hl.legal.env.ord v.d.now h.wf.good (user := user) hl.legal.env.fresh with ⟨-, w, hw⟩ | ⟨s', a, -, -, -, -⟩
  · exact absurd hw (hnone w user)
  · have hlog := newUser_log h.wf.good a
    have hkl : r.u.creds.key.length = 80 := hs.creds.key
    obtain ⟨mkey, h2, h3⟩ := wrap_ok P hP hkl hd.master_length hd.iv_length
    have hlate : ∀ t ∈ r.u.store.log, t.time < v.d.now 4 := by
      intro t ht
      have h1 := hl.clock.late t ht
      have h4 := hl.clock.tick 0 4 (by decide)
      omega
    have he : adduser P v.ord v.d r.u user =
        ({ r.u with creds := { r.u.creds with master := v.d.master, ivm := v.d.ivm, user := user }
                    store := setRecord (fun i => v.d.now (i + 4)) s' v.d.uuid r.u.creds.salt v.d.iv mkey }, .ok ()) := by
      unfold adduser
      rw [a]
      simp only [hs.creds.master, if_true, finishUser, h2]
    rw [he] at hsound ⊢
    refine ⟨⟨v.d.uuid, pass, r.u.creds.salt, v.d.iv, mkey, v.d.now 4, v.d.now 5, v.d.now 6⟩,
      ⟨hsound, ⟨hd.master_length, hd.ivm_length, hkl⟩, ?_⟩, rfl, rfl, rfl, rfl⟩
    simp only
    rw [setRecord_log (fun i => v.d.now (i + 4)) _ _ pass, hlog]
    have h0 : Keyring P v.d.master r.u.store.log [] := by
      refine ⟨by simp, by simp, fun t ht a b => absurd b (hk t ht a), by simp, ?_, ?_⟩
      · rintro w ⟨t, ht, a1, -, a3, a4⟩
        rw [hn t ht a1 a3] at a4; cases a4
      · intro t ht a1 a2 a3
        have := hn t ht a1 a2
        rw [a3] at this
        exact absurd this (by decide)
    refine keyring_set h0 ?_ hlate ?_
    · refine ⟨hs.pass_ne, hs.creds.salt, hd.iv_length, h3, ?_, hl.clock.tick 4 5 (by decide), hl.clock.tick 5 6 (by decide)⟩
      simp only
      rw [← hs.key]
      exact h2
    · intro t ht
      simp only [List.mem_cons, List.not_mem_nil, or_false] at ht
      have hk : keyUpdated ∉ recordKeys ∧ keyName ∉ recordKeys ∧ keyUpdated ≠ keyName := by decide
      rcases ht with rfl | rfl | rfl
      · exact ⟨(by rintro (h | h) <;> cases h), fun h => by cases h⟩
      · exact ⟨fun _ => hk.1, fun _ h => absurd h hk.2.2⟩
      · refine ⟨fun _ => hk.2.1, fun _ _ => ⟨?_, rfl⟩⟩
        intro h
        exact hne (List.append_right_eq_self.1 h)

/-- Every line except `rekeyall` keeps the records in order; it sets at most one password, one that was given in it (or the old one again:
`rekey`), and leaves the master key. -/
theorem C88_line_partial (P : Prims) (hP : Crypt.Spec.Lawful P) (C : Codec) (v : Env) (line : Str) (r : Repl) (rs : List Rec) (b : Bool)
    (h : Keyed P r.u rs) (hl : KeyTurn v line r) (ho : (runLine P C v line r).2 = .ok b) :
    ∃ rs', Keyed P (runLine P C v line r).1.u (rs ++ rs') ∧ rs'.length ≤ 1 ∧ (∀ x ∈ rs', GivenIn v line r x.pass) ∧
      (runLine P C v line r).1.u.creds.master = r.u.creds.master :=
  keyed_line hP h hl ho

/-- A `sync` that succeeds keeps them in order: afterwards the records are those from before, or those of all machines. -/
theorem C88_sync_partial (P : Prims) (C : Codec) (w : World) (v : SyncEnv) (nm : Str) (push : Bool) (u : Session) (inp : Input)
    (rs : List Rec) (h : Keyed P u rs) (hs : SyncOk P C w v nm u inp) (hn : NamesApartAll P C w v nm u inp)
    (hm : SharedSync P C w v nm u inp rs) (hr : (sync P C w v nm push u inp).result = .ok ()) :
    (sync P C w v nm push u inp).session.creds.master = u.creds.master ∧
      (Keyed P (sync P C w v nm push u inp).session rs ∧ (sync P C w v nm push u inp).session.store.log = u.store.log ∨
        ∃ syncs l rest rsOf, Selected w v u nm syncs ∧
          pullAll P C w { u with store := u.store.updateSnapshot.1 } syncs inp = (some l, rest) ∧
          OneMaster P u rs (remotes l) rsOf ∧
          Keyed P (sync P C w v nm push u inp).session (rs ++ ((remotes l).map rsOf).flatten)) := by
  have hsound : Sound (sync P C w v nm push u inp).session.store := C87_sound_sync h.sound hs hn hr
  have hcreds : (sync P C w v nm push u inp).session.creds.master = u.creds.master ∧
      MultiCreds (sync P C w v nm push u inp).session.creds := by
    refine sync_creds (fun c => c.master = u.creds.master ∧ MultiCreds c) ⟨rfl, h.creds⟩ fun syncs l rest hsel hp q hq => ?_
    obtain ⟨rsOf, ho⟩ := hm syncs l rest hsel hp
    exact ⟨(ho.theirs q hq).1, (ho.theirs q hq).2.1⟩
  obtain ⟨-, -, -, hlog⟩ := own_sync (push := push) h.sound.wf.good.ok h.sound.own hs hr
  refine ⟨hcreds.1, ?_⟩
  rcases hlog with hlog | ⟨syncs, l, rest, hsel, hp, h1, h2, h3⟩
  · exact .inl ⟨⟨hsound, hcreds.2, by rw [hcreds.1, hlog]; exact h.ring⟩, hlog⟩
  · right
    obtain ⟨rsOf, ho⟩ := hm syncs l rest hsel hp
    refine ⟨syncs, l, rest, rsOf, hsel, hp, ho, hsound, hcreds.2, ?_⟩
    rw [hcreds.1]
    refine keyring_hosts (keyring_flatten ho.mine rsOf (remotes l) (fun q hq => (ho.theirs q hq).2.2) ho.apart ho.aparts) ?_ ?_
    · intro t ht
      rcases List.mem_append.1 ht with ht | ht
      · exact h1 t ht
      · obtain ⟨x, hx, hxt⟩ := List.mem_flatten.1 ht
        obtain ⟨q, hq, rfl⟩ := List.mem_map.1 hx
        exact h2 q hq t hxt
    · intro t ht
      rcases h3 t ht with h4 | ⟨q, hq, h4⟩ | h4
      · exact .inl (List.mem_append.2 (.inl h4))
      · exact .inl (List.mem_append.2 (.inr (List.mem_flatten.2 ⟨q.log, List.mem_map.2 ⟨q, hq, rfl⟩, h4⟩)))
      · exact .inr h4

theorem keyed_came {P : Prims} {C : Codec} {w : World} {v : SyncEnv} {nm : Str} {push : Bool} {u : Session} {inp : Input} {rs : List Rec}
    (h : Keyed P (sync P C w v nm push u inp).session rs ∧ (sync P C w v nm push u inp).session.store.log = u.store.log ∨
        ∃ syncs l rest rsOf, Selected w v u nm syncs ∧
          pullAll P C w { u with store := u.store.updateSnapshot.1 } syncs inp = (some l, rest) ∧
          OneMaster P u rs (remotes l) rsOf ∧
          Keyed P (sync P C w v nm push u inp).session (rs ++ ((remotes l).map rsOf).flatten)) :
    ∃ rs', Keyed P (sync P C w v nm push u inp).session rs' ∧ (∀ x ∈ rs, x ∈ rs') ∧
      ∀ x ∈ rs', x ∈ rs ∨ CameInSync P C w v nm u inp x := by
  rcases h with ⟨k2, -⟩ | ⟨syncs, l, rest, rsOf, hsel, hp, ho, k2⟩
  · exact ⟨rs, k2, fun _ h => h, fun _ h => .inl h⟩
  · refine ⟨_, k2, fun x hx => by simp [hx], fun x hx => ?_⟩
    rcases List.mem_append.1 hx with hx | hx
    · exact .inl hx
    · obtain ⟨y, hy, hxy⟩ := List.mem_flatten.1 hx
      obtain ⟨q, hq, rfl⟩ := List.mem_map.1 hy
      exact .inr ⟨syncs, l, rest, q, rsOf q, hsel, hp, hq, (ho.theirs q hq).2.2, hxy⟩

theorem keyed_syncLine {P : Prims} {C : Codec} {v : Env} {line : Str} {r : Repl} {rs : List Rec} {b : Bool} {args : List Str}
    (h : Keyed P r.u rs) (hp : parseLine line = some (b! "sync", args)) (hs : SyncOk P C v.w v.v (args.head?.getD []) r.u v.d.inp)
    (hn : NamesApartAll P C v.w v.v (args.head?.getD []) r.u v.d.inp)
    (hm : SharedSync P C v.w v.v (args.head?.getD []) r.u v.d.inp rs) (hr : (runLine P C v line r).2 = .ok b) :
    (∃ rs', Keyed P (runLine P C v line r).1.u rs' ∧ (∀ x ∈ rs, x ∈ rs') ∧
      ∀ x ∈ rs', x ∈ rs ∨ CameInSync P C v.w v.v (args.head?.getD []) r.u v.d.inp x) ∧
      (runLine P C v line r).1.u.creds.master = r.u.creds.master := by
  have hrun : runLine P C v line r = if r.u.readOnly then (r, .ok false) else execWrite P C v (b! "sync") args r := by
    unfold runLine
    rw [hp]
    rfl
  rw [hrun] at hr ⊢
  by_cases hro : r.u.readOnly
  · rw [if_pos hro]; exact ⟨⟨rs, h, fun _ h => h, fun _ h => .inl h⟩, rfl⟩
  · rw [if_neg hro] at hr ⊢
    have hx : execWrite P C v (b! "sync") args r =
        let x := sync P C v.w v.v (args.head?.getD []) true r.u v.d.inp
        let r := if x.pushed = [] then r else { r with pushed := r.pushed ++ [(x.sent, x.pushed)] }
        back r (x.session, x.result) := by
      unfold execWrite
      simp (decide := true) only [if_false, if_true]
    rw [hx] at hr ⊢
    simp only at hr ⊢
    have hres := back_ok hr
    simp only at hres
    rw [back_fst]
    obtain ⟨k1, k2⟩ := C88_sync_partial P C v.w v.v (args.head?.getD []) true r.u v.d.inp rs h hs hn hm hres
    obtain ⟨rs', g1, g2, g3⟩ := keyed_came k2
    exact ⟨⟨rs', g1, g2, g3⟩, k1⟩

/-- So whole sessions keep them in order, `sync` included; every password that is new was given at a prompt, or came with a `sync`. -/
theorem C88_session_partial (P : Prims) (hP : Crypt.Spec.Lawful P) (C : Codec) (turns : List Turn) (r : Repl) (rs : List Rec)
    (h : Keyed P r.u rs) (hl : Along P C (KeyWholeTurn P C) turns r) (hr : (runRepl P C turns r).2 = .ok ()) :
    (∃ rs', Keyed P (runRepl P C turns r).1.u rs' ∧ (∀ x ∈ rs, x ∈ rs') ∧ ∀ x ∈ rs', x ∈ rs ∨ CameIn P C turns r x) ∧
      (runRepl P C turns r).1.u.creds.master = r.u.creds.master := by
  induction turns generalizing r rs with
  | nil => exact ⟨⟨rs, h, fun _ h => h, fun _ h => .inl h⟩, rfl⟩
  | cons t rest ih =>
    obtain ⟨o, v⟩ := t
    cases o with
    | none => exact ⟨⟨rs, h, fun _ h => h, fun _ h => .inl h⟩, rfl⟩
    | some line =>
      obtain ⟨hl1, hl2⟩ := hl
      have key : ∀ b, (runLine P C v line r).2 = .ok b → (∃ rs', Keyed P (runLine P C v line r).1.u rs' ∧ (∀ x ∈ rs, x ∈ rs') ∧
          ∀ x ∈ rs', x ∈ rs ∨ GivenIn v line r x.pass ∨
            ∃ args, parseLine line = some (b! "sync", args) ∧ CameInSync P C v.w v.v (args.head?.getD []) r.u v.d.inp x) ∧
          (runLine P C v line r).1.u.creds.master = r.u.creds.master := by
        intro b hb
        rcases hl1 with hl1 | ⟨args, hp, hs, hn, hm⟩
        · obtain ⟨rs', a, -, g, c⟩ := C88_line_partial P hP C v line r rs b h hl1 hb
          exact ⟨⟨_, a, fun x hx => by simp [hx], fun x hx => (List.mem_append.1 hx).imp id (fun hx => .inl (g x hx))⟩, c⟩
        · obtain ⟨⟨rs', a, g, g'⟩, c⟩ := keyed_syncLine h hp hs hn (hm rs h) hb
          exact ⟨⟨rs', a, g, fun x hx => (g' x hx).imp id (fun hx => .inr ⟨args, hp, hx⟩)⟩, c⟩
      unfold runRepl at hr ⊢
      unfold CameIn
      cases hx : runLine P C v line r with
      | mk r' o =>
        rw [hx] at hr key hl2
        cases o with
        | panic => cases hr
        | err e => cases hr
        | ok b =>
          obtain ⟨⟨rs', k1, k2, k4⟩, k3⟩ := key b rfl
          cases b with
          | true => exact ⟨⟨rs', k1, k2, fun x hx => (k4 x hx).imp id (fun h => h.imp id .inl)⟩, k3⟩
          | false =>
            obtain ⟨⟨rs2, g1, g2, g4⟩, g3⟩ := ih r' rs' k1 hl2 hr
            refine ⟨⟨rs2, g1, fun x hx => g2 x (k2 x hx), fun x hx => ?_⟩, g3.trans k3⟩
            rcases g4 x hx with h1 | h1
            · exact (k4 x h1).imp id (fun h => h.imp id .inl)
            · exact .inr (.inr (.inr ⟨rfl, h1⟩))

end Verif.App
