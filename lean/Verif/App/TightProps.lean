import Verif.App.SyncDemo
import Verif.App.FileProps
import Verif.App.TransferSpec
import Verif.App.ReplProps
import Verif.App.TransferProps
/-!
# What wrong programs slipped through

Each theorem here rejects a wrong program that the other theorems of its claim accepted (see `seeded/LOG.jsonl`).
-/
namespace Verif.App
open Verif Verif.Txlogs Verif.Blob Verif.Crypt Verif.App.Spec
open Verif.Crypt.Spec (toy toy_lawful)

/-! ## C74 -/

/-- The line `exit` (whatever surrounds it) ends the prompt: the lines after it are not run, and the session is the one before. -/
theorem C74_exit (P : Prims) (C : Codec) (v : Env) (line : Str) (args : List Str) (rest : List Turn) (r : Repl)
    (hl : parseLine line = some (b! "exit", args)) : runRepl P C ((some line, v) :: rest) r = (r, .ok ()) := by
  have hf : readOnlyFlag (b! "exit") = some true := by decide
  have hx : execRead v (b! "exit") args r = (r, .ok true) := by
    simp only [execRead]
    iterate 12 (first | rw [if_neg (by decide)] | skip)
    first | rw [if_pos rfl] | rw [if_true]
  simp only [runRepl, runLine, hl, hf, hx]

/-- What a session that ends well writes: after the prompt the file is synchronised if anything was recorded since it was
opened, `-no-auto-sync` was not given and the session is not read-only; otherwise what the prompt left is written. -/
theorem C74_autosync (P : Prims) (C : Codec) (auto : Bool) (v v' : Env) (iv : Str) (turns : List Turn) (u : Session)
    (r0 r1 : Repl) (h0 : autoSync P C v auto { u := u } = (r0, .ok ())) (h1 : runRepl P C turns r0 = (r1, .ok ())) :
    ((auto = false ∨ r1.u.readOnly = true ∨ r1.u.startTx = r1.u.store.log.length) →
      session P C auto v v' iv turns u = (r1, saveBlob P C v'.ord v'.ord' iv r1.u)) ∧
    (auto = true → r1.u.readOnly = false → r1.u.startTx ≠ r1.u.store.log.length →
      let x := sync P C v'.w v'.v [] true r1.u v'.d.inp
      (x.result = .ok () → (session P C auto v v' iv turns u).1.u = x.session ∧
        (session P C auto v v' iv turns u).2 = saveBlob P C v'.ord v'.ord' iv x.session ∧
        (x.pushed ≠ [] → (x.sent, x.pushed) ∈ (session P C auto v v' iv turns u).1.pushed)) ∧
      (x.result ≠ .ok () → ∀ f, (session P C auto v v' iv turns u).2 ≠ .ok f)) := by
  constructor
  · intro h
    have ha : autoSync P C v' (auto && decide (r1.u.startTx ≠ r1.u.store.log.length)) r1 = (r1, .ok ()) := by
      unfold autoSync
      rw [if_neg]
      rintro ⟨ha, hb⟩
      simp only [Bool.and_eq_true, decide_eq_true_eq] at hb
      rcases h with h | h | h
      · rw [h] at hb; cases hb.1
      · rw [h] at ha; cases ha
      · exact hb.2 h
    simp only [session, h0, h1, ha]
  · intro ha hro hne
    have hb : autoSync P C v' (auto && decide (r1.u.startTx ≠ r1.u.store.log.length)) r1 =
        ({ (if (sync P C v'.w v'.v [] true r1.u v'.d.inp).pushed = [] then r1 else
            { r1 with pushed := r1.pushed ++ [((sync P C v'.w v'.v [] true r1.u v'.d.inp).sent,
              (sync P C v'.w v'.v [] true r1.u v'.d.inp).pushed)] }) with
          u := (sync P C v'.w v'.v [] true r1.u v'.d.inp).session }, (sync P C v'.w v'.v [] true r1.u v'.d.inp).result) := by
      unfold autoSync
      rw [if_pos ⟨hro, by simp [ha, hne]⟩]
    generalize hx : sync P C v'.w v'.v [] true r1.u v'.d.inp = x at hb ⊢
    dsimp only
    constructor
    · intro hok
      rw [hok] at hb
      simp only [session, h0, h1, hb]
      refine ⟨trivial, trivial, ?_⟩
      intro hp
      simp [hp]
    · intro hok f
      simp only [session, h0, h1, hb]
      cases hr : x.result with
      | ok a => exact absurd hr hok
      | err e => simp
      | panic => simp

/-! ## C61 -/

/-- `set` without a key, or with an empty name or key, changes nothing. -/
theorem C61_refused (P : Prims) (C : Codec) (v : Env) (r : Repl) (line : Str) (args : List Str)
    (hl : parseLine line = some (b! "set", args))
    (h : if r.ctx = [] then args.length < 2 ∨ args.head? = some [] ∨ args[1]? = some []
      else args = [] ∨ args.head? = some []) : runLine P C v line r = (r, .ok false) := by
  have hf : readOnlyFlag (b! "set") = some false := by decide
  have hexec : ∀ args, execWrite P C v (b! "set") args r =
      match setArgs r.ctx args with
      | none => (r, .ok false)
      | some (q, k, value) => back r (setCmd v r.u q k value) := by
    intro args; rfl
  have hs : setArgs r.ctx args = none := by
    unfold setArgs queryArgs
    by_cases hc : r.ctx = []
    · rw [if_pos hc] at h
      rw [if_pos hc]
      match args, h with
      | [], _ => rfl
      | [_], _ => rfl
      | q :: k :: rest, h =>
        simp only [List.length_cons, List.head?_cons, Option.some.injEq, List.getElem?_cons_succ, List.getElem?_cons_zero] at h
        rcases h with h | h | h
        · omega
        · simp [h]
        · simp [h]
    · rw [if_neg hc] at h
      rw [if_neg hc]
      match args, h with
      | [], _ => rfl
      | k :: rest, h =>
        simp only [List.head?_cons, Option.some.injEq, reduceCtorEq, false_or] at h
        simp [h]
  simp only [runLine, hl, hf, hexec, hs]
  cases r.u.readOnly <;> simp

/-! ## C73 -/

/-- A run that exports ends well only if the export was written; otherwise the error is the result and the file is as it was. -/
theorem C73_export (P : Prims) (C : Codec) (history : Option Int) (salt iv : Str) (v v' : Env) (format : Str)
    (canWrite : Bool) (inp : Input) (old : Disk) (e : AppErr) (u : Session) (rest : Input)
    (hl : load P C history salt old inp = (.ok u, rest)) (he : export_ format canWrite u.store = .err e) :
    main P C history salt iv v v' (.export format canWrite) inp old = ([old], .err e) := by
  simp only [main, hl, work, he]

/-- ... and with CSV only a file that cannot be written makes it fail. -/
theorem C73_export_fails (format : Str) (canWrite : Bool) (s : DB) :
    (∃ e, export_ format canWrite s = .err e) ↔ format ≠ b! "CSV" ∨ canWrite = false := by
  unfold export_
  split
  · next h => exact ⟨fun _ => .inl h, fun _ => ⟨_, rfl⟩⟩
  · next h =>
    cases canWrite with
    | true => simpa using h
    | false => exact ⟨fun _ => .inr rfl, fun _ => ⟨_, rfl⟩⟩

/-! ## C27 -/

theorem pushAll_delivered (w : World) (s : DB) (ct : Str) (ts : List Str) (m : Results) (inp : Input) :
    ∀ x ∈ (pushAll w s ct ts m inp).1, Delivered w x.1 ((s.snapshot.get? x.1).getD []) ct x.2 := by
  have hne : syncFile ≠ syncSCP := by decide
  induction ts generalizing m inp with
  | nil => simp [pushAll]
  | cons uuid ts ih =>
    intro x hx
    simp only [pushAll] at hx
    cases hp : pushBlob w uuid ((s.snapshot.get? uuid).getD []) ct inp with
    | mk o i' =>
      rw [hp] at hx
      cases o with
      | none => simp at hx
      | some y =>
        obtain ⟨ok, h⟩ := y
        simp only [List.mem_cons] at hx
        rcases hx with rfl | hx
        · unfold pushBlob at hp
          refine ⟨fun hsc => ?_, fun hsc => ?_, fun hsc => ?_⟩
          · simp only [hsc, if_true] at hp
            exact ⟨_, _, _, hp⟩
          · simp only [hsc, if_neg hne, if_true, Prod.mk.injEq, Option.some.injEq] at hp
            exact hp.1.1.symm
          · simp only [hsc] at hp
            cases hp
        · exact ih _ _ x hx

/-- Whatever is reported as sent was handed over: with an scp url to the ssh connection, with a file url to the file system, in
both cases the very file of `sent`, to the address recorded in the entry. -/
theorem C27_delivered (P : Prims) (C : Codec) (w : World) (v : SyncEnv) (u : Session) (hosts : Results) (ts : List Str)
    (inp : Input) :
    ∃ s : DB, s.log <+: (pushBack P C w v true hosts ts u inp).session.store.log ∧
      ∀ x ∈ (pushBack P C w v true hosts ts u inp).pushed,
        Delivered w x.1 ((s.snapshot.get? x.1).getD []) (pushBack P C w v true hosts ts u inp).sent x.2 := by
  unfold pushBack
  split
  · exact ⟨_, List.prefix_rfl, by simp⟩
  · simp only [Bool.true_eq_false, if_false]
    split
    · exact ⟨_, List.prefix_rfl, by simp⟩
    · exact ⟨_, List.prefix_rfl, by simp⟩
    · next s ct _ =>
      have hd := pushAll_delivered w s ct ts [] inp
      split
      · next hp => rw [hp] at hd; exact ⟨s, List.prefix_rfl, hd⟩
      · next hosts' _ hp =>
        rw [hp] at hd
        have hlog := saveHosts_log v.now' s (v.ordH hosts')
        split
        · next hs => rw [hs] at hlog; exact ⟨s, hlog, hd⟩
        · next hs => rw [hs] at hlog; exact ⟨s, hlog, hd⟩

/-! ## C25 -/

/-- The credentials taken over from a remote are those of its file: the user name and password that opened it, the master key
and its initialization vector, and the derived key and salt of that user. -/
theorem C25_remote_creds (P : Prims) (C : Codec) (w : World) (u : Session) (uuid : Str) (inp inp' : Input) (r : Remote)
    (h : Str) (hp : pullOne P C w u uuid inp = (some (.merge r, h), inp')) :
    ∃ ct n p pt, decrypt P r.creds.user r.creds.pass (orNil u.creds.key) u.creds.salt ct = .ok (n, p, pt) ∧
      C.loadLog pt = .ok r.log ∧ r.creds.master = p.master.getD [] ∧ r.creds.ivm = p.ivm.getD [] ∧
      userSlot p.keys p.user = some r.creds.key ∧ userSlot p.salts p.user = some r.creds.salt := by
  unfold pullOne at hp
  dsimp only at hp
  split at hp
  · cases hp
  · cases hp
  · cases hp
  · next ct hh i1 hb =>
    split at hp
    · cases hp
    · cases hp
    · cases hp
    · next user pass p pt i2 hd =>
      obtain ⟨n, hdec⟩ := decryptBlob_ok _ _ _ _ _ hd
      split at hp
      · cases hp
      · split at hp
        · cases hp
        · cases hp
        · next log hl =>
          split at hp
          · cases hp
          · cases hp
          · split at hp
            · next key salt hk hs =>
              simp only [Prod.mk.injEq, Option.some.injEq, Fate.merge.injEq] at hp
              obtain ⟨⟨rfl, rfl⟩, rfl⟩ := hp
              exact ⟨ct, n, p, pt, hdec, hl, rfl, rfl, hk, hs⟩
            · cases hp

/-! ## C60 -/

/-- The name of an imported entry has no spaces (so it can be typed at the prompt). -/
theorem C60_names (toLower : Str → Str) (r : List Str) : 32 ∉ recordName toLower r := by
  unfold recordName underscores
  intro h
  obtain ⟨b, -, hb⟩ := List.mem_map.1 h
  split at hb
  · cases hb
  · next hne => exact hne hb

/-- A list that cannot be read to its end is reported. -/
theorem C60_truncated (toLower : Str → Str) (ord : Order) (ds : Nat → Draw) (s : DB) (out : Str) (rs : List (List Str))
    (h : Csv.read out = (rs, false)) : (importCsv toLower ord ds s out).2 ≠ .ok () := by
  unfold importCsv
  rw [h]
  dsimp only
  split
  · split
    · simp
    · next hx =>
      intro hc
      cases hi : importRecords toLower ord ds s rs with
      | mk s' x =>
        rw [hi] at hc
        simp only at hc
        rw [hc] at hi
        exact hx _ hi
  · simp

/-! ## The hypotheses can be met -/

example (r : Repl) (rest : List Turn) : runRepl toy SyncDemo.C ((some (b! " exit  now"), {}) :: rest) r = (r, .ok ()) :=
  C74_exit _ _ _ _ [b! "now"] _ _ (by decide)

-- nothing was recorded: no second synchronisation
example := (C74_autosync toy SyncDemo.C true { w := SyncDemo.w, v := SyncDemo.v } {} SyncDemo.iv [] { SyncDemo.u with readOnly := true }
  _ _ rfl rfl).1 (.inr (.inl rfl))

-- the file of `SyncDemo` was opened when its log was shorter
example : let v : Env := { w := SyncDemo.w, v := SyncDemo.v }
    (autoSync toy SyncDemo.C v true { u := SyncDemo.u }).2 = .ok () ∧
    (autoSync toy SyncDemo.C v true { u := SyncDemo.u }).1.u.startTx ≠
      (autoSync toy SyncDemo.C v true { u := SyncDemo.u }).1.u.store.log.length := by decide +kernel

example (P : Prims) (C : Codec) (v : Env) (r : Repl) (h : r.ctx = []) : runLine P C v (b! "set bank") r = (r, .ok false) :=
  C61_refused _ _ _ _ _ [b! "bank"] (by decide) (by rw [if_pos h]; exact .inl (by decide))

example : (main toy (Demo.codec {}) none (List.replicate 32 1) (List.replicate 40 2) {} {} (.export (b! "CSV") false)
    [some [1], some [1]] none).2 = .err .external := by decide +kernel

example : (pushBack toy SyncDemo.C SyncDemo.w SyncDemo.v true [] [[98]] SyncDemo.u []).pushed = [([98], true)] := by decide +kernel

example := C25_remote_creds toy SyncDemo.C SyncDemo.w { SyncDemo.u with store := SyncDemo.u.store.updateSnapshot.1 } [98] [] []
  { name := b! "sync/b", creds := SyncDemo.u.creds, log := SyncDemo.logB } [] (by decide +kernel)

example : Csv.read (lastpassHeader ++ b! "\na\"b,c\n") =
  ([[b! "url", b! "username", b! "password", b! "extra", b! "name", b! "grouping", b! "fav"]], false) := by decide +kernel

end Verif.App
