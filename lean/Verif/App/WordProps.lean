import Verif.App.WordLemmas
import Verif.App.EditProps
import Verif.App.TransferProps
import Verif.App.FieldsProps
import Verif.App.OwnSyncDemo
/-!
# C102: every entry can be named on a command line
-/
set_option linter.unusedSimpArgs false
namespace Verif.App
open Verif Verif.Txlogs Verif.Blob Verif.Crypt Verif.App.Spec
open Verif.Crypt.Spec (toy toy_lawful)

/-- A command and its arguments, typed with blanks between them, arrive as they were typed, for every command. -/
theorem C102_parse (cmd : Str) (args : List Str) (hc : Word cmd) (ha : ∀ a ∈ args, Word a) :
    parseLine (join 32 (cmd :: args)) = some (cmd, args) := by
  have hall : ∀ x ∈ cmd :: args, Word x := by
    intro x hx
    rcases List.mem_cons.1 hx with rfl | hx
    · exact hc
    · exact ha x hx
  unfold parseLine
  simp only [trim_of (join_head cmd args hc) (join_last cmd args hall), fields_join _ hall,
    split_join 32 (cmd :: args) (by simp) (fun x hx => word_blank (hall x hx)), List.drop_succ_cons, List.drop_zero, ite_self]

/-- In a file in which only words were given as names, every entry has a word as its name. -/
theorem C102_named {s : DB} (h : Words s.log) {w n : Str} (hn : Blob.Spec.Named s w n) : Word n := by
  obtain ⟨e, ⟨st, h1, h2⟩, h3⟩ := hn
  exact state_values keyName Word (fun w e x hw => by cases hw) h h1 w e n h2 h3

/-- An entry whose name is a word is reached by typing the name: the commands to select it, to show and to change a value, to
rename and to remove it do exactly that. -/
theorem C102_reach (P : Prims) (C : Codec) (v : Env) (r : Repl) (w n : Str) (e : Str → Option Str) (hv : EnvOk v r.u.store)
    (h : WellFormed r.u.store) (hctx : r.ctx = []) (hw : Word n) (he : Blob.Spec.Visible r.u.store w e) (hn : e keyName = some n) :
    (∃ r', runLine P C v (join 32 [b! "cd", n]) r = (r', .ok false) ∧ r'.ctx = n ∧ Same r.u r'.u) ∧
    (∀ k, Word k → k ≠ keyTwoFactor → k ≠ keyUpdated →
      ∃ r', runLine P C v (join 32 [b! "get", n, k]) r = (r', .ok false) ∧ r'.out = r.out ++ (e k).toList ∧ Same r.u r'.u) ∧
    (r.u.readOnly = false →
      (∀ k x, Word k → Word x → ¬ Refused k → (k = keyURL → v.urlOk x = true) →
        ∃ r', runLine P C v (join 32 [b! "set", n, k, x]) r = (r', .ok false) ∧ KeyNow w k (some x) (v.d.now 0) e r.u r'.u) ∧
      (∀ m, Word m → (∀ x, ¬ Blob.Spec.Named r.u.store x m) →
        ∃ r', runLine P C v (join 32 [b! "mv", n, m]) r = (r', .ok false) ∧ KeyNow w keyName (some m) (v.d.now 0) e r.u r'.u) ∧
      (splitUsername n = [] ∨ splitUsername n ≠ r.u.creds.user → v.d.inp.head? = some (some n) →
        ∃ r', runLine P C v (join 32 [b! "rm", n]) r = (r', .ok false) ∧ ¬ Blob.Exists r'.u.store w ∧
          ∀ x f, x ≠ w → (Blob.Spec.Visible r'.u.store x f ↔ Blob.Spec.Visible r.u.store x f))) := by
  have hnm : Blob.Spec.Named r.u.store w n := ⟨e, he, hn⟩
  refine ⟨?_, fun k hk h1 h2 => ?_, fun hro => ⟨fun k x hk hx h1 h2 => ?_, fun m hm h1 => ?_, fun h1 h2 => ?_⟩⟩
  · have hp := C102_parse (b! "cd") [n] (by decide) (by simpa using hw)
    obtain ⟨en, rfl, -, -, h1⟩ := oneEntry_picks hv h (picks_named hv h hnm) he none fun u _ e =>
      match name e with
      | some n => (u, (.ok (some n) : Res AppErr (Option Str)))
      | none => (u, .panic)
    have hen : entryName v r.u n = ({ r.u with store := r.u.store.updateSnapshot.1 }, .ok (some n)) := by
      unfold entryName
      have hn' : name en = some n := hn
      refine Eq.trans ?_ (h1.trans ?_)
      · rfl
      · simp only [hn']
    refine ⟨{ r with u := { r.u with store := r.u.store.updateSnapshot.1 }, ctx := n }, ?_, rfl, same_update r.u⟩
    unfold runLine
    have hx : execRead v (b! "cd") [n] r = cd v r [n] := rfl
    have hflag : readOnlyFlag (b! "cd") = some true := by decide
    simp only [hp, hflag, hx, cd, hen]
  · obtain ⟨r', a, b, c, -⟩ := C70_line P C v r _ (b! "get") n k w [n, k] e hv h
      (C102_parse (b! "get") [n, k] (by decide) (by simpa using ⟨hw, hk⟩)) (.inl rfl) (by rw [queryArgs, if_pos hctx]) hnm he h1 h2
    exact ⟨r', a, b, c⟩
  · obtain ⟨r', a, b, -⟩ := (C79_line P C v r _ (b! "set") n w [n, k, x] e hv h hro
      (C102_parse (b! "set") [n, k, x] (by decide) (by simpa using ⟨hw, hk, hx⟩)) he hn).1 k x rfl
      (by simp [setArgs, queryArgs, hctx, hw.1, hk.1, join]) hx.1 h1 h2
    exact ⟨r', a, b⟩
  · obtain ⟨r', a, b, -⟩ := (C79_line P C v r _ (b! "mv") n w [n, m] e hv h hro
      (C102_parse (b! "mv") [n, m] (by decide) (by simpa using ⟨hw, hm⟩)) he hn).2.2.2.2 m [] rfl rfl h1
    exact ⟨r', a, b⟩
  · obtain ⟨a, -, b, -⟩ := C79_rm v r.u n w (v.d.now 0) hv h hnm h1
    obtain ⟨b1, b2⟩ := b h2
    have hp := C102_parse (b! "rm") [n] (by decide) (by simpa using hw)
    have hx : execWrite P C v (b! "rm") [n] r = match back r (deleteEntry v.ord (v.d.now 0) v.d.inp r.u n) with
      | (r, .ok b) => (if r.ctx = n then { r with ctx := [] } else r, .ok b)
      | x => x := rfl
    have hflag : readOnlyFlag (b! "rm") = some false := by decide
    have hrun : runLine P C v (join 32 [b! "rm", n]) r = execWrite P C v (b! "rm") [n] r := by
      unfold runLine
      simp only [hp, hflag, hro, Bool.false_eq_true, if_false]
    rw [hrun, hx]
    cases hd : deleteEntry v.ord (v.d.now 0) v.d.inp r.u n with
    | mk u' o =>
      rw [hd] at a b1 b2
      simp only at a
      subst a
      simp only [back]
      refine ⟨_, rfl, ?_, ?_⟩
      · split <;> exact b1
      · split <;> exact b2

/-- A line other than `sync` gives no other names than words. -/
theorem C102_line (P : Prims) (C : Codec) (v : Env) (line : Str) (r : Repl) (h0 : r.u.store.txPoint = 0)
    (h : WellFormed r.u.store) (hl : LegalTurn v line r) (hn : (runLine P C v line r).2 ≠ .panic) (hw : Words r.u.store.log) :
    Words (runLine P C v line r).1.u.store.log := by
  obtain ⟨l, h1, h2, -⟩ := addsR_line (P := P) (C := C) h0 hl.env h line hl.utf8 hl.noSync
    (fun _ _ _ hpl _ => word_rules (parseLine_words hl.utf8 hpl)) hn
  intro t ht
  rw [h1] at ht
  rcases List.mem_append.1 ht with ht | ht
  · exact hw t ht
  · exact h2 t ht

/-- Nor does any session of such lines, so every entry can always be named at the prompt. -/
theorem C102_session_partial (P : Prims) (C : Codec) (turns : List Turn) (r : Repl) (h0 : r.u.store.txPoint = 0)
    (h : WellFormed r.u.store) (hl : Along P C LegalTurn turns r) (hn : (runRepl P C turns r).2 ≠ .panic)
    (hw : Words r.u.store.log) :
    Words (runRepl P C turns r).1.u.store.log ∧
    ∀ w n, Blob.Spec.Named (runRepl P C turns r).1.u.store w n → Word n := by
  have key : Words (runRepl P C turns r).1.u.store.log := by
    induction turns generalizing r with
    | nil => exact hw
    | cons t rest ih =>
      obtain ⟨o, v⟩ := t
      cases o with
      | none => exact hw
      | some line =>
        obtain ⟨hl1, hl2⟩ := hl
        have key := C67_line_partial P C v line r h0 h hl1
        have key2 := C102_line P C v line r h0 h hl1
        unfold runRepl at hn ⊢
        cases hx : runLine P C v line r with
        | mk r' o =>
          rw [hx] at hn key key2 hl2
          cases o with
          | panic => exact absurd rfl hn
          | err e => exact key2 (by simp) hw
          | ok b =>
            obtain ⟨k1, k2⟩ := key (by simp)
            cases b with
            | true => exact key2 (by simp) hw
            | false => exact ih r' k2 k1 hl2 hn (key2 (by simp) hw)
  exact ⟨key, fun w n hn => C102_named key hn⟩

/-- `sync` gives no other names than words, if only words were given in the files it pulls. -/
theorem C102_sync_partial (P : Prims) (C : Codec) (w : World) (v : SyncEnv) (nm : Str) (push : Bool) (u : Session) (inp : Input)
    (hw : Words u.store.log) (hp : PulledWords P C w v nm u inp) : Words (sync P C w v nm push u inp).session.store.log :=
  words_sync hw hp

theorem words_autoSync {P : Prims} {C : Codec} {v : Env} {auto : Bool} {r : Repl} (hw : Words r.u.store.log)
    (hp : auto = true → PulledWords P C v.w v.v [] r.u v.d.inp) : Words (autoSync P C v auto r).1.u.store.log := by
  unfold autoSync
  by_cases hc : r.u.readOnly = false ∧ auto = true
  · rw [if_pos hc]; exact words_sync hw (hp hc.2)
  · rw [if_neg hc]; exact hw

theorem words_repl {P : Prims} {C : Codec} (turns : List Turn) (r : Repl) (h : Sound r.u.store) (hl : Along P C (WordTurn P C) turns r)
    (hw : Words r.u.store.log) (hr : (runRepl P C turns r).2 = .ok ()) : Words (runRepl P C turns r).1.u.store.log := by
  induction turns generalizing r with
  | nil => exact hw
  | cons t rest ih =>
    obtain ⟨o, v⟩ := t
    cases o with
    | none => exact hw
    | some line =>
      obtain ⟨⟨hl1, hp⟩, hl2⟩ := hl
      have key := fun b => C87_line_partial P C v line r b h hl1
      have key2 : (runLine P C v line r).2 ≠ .panic → Words (runLine P C v line r).1.u.store.log := by
        intro hn
        by_cases hs : ∃ args, parseLine line = some (b! "sync", args)
        · obtain ⟨args, hs⟩ := hs
          rcases runLine_sync (P := P) (C := C) (v := v) (r := r) hs with h | ⟨h, -⟩
          · rw [h]; exact hw
          · rw [h]; exact words_sync hw (hp _ hs)
        · rcases hl1 with hl1 | ⟨args, ha, -⟩
          · exact C102_line P C v line r h.tx h.wf hl1.legal hn hw
          · exact absurd ⟨args, ha⟩ hs
      unfold runRepl at hr ⊢
      cases hx : runLine P C v line r with
      | mk r' o =>
        rw [hx] at hr key key2 hl2
        cases o with
        | panic => cases hr
        | err e => cases hr
        | ok b =>
          cases b with
          | true => exact key2 (by simp)
          | false => exact ih r' (key false rfl) hl2 (key2 (by simp)) hr

/-- The whole program: a run with `sync`s, automatic ones or not, leaves every entry with a name that can be typed. -/
theorem C102_program_partial (P : Prims) (C : Codec) (auto : Bool) (v v' : Env) (iv : Str) (turns : List Turn) (u : Session)
    (o : Option Str) (h : Sound u.store) (hw : Words u.store.log)
    (h1 : auto = true → AutoOk P C v u ∧ PulledWords P C v.w v.v [] u v.d.inp)
    (h2 : Along P C (WordTurn P C) turns (autoSync P C v auto { u := u }).1)
    (h3 : auto = true → PulledWords P C v'.w v'.v [] (runRepl P C turns (autoSync P C v auto { u := u }).1).1.u v'.d.inp)
    (hr : (session P C auto v v' iv turns u).2 = .ok o) :
    Words (session P C auto v v' iv turns u).1.u.store.log ∧
    ∀ w n, Blob.Spec.Named (session P C auto v v' iv turns u).1.u.store w n → Word n := by
  have a := sound_autoSync (P := P) (C := C) (v := v) (auto := auto) (r := { u := u }) h (fun hh => (h1 hh).1)
  have b := words_autoSync (P := P) (C := C) (v := v) (auto := auto) (r := { u := u }) hw (fun hh => (h1 hh).2)
  have key : Words (session P C auto v v' iv turns u).1.u.store.log := by
    unfold session at hr ⊢
    cases hx : autoSync P C v auto { u := u } with
    | mk r1 o1 =>
      rw [hx] at hr a b h2 h3
      cases o1 with
      | panic => cases hr
      | err e => cases hr
      | ok x =>
        simp only at hr h2 h3 b ⊢
        have c := words_repl turns r1 (a rfl) h2 b
        cases hy : runRepl P C turns r1 with
        | mk r2 o2 =>
          rw [hy] at hr c h3
          cases o2 with
          | panic => cases hr
          | err e => cases hr
          | ok x =>
            have c := c rfl
            simp only at hr h3 c ⊢
            have d := words_autoSync (P := P) (C := C) (v := v') (auto := auto && r2.u.startTx ≠ r2.u.store.log.length) (r := r2) c
              (fun hh => h3 (by simp only [Bool.and_eq_true] at hh; exact hh.1))
            cases hz : autoSync P C v' (auto && r2.u.startTx ≠ r2.u.store.log.length) r2 with
            | mk r3 o3 =>
              rw [hz] at hr d
              cases o3 with
              | panic => cases hr
              | err e => cases hr
              | ok x => exact d
  exact ⟨key, fun w n hn => C102_named key hn⟩

theorem imported_name {toLower : Str → Str} {t : Int} {nm n : Str} {r : List Str} (h : imported toLower t nm r keyName = some n) :
    n = nm := by
  unfold imported at h
  split at h
  · rw [if_pos rfl] at h
    exact (Option.some.inj h).symm
  · cases h

/-- An import gives no other names than words, if the names in the list are words once they are in lower case and have `_` for
blanks. -/
theorem C102_import_partial (toLower : Str → Str) (ord : Order) (hord : ∀ m, (ord m).Perm m) (ds : Nat → Draw) (s : DB) (out : Str)
    (header : List Str) (rs : List (List Str)) (hout : Csv.read out = (header :: rs, true)) (hh : header.length = 7)
    (hhead : join comma header = lastpassHeader) (hg : Good s) (hu : LogUnique s.log)
    (hfresh : ∀ i ≤ rs.length, ¬ Exists s (ds i).uuid)
    (hdist : ∀ i j, i < j → j ≤ rs.length → (ds i).uuid ≠ (ds j).uuid)
    (hw : ∀ w n, Blob.Spec.Named s w n → Word n) (hr : ∀ r ∈ header :: rs, Word (recordName toLower r)) :
    ∃ s', importCsv toLower ord ds s out = (s', .ok ()) ∧ ∀ w n, Blob.Spec.Named s' w n → Word n := by
  obtain ⟨s', h1, h2, h3, -⟩ := C60_partial toLower ord hord ds s out header rs hout hh hhead hg hu hfresh hdist
  refine ⟨s', h1, fun w n hn => ?_⟩
  by_cases hi : ∃ i, i ≤ rs.length ∧ w = (ds i).uuid
  · obtain ⟨i, hi, rfl⟩ := hi
    have hlen : i < (header :: rs).length := by simp; omega
    obtain ⟨k, hk⟩ := h2 i _ (List.getElem?_eq_getElem hlen)
    obtain ⟨e, ⟨st, a1, a2⟩, a3⟩ := hn
    obtain ⟨st', b1, b2⟩ := hk
    rw [a1] at b1
    cases b1
    rw [a2] at b2
    have he := Option.some.inj b2
    rw [he] at a3
    rw [imported_name a3]
    exact word_ones (hr _ (List.getElem_mem hlen)) k
  · obtain ⟨e, he, hn⟩ := hn
    exact hw w n ⟨e, (h3 w e (fun i hi' hw => hi ⟨i, hi', hw⟩)).1 he, hn⟩

/-! ## Entries that cannot be named -/

/-- An entry whose name is not a word stays, under that name, whatever lines other than `sync` are typed: nobody can remove or
rename it. -/
theorem C102_stuck (P : Prims) (C : Codec) (turns : List Turn) (r : Repl) (h0 : r.u.store.txPoint = 0)
    (h : WellFormed r.u.store) (hl : Along P C LegalTurn turns r) (hn : (runRepl P C turns r).2 ≠ .panic) (w n : Str)
    (hw : ¬ Word n) (hnm : Blob.Spec.Named r.u.store w n) : Blob.Spec.Named (runRepl P C turns r).1.u.store w n := by
  refine C76_entries_partial P C turns r h0 h w n ?_ hn hnm
  refine along_weaken ?_ turns r hl
  intro v line r hl
  refine ⟨hl, fun cmd args hp hd => ?_⟩
  obtain ⟨hc, ha⟩ := hd
  refine hw (parseLine_words hl.utf8 hp ?_ n (List.mem_of_head? ha))
  rcases hc with rfl | rfl <;> decide

/-- No line searches for the empty name. -/
theorem C102_query (line cmd : Str) (args : List Str) (ctx : Str) (hl : ValidUtf8 line) (hp : parseLine line = some (cmd, args)) :
    (cmd ≠ b! "set" → (∀ q k rest, queryArgs ctx args = some (q, k, rest) → q ≠ []) ∧ (∀ q, queryArg ctx args = some q → q ≠ []) ∧
      ∀ a ∈ args, a ≠ []) ∧
    (cmd = b! "set" → ∀ q k x, setArgs ctx args = some (q, k, x) → q ≠ []) := by
  refine ⟨fun hc => ?_, fun _ q k x h => ?_⟩
  · have ha : ∀ a ∈ args, a ≠ [] := fun a ha => (parseLine_words hl hp hc a ha).1
    refine ⟨fun q k rest h => ?_, fun q h => ?_, ha⟩
    · unfold queryArgs at h
      split at h
      · split at h
        · cases h
          exact ha q (by simp)
        · cases h
      · rename_i hctx
        split at h
        · cases h; exact hctx
        · cases h
    · unfold queryArg at h
      split at h
      · exact ha q (List.mem_of_head? h)
      · rename_i hctx
        cases h
        exact hctx
  · unfold setArgs at h
    split at h
    · cases h
    · split at h
      · cases h
      · rename_i hne
        cases h
        exact fun hq => hne (.inl hq)

/-- And no other search finds an entry with the empty name, so its values are never shown. -/
theorem C102_hidden (v : Env) (s : DB) (hv : EnvOk v s) (h : WellFormed s) (w q : Str) (hw : Blob.Spec.Named s w []) (hq : q ≠ []) :
    ¬ Picks v s q w := by
  rintro ⟨hne, s', hr⟩
  obtain ⟨-, h1, -⟩ := C39_selects v.lower v.ord hv.ord v.ord' hv.ord' h.good.ok q w h.uuids hr
  obtain ⟨n, hn, hs, -⟩ := h1 hne
  rw [named_eq hn hw] at hs
  exact selects_empty hq hs

/-! ## Not vacuous -/

namespace WordDemo

/-- a list with an entry without a name and an entry with a tab in its name -/
def csv : Str := lastpassHeader ++ b! "\nhttps://a,me,secret,,,,0\nhttps://b,me,hidden,,my\tbank,,0\n"

/-- what is drawn for each record -/
def ds (i : Nat) : Draw := { uuid := [UInt8.ofNat (i + 1)] }

def db : DB := (importCsv id id ds {} csv).1

theorem db_eq : importCsv id id ds {} csv = (db, .ok ()) := Prod.ext rfl (by decide +kernel)

/-- the file is saved and opened again -/
def u : Session := { store := opened db.log }

theorem u_wf : WellFormed u.store ∧
    ∀ w n, Blob.Spec.Named u.store w n ↔ (w, n) ∈ [(([1] : Str), b! "name"), ([2], []), ([3], b! "my\tbank")] :=
  wf_check (ok_opened _) _ (by decide +kernel) (by decide +kernel) (by decide) (by decide)

/-- a file with the entry "bank" -/
theorem bank_words : Words Demo.rB.u.store.log := by unfold Words; decide +kernel

end WordDemo

/-- False: an import makes entries that nobody can remove or rename at the prompt ever after, and one without a name that
nobody can even read. -/
theorem C102_false : ∃ out s' u, importCsv id id WordDemo.ds {} out = (s', .ok ()) ∧ u.store.log = s'.log ∧
    WellFormed u.store ∧ u.store.txPoint = 0 ∧ Blob.Spec.Named u.store [2] [] ∧ Blob.Spec.Named u.store [3] (b! "my\tbank") ∧
    (∃ e, Blob.Spec.Visible u.store [2] e ∧ e keyPass = some (b! "secret")) ∧
    (∀ v q, EnvOk v u.store → q ≠ [] → ¬ Picks v u.store q [2]) ∧
    ∀ P C turns, Along P C LegalTurn turns { u := u } → (runRepl P C turns { u := u }).2 ≠ .panic →
      Blob.Spec.Named (runRepl P C turns { u := u }).1.u.store [2] [] ∧
      Blob.Spec.Named (runRepl P C turns { u := u }).1.u.store [3] (b! "my\tbank") := by
  have h2 : Blob.Spec.Named WordDemo.u.store [2] [] := (WordDemo.u_wf.2 _ _).2 (by decide)
  have h3 : Blob.Spec.Named WordDemo.u.store [3] (b! "my\tbank") := (WordDemo.u_wf.2 _ _).2 (by decide)
  refine ⟨WordDemo.csv, WordDemo.db, WordDemo.u, WordDemo.db_eq, rfl, WordDemo.u_wf.1, rfl, h2, h3,
    Demo.value_concrete WordDemo.u_wf.1.good (by decide +kernel), fun v q hv hq => C102_hidden v _ hv WordDemo.u_wf.1 _ q h2 hq,
    fun P C turns hl hn => ⟨?_, ?_⟩⟩
  · exact C102_stuck P C turns _ rfl WordDemo.u_wf.1 hl hn _ _ (by decide) h2
  · exact C102_stuck P C turns _ rfl WordDemo.u_wf.1 hl hn _ _ (by decide) h3

/-- Not vacuous: a session of two commands in a file with the entries "bank" and "bank2". -/
example : ∀ w n, Blob.Spec.Named (runRepl toy SyncDemo.C [(some (b! "cd bank"), Demo.vV), (some (b! "mv bank old"), Demo.vV)]
    Demo.rB).1.u.store w n → Word n :=
  (C102_session_partial toy SyncDemo.C [(some (b! "cd bank"), Demo.vV), (some (b! "mv bank old"), Demo.vV)] Demo.rB rfl Demo.rB_wf.1
    ⟨Demo.rB_legal, Demo.rB1_legal, trivial⟩ (by decide +kernel)
    WordDemo.bank_words).2

namespace WordDemo
open OwnSyncDemo (turn w got pulled selected along done done_eq written)
open HistoryDemo (v)

theorem pulledWords : PulledWords toy Json.Spec.codec w v [] HistoryDemo.u [some [2]] := by
  intro syncs l rest hsel h
  rw [selected hsel, pulled] at h
  obtain ⟨rfl, -⟩ := Prod.mk.inj h |>.imp Option.some.inj id
  unfold Words
  decide +kernel

/-- Not vacuous: the program with a `sync`. -/
example : ∀ w n, Blob.Spec.Named done.1.u.store w n → Word n := by
  have h := C102_program_partial toy Json.Spec.codec false turn turn SyncDemo.iv [(some (b! "sync"), turn)] HistoryDemo.u _
    HistoryDemo.sound (by unfold Words; decide +kernel) (by simp) ?_ (by simp) (by rw [done_eq]; exact written)
  · rw [done_eq] at h
    exact h.2
  · refine ⟨⟨along.1.1, ?_⟩, trivial⟩
    intro args hp
    have : parseLine (b! "sync") = some (b! "sync", []) := by decide +kernel
    rw [this] at hp
    cases hp
    exact pulledWords

end WordDemo

/-- Not vacuous: `cd bank` there. -/
example : ∃ r', runLine toy SyncDemo.C Demo.vV (b! "cd bank") Demo.rB = (r', .ok false) ∧ r'.ctx = b! "bank" := by
  obtain ⟨e, he, hn⟩ := (Demo.rB_wf.2 [1] (b! "bank")).2 (by decide)
  obtain ⟨⟨r', h1, h2, -⟩, -⟩ := C102_reach toy SyncDemo.C Demo.vV Demo.rB [1] (b! "bank") e Demo.rB_legal.env Demo.rB_wf.1 rfl
    (by decide) he hn
  exact ⟨r', h1, h2⟩

/-- Not vacuous: an import of the header line alone. -/
example : ∃ s', importCsv id id WordDemo.ds {} (lastpassHeader ++ [10]) = (s', .ok ()) ∧
    ∀ w n, Blob.Spec.Named s' w n → Word n :=
  C102_import_partial id id (fun m => List.Perm.refl m) WordDemo.ds {} _
    [b! "url", b! "username", b! "password", b! "extra", b! "name", b! "grouping", b! "fav"] [] (by decide +kernel) rfl (by decide +kernel)
    good_new logUnique_nil (fun i _ h => by obtain ⟨e, st, h1, h2⟩ := h; cases h1; cases h2)
    (fun i j h1 h2 => by simp at h2; omega) (fun w n h => by obtain ⟨e, ⟨st, h1, h2⟩, -⟩ := h; cases h1; cases h2)
    (by decide)

end Verif.App
