import Verif.App.ReplSpec
import Verif.App.ReplLemmas
import Verif.App.AccountsDemo
import Verif.Blob.Props
/-!
# Properties of the prompt

C57 (read-only sessions) and C61 (`set` stores what was typed).
-/
set_option linter.unusedSimpArgs false
namespace Verif.App
open Verif Verif.Txlogs Verif.Blob Verif.Crypt Verif.App.Spec
open Verif.Crypt.Spec (toy toy_lawful)

/-! ## C57 -/

/-- In a read-only session nothing the user types changes the log, the credentials or a remote, and no file is written. -/
theorem C57_read_only (P : Prims) (C : Codec) (auto : Bool) (v v' : Env) (iv : Str) (turns : List Turn) (u : Session)
    (h : u.readOnly = true) (r : Repl) (res : Res AppErr (Option Str))
    (hr : session P C auto v v' iv turns u = (r, res)) :
    r.u.store.log = u.store.log ∧ r.u.creds = u.creds ∧ r.pushed = [] ∧ ∀ f, res ≠ .ok (some f) := by
  have hauto : ∀ (v : Env) (a : Bool) (r : Repl), r.u.readOnly = true → autoSync P C v a r = (r, .ok ()) := by
    intro v a r hro; simp [autoSync, hro]
  unfold session at hr
  rw [hauto v auto { u := u } h] at hr
  simp only at hr
  have h1 := runRepl_readOnly P C turns { u := u } h
  split at hr <;> rename_i h' <;> rw [h'] at h1 <;> obtain ⟨hs, hp⟩ := h1 <;> simp only at hs hp
  · cases hr; exact ⟨hs.log, hs.creds, hp, by intro f; simp⟩
  · cases hr; exact ⟨hs.log, hs.creds, hp, by intro f; simp⟩
  · have hro := hs.readOnly.trans h
    rw [hauto v' _ _ hro] at hr
    simp only [saveBlob, hro, if_true] at hr
    cases hr
    exact ⟨hs.log, hs.creds, hp, by intro f; simp⟩

/-- Opening a file with a history time gives a read-only session ... -/
theorem C57_opened (P : Prims) (C : Codec) (t : Int) (f : Str) (inp inp' : Input) (u : Session)
    (h : openFile P C (some t) f inp = (.ok u, inp')) : u.readOnly = true := by
  unfold openFile at h
  split at h
  · simp at h
  · simp at h
  · dsimp only at h
    split at h
    · simp at h
    · split at h
      · simp at h
      · split at h
        · simp at h
        · simp at h
        · split at h
          · split at h
            · simp at h
            · simp at h
            · simp only [Prod.mk.injEq] at h
              obtain ⟨h, -⟩ := h
              unfold openStore at h
              split at h
              · cases h; rfl
              · simp only at h
                split at h
                · simp at h
                · cases h; rfl
          · simp at h

theorem cutLog_eq_takeWhile (t : Int) (log : List Tx) : cutLog t log = log.takeWhile (fun tx => tx.time ≤ t) := by
  induction log with
  | nil => rfl
  | cons tx rest ih =>
    unfold cutLog
    by_cases h : tx.time > t
    · rw [if_pos h, List.takeWhile_cons_of_neg]; simpa using h
    · rw [if_neg h, List.takeWhile_cons_of_pos, ih]; simpa using h

/-- ... whose log is the log of the file up to the first operation after that time, which for a log in the order of its times
is the operations not after that time. -/
theorem C57_log (t : Int) (c : Creds) (s : DB) (u : Session) (h : openStore (some t) c (some s) = .ok u) :
    u.readOnly = true ∧ u.creds = c ∧ u.store.log = s.log.takeWhile (fun tx => tx.time ≤ t) ∧
    (Chrono s.log → u.store.log = s.log.filter (fun tx => tx.time ≤ t)) := by
  unfold openStore at h
  simp only at h
  split at h
  · simp at h
  · rename_i s' h'
    cases h
    have hl := updateSnapshot_log ({ s.resetSnapshot with log := cutLog t s.log } : DB)
    rw [h'] at hl
    simp only at hl
    refine ⟨rfl, rfl, hl.trans (cutLog_eq_takeWhile t s.log), fun hc => ?_⟩
    simp only
    rw [hl, cutLog_eq_takeWhile]
    generalize s.log = log at hc
    clear hl h' s s'
    induction log with
    | nil => rfl
    | cons tx rest ih =>
      have hc' := List.pairwise_cons.1 hc
      by_cases ht : tx.time ≤ t
      · rw [List.takeWhile_cons_of_pos (by simpa using ht), List.filter_cons_of_pos (by simpa using ht), ih hc'.2]
      · rw [List.takeWhile_cons_of_neg (by simpa using ht), List.filter_cons_of_neg (by simpa using ht)]
        symm
        rw [List.filter_eq_nil_iff]
        intro x hx
        have := hc'.1 x hx
        simp only [decide_eq_true_eq]
        omega

/-! ## C61 -/

theorem noTrailing_append (a : Str) (c : UInt8) (hc : c.toNat < 0x80) (v : Str) (hv : v ≠ []) (h : NoTrailingSpace v) :
    NoTrailingSpace (a ++ c :: v) := by
  intro p hp
  rw [pieces_append_ascii a c hc] at hp
  have hne : pieces v ≠ [] := by
    intro h0
    have := pieces_flatten v
    rw [h0] at this
    exact hv this.symm
  rw [List.getLast?_append, List.getLast?_cons_of_ne_nil hne] at hp
  cases hl : (pieces v).getLast? with
  | none => rw [List.getLast?_eq_none_iff] at hl; exact absurd hl hne
  | some q =>
    rw [hl] at hp
    simp only [Option.some_or, Option.some.injEq] at hp
    subst hp
    exact h _ hl

theorem trimSpace_id (s : Str) (h : NoTrailingSpace s) (hh : ∀ p, (pieces s).head? = some p → isSpaceRune p.1 = false) :
    trimSpace s = s := by
  unfold trimSpace
  have h1 : (pieces s).dropWhile (fun p => isSpaceRune p.1) = pieces s := by
    cases hp : pieces s with
    | nil => rfl
    | cons p ps =>
      have := hh p (by rw [hp]; rfl)
      rw [List.dropWhile_cons_of_neg (by simp [this])]
  have h2 : (pieces s).reverse.dropWhile (fun p => isSpaceRune p.1) = (pieces s).reverse := by
    cases hp : (pieces s).reverse with
    | nil => rfl
    | cons p ps =>
      have := h p (by rw [← List.head?_reverse, hp]; rfl)
      rw [List.dropWhile_cons_of_neg (by simp [this])]
  simp only [h1, h2, List.reverse_reverse]
  exact pieces_flatten s

/-- The line `set q k v` is understood as the command `set` with query `q`, key `k` and exactly the value `v`: no byte of `v`
is lost or changed, whatever white space it contains, as long as it does not end in white space. -/
theorem C61_parse (q k v : Str) (hq : q ≠ []) (hq' : 32 ∉ q) (hk : k ≠ []) (hk' : 32 ∉ k) (hv : v ≠ [])
    (hv' : NoTrailingSpace v) :
    ∃ args, parseLine (setLine q k v) = some (b! "set", args) ∧ setArgs [] args = some (q, k, v) := by
  have hline : setLine q k v = b! "set" ++ 32 :: (q ++ 32 :: (k ++ 32 :: v)) := by simp [setLine]
  have htrim : trimSpace (setLine q k v) = setLine q k v := by
    apply trimSpace_id
    · rw [show setLine q k v = (b! "set " ++ q ++ b! " " ++ k) ++ 32 :: v by simp [setLine]]
      exact noTrailing_append _ 32 (by decide) v hv hv'
    · intro p hp
      rw [hline] at hp
      simp only [List.cons_append] at hp
      rw [pieces_ascii_cons 115 (by decide)] at hp
      simp only [List.head?_cons, Option.some.injEq] at hp
      subst hp
      decide
  have hfields : ∃ rest, fields (setLine q k v) = b! "set" :: rest := by
    rw [hline]
    exact ⟨_, fields_word _ (by decide) (by decide) 32 (by decide) (by decide) _⟩
  obtain ⟨rest, hf⟩ := hfields
  have hsplit : split 32 (setLine q k v) = b! "set" :: q :: k :: split 32 v := by
    rw [hline, split_append_sep, split_append_sep, split_append_sep, split_of_notMem 32 (b! "set") (by decide),
      split_of_notMem 32 q hq', split_of_notMem 32 k hk']
    rfl
  refine ⟨q :: k :: split 32 v, ?_, ?_⟩
  · unfold parseLine
    simp only [htrim, hf, hsplit, if_true, List.drop_succ_cons, List.drop_zero]
  · simp only [setArgs, queryArgs, if_true, hq, hk, or_self, if_false, join_split]

/-- The same inside an entry (`cd`): `set k v`. -/
theorem C61_parse_ctx (ctx k v : Str) (hc : ctx ≠ []) (hk : k ≠ []) (hk' : 32 ∉ k) (hv : v ≠ []) (hv' : NoTrailingSpace v) :
    ∃ args, parseLine (b! "set " ++ k ++ b! " " ++ v) = some (b! "set", args) ∧ setArgs ctx args = some (ctx, k, v) := by
  have hline : b! "set " ++ k ++ b! " " ++ v = b! "set" ++ 32 :: (k ++ 32 :: v) := by simp
  have htrim : trimSpace (b! "set " ++ k ++ b! " " ++ v) = b! "set " ++ k ++ b! " " ++ v := by
    apply trimSpace_id
    · rw [show b! "set " ++ k ++ b! " " ++ v = (b! "set " ++ k) ++ 32 :: v by simp]
      exact noTrailing_append _ 32 (by decide) v hv hv'
    · intro p hp
      rw [hline] at hp
      simp only [List.cons_append] at hp
      rw [pieces_ascii_cons 115 (by decide)] at hp
      simp only [List.head?_cons, Option.some.injEq] at hp
      subst hp
      decide
  have hfields : ∃ rest, fields (b! "set " ++ k ++ b! " " ++ v) = b! "set" :: rest := by
    rw [hline]
    exact ⟨_, fields_word _ (by decide) (by decide) 32 (by decide) (by decide) _⟩
  obtain ⟨rest, hf⟩ := hfields
  have hsplit : split 32 (b! "set " ++ k ++ b! " " ++ v) = b! "set" :: k :: split 32 v := by
    rw [hline, split_append_sep, split_append_sep, split_of_notMem 32 (b! "set") (by decide),
      split_of_notMem 32 k hk']
    rfl
  refine ⟨k :: split 32 v, ?_, ?_⟩
  · unfold parseLine
    simp only [htrim, hf, hsplit, if_true, List.drop_succ_cons, List.drop_zero]
  · simp only [setArgs, queryArgs, hc, if_false, hk, or_self, join_split]

/-- The value typed is the value stored, under exactly that key of exactly the entry selected, for every key that `Set` accepts
except `totp` (stored as a URL) and for urls that are accepted. -/
theorem C61_stored_partial (P : Prims) (C : Codec) (v : Env) (r : Repl) (q k x uuid : Str) (e : Str → Option Str)
    (hro : r.u.readOnly = false) (hctx : r.ctx = [])
    (hq : q ≠ []) (hq' : 32 ∉ q) (hk : k ≠ []) (hk' : 32 ∉ k) (hx : x ≠ []) (hx' : NoTrailingSpace x)
    (hp : Picks v r.u.store q uuid) (he : Blob.Spec.Visible r.u.store uuid e)
    (hprot : ∀ p ∈ protectedKeys, equalFold k p = false) (hurl : k = keyURL → v.urlOk x = true) :
    ∃ r', runLine P C v (setLine q k x) r = (r', .ok false) ∧
      Blob.Spec.Visible r'.u.store uuid
        (Txlogs.Spec.upd (Txlogs.Spec.upd e keyUpdated (some (fmtInt (v.d.now 0)))) k (some x)) ∧
      (∀ w f, w ≠ uuid → (Blob.Spec.Visible r'.u.store w f ↔ Blob.Spec.Visible r.u.store w f)) ∧
      r'.u.creds = r.u.creds ∧ r'.ctx = r.ctx := by
  obtain ⟨args, h1, h2⟩ := C61_parse q k x hq hq' hk hk' hx hx'
  obtain ⟨hid, s', hf⟩ := hp
  have hlog := (sameStore_findOne v.lower v.ord v.ord' r.u.store q).1
  rw [hf] at hlog
  simp only at hlog
  have hany : protectedKeys.any (fun p => equalFold k p) = false := by
    rw [List.any_eq_false]; intro p hp; rw [hprot p hp]; decide
  have htot : k ≠ keyTwoFactor := by
    rintro rfl
    have := hprot keyTwoFactor (by decide)
    rw [equalFold_refl] at this; cases this
  have hset : setCmd v r.u q k x = lift_ { r.u with store := s' } (Blob.set v.d.now s' uuid k x) := by
    simp only [setCmd, one, hf, lift, hid, if_false, hx, htot]
    by_cases hkp : k = keyPass
    · simp [hkp]
    · by_cases hku : k = keyURL
      · simp [hkp, hku, hurl hku]
      · simp [hkp, hku]
  have hs : Blob.set v.d.now s' uuid k x = ((touchUpdated s' v.d.now uuid).setKey (v.d.now 2) uuid k x, .ok ()) := by
    simp [Blob.set, hany]
  have hflag : readOnlyFlag (b! "set") = some false := by decide
  have hexec : ∀ args, execWrite P C v (b! "set") args r =
      match setArgs r.ctx args with
      | none => (r, .ok false)
      | some (q, k, value) => back r (setCmd v r.u q k value) := by
    intro args; rfl
  have heff := C32_set_effect v.d.now s' _ uuid k x e ((visible_log hlog uuid e).2 he) hs
  refine ⟨{ r with u := { r.u with store := (touchUpdated s' v.d.now uuid).setKey (v.d.now 2) uuid k x } }, ?_, heff.2.1, ?_,
    rfl, rfl⟩
  · unfold runLine
    simp only [h1, hflag, hro, Bool.false_eq_true, if_false, hexec, hctx, h2, hset, hs, lift_, back]
  · intro w f hw
    exact (heff.2.2 w f hw).trans (visible_log hlog w f)

/-- For other keys the statement is false: `set a name b` reports no error and changes nothing. -/
theorem C61_false : ¬ ∀ (P : Prims) (C : Codec) (v : Env) (r r' : Repl) (q k x uuid : Str),
    r.u.readOnly = false → r.ctx = [] → Picks v r.u.store q uuid → q ≠ [] → 32 ∉ q → k ≠ [] → 32 ∉ k → x ≠ [] →
    NoTrailingSpace x → runLine P C v (setLine q k x) r = (r', .ok false) →
    ∃ e, Blob.Spec.Visible r'.u.store uuid e ∧ e k = some x := by
  intro hall
  let r : Repl := { u := { store := (Blob.new id (fun _ => 0) (b! "u") {} (b! "a")).1 } }
  let v : Env := { d := { now := fun _ => 5 } }
  have hp : Picks v r.u.store (b! "a") (b! "u") :=
    ⟨by decide, (findOne v.lower v.ord v.ord' r.u.store (b! "a")).1, by
      show findOne _ _ _ _ _ = (_, _)
      have : (findOne v.lower v.ord v.ord' r.u.store (b! "a")).2 = .ok (b! "u") := by decide +kernel
      rw [← this]⟩
  obtain ⟨e, ⟨st, h1, h2⟩, h3⟩ := hall toy (Demo.codec {}) v r
    (runLine toy (Demo.codec {}) v (setLine (b! "a") (b! "name") (b! "b")) r).1 (b! "a") (b! "name") (b! "b") (b! "u")
    rfl rfl hp (by decide) (by decide) (by decide) (by decide) (by decide) (by decide) (by
      have : (runLine toy (Demo.codec {}) v (setLine (b! "a") (b! "name") (b! "b")) r).2 = .ok false := by decide +kernel
      rw [← this])
  have hlog : (runLine toy (Demo.codec {}) v (setLine (b! "a") (b! "name") (b! "b")) r).1.u.store.log = r.u.store.log := by
    decide +kernel
  rw [hlog] at h1
  have hst : ∀ st, Txlogs.Spec.meaning Txlogs.Spec.empty r.u.store.log = some st →
      (st (b! "u")).bind (fun e => e (b! "name")) = some (b! "a") := by
    intro st hst
    cases hst
    decide
  have := hst st h1
  rw [h2] at this
  simp only [Option.bind_some] at this
  rw [h3] at this
  revert this
  decide

/-- With a tab instead of the first space the line is not understood at all. -/
theorem C61_tab_false : parseLine (b! "set\tq k v") = some (b! "set", [b! "k", b! "v"]) ∧
    parseLine (b! "set\tq\tk\tv") = some (b! "set", []) := by
  constructor <;> decide +kernel

/-! ## The hypotheses can be met -/

/-- C57_read_only: a read-only session in which the user types `set`, `rm` and `sync`, and reads an entry -/
example : let u : Session := { store := (Blob.new id (fun _ => 0) (b! "u") {} (b! "a")).1, readOnly := true }
    let t : List Turn := [(some (b! "set a pass x"), {}), (some (b! "rm a"), {}), (some (b! "get a name"), {}), (none, {})]
    (session toy (Demo.codec {}) false {} {} [] t u).2 = .ok none ∧
    (session toy (Demo.codec {}) false {} {} [] t u).1.out = [b! "a"] := by
  decide +kernel

/-- C57_log: a log cut in the middle -/
example : (match openStore (some 5) {} (some { log := [⟨1, .add, [1], [], []⟩, ⟨9, .add, [2], [], []⟩] }) with
      | .ok u => u.store.log
      | _ => []) = [⟨1, .add, [1], [], []⟩] ∧
    Chrono [⟨1, .add, [1], [], []⟩, ⟨9, .add, [2], [], []⟩] := by
  refine ⟨by decide +kernel, ?_⟩
  unfold Chrono; simp

/-- C61_parse: white space of every kind inside the value -/
example : NoTrailingSpace (b! "  two  words \t and a tab") ∧
    ((parseLine (setLine (b! "a") (b! "notes") (b! "  two  words \t and a tab"))).bind (fun p => setArgs [] p.2))
      = some (b! "a", b! "notes", b! "  two  words \t and a tab") := by
  constructor <;> decide +kernel

/-- C61_stored_partial -/
example : let r : Repl := { u := { store := (Blob.new id (fun _ => 0) (b! "u") {} (b! "a")).1 } }
    Picks {} r.u.store (b! "a") (b! "u") ∧ (∀ p ∈ protectedKeys, equalFold (b! "colour") p = false) := by
  have : (findOne ({} : Env).lower ({} : Env).ord ({} : Env).ord' (Blob.new id (fun _ => 0) (b! "u") {} (b! "a")).1
    (b! "a")).2 = .ok (b! "u") := by decide +kernel
  exact ⟨⟨by decide, (findOne ({} : Env).lower ({} : Env).ord ({} : Env).ord'
    (Blob.new id (fun _ => 0) (b! "u") {} (b! "a")).1 (b! "a")).1, Prod.ext rfl this⟩, by decide +kernel⟩

end Verif.App
