import Verif.App.RandomLemmas
import Verif.Crypt.Spec
/-!
# C122: a failing random source
-/
set_option linter.unusedSimpArgs false
namespace Verif.App
open Verif Verif.Txlogs Verif.Blob Verif.Crypt
open Verif.Crypt.Spec (toy toy_lawful)
open Spec (drawnAs filledEnv filledTurns)

/-- **C122** (partial: no user is added while no master key can be made, and the requests made by `sync` are answered). A run in
which requests for random bytes fail ends with that error, before anything is written, or is in every respect the run in which the
missing answers are replaced by anything whatever: no key, salt, iv, identifier or password is ever made of bytes that were not
delivered. -/
theorem C122_partial (P : Prims) (C : Codec) (auto : Bool) (v v' : Env) (iv : Option Str) (turns : List TurnR) (u : Session)
    (hm : ∀ t ∈ turns, Spec.MasterMade t.line t.x) :
    (sessionR P C auto v v' iv turns u).2 = .err none ∨
      ∀ (g : Nat → Draw × (Nat → Draw)) (f : Str),
        sessionR P C auto v v' iv turns u = asked2 (session P C auto v v' (iv.getD f) (filledTurns turns g) u) := by
  unfold sessionR session
  rcases autoSync P C v auto { u := u } with ⟨r, o⟩
  cases o with
  | panic => exact .inr fun g f => rfl
  | err e => exact .inr fun g f => rfl
  | ok a =>
    dsimp only
    rcases runReplR_fits P C turns r hm with h | h
    · left
      generalize runReplR P C turns r = q at h
      obtain ⟨w, o⟩ := q
      cases h
      rfl
    · rcases hq : runReplR P C turns r with ⟨w, o⟩
      rw [hq] at h
      have h1 : ∀ g, (runRepl P C (filledTurns turns g) r).1 = w := fun g => (congrArg Prod.fst (h g)).symm
      have h2 : ∀ g, o = asked (runRepl P C (filledTurns turns g) r).2 := fun g => congrArg Prod.snd (h g)
      have key : ∀ g y, (runRepl P C (filledTurns turns g) r).2 = y → runRepl P C (filledTurns turns g) r = (w, y) :=
        fun g y hy => Prod.ext (h1 g) hy
      cases o with
      | panic => right; intro g f; simp only [key g _ (of_asked_panic (h2 g))]; rfl
      | err e =>
        cases e with
        | none => exact .inl rfl
        | some e => right; intro g f; simp only [key g _ (of_asked_err (h2 g))]; rfl
      | ok b =>
        have h3 : ∀ g, runRepl P C (filledTurns turns g) r = (w, .ok ()) := fun g => key g _ (of_asked_ok (h2 g))
        simp only [h3]
        rcases autoSync P C v' (auto && decide (w.u.startTx ≠ w.u.store.log.length)) w with ⟨w', o'⟩
        cases o' with
        | panic => exact .inr fun g f => rfl
        | err e => exact .inr fun g f => rfl
        | ok c =>
          dsimp only
          rcases saveBlobR_eq P C v'.ord v'.ord' iv w'.u with h4 | h4
          · exact .inl h4
          · exact .inr fun g f => Prod.ext rfl (h4 f)

/-- **C122** What is written is made of delivered bytes only (same conditions): the ordinary run writes the same file whatever
stands for the answers that were not given. -/
theorem C122_written_partial (P : Prims) (C : Codec) (auto : Bool) (v v' : Env) (iv : Option Str) (turns : List TurnR) (u : Session)
    (hm : ∀ t ∈ turns, Spec.MasterMade t.line t.x) (w : Option Str) (h : (sessionR P C auto v v' iv turns u).2 = .ok w)
    (g : Nat → Draw × (Nat → Draw)) (f : Str) :
    (session P C auto v v' (iv.getD f) (filledTurns turns g) u).2 = .ok w := by
  rcases C122_partial P C auto v v' iv turns u hm with h1 | h1
  · rw [h1] at h; cases h
  · rw [h1 g f] at h
    exact of_asked_ok h.symm

/-- **C122** A new file needs a salt: the run ends before it starts, or the salt that was delivered is used. -/
theorem C122_create (P : Prims) (history : Option Int) (salt : Option Str) (inp : Input) :
    (createFileR P history salt inp).1 = .err none ∨
      ∀ f, createFileR P history salt inp = ((asked (createFile P history (salt.getD f) inp).1), (createFile P history (salt.getD f) inp).2) := by
  unfold createFileR createFile
  rcases prompt inp with ⟨o, i⟩
  cases o with
  | none => exact .inr fun f => rfl
  | some pwd =>
    dsimp only
    by_cases h1 : pwd = []
    · simp only [if_pos h1]; exact .inr fun f => rfl
    · simp only [if_neg h1]
      rcases prompt i with ⟨o, i'⟩
      cases o with
      | none => exact .inr fun f => rfl
      | some verify =>
        dsimp only
        by_cases h2 : pwd ≠ verify
        · simp only [if_pos h2]; exact .inr fun f => rfl
        · simp only [if_neg h2]
          cases salt with
          | none => exact .inl rfl
          | some s => exact .inr fun f => rfl

/-- **C122** What `adduser` does in a single-user file when no master key can be made: it says nothing, the program goes on, the
file still has a single user, and the store has got the operations that `NewUser` adds: an entry with a name and no keys. -/
theorem C122_adduser (P : Prims) (ord : Order) (x : Rolls) (u : Session) (user uuid : Str) (s : DB)
    (h1 : u.creds.master = []) (hx : x.master = none ∨ x.ivm = none)
    (hn : newR ord x.now x.uuid u.store (userPrefix ++ user) = (s, .ok uuid)) :
    (adduserR P ord x u user).2 = .ok () ∧ (adduserR P ord x u user).1.store = s ∧
      (adduserR P ord x u user).1.creds.master = [] ∧
      s.log = u.store.log ++ [⟨x.now 0, .add, uuid, [], []⟩, ⟨x.now 2, .setk, uuid, keyUpdated, fmtInt (x.now 1)⟩,
        ⟨x.now 3, .setk, uuid, keyName, userPrefix ++ user⟩] := by
  have hlog : s.log = u.store.log ++ [⟨x.now 0, .add, uuid, [], []⟩, ⟨x.now 2, .setk, uuid, keyUpdated, fmtInt (x.now 1)⟩,
      ⟨x.now 3, .setk, uuid, keyName, userPrefix ++ user⟩] := by
    have hu := updateSnapshot_log u.store
    unfold newR at hn
    revert hu hn
    rcases u.store.updateSnapshot with ⟨s', e⟩
    cases e with
    | some e => intro hn; cases hn
    | none =>
      dsimp only
      cases nameTaken (userPrefix ++ user) (ord s'.snapshot) with
      | none => intro hn; cases hn
      | some b =>
        cases b with
        | true => intro hn; cases hn
        | false =>
          cases x.uuid with
          | none => intro hn; cases hn
          | some id =>
            intro hn hu
            cases hn
            simp only [DB.setKey, DB.appendLog, touchUpdated, DB.add, List.append_assoc, List.cons_append, List.nil_append, hu]
  refine ⟨?_, ?_, ?_, hlog⟩
  all_goals
    unfold adduserR
    simp only [hn, if_pos h1]
    rcases hx with h | h
    · simp only [h]
    · simp only [h]
      cases x.master <;> rfl

/-- the salts collected contain an unusable one once its user was met -/
theorem salts_bad (P : Prims) (c : Creds) {s : DB} (hs : s.updateSnapshot = (s, none)) {uuid nm : Str} {e : Entry}
    (he : s.snapshot.get? uuid = some e) (hb : ∀ salt, hexDecode (val e keySalt) = some salt → salt.length ≠ saltSize) :
    ∀ (l : List (Str × Str)) (p : Params), (uuid, nm) ∈ l ∨ (∃ salt ∈ p.salts, salt.length ≠ saltSize) →
      ∀ q, (paramLoop P c l s p).2 = .ok q → ∃ salt ∈ q.salts, salt.length ≠ saltSize := by
  intro l
  induction l with
  | nil =>
    intro p h q hq
    rcases h with h | h
    · cases h
    · cases hq; exact h
  | cons a rest ih =>
    intro p h q hq
    obtain ⟨id, n⟩ := a
    have hfind : mustFind s id = match s.snapshot.get? id with
        | some e => (s, .ok e)
        | none => (s, .panic) := by
      unfold mustFind find withSnapshot
      rw [hs]
      dsimp only
      cases s.snapshot.get? id <;> rfl
    rw [paramLoop] at hq
    by_cases hn : splitUsername n = []
    · rw [if_pos hn] at hq; cases hq
    · rw [if_neg hn, hfind] at hq
      cases hg : s.snapshot.get? id with
      | none => rw [hg] at hq; cases hq
      | some e' =>
        rw [hg] at hq
        dsimp only at hq
        cases h1 : hexDecode (val e' keySalt) with
        | none => rw [h1] at hq; cases hq
        | some salt =>
          rw [h1] at hq
          dsimp only at hq
          cases h2 : hexDecode (val e' keyIV) with
          | none => rw [h2] at hq; cases hq
          | some iv =>
            rw [h2] at hq
            dsimp only at hq
            cases h3 : hexDecode (val e' keyMKey) with
            | none => rw [h3] at hq; cases hq
            | some mkey =>
              rw [h3] at hq
              dsimp only at hq
              refine ih _ ?_ q hq
              rcases h with h | ⟨t, ht, hl⟩
              · rcases List.mem_cons.1 h with heq | hr
                · right
                  cases heq
                  rw [he] at hg
                  cases hg
                  exact ⟨salt, List.mem_append_right _ (.head _), hb salt h1⟩
                · exact .inl hr
              · exact .inr ⟨t, List.mem_append_left _ ht, hl⟩

/-- **C122** Why that entry matters: a multi-user file in which some user's salt is not the hex form of 32 bytes cannot be saved,
so once any further user has been added everything typed in the run is lost at its end. -/
theorem C122_blocked (P : Prims) (C : Codec) (ord : Order) (ord' : Results → Results) (iv : Str) (u : Session) (us : Results)
    (uuid nm : Str) (e : Entry) (hr : u.readOnly = false) (hm : u.creds.master ≠ [])
    (hs : u.store.updateSnapshot = (u.store, none)) (hu : users ord u.store = (u.store, .ok us)) (hin : (uuid, nm) ∈ ord' us)
    (he : u.store.snapshot.get? uuid = some e) (hb : ∀ salt, hexDecode (val e keySalt) = some salt → salt.length ≠ saltSize) :
    ∀ w, saveBlob P C ord ord' iv u ≠ .ok w := by
  intro w hw
  have hkey : ∀ f, (sealFile P C ord ord' iv u.creds u.store).2 ≠ .ok f := by
    intro f hf
    unfold sealFile at hf
    cases hsv : u.store.save with
    | error e => rw [hsv] at hf; cases hf
    | ok x =>
      rw [hsv] at hf
      dsimp only at hf
      unfold makeParams at hf
      rw [if_neg hm, hu] at hf
      dsimp only at hf
      rcases hp : paramLoop P u.creds (ord' us) u.store {} with ⟨s', o⟩
      rw [hp] at hf
      cases o with
      | panic => cases hf
      | err e => cases hf
      | ok p =>
        dsimp only at hf
        obtain ⟨salt, h1, h2⟩ := salts_bad P u.creds hs he hb (ord' us) {} (.inl hin) p (by rw [hp])
        have hv : ({ p with ivm := orNil u.creds.ivm, master := orNil u.creds.master } : Params).validate = false := by
          have hany : p.salts.any (fun s => s.length != saltSize) = true :=
            List.any_eq_true.2 ⟨salt, h1, bne_iff_ne.2 h2⟩
          unfold Params.validate
          dsimp only
          rw [if_pos (c := p.salts.any (fun s => s.length != saltSize) = true) hany, ite_self, ite_self, ite_self]
        unfold encrypt at hf
        rw [if_neg (by decide), if_pos (by rw [hv]; decide)] at hf
        cases hf
  unfold saveBlob at hw
  rw [hr] at hw
  simp only [Bool.false_eq_true, if_false] at hw
  cases h : (sealFile P C ord ord' iv u.creds u.store).2 with
  | ok f => exact hkey f h
  | err e => rw [h] at hw; cases hw
  | panic => rw [h] at hw; cases hw

namespace RandomDemo

def cod : Codec := ⟨fun _ => [1], fun _ => .ok none, fun _ => .ok []⟩

def iv : Str := List.replicate blockSize 5

/-- a single-user file with one entry -/
def u : Session :=
  { creds := { pass := b! "pw", key := List.replicate keySize 3, salt := List.replicate saltSize 4 }
    store := { log := [⟨0, .add, [8], [], []⟩, ⟨0, .setk, [8], keyName, b! "shop"⟩] } }

/-- `adduser alice` while no master key can be made -/
def t1 : TurnR := ⟨some (b! "adduser alice"), {}, { uuid := some [9], iv := some iv }, fun _ => {}⟩

/-- `adduser bob` with a source that answers -/
def t2 : TurnR := ⟨some (b! "adduser bob"), {},
  { uuid := some [10], iv := some iv, master := some (List.replicate keySize 6), ivm := some iv }, fun _ => {}⟩

/-- `add mail` while no password can be made -/
def t3 : TurnR := ⟨some (b! "add mail"), {}, { uuid := some [11], inp := [some [], some (b! "me"), some (b! "y")] }, fun _ => {}⟩

/-- `rekey` with a salt -/
def t4 : TurnR := ⟨some (b! "rekey"), {}, { salt := some (List.replicate saltSize 2) }, fun _ => {}⟩

theorem made {t : TurnR} (h : ∀ a, (t.line.bind parseLine) ≠ some (b! "adduser", a)) : Spec.MasterMade t.line t.x := by
  intro l args h1 h2
  exact absurd (by rw [h1]; exact h2) (h args)

/-- neither branch of `C122_partial` is empty: without a password the run ends, and with a salt and an iv but nothing else `rekey` and
the save succeed -/
example : (∀ t ∈ [t3, t4], Spec.MasterMade t.line t.x) ∧ (sessionR toy cod false {} {} none [t3] u).2 = .err none ∧
    (∃ f, (sessionR toy cod false {} {} (some iv) [t4] u).2 = .ok (some f)) ∧
    (sessionR toy cod false {} {} none [t4] u).2 = .err none := by
  refine ⟨?_, by decide +kernel, ?_, by decide +kernel⟩
  · intro t ht
    rcases List.mem_cons.1 ht with rfl | ht
    · exact made fun a h => by cases h
    · rcases List.mem_cons.1 ht with rfl | ht
      · exact made fun a h => by cases h
      · cases ht
  · have : (match (sessionR toy cod false {} {} (some iv) [t4] u).2 with | .ok (some _) => true | _ => false) = true := by
      decide +kernel
    revert this
    cases (sessionR toy cod false {} {} (some iv) [t4] u).2 with
    | ok o => cases o with
      | none => intro h; cases h
      | some f => intro _; exact ⟨f, rfl⟩
    | err e => intro h; cases h
    | panic => intro h; cases h

example : (createFileR toy none none [some (b! "pw"), some (b! "pw")]).1 = .err none := rfl

/-- **C122 is false without the condition on `adduser`**: the request fails, and the run neither ends with an error nor is the run of
any source that answers. -/
theorem C122_false : ¬ ∀ (P : Prims) (C : Codec) (auto : Bool) (v v' : Env) (iv : Option Str) (turns : List TurnR) (u : Session),
    (sessionR P C auto v v' iv turns u).2 = .err none ∨
      ∀ (g : Nat → Draw × (Nat → Draw)) (f : Str),
        sessionR P C auto v v' iv turns u = asked2 (session P C auto v v' (iv.getD f) (filledTurns turns g) u) := by
  intro h
  rcases h toy cod false {} {} (some iv) [t1] u with h | h
  · revert h; decide +kernel
  · have h1 := congrArg (fun x => x.1.u.creds.user)
      (h (fun _ => ({ master := List.replicate keySize 6, ivm := iv }, fun _ => {})) [])
    revert h1
    decide +kernel

/-- **C122 is false of what is lost**: every command of the run succeeded, every later request was answered, and yet the file cannot
be saved, because the first `adduser` had silently left a user without keys. -/
theorem C122_lost_false : ¬ ∀ (C : Codec) (turns : List TurnR) (u : Session), (runReplR toy C turns { u := u }).2 = .ok () →
    (∃ f, (saveBlobR toy C id id (some iv) u) = .ok (some f)) → ∃ w, (sessionR toy C false {} {} (some iv) turns u).2 = .ok w := by
  intro h
  have h1 : (match (saveBlobR toy cod id id (some iv) u) with | .ok (some _) => true | _ => false) = true := by decide +kernel
  have h2 : ∃ f, (saveBlobR toy cod id id (some iv) u) = .ok (some f) := by
    revert h1
    cases (saveBlobR toy cod id id (some iv) u) with
    | ok o => cases o with
      | none => intro h; cases h
      | some f => intro _; exact ⟨f, rfl⟩
    | err e => intro h; cases h
    | panic => intro h; cases h
  obtain ⟨w, hw⟩ := h cod [t1, t2] u (by decide +kernel) h2
  have h3 : (sessionR toy cod false {} {} (some iv) [t1, t2] u).2 = .err (some (.crypt .badParams)) := by decide +kernel
  rw [h3] at hw
  cases hw

/-- the conditions of `C122_adduser` and `C122_blocked` are met in that run -/
example : newR id t1.x.now t1.x.uuid u.store (userPrefix ++ b! "alice") =
      ((adduserR toy id t1.x u (b! "alice")).1.store, .ok [9]) ∧ u.creds.master = [] ∧ t1.x.master = none := by
  decide +kernel

def last : Session :=
  let s := (runReplR toy cod [t1, t2] { u := u }).1.u
  { s with store := s.store.updateSnapshot.1 }

example : last.readOnly = false ∧ last.creds.master ≠ [] ∧ last.store.updateSnapshot = (last.store, none) ∧
    (users id last.store).2 = .ok [([9], b! "user/alice"), ([10], b! "user/bob")] ∧
    ((last.store.snapshot.get? [9]).map fun e => val e keySalt) = some [] ∧ hexDecode [] = some [] := by
  decide +kernel

/-- what `addsync scp` is told: user, host, port, path, and a key of the first kind -/
def vK : Env := { d := { uuid := [12], inp := [some (b! "me"), some (b! "host"), some (b! "22"), some (b! "/f"), some (b! "1")] } }

/-- **C122 is false of the keys for a server**: when no key can be made `addsync` says so and succeeds, and the entry it leaves, which
later runs synchronise with, has no key. -/
theorem C122_key_false : ¬ ∀ (v : Env) (u : Session) (uuid : Str) (e : Entry), (addSync v u syncSCP).2 = .ok () →
    v.d.inp = [some (b! "me"), some (b! "host"), some (b! "22"), some (b! "/f"), some (b! "1")] →
    (addSync v u syncSCP).1.store.updateSnapshot.1.snapshot.get? uuid = some e → val e keySync = b! "true" → val e keyPriv ≠ [] := by
  intro h
  have h1 : ((addSync vK u syncSCP).1.store.updateSnapshot.1.snapshot.get? [12]).map (fun e => (val e keySync, val e keyPriv)) =
      some (b! "true", []) := by decide +kernel
  obtain ⟨e, he, hv⟩ := Option.map_eq_some_iff.1 h1
  exact h vK u [12] e (by decide +kernel) rfl he (congrArg Prod.fst hv) (congrArg Prod.snd hv)

end RandomDemo

end Verif.App
