import Verif.App.DumpProps
import Verif.App.WordProps
/-!
# Property C110, third part: no key has a blank in it
-/
namespace Verif.App
open Verif Verif.Txlogs Verif.Blob Verif.Crypt Verif.App.Spec
open Verif.Crypt.Spec (toy toy_lawful)

namespace Spec

/-- No key that was ever set has a blank in it. -/
def Bare (log : List Tx) : Prop := ∀ t ∈ log, t.kind = .setk → (32 : UInt8) ∉ t.key

end Spec

theorem state_keys (Q : Str → Prop) {log : List Tx} {st0 st : Txlogs.Spec.State}
    (h0 : ∀ w e k, st0 w = some e → e k ≠ none → Q k) (h : ∀ t ∈ log, t.kind = .setk → Q t.key)
    (hm : Txlogs.Spec.meaning st0 log = some st) : ∀ w e k, st w = some e → e k ≠ none → Q k := by
  intro w e k he hk
  obtain ⟨x, hx⟩ := Option.ne_none_iff_exists'.1 hk
  have := state_values k (fun _ => Q k) (fun w e x h1 h2 => h0 w e k h1 (by rw [h2]; simp)) (fun t ht h1 h2 => h2 ▸ h t ht h1) hm w e x he hx
  exact this

/-- So no entry has such a key. -/
theorem C110_bare {s : DB} (h : Bare s.log) {w : Str} {e : Str → Option Str} (he : Blob.Spec.Visible s w e) : ∀ k, e k ≠ none → 32 ∉ k := by
  obtain ⟨st, h1, h2⟩ := he
  exact fun k hk => state_keys (fun k => 32 ∉ k) (fun w e k hw => by cases hw) h h1 w e k h2 hk

theorem parseLine_blank {line cmd : Str} {args : List Str} (hl : ValidUtf8 line) (h : parseLine line = some (cmd, args)) :
    ∀ a ∈ args, 32 ∉ a := by
  by_cases hc : cmd = b! "set"
  · unfold parseLine at h
    dsimp only at h
    cases hfs : fields (trimSpace line) with
    | nil => rw [hfs] at h; cases h
    | cons c as =>
      rw [hfs] at h
      simp only at h
      split at h
      · obtain ⟨-, rfl⟩ := Prod.mk.inj (Option.some.inj h)
        exact fun a ha => split_notMem 32 _ a (List.mem_of_mem_drop ha)
      · rename_i hne
        exact absurd ((Prod.mk.inj (Option.some.inj h)).1.trans hc) hne
  · exact fun a ha => word_blank (parseLine_words hl h hc a ha)

theorem bare_rules {v : Env} {r : Repl} {cmd : Str} {args : List Str} (ha : ∀ a ∈ args, (32 : UInt8) ∉ a) :
    LineRules v r cmd args (fun _ => True) (32 ∉ ·) (fun t => t.kind = .setk → 32 ∉ t.key) := by
  have hrec : ∀ (s : DB) (now : Nat → Int) uuid, RecordRules s uuid now (fun t => t.kind = .setk → 32 ∉ t.key) := by
    intro s now uuid i w k x hw hk _
    exact (by decide : ∀ k ∈ [keySalt, keyIV, keyMKey], (32 : UInt8) ∉ k) k hk
  exact
    { rules :=
        { put := fun i w k x _ h _ _ => h
          cut := fun i w k _ h hk => by cases hk
          add := fun i hk => by cases hk
          touch := fun i w _ _ _ => (by decide : (32 : UInt8) ∉ keyUpdated)
          keys := by decide
          ascii := fun _ _ => trivial
          inp := fun _ _ => trivial
          join := fun _ _ _ _ => trivial
          split := fun _ _ _ _ => trivial
          old := fun _ _ _ _ _ _ => trivial
          otp := fun _ _ _ _ => trivial
          editor := fun _ _ _ _ => trivial
          fileUrl := fun _ _ _ _ => trivial
          scpUrl := fun _ _ _ _ _ _ _ _ _ _ => trivial
          keypair := fun _ _ _ => ⟨trivial, trivial⟩ }
      value := fun _ _ _ _ _ => trivial
      setKey := fun _ q k x hx _ => by
        unfold setArgs at hx
        cases hq : queryArgs r.ctx args with
        | none => rw [hq] at hx; cases hx
        | some p =>
          obtain ⟨q', k', l⟩ := p
          rw [hq] at hx
          simp only at hx
          split at hx
          · cases hx
          · cases hx; exact ha k (queryArgs_mem hq).1
      editKey := fun _ q k l hx _ => ha k (queryArgs_mem hx).1
      cutKey := fun _ q k l hx _ _ => ha k (queryArgs_mem hx).1
      addName := fun _ _ _ _ _ _ => (by decide : (32 : UInt8) ∉ keyName)
      syncName := fun _ _ _ _ _ _ _ => (by decide : (32 : UInt8) ∉ keyName)
      mvName := fun _ _ _ _ _ _ _ _ => (by decide : (32 : UInt8) ∉ keyName)
      del := fun _ _ _ _ _ _ hk => by cases hk
      record := fun _ => hrec _ _ _
      userName := fun _ _ _ _ _ => (by decide : (32 : UInt8) ∉ keyName)
      records := fun _ j => hrec _ _ _ }

/-- No line gives an entry a key with a blank, also not `set`, which allows other white space in a key. -/
theorem C110_line (P : Prims) (C : Codec) (v : Env) (line : Str) (r : Repl) (h0 : r.u.store.txPoint = 0)
    (h : WellFormed r.u.store) (hl : LegalTurn v line r) (hn : (runLine P C v line r).2 ≠ .panic) (hw : Bare r.u.store.log) :
    Bare (runLine P C v line r).1.u.store.log := by
  obtain ⟨l, h1, h2, -⟩ := addsR_line (P := P) (C := C) h0 hl.env h line hl.utf8 hl.noSync
    (fun _ _ _ hpl _ => bare_rules (parseLine_blank hl.utf8 hpl)) hn
  intro t ht
  rw [h1] at ht
  rcases List.mem_append.1 ht with ht | ht
  · exact hw t ht
  · exact h2 t ht

/-- Nor does any session of such lines, so `dump` tells every entry of a file in which none was. -/
theorem C110_session_partial (P : Prims) (C : Codec) (turns : List Turn) (r : Repl) (h0 : r.u.store.txPoint = 0)
    (h : WellFormed r.u.store) (hl : Along P C LegalTurn turns r) (hn : (runRepl P C turns r).2 ≠ .panic)
    (hw : Bare r.u.store.log) :
    Bare (runRepl P C turns r).1.u.store.log ∧
    ∀ w e, Blob.Spec.Visible (runRepl P C turns r).1.u.store w e → ∀ k, e k ≠ none → 32 ∉ k := by
  have key : Bare (runRepl P C turns r).1.u.store.log := by
    induction turns generalizing r with
    | nil => exact hw
    | cons t rest ih =>
      obtain ⟨o, v⟩ := t
      cases o with
      | none => exact hw
      | some line =>
        obtain ⟨hl1, hl2⟩ := hl
        have key := C67_line_partial P C v line r h0 h hl1
        have key2 := C110_line P C v line r h0 h hl1
        unfold runRepl at hn ⊢
        cases hx : runLine P C v line r with
        | mk r' o =>
          rw [hx] at hn key key2 hl2
          cases o with
          | panic => exact absurd rfl hn
          | err e => exact key2 (by simp) hw
          | ok b =>
            obtain ⟨k1, k2⟩ := key (by simp)
            cases b with
            | true => exact key2 (by simp) hw
            | false => exact ih r' k2 k1 hl2 hn (key2 (by simp) hw)
  exact ⟨key, fun w e he => C110_bare key he⟩

/-- Nor does a `sync`, if none of the files it pulls has one. -/
theorem C110_sync_partial (P : Prims) (C : Codec) (w : World) (v : SyncEnv) (nm : Str) (push : Bool) (u : Session) (inp : Input)
    (hw : Bare u.store.log) (hp : ∀ syncs l rest, Selected w v u nm syncs →
      pullAll P C w { u with store := u.store.updateSnapshot.1 } syncs inp = (some l, rest) → ∀ q ∈ remotes l, Bare q.log) :
    Bare (sync P C w v nm push u inp).session.store.log := by
  intro t ht hk
  rcases sync_from t ht with h | h | ⟨syncs, l, rest, h0, h1, q, hq, h2⟩
  · exact hw t h hk
  · rw [h.2]
    exact (by decide : (32 : UInt8) ∉ keyKnownHosts)
  · exact hp syncs l rest h0 h1 q hq t h2 hk

/-- non-vacuity -/
example : Bare (runLine toy SyncDemo.C Demo.vV (b! "set bank note hi") ShowDemo.r0).1.u.store.log :=
  C110_line toy SyncDemo.C Demo.vV _ ShowDemo.r0 rfl ShowDemo.u_wf.1 ShowDemo.r0_legal (by decide +kernel) (by unfold Bare; decide)

example : Bare (sync toy Json.Spec.codec OwnSyncDemo.w HistoryDemo.v [] false HistoryDemo.u [some [2]]).session.store.log :=
  C110_sync_partial _ _ _ _ _ _ _ _ (by unfold Bare; decide) (by
    intro syncs l rest hsel h
    rw [OwnSyncDemo.selected hsel, OwnSyncDemo.pulled] at h
    obtain ⟨rfl, -⟩ := Prod.mk.inj h |>.imp Option.some.inj id
    unfold Bare
    decide +kernel)

example : ∀ w e, Blob.Spec.Visible (runRepl toy SyncDemo.C [(some (b! "set bank note hi"), Demo.vV)] ShowDemo.r0).1.u.store w e →
    ∀ k, e k ≠ none → 32 ∉ k :=
  (C110_session_partial toy SyncDemo.C [(some (b! "set bank note hi"), Demo.vV)] ShowDemo.r0 rfl ShowDemo.u_wf.1 ⟨ShowDemo.r0_legal, trivial⟩ (by decide +kernel)
    (by unfold Bare; decide)).2

end Verif.App
