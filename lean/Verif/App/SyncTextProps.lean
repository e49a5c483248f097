import Verif.App.SyncTextLemmas
import Verif.App.FieldsProps
import Verif.App.AccessProps
/-!
# C77 with `sync`: whatever remotes hold, what is in the file is text
-/
namespace Verif.App
open Verif Verif.Txlogs Verif.Blob Verif.Crypt Verif.App.Spec
open Verif.Crypt.Spec (toy toy_lawful)

/-- `sync` with any remotes, whatever they hold and however it ends, leaves a log made of well-formed text with times that fit. -/
theorem C77_sync_partial (P : Prims) (w : World) (v : SyncEnv) (nm : Str) (push : Bool) (u : Session) (inp : Input) (hok : Ok u.store)
    (hc : CleanLog u.store) (hw : TextWorld w) (hv : SyncChoices FitsInt64 v) :
    CleanLog (sync P Json.Spec.codec w v nm push u inp).session.store :=
  (text_sync (T := FitsInt64) (fun _ h => h) hw hv ⟨hok, hc⟩).ops

/-- So the file can be written and read back without loss after any `sync`. -/
theorem C77_sync_saved_partial (P : Prims) (w : World) (v : SyncEnv) (nm : Str) (push : Bool) (u : Session) (inp : Input) (hok : Ok u.store)
    (hc : CleanLog u.store) (hw : TextWorld w) (hv : SyncChoices FitsInt64 v)
    (hn : Counted (sync P Json.Spec.codec w v nm push u inp).session.store) :
    Faithful Json.Spec.codec (sync P Json.Spec.codec w v nm push u inp).session.store := by
  have := text_sync (P := P) (nm := nm) (push := push) (inp := inp) (T := FitsInt64) (fun _ h => h) hw hv ⟨hok, hc⟩
  exact Json.C11_partial _ (clean_of_log this.ok this.ops hn)

/-- The same over ssh: it is enough that those who answer have addresses made of text. -/
theorem C77_net_partial (P : Prims) (o : Outside) (v : SyncEnv) (nm : Str) (push : Bool) (u : Session) (inp : Input) (hok : Ok u.store)
    (hc : CleanLog u.store) (ho : TextOutside o) (hv : SyncChoices FitsInt64 v) :
    CleanLog (sync P Json.Spec.codec (netWorld o) v nm push u inp).session.store :=
  C77_sync_partial P (netWorld o) v nm push u inp hok hc (netWorld_text ho) hv

/-- Any line of well-formed text, `sync` included. -/
theorem C77_whole_line_partial (P : Prims) (v : Env) (line : Str) (r : Repl) (h : Sound r.u.store)
    (hc : ∀ t ∈ r.u.store.log, Json.Spec.CleanTx t) (hl : TextWholeTurn v line r) (hn : (runLine P Json.Spec.codec v line r).2 ≠ .panic) :
    ∀ t ∈ (runLine P Json.Spec.codec v line r).1.u.store.log, Json.Spec.CleanTx t := by
  rcases hl with hl | ⟨args, hp, hw, hv⟩
  · exact fun t ht => (text_line (T := fun _ => True) h.tx h.wf (fun t ht => ⟨hc t ht, trivial⟩) hl (fun _ => trivial)
      (fun _ _ => trivial) hn t ht).1
  · rcases runLine_sync (P := P) (C := Json.Spec.codec) (v := v) (r := r) hp with h1 | ⟨h1, -⟩
    · rw [h1]; exact hc
    · rw [h1]
      exact fun t ht => ((text_sync (P := P) (nm := args.head?.getD []) (push := true) (inp := v.d.inp) (T := fun _ => True)
        (fun _ _ => trivial) hw hv ⟨h.wf.good.ok, fun t ht => ⟨hc t ht, trivial⟩⟩).ops t ht).1

/-- Any number of lines of well-formed text, `sync` included, of a session that ends normally. -/
theorem C77_whole_session_partial (P : Prims) (turns : List Turn) (r : Repl) (h : Sound r.u.store)
    (hc : ∀ t ∈ r.u.store.log, Json.Spec.CleanTx t)
    (hl : Along P Json.Spec.codec (fun v line r => WholeTurn P Json.Spec.codec v line r ∧ TextWholeTurn v line r) turns r)
    (hr : (runRepl P Json.Spec.codec turns r).2 = .ok ()) :
    ∀ t ∈ (runRepl P Json.Spec.codec turns r).1.u.store.log, Json.Spec.CleanTx t := by
  induction turns generalizing r with
  | nil => exact hc
  | cons t rest ih =>
    obtain ⟨o, v⟩ := t
    cases o with
    | none => exact hc
    | some line =>
      obtain ⟨⟨hl1, hl3⟩, hl2⟩ := hl
      have key := C87_line_partial P Json.Spec.codec v line r (h := h) (hl := hl1)
      have key2 := C77_whole_line_partial P v line r h hc hl3
      unfold runRepl at hr ⊢
      cases hx : runLine P Json.Spec.codec v line r with
      | mk r' o =>
        rw [hx] at hr key key2 hl2
        cases o with
        | panic => cases hr
        | err e => cases hr
        | ok b =>
          cases b with
          | true => exact key2 (by simp)
          | false => exact ih r' (key _ rfl) (key2 (by simp)) hl2 hr

namespace SyncTextDemo
open HistoryDemo (u v logL sound)
open SyncDemo (iv)

/-- the remote has an operation whose value is not text -/
def logX : List Tx := logL ++ [⟨9, .setk, [1], b! "note", [255]⟩]

def fileX : Str :=
  match saveBlob toy Json.Spec.codec id id iv { u with store := { log := logX } } with
  | .ok (some f) => f
  | _ => []

def w : World := { SyncDemo.w with readFile := fun _ _ => .bytes fileX }

theorem textW : TextWorld w :=
  ⟨fun _ _ _ _ _ _ _ h => (by cases h), fun _ _ _ _ _ _ _ _ h => (by cases h)⟩

theorem fits100 : FitsInt64 100 := ⟨by decide, by decide⟩
theorem fits200 : FitsInt64 200 := ⟨by decide, by decide⟩

theorem choices : SyncChoices FitsInt64 { v with now := fun _ => 100, now' := fun _ => 200 } :=
  ⟨fun m => List.Perm.refl m, fun m => List.Perm.refl m, fun _ => fits100, fun _ => fits200⟩

theorem clean : CleanLog u.store := by
  have h : ∀ t ∈ logL, (Json.kindOf (Json.kindStr t.kind) = t.kind ∧ (Json.kindStr t.kind).all (fun b => b.toNat < 0x80) = true ∧
      t.uuid.all (fun b => b.toNat < 0x80) = true ∧ t.key.all (fun b => b.toNat < 0x80) = true ∧
      t.value.all (fun b => b.toNat < 0x80) = true) ∧ -9223372036854775808 ≤ t.time ∧ t.time ≤ 9223372036854775807 := by
    decide +kernel
  intro t ht
  obtain ⟨⟨h1, h2, h3, h4, h5⟩, h6⟩ := h t ht
  exact ⟨⟨h1, valid_ascii _ h2, valid_ascii _ h3, valid_ascii _ h4, valid_ascii _ h5⟩, h6⟩

/-- the value arrives, but as text -/
example : (sync toy Json.Spec.codec w { v with now := fun _ => 100, now' := fun _ => 200 } [] true u []).result = .ok () ∧
    (sync toy Json.Spec.codec w { v with now := fun _ => 100, now' := fun _ => 200 } [] true u []).session.store.log =
      logL ++ [⟨9, .setk, [1], b! "note", [0xef, 0xbf, 0xbd]⟩] := by decide +kernel

example : CleanLog (sync toy Json.Spec.codec w { v with now := fun _ => 100, now' := fun _ => 200 } [] true u []).session.store :=
  C77_sync_partial toy w _ [] true u [] sound.wf.good.ok clean textW choices

example : Along toy Json.Spec.codec TextWholeTurn [(some (b! "sync"), { w := w, v := v })] { u := u } :=
  ⟨.inr ⟨[], by decide +kernel, textW, ⟨fun m => List.Perm.refl m, fun m => List.Perm.refl m, fun _ => trivial, fun _ => trivial⟩⟩, trivial⟩

/-- over ssh, where nobody answers at an address that is not text -/
example : ∃ o : Outside, TextOutside o ∧ ∃ a s, o.net a = some s := by
  let s : Server :=
    { addr := b! "10.0.0.1:22"
      keyType := b! "ssh-rsa"
      key := [255]
      login := fun _ _ => true
      run := fun _ _ => {} }
  refine ⟨⟨fun a => if a = b! "host:22" then some s else none, id, fun _ => none, fun _ => .failed, fun _ _ => false⟩, ?_, b! "host:22", s, rfl⟩
  intro a t h
  simp only at h
  split at h
  · rename_i ha
    cases h
    exact ⟨ha ▸ valid_ascii _ (by decide), valid_ascii (b! "10.0.0.1:22") (by decide)⟩
  · cases h

end SyncTextDemo
end Verif.App
