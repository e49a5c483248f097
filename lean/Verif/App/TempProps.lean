import Verif.App.TempSpec
import Verif.App.EditProps
/-!
# C103: `edit` leaves nothing of a value on the disk
-/
namespace Verif.App
open Verif Verif.Txlogs Verif.Blob Verif.App.Spec
open Verif.Crypt.Spec (toy toy_lawful)

/-- The temporary file gets a name that was not taken; if it was, nothing happens. -/
theorem C103_taken (D : Volume) (nm old : Str) (run : Volume → Str → Volume × Option Int) (j : Nat) (h : D.dir nm = some j) :
    editFile D nm old run = (D, .taken) := by
  simp only [editFile, h]

/-- What `edit` reads is what the editor left under the name, if the editor ended well; otherwise nothing is read. -/
theorem C103_text (D D' : Volume) (nm old s : Str) (run : Volume → Str → Volume × Option Int) (h : editFile D nm old run = (D', .text s)) :
    ∃ j, (run (D.create nm old) nm).2 = some 0 ∧ (run (D.create nm old) nm).1.dir nm = some j ∧
      (run (D.create nm old) nm).1.data j = s := by
  unfold editFile at h
  split at h
  · cases h
  · split at h
    · cases h
    · rename_i D1 code hr
      split at h
      · cases h
      · rename_i j hj
        split at h
        · cases h
        · rename_i hc
          cases h
          rw [hr]
          exact ⟨j, by simpa using hc, hj, rfl⟩

/-- Whatever the editor does, if it ends well the file that it leaves under the name is overwritten with zeros from its beginning to
its end and removed; nothing else is changed. -/
theorem C103_wiped (D D' : Volume) (nm old s : Str) (run : Volume → Str → Volume × Option Int) (h : editFile D nm old run = (D', .text s)) :
    D'.dir nm = none ∧ (∀ n, n ≠ nm → D'.dir n = (run (D.create nm old) nm).1.dir n) ∧
    ∃ j, (run (D.create nm old) nm).1.dir nm = some j ∧ (∀ b ∈ D'.data j, b = 0) ∧
      ∀ i, i ≠ j → D'.data i = (run (D.create nm old) nm).1.data i := by
  unfold editFile at h
  split at h
  · cases h
  · split at h
    · cases h
    · rename_i D1 code hr
      split at h
      · cases h
      · rename_i j hj
        split at h
        · cases h
        · cases h
          rw [hr]
          refine ⟨by simp [Volume.remove], fun n hn => by simp [Volume.remove, Volume.wipe, hn], j, hj, ?_, fun i hi => ?_⟩
          · intro b hb
            simp only [Volume.remove, Volume.wipe, if_true] at hb
            rw [List.drop_eq_nil_of_le (by omega), List.append_nil] at hb
            exact (List.mem_replicate.1 hb).2
          · simp [Volume.remove, Volume.wipe, hi]

/-- `edit` leaves nothing behind if the editor writes into the file it is given and ends well, or ends with an error having written no
more than was there. For other editors see `C103_replaced_false`, `C103_notRun` and `C103_failed_false`. -/
theorem C103_partial (D : Volume) (nm old : Str) (run : Volume → Str → Volume × Option Int) (hn : D.dir nm = none)
    (hz : ∀ j, D.free ≤ j → ∀ b ∈ D.data j, b = 0) (he : InPlace run (D.create nm old) nm)
    (hr : (run (D.create nm old) nm).2 = some 0 ∨
      (∃ c, (run (D.create nm old) nm).2 = some c) ∧ ((run (D.create nm old) nm).1.data D.free).length ≤ old.length) :
    LeavesNothing D (editFile D nm old run).1 := by
  obtain ⟨e1, e2⟩ := he
  have hnm : (D.create nm old).dir nm = some D.free := by simp [Volume.create]
  unfold editFile
  simp only [hn]
  generalize hg : run (D.create nm old) nm = g at *
  obtain ⟨D1, c⟩ := g
  simp only at e1 e2 hr
  have key : ∀ n, (D1.data D.free).length ≤ n → LeavesNothing D ((D1.wipe D.free n).remove nm) := by
    intro n hle
    refine ⟨?_, fun j hj => ?_, fun j hj b hb => ?_⟩
    · funext m
      simp only [Volume.remove, Volume.wipe, e1]
      by_cases hm : m = nm
      · simp [hm, hn]
      · simp [hm, Volume.create]
    · have hne : j ≠ D.free := by omega
      simp only [Volume.remove, Volume.wipe, if_neg hne]
      rw [e2 j (by rw [hnm]; intro h; cases h; omega)]
      simp [Volume.create, hne]
    · simp only [Volume.remove, Volume.wipe] at hb
      split at hb
      · rw [List.drop_eq_nil_of_le hle, List.append_nil] at hb
        exact (List.mem_replicate.1 hb).2
      · rename_i hne
        rw [e2 j (by rw [hnm]; intro h; cases h; exact hne rfl)] at hb
        simp only [Volume.create, if_neg hne] at hb
        exact hz j hj b hb
  have hd : D1.dir nm = some D.free := by rw [e1, hnm]
  rcases hr with hr | ⟨⟨c', hr⟩, hl⟩
  · subst hr
    simp only [hd]
    rw [if_neg (by decide)]
    exact key _ (by omega)
  · subst hr
    simp only [hd]
    split
    · exact key _ hl
    · exact key _ (by omega)

/-- Whatever the editor does to the file it is given, the other files of the user are what they were, and under their names, if the
editor leaves them. -/
theorem C103_others (D : Volume) (nm old : Str) (run : Volume → Str → Volume × Option Int) (hD : WfVolume D)
    (he : ByName run (D.create nm old) nm) (n : Str) (j : Nat) (hj : D.dir n = some j)
    (hs : (run (D.create nm old) nm).1.dir nm ≠ some j) :
    (editFile D nm old run).1.dir n = some j ∧ (editFile D nm old run).1.data j = D.data j := by
  unfold editFile
  split
  · exact ⟨hj, rfl⟩
  · rename_i hn
    have hne : n ≠ nm := fun h => by rw [h, hn] at hj; cases hj
    have hlt : j ≠ D.free := by have := hD n j hj; omega
    obtain ⟨e1, -, e3⟩ := he
    have a1 := (e1 n hne).trans (show (D.create nm old).dir n = some j by simp [Volume.create, hne, hj])
    have a2 := (e3 n j hne (by simp [Volume.create, hne, hj])).trans (show (D.create nm old).data j = D.data j by simp [Volume.create, hlt])
    generalize run (D.create nm old) nm = g at *
    obtain ⟨D1, c⟩ := g
    simp only at a1 a2 hs
    cases c with
    | none => exact ⟨by simp [Volume.remove, hne, a1], a2⟩
    | some c =>
      simp only
      split
      · exact ⟨a1, a2⟩
      · rename_i i hi
        have hij : j ≠ i := fun h => hs (by rw [hi, h])
        split <;> exact ⟨by simp [Volume.remove, Volume.wipe, hne, a1], by simp [Volume.remove, Volume.wipe, hij, a2]⟩

/-- The editor that is run: `$EDITOR` if it is set, else one of six. It is run if it is there. -/
theorem C103_editor (env : Str) (progs : Str → Option Prog) (D : Volume) (nm : Str) :
    (∀ p, env ≠ [] → progs env = some p → runEditor env progs D nm = ((p D nm).1, some (p D nm).2)) ∧
    (env = [] → (∃ e ∈ editors, (progs e).isSome) → ∃ e ∈ editors, ∃ p, progs e = some p ∧
      runEditor env progs D nm = ((p D nm).1, some (p D nm).2)) := by
  constructor
  · intro p h1 h2
    simp only [runEditor, editorName, if_pos h1, h2]
  · rintro h1 ⟨e, he, hs⟩
    cases hf : editors.find? fun e => (progs e).isSome with
    | none => exact absurd hs (by simpa using List.find?_eq_none.1 hf e he)
    | some e' =>
      have h2 := List.find?_some hf
      cases hp : progs e' with
      | none => rw [hp] at h2; cases h2
      | some p =>
        refine ⟨e', List.mem_of_find?_eq_some hf, p, hp, ?_⟩
        simp only [runEditor, editorName, h1, ne_eq, not_true_eq_false, if_false, hf, Option.getD_some, hp]

/-- With the disk, `edit` stores what the editor left in the file, under the key it was asked to edit. -/
theorem C103_stored (D D' : Volume) (nm s : Str) (run : Volume → Str → Volume × Option Int) (v : Env) (u : Session) (q key uuid : Str)
    (e : Str → Option Str) (hv : EnvOk v u.store) (h : WellFormed u.store) (hp : Picks v u.store q uuid)
    (he : Blob.Spec.Visible u.store uuid e) (hf : editFile D nm ((e key).getD []) run = (D', .text s)) (hs : s ≠ []) (hk : ¬ Refused key) :
    (edit { v with editor := editorOf D nm run } u q key).2 = .ok () ∧
      KeyNow uuid key (some s) (v.d.now 0) e u (edit { v with editor := editorOf D nm run } u q key).1 :=
  (C79_edit { v with editor := editorOf D nm run } u q key uuid e ⟨hv.ord, hv.ord', hv.uuid_ne, hv.fresh⟩ h hp he).1 s
    (by simp [editorOf, hf, Edited.answer]) hs hk

namespace TempDemo

def nm : Str := b! "/tmp/bp1.txt"

/-- a disk with one file -/
def D0 : Volume := { data := fun j => if j = 0 then b! "mine" else [], dir := fun n => if n = b! "a" then some 0 else none, free := 1 }

/-- writes a text into the file -/
def write (s : Str) (code : Int) : Prog := fun D n =>
  match D.dir n with
  | none => (D, code)
  | some j => ({ D with data := fun i => if i = j then s else D.data i }, code)

/-- writes a text into a new file and gives that the name of the old one -/
def replace (s : Str) : Prog := fun D n => (D.create n s, 0)

/-- the programs of a machine with `vim`, which runs `p`, and `emacs` -/
def machine (p : Prog) (n : Str) : Option Prog :=
  if n = b! "vim" then some p else if n = b! "emacs" then some (write (b! "new") 0) else none

theorem D0_wf : WfVolume D0 := by
  intro n j h
  simp only [D0] at h ⊢
  split at h
  · cases h; decide
  · cases h

theorem D0_zero : ∀ j, D0.free ≤ j → ∀ b ∈ D0.data j, b = 0 := by
  intro j h b hb
  simp only [D0] at h hb
  rw [if_neg (by omega)] at hb
  cases hb

theorem write_inPlace (s : Str) (c : Int) (old : Str) : InPlace (runEditor [] (machine (write s c))) (D0.create nm old) nm := by
  have e : editorName [] (machine (write s c)) = b! "vim" := by
    simp [editorName, editors, machine]
  have hr : runEditor [] (machine (write s c)) (D0.create nm old) nm =
      ({ D0.create nm old with data := fun i => if i = 1 then s else (D0.create nm old).data i }, some c) := by
    unfold runEditor
    rw [e]
    rfl
  unfold InPlace
  rw [hr]
  refine ⟨rfl, fun j hj => ?_⟩
  have : j ≠ 1 := fun h => hj (by rw [h]; rfl)
  simp only [if_neg this]

/-- Not vacuous: `vim` writes a longer text into the file. -/
example : LeavesNothing D0 (editFile D0 nm (b! "secret") (runEditor [] (machine (write (b! "new secret") 0)))).1 ∧
    (editFile D0 nm (b! "secret") (runEditor [] (machine (write (b! "new secret") 0)))).2 = .text (b! "new secret") ∧
    (editFile D0 nm (b! "secret") (runEditor [] (machine (write (b! "new secret") 0)))).1.data 1 = List.replicate 10 0 :=
  ⟨C103_partial _ _ _ _ rfl D0_zero (write_inPlace _ _ _) (.inl (by decide)), by decide +kernel, by decide +kernel⟩

/-- Not vacuous: it replaces the file; the file the user has is left alone. -/
example : (editFile D0 nm (b! "secret") (runEditor [] (machine (replace (b! "x"))))).1.dir (b! "a") = some 0 ∧
    (editFile D0 nm (b! "secret") (runEditor [] (machine (replace (b! "x"))))).1.data 0 = b! "mine" :=
  C103_others D0 nm _ _ D0_wf ⟨fun n hn => by
      show (if n = nm then _ else _) = _
      rw [if_neg hn], by decide, fun n j hn hj => by
        have : j ≠ 2 := fun h => by
          simp only [Volume.create, if_neg hn, D0] at hj
          split at hj
          · cases hj; cases h
          · cases hj
        show (if j = 2 then _ else _) = _
        rw [if_neg this]⟩ (b! "a") 0 rfl (by decide)

/-- Not vacuous: `$EDITOR` is set, and is not. -/
example : (runEditor (b! "emacs") (machine (write [] 0)) D0 (b! "a")).2 = some 0 ∧
    (runEditor [] (machine (write [] 7)) D0 (b! "a")).2 = some 7 := by decide +kernel

/-- Not vacuous: a password is edited. -/
example : KeyNow [1] keyPass (some (b! "new")) 0 Demo.eE Demo.uE
    (edit { Demo.vV with editor := editorOf D0 nm (runEditor [] (machine (write (b! "new") 0))) } Demo.uE (b! "bank") keyPass).1 :=
  (C103_stored D0 _ nm (b! "new") _ Demo.vV Demo.uE (b! "bank") keyPass [1] Demo.eE (Demo.uE_env _ rfl rfl rfl) Demo.uE_wf.1
    (Demo.uE_picks _ rfl rfl rfl) Demo.uE_entry
    (Prod.ext rfl (by decide +kernel)) (by decide) (by unfold Refused; decide)).2

end TempDemo

open TempDemo

/-! ## where it fails -/

/-- False: an editor that saves a new file under the old name, as many do, leaves the old value: the zeros go to the new file. -/
theorem C103_replaced_false : ¬ ∀ (D : Volume) (nm old : Str) (progs : Str → Option Prog), WfVolume D → D.dir nm = none →
    (∀ j, D.free ≤ j → ∀ b ∈ D.data j, b = 0) → ByName (runEditor [] progs) (D.create nm old) nm →
    (runEditor [] progs (D.create nm old) nm).2 = some 0 → LeavesNothing D (editFile D nm old (runEditor [] progs)).1 := by
  intro h
  have := (h D0 nm (b! "secret") (machine (replace (b! "x"))) D0_wf rfl D0_zero ⟨fun n hn => by
      show (if n = nm then _ else _) = _
      rw [if_neg hn], by decide, fun n j hn hj => by
        have : j ≠ 2 := fun h => by
          simp only [Volume.create, if_neg hn, D0] at hj
          split at hj
          · cases hj; cases h
          · cases hj
        show (if j = 2 then _ else _) = _
        rw [if_neg this]⟩ (by decide)).2.2 1 (by decide)
  exact absurd (this 115 (by decide +kernel)) (by decide)

/-- An editor that cannot be run always leaves the value on the disk: the file is closed, so nothing is written to it. -/
theorem C103_notRun (D : Volume) (nm old : Str) (progs : Str → Option Prog) (env : Str) (hn : D.dir nm = none)
    (he : progs (editorName env progs) = none) :
    (editFile D nm old (runEditor env progs)).1.data D.free = old ∧ (editFile D nm old (runEditor env progs)).2 = .notRun := by
  simp only [editFile, hn, runEditor, he, Volume.remove, Volume.create, if_true, and_self]

/-- False: an editor that ends with an error leaves what it had written beyond the length of the old value. -/
theorem C103_failed_false : ¬ ∀ (D : Volume) (nm old : Str) (progs : Str → Option Prog), WfVolume D → D.dir nm = none →
    (∀ j, D.free ≤ j → ∀ b ∈ D.data j, b = 0) → InPlace (runEditor [] progs) (D.create nm old) nm →
    LeavesNothing D (editFile D nm old (runEditor [] progs)).1 := by
  intro h
  have := (h D0 nm (b! "old") (machine (write (b! "new secret") 1)) D0_wf rfl D0_zero (write_inPlace _ _ _)).2.2 1 (by decide)
  exact absurd (this 115 (by decide +kernel)) (by decide)

/-- `$EDITOR` is taken for the name of a program, arguments included: with `emacs -nw` nothing is run although `emacs` is there. -/
theorem C103_args_false : ∃ (env : Str) (progs : Str → Option Prog) (w : Str), w ∈ fields env ∧ (fields env).head? = some w ∧
    (progs w).isSome ∧ ∀ D nm, runEditor env progs D nm = (D, none) :=
  ⟨b! "emacs -nw", machine (write [] 0), b! "emacs", by decide +kernel, by decide +kernel, by decide +kernel, fun D nm => by
    have e : machine (write [] 0) (editorName (b! "emacs -nw") (machine (write [] 0))) = none := by
      rw [show editorName (b! "emacs -nw") (machine (write [] 0)) = b! "emacs -nw" from rfl]
      rfl
    simp only [runEditor, e]⟩

/-- Then everything typed before is lost: the session ends with an error, and nothing is saved. -/
theorem C103_lost_false : ∃ (turns : List Turn) (r : Repl) (D : Volume) (nm : Str) (run : Volume → Str → Volume × Option Int),
    WellFormed r.u.store ∧ r.u.store.txPoint = 0 ∧ Along toy SyncDemo.C LegalTurn turns r ∧
    turns.map Prod.fst = [some (b! "add x"), some (b! "edit x pass")] ∧
    (∃ progs, (progs (b! "emacs")).isSome ∧ run = runEditor (b! "emacs -nw") progs) ∧
    (∀ t ∈ turns.drop 1, t.2.editor = editorOf D nm run) ∧
    (∃ e, (runRepl toy SyncDemo.C turns r).2 = .err e) ∧
    r.u.store.log.length < (runRepl toy SyncDemo.C turns r).1.u.store.log.length := by
  refine ⟨[(some (b! "add x"), Demo.vT), (some (b! "edit x pass"),
    { Demo.vV with editor := editorOf D0 nm (runEditor (b! "emacs -nw") (machine (write [] 0))) })], Demo.rS, D0, nm, _,
    Demo.u1_wf, by decide +kernel, ⟨Demo.addX_legal, ?_, trivial⟩, rfl, ⟨machine (write [] 0), by decide, rfl⟩, ?_, ⟨.json, by decide +kernel⟩,
    by decide +kernel⟩
  · exact Demo.legal_of (x := (b! "edit", [b! "x", b! "pass"])) rfl rfl (by decide) Demo.rX_wf.1.good (by decide +kernel) (by decide)
      (by decide +kernel) (by decide)
  · intro t ht
    simp only [List.drop_one, List.tail_cons, List.mem_singleton] at ht
    rw [ht]

end Verif.App
