import Verif.App.DeskSpec
import Verif.App.WholeProps
import Verif.App.EffectProps
/-!
# C106: several programs on one file
-/
namespace Verif.App
open Verif Verif.Txlogs Verif.Blob Verif.Crypt Verif.App.Spec
open Verif.Crypt.Spec (toy toy_lawful)

/-- every program has opened a file of the same life -/
private structure DeskOk (P : Prims) (y : Desk) : Prop where
  life : FileLife P y.file y.keys y.store
  running : ∀ i u k s, y.running i = some (u, k, s) → Held P u k ∧ Spec.SameStore u.store s ∧ WellFormed u.store ∧ CleanLog u.store ∧
    ∃ f inp inp', FileLife P f k s ∧ k.Opens inp ∧ openFile P Json.Spec.codec none f inp = (.ok u, inp')

private theorem deskOk_move {P : Prims} (hP : Crypt.Spec.Lawful P) {y y' : Desk} (h : DeskOk P y) (hm : Move P y y') : DeskOk P y' := by
  cases hm with
  | @starts i inp inp' u ho hf =>
    refine ⟨h.life, fun j u' k s hj => ?_⟩
    by_cases hij : j = i
    · subst hij
      simp only [Txlogs.Spec.upd, if_true] at hj
      cases hj
      obtain ⟨u1, k1, k2, k3, k4, k5⟩ := C74_file_partial P hP _ _ _ h.life _ ho
      rw [k1] at hf
      cases hf
      exact ⟨k2, k3, k4, k5, _, _, _, h.life, ho, k1⟩
    · simp only [Txlogs.Spec.upd, if_neg hij] at hj
      exact h.running _ _ _ _ hj
  | dies i =>
    refine ⟨h.life, fun j u' k s hj => ?_⟩
    by_cases hij : j = i
    · subst hij
      simp only [Txlogs.Spec.upd, if_true] at hj
      cases hj
    · simp only [Txlogs.Spec.upd, if_neg hij] at hj
      exact h.running _ _ _ _ hj
  | @ends i u k s turns r ord ord' iv f hi hl hr hn ho ho' hiv hf =>
    refine ⟨?_, fun j u' k s hj => ?_⟩
    · obtain ⟨-, -, -, -, f0, inp, inp', a, b, c⟩ := h.running _ _ _ _ hi
      exact FileLife.next a b c hl hr hn ho ho' hiv hf
    · by_cases hij : j = i
      · subst hij
        simp only [Txlogs.Spec.upd, if_true] at hj
        cases hj
      · simp only [Txlogs.Spec.upd, if_neg hij] at hj
        exact h.running _ _ _ _ hj

private theorem deskOk_moves {P : Prims} (hP : Crypt.Spec.Lawful P) {y y' : Desk} (hl : FileLife P y.file y.keys y.store)
    (hq : Quiet y) (hm : Moves P y y') : DeskOk P y' := by
  induction hm with
  | stop => exact ⟨hl, fun i u k s h => by rw [hq i] at h; cases h⟩
  | next _ h ih => exact deskOk_move hP ih h

/-- C106: Any number of programs work on one file, started and ended in any order. The file never becomes unreadable: it always opens
with the passwords, and to the entries, of the program that saved last. Missing: sessions with `sync`, and two writes that mix. -/
theorem C106_opens_partial (P : Prims) (hP : Crypt.Spec.Lawful P) (y y' : Desk) (hl : FileLife P y.file y.keys y.store)
    (hq : Quiet y) (hm : Moves P y y') :
    ∀ inp, y'.keys.Opens inp → ∃ u, openFile P Json.Spec.codec none y'.file inp = (.ok u, []) ∧ Spec.SameStore u.store y'.store := by
  intro inp ho
  obtain ⟨u, k1, -, k3, -⟩ := C74_file_partial P hP _ _ _ (deskOk_moves hP hl hq hm).life inp ho
  exact ⟨u, k1, k3⟩

/-- C106: What a program leaves is what it found when it started, followed by what was typed in it; the present file `y'.file` plays
no part. Every operation that others have saved since then and that was not typed again is gone, and nobody is told: the session ends
without an error. -/
theorem C106_last_partial (P : Prims) (hP : Crypt.Spec.Lawful P) (y y' : Desk) (hl : FileLife P y.file y.keys y.store)
    (hq : Quiet y) (hm : Moves P y y') (i : Nat) (u : Session) (k : Keys) (s : DB) (hi : y'.running i = some (u, k, s))
    (turns : List Turn) (r : Repl) (ord : Order) (ord' : Results → Results) (iv : Str)
    (ht : Along P Json.Spec.codec (FileTurn P) turns { u := u }) (hr : runRepl P Json.Spec.codec turns { u := u } = (r, .ok ()))
    (hn : Counted r.u.store) (ho : ∀ m, (ord m).Perm m) (ho' : ∀ m, (ord' m).Perm m) (hiv : iv.length = 40) :
    ∃ f y'', saveBlob P Json.Spec.codec ord ord' iv r.u = .ok (some f) ∧ Move P y' y'' ∧ y''.file = f ∧
      ∀ inp, (lastKeys P Json.Spec.codec turns { u := u } k).Opens inp → ∃ u', openFile P Json.Spec.codec none f inp = (.ok u', []) ∧
        s.log <+: u'.store.log ∧
        ∀ tx ∈ y'.store.log, tx ∉ s.log → tx ∉ r.u.store.log.drop s.log.length → tx ∉ u'.store.log := by
  obtain ⟨h1, h2, h3, h4, -⟩ := (deskOk_moves hP hl hq hm).running _ _ _ _ hi
  obtain ⟨f, g1, g2⟩ := C74_session_partial P hP turns { u := u } r k iv ord ord' ho ho' hiv h1 h2.txPoint h3 h4 ht hr hn
  have hpre : s.log <+: r.u.store.log := by
    have := C76_session_partial P Json.Spec.codec turns { u := u } h2.txPoint h3 (along_mono (fun _ _ _ h => h.turn.legal) turns _ ht)
      (by rw [hr]; simp)
    rw [hr] at this
    rw [← h2.log]
    exact this
  refine ⟨f, _, g1, .ends i hi ht hr hn ho ho' hiv g1, rfl, fun inp hop => ?_⟩
  obtain ⟨u', a, -, b, -⟩ := g2 inp hop
  refine ⟨u', a, by rw [b.log]; exact hpre, fun tx _ hs hd hin => ?_⟩
  rw [b.log] at hin
  obtain ⟨t, ht⟩ := hpre
  rw [← ht] at hin hd
  rw [List.drop_left] at hd
  rcases List.mem_append.1 hin with hin | hin
  · exact hs hin
  · exact hd hin

private theorem looks_line {P : Prims} {C : Codec} {v : Env} {line : Str} {r : Repl} (h : Looks line) :
    Same r.u (runLine P C v line r).1.u := by
  unfold runLine
  split
  · exact Same.refl _
  · rename_i cmd args hp
    split
    · exact Same.refl _
    · exact (execRead_same v cmd args r).1
    · rename_i hf
      exact absurd hf (h _ _ hp)

private theorem looks_keys {v : Env} {line : Str} {r : Repl} (k : Keys) (h : Looks line) : keysAfter v line r k = k := by
  have hno : ∀ cmd args, parseLine line = some (cmd, args) → cmd ≠ b! "passwd" ∧ cmd ≠ b! "adduser" ∧ cmd ≠ b! "rekey" := by
    intro cmd args hp
    have := h _ _ hp
    refine ⟨?_, ?_, ?_⟩ <;> (intro hc; subst hc; exact this (by decide))
  cases k with
  | own pass =>
    have hpa : passAfter v line pass = pass := by
      unfold passAfter
      cases hp : parseLine line with
      | none => rfl
      | some x => obtain ⟨cmd, args⟩ := x; simp only [if_neg (hno _ _ hp).1]
    unfold keysAfter
    cases hp : parseLine line with
    | none => simp only [hpa]
    | some x =>
      obtain ⟨cmd, args⟩ := x
      cases args with
      | nil => simp only [hpa]
      | cons nm l => simp only [if_neg (hno _ _ hp).2.1, hpa]
  | shared t =>
    unfold keysAfter tableAfter
    cases hp : parseLine line with
    | none => rfl
    | some x =>
      obtain ⟨cmd, args⟩ := x
      simp only [if_neg (hno _ _ hp).1, if_neg (hno _ _ hp).2.1, if_neg (hno _ _ hp).2.2]

private theorem looks_session {P : Prims} {C : Codec} (turns : List Turn) (r : Repl) (k : Keys)
    (h : ∀ t ∈ turns, ∀ line, t.1 = some line → Looks line) :
    Same r.u (runRepl P C turns r).1.u ∧ lastKeys P C turns r k = k := by
  induction turns generalizing r with
  | nil => exact ⟨Same.refl _, rfl⟩
  | cons t rest ih =>
    obtain ⟨o, v⟩ := t
    cases o with
    | none => exact ⟨Same.refl _, rfl⟩
    | some line =>
      have hl := h _ (List.mem_cons_self ..) line rfl
      have hs : Same r.u (runLine P C v line r).1.u := looks_line hl
      unfold runRepl lastKeys
      rw [looks_keys k hl]
      revert hs
      generalize runLine P C v line r = q
      intro hs
      obtain ⟨r', x⟩ := q
      have ih' := ih r' (fun t ht => h t (List.mem_cons_of_mem _ ht))
      cases x with
      | ok b => cases b with
        | false => exact ⟨hs.trans ih'.1, ih'.2⟩
        | true => exact ⟨hs, rfl⟩
      | err e => exact ⟨hs, rfl⟩
      | panic => exact ⟨hs, rfl⟩

/-- C106: The program writes the file even if nothing was changed in it. So whoever only looks something up puts the file back to what
it was when they started, whatever others have saved since: the entries, and also the passwords. -/
theorem C106_looking_partial (P : Prims) (hP : Crypt.Spec.Lawful P) (y y' : Desk) (hl : FileLife P y.file y.keys y.store)
    (hq : Quiet y) (hm : Moves P y y') (i : Nat) (u : Session) (k : Keys) (s : DB) (hi : y'.running i = some (u, k, s))
    (turns : List Turn) (r : Repl) (ord : Order) (ord' : Results → Results) (iv : Str)
    (hlook : ∀ t ∈ turns, ∀ line, t.1 = some line → Looks line)
    (ht : Along P Json.Spec.codec (FileTurn P) turns { u := u }) (hr : runRepl P Json.Spec.codec turns { u := u } = (r, .ok ()))
    (hn : Counted s) (ho : ∀ m, (ord m).Perm m) (ho' : ∀ m, (ord' m).Perm m) (hiv : iv.length = 40) :
    ∃ f y'', saveBlob P Json.Spec.codec ord ord' iv r.u = .ok (some f) ∧ Move P y' y'' ∧ y''.file = f ∧ y''.keys = k ∧
      y''.store.log = s.log ∧
      ∀ inp, k.Opens inp → ∃ u', openFile P Json.Spec.codec none f inp = (.ok u', []) ∧ u'.store.log = s.log := by
  obtain ⟨h1, h2, h3, h4, -⟩ := (deskOk_moves hP hl hq hm).running _ _ _ _ hi
  obtain ⟨hs, hk⟩ := looks_session (P := P) (C := Json.Spec.codec) turns { u := u } k hlook
  rw [hr] at hs
  have hlog : r.u.store.log = s.log := hs.log.trans h2.log
  have hn' : Counted r.u.store := by unfold Counted at hn ⊢; rw [hlog]; exact hn
  obtain ⟨f, g1, g2⟩ := C74_session_partial P hP turns { u := u } r k iv ord ord' ho ho' hiv h1 h2.txPoint h3 h4 ht hr hn'
  refine ⟨f, _, g1, .ends i hi ht hr hn' ho ho' hiv g1, rfl, hk, hlog, fun inp hop => ?_⟩
  rw [hk] at g2
  obtain ⟨u', a, -, b, -⟩ := g2 inp hop
  exact ⟨u', a, b.log.trans hlog⟩

/-- at most one program runs, and it has the present file -/
private structure TurnOk (P : Prims) (y : Desk) : Prop where
  ok : DeskOk P y
  one : ∀ i j, y.running i ≠ none → y.running j ≠ none → i = j
  same : ∀ i u k s, y.running i = some (u, k, s) → s = y.store

private theorem turnOk {P : Prims} (hP : Crypt.Spec.Lawful P) {y y' : Desk} (h : TurnOk P y) (hm : Move P y y')
    (hs : (∃ i x, y'.running i = some x ∧ y.running i = none) → Quiet y) : TurnOk P y' ∧ y.store.log <+: y'.store.log := by
  have hd := deskOk_move hP h.ok hm
  cases hm with
  | @starts i inp inp' u hop hf =>
    have hone : ∀ j, j ≠ i → y.running j = none := by
      intro j hj
      cases hi : y.running i with
      | none => exact hs ⟨i, (u, y.keys, y.store), by simp [Txlogs.Spec.upd], hi⟩ j
      | some x =>
        cases hjj : y.running j with
        | none => rfl
        | some x' => exact absurd (h.one j i (by rw [hjj]; simp) (by rw [hi]; simp)) hj
    have hx : ∀ j, Txlogs.Spec.upd y.running i (some (u, y.keys, y.store)) j ≠ none → j = i := by
      intro j hj
      by_cases hji : j = i
      · exact hji
      · unfold Txlogs.Spec.upd at hj
        rw [if_neg hji] at hj
        exact absurd (hone j hji) hj
    refine ⟨⟨hd, fun a b ha hb => (hx a ha).trans (hx b hb).symm, fun j u' k s hj => ?_⟩, List.prefix_refl _⟩
    have := hx j (by intro hc; have := hj.symm.trans hc; cases this)
    subst this
    simp only [Txlogs.Spec.upd, if_true] at hj
    cases hj
    rfl
  | dies i =>
    have hx : ∀ j x, Txlogs.Spec.upd y.running i none j = some x → y.running j = some x := by
      intro j x hj
      unfold Txlogs.Spec.upd at hj
      split at hj
      · cases hj
      · exact hj
    refine ⟨⟨hd, fun a b ha hb => ?_, fun j u' k s hj => h.same _ _ _ _ (hx _ _ hj)⟩, List.prefix_refl _⟩
    obtain ⟨xa, ha⟩ := Option.ne_none_iff_exists'.1 ha
    obtain ⟨xb, hb⟩ := Option.ne_none_iff_exists'.1 hb
    exact h.one a b (by rw [hx _ _ ha]; simp) (by rw [hx _ _ hb]; simp)
  | @ends i u k s turns r ord ord' iv f hi hl hr hn ho ho' hiv hf =>
    have hx : ∀ j, Txlogs.Spec.upd y.running i none j = none := by
      intro j
      unfold Txlogs.Spec.upd
      split
      · rfl
      · rename_i hji
        cases hj : y.running j with
        | none => rfl
        | some x => exact absurd (h.one j i (by rw [hj]; simp) (by rw [hi]; simp)) hji
    refine ⟨⟨hd, fun a b ha _ => absurd (hx a) ha, fun j u' k s hj => ?_⟩, ?_⟩
    · exact absurd (hj.symm.trans (hx j)) (by simp)
    · obtain ⟨h1, h2, h3, h4, -⟩ := h.ok.running _ _ _ _ hi
      have := C76_session_partial P Json.Spec.codec turns { u := u } h2.txPoint h3
        (along_mono (fun _ _ _ h => h.turn.legal) turns _ hl) (by rw [hr]; simp)
      rw [hr] at this
      rw [← h.same _ _ _ _ hi, ← h2.log]
      exact this

private theorem turnOk_all {P : Prims} (hP : Crypt.Spec.Lawful P) {y y' : Desk} (hl : FileLife P y.file y.keys y.store)
    (hq : Quiet y) (hm : InTurn P y y') : TurnOk P y' ∧ y.store.log <+: y'.store.log := by
  induction hm with
  | stop =>
    exact ⟨⟨⟨hl, fun i u k s h => by rw [hq i] at h; cases h⟩, fun i j h => absurd (hq i) h,
      fun i u k s h => by rw [hq i] at h; cases h⟩, List.prefix_refl _⟩
  | next _ h hs ih =>
    obtain ⟨a, b⟩ := turnOk hP ih.1 h hs
    exact ⟨a, ih.2.trans b⟩

/-- C106: If a program is started only while no other runs, nothing that was saved is ever lost. -/
theorem C106_kept_partial (P : Prims) (hP : Crypt.Spec.Lawful P) (y y' : Desk) (hl : FileLife P y.file y.keys y.store)
    (hq : Quiet y) (hm : InTurn P y y') : y.store.log <+: y'.store.log := (turnOk_all hP hl hq hm).2

/-- C106: and this holds between any two moments -/
theorem C106_kept_between_partial (P : Prims) (hP : Crypt.Spec.Lawful P) (y y' y'' : Desk)
    (hl : FileLife P y.file y.keys y.store) (hq : Quiet y) (hm : InTurn P y y') (hm' : InTurn P y' y'') :
    y'.store.log <+: y''.store.log := by
  have h0 := (turnOk_all hP hl hq hm).1
  have key : TurnOk P y'' ∧ y'.store.log <+: y''.store.log := by
    clear hm hq hl
    induction hm' with
    | stop => exact ⟨h0, List.prefix_refl _⟩
    | next _ h hs ih =>
      obtain ⟨a, b⟩ := turnOk hP ih.1 h hs
      exact ⟨a, ih.2.trans b⟩
  exact key.2

attribute [local irreducible] Demo.fileOf Demo.rU Demo.uU Demo.rV Demo.kU

namespace DeskDemo
open Demo

/-- the file of `fileLife1`: one user "a", nothing else -/
def y0 : Desk := ⟨fileOf rU, kU, rU.u.store, fun _ => none⟩
/-- two programs are started -/
def y1 : Desk := { y0 with running := Txlogs.Spec.upd y0.running 0 (some (uU, kU, rU.u.store)) }
def y2 : Desk := { y1 with running := Txlogs.Spec.upd y1.running 1 (some (uU, kU, rU.u.store)) }
/-- the first adds an entry and ends -/
noncomputable def y3 : Desk :=
  ⟨fileOf rV, lastKeys toy Json.Spec.codec [(some (b! "add x"), vN)] { u := uU } kU, rV.u.store, Txlogs.Spec.upd y2.running 0 none⟩

theorem to2 : Moves toy y0 y2 := .next (.next .stop (.starts (y := y0) 0 opensU openU)) (.starts (y := y1) 1 opensU openU)
theorem to3 : Moves toy y0 y3 := .next to2 (.ends (y := y2) 0 rfl ⟨turnV, trivial⟩ runV countV perm_id perm_id' iv40 saveV)
theorem ends3 : InTurn toy y1 ⟨fileOf rV, lastKeys toy Json.Spec.codec [(some (b! "add x"), vN)] { u := uU } kU, rV.u.store,
    Txlogs.Spec.upd y1.running 0 none⟩ :=
  .next .stop (.ends (y := y1) 0 rfl ⟨turnV, trivial⟩ runV countV perm_id perm_id' iv40 saveV) (by
    rintro ⟨i, x, h, -⟩
    simp only [Txlogs.Spec.upd, y1, y0] at h
    split at h <;> cases h)
theorem look3 : ∃ f y'', saveBlob toy Json.Spec.codec id id (List.replicate 40 4) uU = .ok (some f) ∧ Move toy y3 y'' ∧ y''.file = f ∧
    y''.keys = kU ∧ y''.store.log = rU.u.store.log ∧
    ∀ inp, kU.Opens inp → ∃ u', openFile toy Json.Spec.codec none f inp = (.ok u', []) ∧ u'.store.log = rU.u.store.log :=
  C106_looking_partial toy toy_lawful y0 y3 fileLife1 (fun _ => rfl) to3 1 uU kU rU.u.store rfl [] { u := uU } id id
    (List.replicate 40 4) (fun _ h => by cases h) trivial rfl (by unfold Counted; decide +kernel) perm_id perm_id' iv40
theorem longer : ¬ rV.u.store.log <+: rU.u.store.log := by
  intro h
  exact absurd h.length_le (by decide +kernel)

end DeskDemo

/-- C106: Without that condition it is false. Two programs are started; in one an entry is added, and it ends and the entry is in the
file; in the other nothing is typed, and it ends; the entry is gone. -/
theorem C106_kept_false : ¬ ∀ (P : Prims), Crypt.Spec.Lawful P → ∀ y y' y'' : Desk, FileLife P y.file y.keys y.store → Quiet y →
    Moves P y y' → Moves P y' y'' → y'.store.log <+: y''.store.log := by
  intro h
  obtain ⟨f, y, -, hm, -, -, hs, -⟩ := DeskDemo.look3
  have := h toy toy_lawful DeskDemo.y0 DeskDemo.y3 y Demo.fileLife1 (fun _ => rfl) DeskDemo.to3 (.next .stop hm)
  rw [hs] at this
  exact DeskDemo.longer this

/-- not vacuous: after the first program has ended the file opens and holds the entry -/
example : ∃ u, openFile toy Json.Spec.codec none (Demo.fileOf Demo.rV) [some (b! "a"), some (b! "A")] = (.ok u, []) ∧
    u.store.log = Demo.rV.u.store.log := by
  obtain ⟨u, a, b⟩ := C106_opens_partial toy toy_lawful _ _ Demo.fileLife1 (fun _ => rfl) DeskDemo.to3 [some (b! "a"), some (b! "A")]
    (by show (lastKeys _ _ _ _ _).Opens _; rw [Demo.keysV]; exact Demo.opensU)
  exact ⟨u, a, b.log⟩

/-- not vacuous: the second program has something to overwrite -/
example : ∃ tx ∈ DeskDemo.y3.store.log, tx ∉ Demo.rU.u.store.log := by
  refine Classical.byContradiction fun h => ?_
  have h2 : DeskDemo.y3.store.log.all (fun tx => decide (tx ∈ Demo.rU.u.store.log)) = true :=
    List.all_eq_true.2 fun tx ht => decide_eq_true (Classical.byContradiction fun hn => h ⟨tx, ht, hn⟩)
  revert h2
  decide +kernel

/-- not vacuous: the first program started and ended alone -/
example : InTurn toy DeskDemo.y0 DeskDemo.y1 ∧ DeskDemo.y1.store.log.length < Demo.rV.u.store.log.length :=
  ⟨.next .stop (.starts (y := DeskDemo.y0) 0 Demo.opensU Demo.openU) (fun _ _ => rfl), by decide +kernel⟩
example : DeskDemo.y1.store.log <+: Demo.rV.u.store.log :=
  C106_kept_between_partial toy toy_lawful DeskDemo.y0 _ _ Demo.fileLife1 (fun _ => rfl)
    (.next .stop (.starts (y := DeskDemo.y0) 0 Demo.opensU Demo.openU) (fun _ _ => rfl)) DeskDemo.ends3

namespace DeskDemo
open Demo

attribute [local irreducible] Demo.rN Demo.uM Demo.rM

theorem noUserLine {P : Prims} {v : Env} {line : Str} {r : Repl} {x : Str × List Str} (hp : parseLine line = some x)
    (hx : x.1 ≠ b! "adduser") (ht : CleanTurn v line r) (hd : DrawOk v.d) (hm : r.u.creds.master = []) : FileTurn P v line r where
  turn := ht
  draw := hd
  first := by
    intro _ nm l h
    rw [hp] at h
    cases h
    exact absurd rfl hx
  later := fun h => absurd hm h

theorem ownLife : FileLife toy (fileOf rN) (.own (b! "A")) rN.u.store := by
  have h := FileLife.new (P := toy) (turns := [(some (b! "add x"), vN)]) (u := uN) (inp := []) (pass := b! "A") (r := rN)
    (f := fileOf rN) (iv := List.replicate 40 4) (by decide)
    (show createFile toy none (List.replicate 32 1) _ = _ from by decide +kernel)
    ⟨noUserLine (x := (b! "add", [b! "x"])) (by decide +kernel) (by decide) addN.turn ⟨by decide, by decide, by decide, by decide⟩ rfl,
      trivial⟩
    (by unfold rN after; exact run_eq (by decide +kernel))
    (by unfold Counted; decide +kernel) perm_id perm_id' iv40 (ord := id) (ord' := id) (by decide +kernel)
  have hp : parseLine (b! "add x") = some (b! "add", [b! "x"]) := by decide +kernel
  have hk : lastKeys toy Json.Spec.codec [(some (b! "add x"), vN)] { u := uN } (.own (b! "A")) = .own (b! "A") := by
    have ht : keysAfter vN (b! "add x") { u := uN } (.own (b! "A")) = .own (b! "A") := by
      unfold keysAfter passAfter
      rw [hp]
      rfl
    unfold lastKeys lastKeys
    rw [ht]
    split <;> rfl
  rw [hk] at h
  exact h

def p0 : Desk := ⟨fileOf rN, .own (b! "A"), rN.u.store, fun _ => none⟩
def p1 : Desk := { p0 with running := Txlogs.Spec.upd p0.running 0 (some (uM, .own (b! "A"), rN.u.store)) }
def p2 : Desk := { p1 with running := Txlogs.Spec.upd p1.running 1 (some (uM, .own (b! "A"), rN.u.store)) }
theorem toP2 : Moves toy p0 p2 := .next (.next .stop (.starts (y := p0) 0 rfl openM)) (.starts (y := p1) 1 rfl openM)

theorem changed : ∃ y, Move toy p2 y ∧ y.keys = .own (b! "B") ∧ y.running 1 = some (uM, .own (b! "A"), rN.u.store) := by
  obtain ⟨u, k1, k2, k3, k4, k5⟩ := C74_file_partial toy toy_lawful _ _ _ ownLife _ (show Keys.Opens _ [some (b! "A")] from rfl)
  have hu : uM = u := Res.ok.inj (Prod.mk.inj (openM.symm.trans k1)).1
  rw [← hu] at k2 k3 k4 k5
  have hT : FileTurn toy vP (b! "passwd") { u := uM } :=
    noUserLine (x := (b! "passwd", [])) (by decide +kernel) (by decide)
      ⟨⟨valid_ascii _ (by decide), ⟨perm_id, perm_id', by decide, fresh_concrete k4.good (by decide +kernel)⟩,
        parse_ne (x := (b! "passwd", [])) (by decide +kernel) (by decide)⟩,
        cleanEnv_mk (by decide) (by decide) (fun _ => rfl) (fun _ _ => rfl) rfl rfl rfl rfl rfl⟩
      ⟨by decide, by decide, by decide, by decide⟩ (by decide +kernel)
  have hc : Counted rM.u.store := by unfold Counted; decide +kernel
  obtain ⟨f, g1, -⟩ := C74_session_partial toy toy_lawful [(some (b! "passwd"), vP)] { u := uM } rM _ (List.replicate 40 4) id id
    perm_id perm_id' iv40 k2 k3.txPoint k4 k5 ⟨hT, trivial⟩ runM hc
  have hA : Along toy Json.Spec.codec (FileTurn toy) [(some (b! "passwd"), vP)] { u := uM } := ⟨hT, trivial⟩
  refine ⟨_, .ends (y := p2) 0 rfl hA runM hc perm_id perm_id' iv40 g1, ?_, rfl⟩
  have hp : parseLine (b! "passwd") = some (b! "passwd", []) := by decide +kernel
  have hg : getPassword vP.d.ent vP.d.inp = .ok (b! "B") := by decide +kernel
  have ht : keysAfter vP (b! "passwd") { u := uM } (.own (b! "A")) = .own (b! "B") := by
    unfold keysAfter passAfter
    rw [hp]
    show Keys.own (match getPassword vP.d.ent vP.d.inp with | .ok p => if p = [] then b! "A" else p | _ => b! "A") = _
    rw [hg]
    rfl
  show lastKeys toy Json.Spec.codec [(some (b! "passwd"), vP)] { u := uM } (.own (b! "A")) = _
  unfold lastKeys lastKeys
  rw [ht]
  split <;> rfl

end DeskDemo

/-- C106: A password that was changed can come back. Two programs are started with the password "A"; in one it is changed to "B", and it
ends and the file opens with "B"; in the other nothing is typed, and it ends; the file opens with "A" and holds what it held. -/
theorem C106_password_false : ¬ ∀ (P : Prims), Crypt.Spec.Lawful P → ∀ (y y' : Desk) (i : Nat) (u u' : Session) (k : Keys) (s : DB)
    (iv f p q : Str), FileLife P y.file y.keys y.store → Quiet y → Moves P y y' → y'.keys = .own p → y'.running i = some (u, k, s) →
    iv.length = 40 → saveBlob P Json.Spec.codec id id iv u = .ok (some f) →
    openFile P Json.Spec.codec none f [some q] = (.ok u', []) → q = p := by
  intro h
  obtain ⟨y, hm, hk, hr⟩ := DeskDemo.changed
  have hmm : Moves toy DeskDemo.p0 y := .next DeskDemo.toP2 hm
  obtain ⟨f, y', hsv, hm', -, hk', hs, ho⟩ := C106_looking_partial toy toy_lawful DeskDemo.p0 y DeskDemo.ownLife (fun _ => rfl) hmm 1
    Demo.uM _ Demo.rN.u.store hr [] { u := Demo.uM } id id (List.replicate 40 4) (fun _ h => by cases h) trivial rfl
    (by unfold Counted; decide +kernel) Demo.perm_id Demo.perm_id' Demo.iv40
  obtain ⟨u', hu', -⟩ := ho [some (b! "A")] rfl
  exact absurd (h toy toy_lawful _ _ 1 _ u' _ _ _ f (b! "B") (b! "A") DeskDemo.ownLife (fun _ => rfl) hmm hk hr Demo.iv40 hsv hu')
    (by decide)

/-- C106: If two programs save at the same time, the file is one of the two files, or one of them with the end of the other behind it. -/
theorem C106_mixed (a b old : Str) (ops : List FileOp) (h : ops ∈ mixes [.cut, .put a] [.cut, .put b]) :
    fileOps ops old ∈ [a, b, overlay a b, overlay b a] := by
  have hm : mixes [.cut, .put a] [.cut, .put b] = [[.cut, .put a, .cut, .put b], [.cut, .cut, .put a, .put b],
      [.cut, .cut, .put b, .put a], [.cut, .cut, .put a, .put b], [.cut, .cut, .put b, .put a], [.cut, .put b, .cut, .put a]] := by
    simp [mixes]
  rw [hm] at h
  simp only [List.mem_cons, List.not_mem_nil, or_false] at h ⊢
  rcases h with h | h | h | h | h | h <;> subst h <;> simp [fileOps, overlay]

/-- C106: If the two files are of the same size it is one of the two. -/
theorem C106_mixed_partial (a b old : Str) (ops : List FileOp) (h : ops ∈ mixes [.cut, .put a] [.cut, .put b])
    (hs : a.length = b.length) : fileOps ops old = a ∨ fileOps ops old = b := by
  have h1 : overlay a b = a := by simp [overlay, hs]
  have h2 : overlay b a = b := by simp [overlay, hs]
  have := C106_mixed a b old ops h
  rw [h1, h2] at this
  simp only [List.mem_cons, List.not_mem_nil, or_false] at this
  rcases this with h | h | h | h <;> simp [h]

/-- C106: Otherwise the file may be lost: two files of one life, written at the same time, and neither user nor password opens what
comes out. -/
theorem C106_mixed_false : ¬ ∀ (P : Prims), Crypt.Spec.Lawful P → ∀ (a b old : Str) (k : Keys) (s s' : DB) (ops : List FileOp)
    (inp : Input), FileLife P a k s → FileLife P b k s' → ops ∈ mixes [.cut, .put a] [.cut, .put b] → k.Opens inp →
    ∃ u, openFile P Json.Spec.codec none (fileOps ops old) inp = (.ok u, []) := by
  intro h
  obtain ⟨u, hu⟩ := h toy toy_lawful (Demo.fileOf Demo.rV) (Demo.fileOf Demo.rU) [] _ _ _
    [.cut, .cut, .put (Demo.fileOf Demo.rV), .put (Demo.fileOf Demo.rU)] _ Demo.fileLife2 Demo.fileLife1 (by simp [mixes]) Demo.opensU
  have hf : fileOps [.cut, .cut, .put (Demo.fileOf Demo.rV), .put (Demo.fileOf Demo.rU)] [] =
      overlay (Demo.fileOf Demo.rU) (Demo.fileOf Demo.rV) := by simp [fileOps, overlay]
  rw [hf] at hu
  have hx : (match (openFile toy Json.Spec.codec none (overlay (Demo.fileOf Demo.rU) (Demo.fileOf Demo.rV))
      [some (b! "a"), some (b! "A")]).1 with | .ok _ => true | _ => false) = false := by decide +kernel
  rw [hu] at hx
  cases hx

end Verif.App
