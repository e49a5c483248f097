import Verif.App.RaceProps
import Verif.App.FleetDemo
/-!
# C107: the hypotheses can be met, and what is false

The primitives are `Crypt.Spec.toy`.
-/
set_option linter.unusedSimpArgs false
namespace Verif.App
open Verif Verif.Txlogs Verif.Blob Verif.Crypt Verif.App.Spec
open Verif.Crypt.Spec (toy toy_lawful)
open Verif.Txlogs.Spec (TouchedAfterDelete LooksSame)

namespace RaceDemo
open FleetDemo (base opsN opsU opsE upd logs C start on file v vt turnsN turnsU after upd_log turn Gives faithful saved copies F0 legalN legalU single)

attribute [local irreducible] FleetDemo.file

def turnsE : List Turn := [(some (b! "set bank email z"), vt 150 [])]

theorem legalE : Along toy C HistoryTurn turnsE { u := start } :=
  ⟨turn (cmd := b! "set") (args := [b! "bank", b! "email", b! "z"]) (by decide) (by decide +kernel) (by decide) (by decide), trivial⟩

/-- machines 0, 1 and 2 have something, the others what they started with -/
def st (a b c : Session) (f : Str) (p : List Str) : Race where
  fleet := { machine := fun j => if j = 0 then a else if j = 1 then b else if j = 2 then c else start, share := f }
  past := p

theorem st_log (a b c : Session) (f : Str) (p : List Str) (j : Nat) :
    (st a b c f p).fleet.log j = a.store.log ∨ (st a b c f p).fleet.log j = b.store.log ∨
      (st a b c f p).fleet.log j = c.store.log ∨ (st a b c f p).fleet.log j = base := by
  unfold Fleet.log st
  simp only
  split
  · exact .inl rfl
  · split
    · exact .inr (.inl rfl)
    · split
      · exact .inr (.inr (.inl rfl))
      · exact .inr (.inr (.inr (updateSnapshot_log _)))

def X0 : Race := st start start start (file base) [file base]

theorem X0_eq : X0 = ⟨F0, [F0.share]⟩ := by
  have : X0.fleet = F0 := by
    simp only [X0, st, F0, FleetDemo.st, Fleet.mk.injEq, and_true]
    funext j
    split <;> (try rfl)
    split <;> (try rfl)
    split <;> rfl
  have e : X0 = ⟨X0.fleet, [file base]⟩ := rfl
  rw [e, this]
  rfl

theorem work {a b c : Session} {f : Str} {p : List Str} {i : Nat} {turns : List Turn} (hm : (st a b c f p).fleet.machine i = start)
    (hl : Along toy C HistoryTurn turns { u := start })
    (h1 : (runRepl toy C turns { u := start }).2 = .ok ()) (h2 : (after turns).creds = start.creds)
    (h3 : NamesApart (after turns).store.log)
    (h4 : ∀ t ∈ (after turns).store.log, t ∈ base ∨
      ∀ x ∈ a.store.log ++ b.store.log ++ c.store.log ++ base, Foreign t x) : WorkOk toy C (st a b c f p).fleet i turns := by
  refine ⟨by rw [hm]; exact hl, by rw [hm]; exact h1, by rw [hm]; exact h2, by rw [hm]; exact h3, ?_⟩
  rw [hm]
  intro t ht
  have hb : (st a b c f p).fleet.log i = base := by unfold Fleet.log; rw [hm]; exact upd_log _
  rw [hb]
  refine (h4 t ht).imp id fun h j x hx => h x ?_
  simp only [List.mem_append]
  rcases st_log a b c f p j with k | k | k | k <;> rw [k] at hx <;> simp [hx]

theorem work0 (b c : Session) (f : Str) (p : List Str) (turns : List Turn) :
    (st start b c f p).step toy C (.work 0 turns) = st (after turns) b c f p := by
  simp only [Race.step, Fleet.step, Fleet.set, st, after, Race.mk.injEq, Fleet.mk.injEq, and_true]
  funext j
  by_cases h : j = 0 <;> simp [h]

theorem work1 (a c : Session) (f : Str) (p : List Str) (turns : List Turn) :
    (st a start c f p).step toy C (.work 1 turns) = st a (after turns) c f p := by
  simp only [Race.step, Fleet.step, Fleet.set, st, after, Race.mk.injEq, Fleet.mk.injEq, and_true]
  funext j
  by_cases h : j = 1 <;> simp [h]

theorem work2 (a b : Session) (f : Str) (p : List Str) (turns : List Turn) :
    (st a b start f p).step toy C (.work 2 turns) = st a b (after turns) f p := by
  simp only [Race.step, Fleet.step, Fleet.set, st, after, Race.mk.injEq, Fleet.mk.injEq, and_true]
  funext j
  by_cases h : j = 2 <;> simp [h]

/-- a machine with `u` that reads `f` gets the log `l` and writes `file l` -/
structure Sends (u : Session) (f : Str) (l : List Tx) : Prop where
  syncs : collectSyncs (shareWorld f) v.ord u.store.updateSnapshot.1 = [[97]]
  session : (sync toy C (shareWorld f) v [] true u []).session = on l
  pushed : (sync toy C (shareWorld f) v [] true u []).pushed ≠ []
  sent : (sync toy C (shareWorld f) v [] true u []).sent = file l

theorem env {X : Race} {i : Nat} {u : Session} {f : Str} {l : List Tx} (hm : X.fleet.machine i = u)
    (h1 : collectSyncs (shareWorld f) v.ord u.store.updateSnapshot.1 = [[97]])
    (h2 : (sync toy C (shareWorld f) v [] true u []).session = on l) (hl : l ∈ logs) (hf : f ∈ X.past) :
    RaceEventOk toy C X (.sync i f v []) :=
  ⟨hf, by decide, Demo.perm_id', ⟨[97], by decide, by show collectSyncs _ _ (X.fleet.machine i).store.updateSnapshot.1 = _; rw [hm]; exact h1⟩,
    by show Faithful C (sync toy C (shareWorld f) v [] true (X.fleet.machine i) []).session.store; rw [hm, h2]; exact faithful hl⟩

theorem Sends.ok {X : Race} {i : Nat} {u : Session} {f : Str} {l : List Tx} (h : Sends u f l) (hm : X.fleet.machine i = u)
    (hl : l ∈ logs) (hf : f ∈ X.past) : RaceEventOk toy C X (.sync i f v []) := env hm h.syncs h.session hl hf

/-- a machine with the log `l` that reads `f` does nothing -/
structure Skips (f : Str) (l : List Tx) : Prop where
  syncs : collectSyncs (shareWorld f) v.ord (on l).store.updateSnapshot.1 = [[97]]
  session : (sync toy C (shareWorld f) v [] true (on l) []).session = on l
  pushed : (sync toy C (shareWorld f) v [] true (on l) []).pushed = []

theorem Skips.ok {X : Race} {i : Nat} {f : Str} {l : List Tx} (h : Skips f l) (hm : X.fleet.machine i = on l)
    (hl : l ∈ logs) (hf : f ∈ X.past) : RaceEventOk toy C X (.sync i f v []) := env hm h.syncs h.session hl hf

theorem skip0 {b c : Session} {f g : Str} {p : List Str} {l : List Tx} (h : Skips g l) :
    (st (on l) b c f p).step toy C (.sync 0 g v []) = st (on l) b c f (f :: p) := by
  have e : (st (on l) b c f p).step toy C (.sync 0 g v []) =
      let x := sync toy C (shareWorld g) v [] true (on l) []
      let share := if x.pushed = [] then f else x.sent
      ⟨{ (st (on l) b c f p).fleet.set 0 x.session with share := share }, share :: p⟩ := rfl
  rw [e]
  simp only [h.session, if_pos h.pushed, Fleet.set, st, Race.mk.injEq, Fleet.mk.injEq, and_true]
  funext j
  by_cases k : j = 0 <;> simp [k]

theorem skip1 {a c : Session} {f g : Str} {p : List Str} {l : List Tx} (h : Skips g l) :
    (st a (on l) c f p).step toy C (.sync 1 g v []) = st a (on l) c f (f :: p) := by
  have e : (st a (on l) c f p).step toy C (.sync 1 g v []) =
      let x := sync toy C (shareWorld g) v [] true (on l) []
      let share := if x.pushed = [] then f else x.sent
      ⟨{ (st a (on l) c f p).fleet.set 1 x.session with share := share }, share :: p⟩ := rfl
  rw [e]
  simp only [h.session, if_pos h.pushed, Fleet.set, st, Race.mk.injEq, Fleet.mk.injEq, and_true]
  funext j
  by_cases k : j = 1 <;> simp [k]

theorem sync0 {a b c : Session} {f g : Str} {p : List Str} {l : List Tx} (h : Sends a g l) :
    (st a b c f p).step toy C (.sync 0 g v []) = st (on l) b c (file l) (file l :: p) := by
  have e : (st a b c f p).step toy C (.sync 0 g v []) =
      let x := sync toy C (shareWorld g) v [] true a []
      let share := if x.pushed = [] then f else x.sent
      ⟨{ (st a b c f p).fleet.set 0 x.session with share := share }, share :: p⟩ := rfl
  rw [e]
  simp only [h.session, h.sent, if_neg h.pushed, Fleet.set, st, Race.mk.injEq, Fleet.mk.injEq, and_true]
  funext j
  by_cases k : j = 0 <;> simp [k]

theorem sync1 {a b c : Session} {f g : Str} {p : List Str} {l : List Tx} (h : Sends b g l) :
    (st a b c f p).step toy C (.sync 1 g v []) = st a (on l) c (file l) (file l :: p) := by
  have e : (st a b c f p).step toy C (.sync 1 g v []) =
      let x := sync toy C (shareWorld g) v [] true b []
      let share := if x.pushed = [] then f else x.sent
      ⟨{ (st a b c f p).fleet.set 1 x.session with share := share }, share :: p⟩ := rfl
  rw [e]
  simp only [h.session, h.sent, if_neg h.pushed, Fleet.set, st, Race.mk.injEq, Fleet.mk.injEq, and_true]
  funext j
  by_cases k : j = 1 <;> simp [k]

theorem sync2 {a b c : Session} {f g : Str} {p : List Str} {l : List Tx} (h : Sends c g l) :
    (st a b c f p).step toy C (.sync 2 g v []) = st a b (on l) (file l) (file l :: p) := by
  have e : (st a b c f p).step toy C (.sync 2 g v []) =
      let x := sync toy C (shareWorld g) v [] true c []
      let share := if x.pushed = [] then f else x.sent
      ⟨{ (st a b c f p).fleet.set 2 x.session with share := share }, share :: p⟩ := rfl
  rw [e]
  simp only [h.session, h.sent, if_neg h.pushed, Fleet.set, st, Race.mk.injEq, Fleet.mk.injEq, and_true]
  funext j
  by_cases k : j = 2 <;> simp [k]

/-! ## A push is overwritten, and comes back -/

theorem sends1 : Sends (after turnsN) (file base) (base ++ opsN) :=
  ⟨by decide +kernel, by decide +kernel, by decide +kernel, by decide +kernel⟩
theorem sends2 : Sends (after turnsU) (file base) (base ++ opsU) :=
  ⟨by decide +kernel, by decide +kernel, by decide +kernel, by decide +kernel⟩
theorem sends3 : Sends (on (base ++ opsN)) (file (base ++ opsU)) (base ++ opsN ++ opsU) :=
  ⟨by decide +kernel, by decide +kernel, by decide +kernel, by decide +kernel⟩
theorem sends4 : Sends (on (base ++ opsU)) (file (base ++ opsN ++ opsU)) (base ++ opsN ++ opsU) :=
  ⟨by decide +kernel, by decide +kernel, by decide +kernel, by decide +kernel⟩

def es : List RaceEvent := [.work 0 turnsN, .work 1 turnsU, .sync 0 (file base) v [], .sync 1 (file base) v []]
def s1 : List RaceEvent := [.sync 0 (file (base ++ opsU)) v [], .sync 1 (file (base ++ opsN ++ opsU)) v []]

theorem run_es : X0.run toy C es = st (on (base ++ opsN)) (on (base ++ opsU)) start (file (base ++ opsU))
    [file (base ++ opsU), file (base ++ opsN), file base] := by
  simp only [es, X0, Race.run, work0, work1, sync0 sends1, sync1 sends2]

theorem ok_es : RaceOk toy C es X0 := by
  simp only [es, X0, RaceOk, work0, work1, sync0 sends1, and_true]
  exact ⟨work rfl legalN (by decide +kernel) (by decide +kernel) (by decide +kernel) (by decide +kernel),
    work rfl legalU (by decide +kernel) (by decide +kernel) (by decide +kernel) (by decide +kernel),
    sends1.ok rfl (by simp [logs]) (List.mem_singleton.2 rfl), sends2.ok rfl (by simp [logs]) (.tail _ (.head _))⟩

theorem run_s1 : (X0.run toy C es).run toy C s1 = st (on (base ++ opsN ++ opsU)) (on (base ++ opsN ++ opsU)) start
    (file (base ++ opsN ++ opsU)) [file (base ++ opsN ++ opsU), file (base ++ opsN ++ opsU), file (base ++ opsU), file (base ++ opsN), file base] := by
  rw [run_es]
  simp only [s1, Race.run, sync0 sends3, sync1 sends4]

theorem reads {f : Str} {l : List Tx} {X : Race} {i : Nat} (hs : readShare toy C start.creds f = some l)
    (hc : (X.fleet.machine i).creds = start.creds) (h : ∀ t ∈ X.fleet.log i ++ l, t.kind ≠ .del)
    (hn : l.length ≠ (X.fleet.log i).length ∨ l.getLast?.map Tx.time ≠ (X.fleet.log i).getLast?.map Tx.time ∨ l = X.fleet.log i) :
    (¬ ∃ d x, Spec.Conflict toy C (X.seen f) i d x) ∧
      ∀ R, readShare toy C (X.fleet.machine i).creds f = some R → LooksSame R (X.fleet.log i) → R = X.fleet.log i := by
  refine ⟨?_, ?_⟩
  · rintro ⟨d, x, R, h1, h2⟩
    have hc' : ((X.seen f).machine i).creds = start.creds := hc
    have hs' : readShare toy C start.creds (X.seen f).share = some l := hs
    rw [hc', hs'] at h1
    cases h1
    obtain ⟨a, -, b, -⟩ := h2
    exact h d (List.mem_append.2 a) b
  · intro R hR hl
    rw [hc, hs] at hR
    cases hR
    rcases hn with k | k | k
    · exact absurd hl.1 k
    · exact absurd hl.2.2 k
    · exact k

theorem skips : Skips (file (base ++ opsN ++ opsU)) (base ++ opsN ++ opsU) := ⟨by decide +kernel, by decide +kernel, by decide +kernel⟩

def s2 : List RaceEvent := [.sync 0 (file (base ++ opsN ++ opsU)) v [], .sync 1 (file (base ++ opsN ++ opsU)) v []]

theorem readU : readShare toy C start.creds (file (base ++ opsU)) = some (base ++ opsU) := saved _ (by simp [logs]) (by decide +kernel)
theorem readNU : readShare toy C start.creds (file (base ++ opsN ++ opsU)) = some (base ++ opsN ++ opsU) :=
  saved _ (by simp [logs]) (by decide +kernel)

theorem log0 (a b c : Session) (f : Str) (p : List Str) : (st a b c f p).fleet.log 0 = a.store.log := rfl
theorem log1 (a b c : Session) (f : Str) (p : List Str) : (st a b c f p).fleet.log 1 = b.store.log := rfl
theorem log2 (a b c : Session) (f : Str) (p : List Str) : (st a b c f p).fleet.log 2 = c.store.log := rfl

-- C107: machine 1 overwrites what machine 0 has pushed, and after two rounds both have everything
example : Copies toy C start.creds F0 base ∧ RaceOk toy C (es ++ (s1 ++ s2)) X0 ∧ OneByOne toy C (s1 ++ s2) (X0.run toy C es) ∧
    Clear toy C (s1 ++ s2) (X0.run toy C es) ∧ (∀ i ∈ racers s2, i ∈ racers s1) ∧ racers s2 = [0, 1] ∧
    readShare toy C start.creds (X0.run toy C es).fleet.share = some (base ++ opsU) ∧
    ∀ i ∈ racers s2, (X0.run toy C (es ++ (s1 ++ s2))).fleet.log i = base ++ opsN ++ opsU := by
  have hr : ∀ (a b : List RaceEvent) (X : Race), RaceOk toy C a X → RaceOk toy C b (X.run toy C a) → RaceOk toy C (a ++ b) X := by
    intro a b
    induction a with
    | nil => intro X _ h; exact h
    | cons e a ih => intro X h1 h2; exact ⟨h1.1, ih _ h1.2 h2⟩
  refine ⟨copies, hr _ _ _ ok_es ?_, ?_, ?_, by simp [s1, s2, racers], rfl, ?_, ?_⟩
  · rw [run_es]
    simp only [s1, s2, List.cons_append, List.nil_append, RaceOk, sync0 sends3, sync1 sends4, skip0 skips, and_true]
    exact ⟨sends3.ok rfl (by simp [logs]) (.head _), sends4.ok rfl (by simp [logs]) (.head _), skips.ok rfl (by simp [logs]) (.head _),
      skips.ok rfl (by simp [logs]) (.head _)⟩
  · rw [run_es]
    simp only [s1, s2, List.cons_append, List.nil_append, OneByOne, sync0 sends3, sync1 sends4, skip0 skips, and_true]
    exact ⟨rfl, rfl, rfl, rfl⟩
  · rw [run_es]
    simp only [s1, s2, List.cons_append, List.nil_append, Clear, sync0 sends3, sync1 sends4, skip0 skips, and_true]
    obtain ⟨a1, a2⟩ := reads (X := st (on (base ++ opsN)) (on (base ++ opsU)) start (file (base ++ opsU))
      [file (base ++ opsU), file (base ++ opsN), file base]) (i := 0) readU rfl (by rw [log0]; decide +kernel) (by rw [log0]; decide +kernel)
    refine ⟨a1, a2, ?_⟩
    have h4 : ∀ p, _ := fun p => reads (X := st (on (base ++ opsN ++ opsU)) (on (base ++ opsU)) start (file (base ++ opsN ++ opsU)) p) (i := 1) readNU rfl
      (by rw [log1]; decide +kernel) (by rw [log1]; decide +kernel)
    have h5 : ∀ p, _ := fun p => reads (X := st (on (base ++ opsN ++ opsU)) (on (base ++ opsN ++ opsU)) start (file (base ++ opsN ++ opsU)) p) (i := 0) readNU rfl
      (by rw [log0]; decide +kernel) (by rw [log0]; decide +kernel)
    have h6 : ∀ p, _ := fun p => reads (X := st (on (base ++ opsN ++ opsU)) (on (base ++ opsN ++ opsU)) start (file (base ++ opsN ++ opsU)) p) (i := 1) readNU rfl
      (by rw [log1]; decide +kernel) (by rw [log1]; decide +kernel)
    exact ⟨(h4 _).1, (h4 _).2, (h5 _).1, (h5 _).2, (h6 _).1, (h6 _).2⟩
  · rw [run_es]; exact readU
  · intro i hi
    have e : X0.run toy C (es ++ (s1 ++ s2)) = (X0.run toy C es).run toy C (s1 ++ s2) := race_append ..
    have e' : (X0.run toy C es).run toy C (s1 ++ s2) = ((X0.run toy C es).run toy C s1).run toy C s2 := race_append ..
    rw [e, e', run_s1]
    simp only [s2, Race.run, skip0 skips, skip1 skips]
    simp only [s2, racers, List.mem_cons, List.not_mem_nil, or_false] at hi
    rcases hi with rfl | rfl <;> exact upd_log _

/-! ## Two machines stay apart -/

theorem sends5 : Sends (after turnsN) (file (base ++ opsU)) (base ++ opsN ++ opsU) :=
  ⟨by decide +kernel, by decide +kernel, by decide +kernel, by decide +kernel⟩
theorem sends6 : Sends (after turnsE) (file (base ++ opsU)) (base ++ opsE ++ opsU) :=
  ⟨by decide +kernel, by decide +kernel, by decide +kernel, by decide +kernel⟩

/-- machines 0 and 2 read the same file, and machine 2 writes last -/
def esA : List RaceEvent := [.work 1 turnsU, .sync 1 (file base) v [], .work 0 turnsN, .work 2 turnsE,
  .sync 0 (file (base ++ opsU)) v [], .sync 2 (file (base ++ opsU)) v []]

theorem run_esA : X0.run toy C esA = st (on (base ++ opsN ++ opsU)) (on (base ++ opsU)) (on (base ++ opsE ++ opsU))
    (file (base ++ opsE ++ opsU)) [file (base ++ opsE ++ opsU), file (base ++ opsN ++ opsU), file (base ++ opsU), file base] := by
  simp only [esA, X0, Race.run, work0, work1, work2, sync1 sends2, sync0 sends5, sync2 sends6]

theorem ok_esA : RaceOk toy C esA X0 := by
  simp only [esA, X0, RaceOk, work0, work1, work2, sync1 sends2, sync0 sends5, and_true]
  exact ⟨work rfl legalU (by decide +kernel) (by decide +kernel) (by decide +kernel) (by decide +kernel),
    sends2.ok rfl (by simp [logs]) (.head _),
    work rfl legalN (by decide +kernel) (by decide +kernel) (by decide +kernel) (by decide +kernel),
    work rfl legalE (by decide +kernel) (by decide +kernel) (by decide +kernel) (by decide +kernel),
    sends5.ok rfl (by simp [logs]) (.head _), sends6.ok rfl (by simp [logs]) (.tail _ (.head _))⟩

theorem readEU : readShare toy C start.creds (file (base ++ opsE ++ opsU)) = some (base ++ opsE ++ opsU) :=
  saved _ (by simp [logs]) (by decide +kernel)

def note : Tx := ⟨102, .setk, [1], b! "note", b! "x"⟩
def email : Tx := ⟨152, .setk, [1], b! "email", b! "z"⟩

theorem skipsA : Skips (file (base ++ opsE ++ opsU)) (base ++ opsN ++ opsU) := ⟨by decide +kernel, by decide +kernel, by decide +kernel⟩

-- machine 0 may sync after that
example : RaceOk toy C (esA ++ [.sync 0 (file (base ++ opsE ++ opsU)) v []]) ⟨F0, [F0.share]⟩ ∧
    OneByOne toy C [.sync 0 (file (base ++ opsE ++ opsU)) v []] (Race.run toy C esA ⟨F0, [F0.share]⟩) := by
  rw [← X0_eq]
  have hr : ∀ (a b : List RaceEvent) (X : Race), RaceOk toy C a X → RaceOk toy C b (X.run toy C a) → RaceOk toy C (a ++ b) X := by
    intro a b
    induction a with
    | nil => intro X _ h; exact h
    | cons e a ih => intro X h1 h2; exact ⟨h1.1, ih _ h1.2 h2⟩
  refine ⟨hr _ _ _ ok_esA ⟨?_, trivial⟩, ?_⟩
  · rw [run_esA]; exact skipsA.ok rfl (by simp [logs]) (.head _)
  · rw [run_esA]; exact ⟨rfl, trivial⟩

end RaceDemo

attribute [local irreducible] FleetDemo.file

/-- C107: After two syncs at the same time the machines need not agree ever again. Machine 0 pushes a note, machine 2, which read the
share before, overwrites it with an email address. From then on nobody else gets the note and machine 0 never gets the email address,
however often they all sync one after the other. -/
theorem C107_agree_false : ∃ (P : Prims) (C : Codec) (c : Creds) (F : Fleet) (base : List Tx) (es : List RaceEvent) (t x : Tx),
    Crypt.Spec.Lawful P ∧ Copies P C c F base ∧ RaceOk P C es ⟨F, [F.share]⟩ ∧ t.kind = .setk ∧ x.kind = .setk ∧
    ∀ es', RaceOk P C (es ++ es') ⟨F, [F.share]⟩ → OneByOne P C es' (Race.run P C es ⟨F, [F.share]⟩) →
      let X := Race.run P C (es ++ es') ⟨F, [F.share]⟩
      (t ∈ X.fleet.log 0 ∧ ∀ j, j ≠ 0 → t ∉ X.fleet.log j) ∧ x ∈ X.fleet.log 2 ∧ x ∉ X.fleet.log 0 := by
  refine ⟨toy, FleetDemo.C, FleetDemo.start.creds, FleetDemo.F0, FleetDemo.base, RaceDemo.esA, RaceDemo.note, RaceDemo.email, toy_lawful,
    FleetDemo.copies, RaceDemo.X0_eq ▸ RaceDemo.ok_esA, rfl, rfl, fun es' hr ho => ?_⟩
  have hg := (C107_intact_partial toy toy_lawful FleetDemo.C _ _ _ RaceDemo.esA es' FleetDemo.copies hr).1 2
  rw [← RaceDemo.X0_eq] at hg
  obtain ⟨-, -, hg⟩ := hg
  have hR : readShare toy FleetDemo.C FleetDemo.start.creds (Race.run toy FleetDemo.C RaceDemo.esA RaceDemo.X0).fleet.share =
      some (FleetDemo.base ++ FleetDemo.opsE ++ FleetDemo.opsU) := by rw [RaceDemo.run_esA]; exact RaceDemo.readEU
  have l0 : (Race.run toy FleetDemo.C RaceDemo.esA RaceDemo.X0).fleet.log 0 = FleetDemo.base ++ FleetDemo.opsN ++ FleetDemo.opsU := by
    rw [RaceDemo.run_esA]; exact FleetDemo.upd_log _
  have l2 : (Race.run toy FleetDemo.C RaceDemo.esA RaceDemo.X0).fleet.log 2 = FleetDemo.base ++ FleetDemo.opsE ++ FleetDemo.opsU := by
    rw [RaceDemo.run_esA]; exact FleetDemo.upd_log _
  have hall : ∀ t, t ∈ FleetDemo.base ++ FleetDemo.opsE ++ FleetDemo.opsU ↔
      ∃ j, j ≠ 0 ∧ t ∈ (Race.run toy FleetDemo.C RaceDemo.esA RaceDemo.X0).fleet.log j := by
    intro t
    refine ⟨fun h => ⟨2, by decide, by rw [l2]; exact h⟩, fun ⟨j, hj, h⟩ => ?_⟩
    rw [RaceDemo.run_esA] at h
    have hsub : ∀ l ∈ [FleetDemo.base, FleetDemo.base ++ FleetDemo.opsU, FleetDemo.base ++ FleetDemo.opsE ++ FleetDemo.opsU], ∀ t ∈ l,
        t ∈ FleetDemo.base ++ FleetDemo.opsE ++ FleetDemo.opsU := by decide +kernel
    have hj' : ∀ a b c f p, (RaceDemo.st a b c f p).fleet.log j = b.store.log ∨ (RaceDemo.st a b c f p).fleet.log j = c.store.log ∨
        (RaceDemo.st a b c f p).fleet.log j = FleetDemo.base := by
      intro a b c f p
      unfold Fleet.log RaceDemo.st
      simp only [if_neg hj]
      split
      · exact .inl rfl
      · split
        · exact .inr (.inl rfl)
        · exact .inr (.inr (updateSnapshot_log _))
    rcases hj' _ _ _ _ _ with k | k | k <;> rw [k] at h
    · have h' : t ∈ FleetDemo.base ++ FleetDemo.opsU := by rw [← FleetDemo.upd_log (FleetDemo.base ++ FleetDemo.opsU)]; exact h
      exact hsub _ (by simp) t h'
    · rw [← FleetDemo.upd_log (FleetDemo.base ++ FleetDemo.opsE ++ FleetDemo.opsU)]; exact h
    · exact hsub FleetDemo.base (by simp) t h
  rw [← RaceDemo.X0_eq] at hr ho ⊢
  have key := C107_apart toy toy_lawful FleetDemo.C _ _ _ RaceDemo.esA es' FleetDemo.copies (RaceDemo.X0_eq ▸ hr) 0
    (FleetDemo.base ++ FleetDemo.opsE ++ FleetDemo.opsU)
  rw [← RaceDemo.X0_eq] at key
  obtain ⟨-, k2, k3⟩ := key hR (by rw [l0]; exact ⟨by decide +kernel, by decide +kernel, by decide +kernel⟩) hall ho
  rw [l0] at k2
  rw [l2] at hg
  refine ⟨⟨by rw [k2]; decide +kernel, fun j hj h => ?_⟩, hg _ (by decide +kernel), by rw [k2]; decide +kernel⟩
  exact absurd (k3 j hj _ h) (by decide +kernel)

/-- C107: Something that was on the share can be gone from it. -/
theorem C107_share_false : ∃ (P : Prims) (C : Codec) (c : Creds) (F : Fleet) (base : List Tx) (es : List RaceEvent) (e : RaceEvent)
    (R1 R2 : List Tx) (t : Tx), Crypt.Spec.Lawful P ∧ Copies P C c F base ∧ RaceOk P C (es ++ [e]) ⟨F, [F.share]⟩ ∧
    readShare P C c (Race.run P C es ⟨F, [F.share]⟩).fleet.share = some R1 ∧
    readShare P C c (Race.run P C (es ++ [e]) ⟨F, [F.share]⟩).fleet.share = some R2 ∧ t ∈ R1 ∧ t ∉ R2 := by
  refine ⟨toy, FleetDemo.C, FleetDemo.start.creds, FleetDemo.F0, FleetDemo.base, RaceDemo.esA.dropLast,
    .sync 2 (FleetDemo.file (FleetDemo.base ++ FleetDemo.opsU)) FleetDemo.v [], FleetDemo.base ++ FleetDemo.opsN ++ FleetDemo.opsU,
    FleetDemo.base ++ FleetDemo.opsE ++ FleetDemo.opsU, RaceDemo.note, toy_lawful, FleetDemo.copies, ?_, ?_, ?_, by decide +kernel,
    by decide +kernel⟩
  · rw [← RaceDemo.X0_eq]; exact RaceDemo.ok_esA
  · rw [← RaceDemo.X0_eq]
    simp only [RaceDemo.esA, List.dropLast, RaceDemo.X0, Race.run, RaceDemo.work0, RaceDemo.work1, RaceDemo.work2,
      RaceDemo.sync1 RaceDemo.sends2, RaceDemo.sync0 RaceDemo.sends5]
    exact RaceDemo.readNU
  · rw [← RaceDemo.X0_eq]
    have : RaceDemo.esA.dropLast ++ [.sync 2 (FleetDemo.file (FleetDemo.base ++ FleetDemo.opsU)) FleetDemo.v []] = RaceDemo.esA := rfl
    rw [this, RaceDemo.run_esA]
    exact RaceDemo.readEU

end Verif.App
