import Verif.App.SharedLemmas
import Verif.App.AccessProps
/-!
# C74 for files with users
-/
namespace Verif.App
open Verif Verif.Txlogs Verif.Blob Verif.Crypt Verif.App.Spec
open Verif.Crypt.Spec (toy toy_lawful)

theorem shared_session {P : Prims} (hP : Crypt.Spec.Lawful P) {C : Codec} (turns : List Turn) (r r' : Repl) (t : Passwords)
    (h : SharedAfter P r.u t) (hw : WellFormed r.u.store) (hl : Along P C (SharedTurn P) turns r)
    (hr : runRepl P C turns r = (r', .ok ())) : SharedAfter P r'.u (lastTable P C turns r t) := by
  induction turns generalizing r t with
  | nil => cases hr; exact h
  | cons x rest ih =>
    obtain ⟨o, v⟩ := x
    cases o with
    | none =>
      unfold runRepl at hr
      unfold lastTable
      split at hr
      · cases hr
      · cases hr; exact h
    | some line =>
      obtain ⟨hl1, hl2⟩ := hl
      unfold runRepl at hr
      unfold lastTable
      have key := fun b => shared_line hP (C := C) (b := b) h hw hl1
      have key' := C67_line_partial P C v line r h.1.idle hw hl1.turn.legal
      cases hx : runLine P C v line r with
      | mk r1 o =>
        rw [hx] at hr key key' hl2
        cases o with
        | panic => cases hr
        | err e => cases hr
        | ok b =>
          cases b with
          | true => cases hr; exact key true rfl
          | false => exact ih r1 _ (key false rfl) (key' (by simp)).1 hl2 hr

/-- A session in a file with users, in which the user entries are left to the account commands, is saved when it ends normally, and
everybody in the table can open the file with the password given there and finds exactly what the session left. -/
theorem C74_multi_partial (P : Prims) (hP : Crypt.Spec.Lawful P) (turns : List Turn) (r r' : Repl) (t : Passwords) (iv : Str)
    (ord : Order) (ord' : Results → Results) (hord : ∀ m, (ord m).Perm m) (hord' : ∀ m, (ord' m).Perm m)
    (hm : MultiSession P r.u) (ht : Holders P r.u t) (h : WellFormed r.u.store) (hc : CleanLog r.u.store)
    (hl : Along P Json.Spec.codec (SharedTurn P) turns r) (hr : runRepl P Json.Spec.codec turns r = (r', .ok ()))
    (hn : Counted r'.u.store) :
    ∃ f s', saveBlob P Json.Spec.codec ord ord' iv r'.u = .ok (some f) ∧ Spec.SameStore s' r'.u.store ∧ WellFormed s' ∧ CleanLog s' ∧
      ∀ user pass, lastTable P Json.Spec.codec turns r t user = some pass →
        ∃ u, openFile P Json.Spec.codec none f [some user, some pass] = (.ok u, []) ∧ u.store = s' ∧ u.creds.user = user ∧
          MultiSession P u ∧ Holders P u (lastTable P Json.Spec.codec turns r t) := by
  obtain ⟨h1, h2⟩ := shared_session hP turns r r' t ⟨hm, ht⟩ h hl hr
  have hl' := along_mono (fun _ _ _ h => h.turn) turns r hl
  have h3 := C67_session_partial P _ turns r hm.idle h (along_mono (fun _ _ _ h => h.legal) turns r hl') (by rw [hr]; simp)
  have h4 := C77_session_partial P _ turns r hm.idle h hc hl' (by rw [hr]; simp)
  rw [hr] at h3 h4
  obtain ⟨f, s', g1, g2, g3⟩ := C51_save_open_multi P hP Json.Spec.codec ord hord ord' hord' iv r'.u h1.writable h1.idle h1.good
    (C77_saved _ h3.1 h4 hn) h1.creds h1.users
  have hwf := wf_sameStore h3.1 g2
  have hsu : SameUsers r'.u.store s' := sameUsers_log h1.good g2.log
  refine ⟨f, s', g1, g2, hwf, fun x hx => h4 x (g2.log ▸ hx), ?_⟩
  intro user pass hup
  obtain ⟨salt, ho⟩ := h2 user pass hup
  refine ⟨_, g3 user pass salt ho, rfl, rfl, ⟨rfl, hwf.good, g2.txPoint, ⟨h1.creds.master, h1.creds.ivm, hP.kdf_length _ _⟩,
    hsu.wf h1.users, fun w x hx => h1.uuids w x (hsu.symm.isUser hx), ?_⟩, ?_⟩
  · obtain ⟨-, -, w, e, iv, mkey, a, b, -⟩ := ho
    exact ⟨w, hsu.isUser ⟨e, a, b⟩⟩
  · intro a p hap
    obtain ⟨salt', k1, k2⟩ := h2 a p hap
    exact ⟨salt', k1, hsu.account k2⟩

/-- Over any number of such sessions, by whomever: everybody in the table can open the file. -/
theorem C74_shared_life_partial (P : Prims) (hP : Crypt.Spec.Lawful P) (f : Str) (t : Passwords) (s : DB) (h : SharedLife P f t s) :
    ∀ user pass, t user = some pass →
      ∃ u, openFile P Json.Spec.codec none f [some user, some pass] = (.ok u, []) ∧ u.creds.user = user ∧
        MultiSession P u ∧ Holders P u t ∧ Spec.SameStore u.store s ∧ WellFormed u.store ∧ CleanLog u.store := by
  induction h with
  | first hm ht hw hc hl hr hn ho ho' hf =>
    obtain ⟨f', s', g1, g2, g3, g4, g5⟩ := C74_multi_partial P hP _ _ _ _ _ _ _ ho ho' hm ht hw hc hl hr hn
    rw [g1] at hf
    cases hf
    intro user pass hup
    obtain ⟨u, k1, k2, k3, k4, k5⟩ := g5 user pass hup
    exact ⟨u, k1, k3, k4, k5, k2 ▸ g2, k2 ▸ g3, k2 ▸ g4⟩
  | next _ htp hop hl hr hn ho ho' hf ih =>
    obtain ⟨u, k1, k2, k3, k4, k5, k6, k7⟩ := ih _ _ htp
    rw [k1] at hop
    cases hop
    obtain ⟨f', s', g1, g2, g3, g4, g5⟩ := C74_multi_partial P hP _ _ _ _ _ _ _ ho ho' k3 k4 k6 k7 hl hr hn
    rw [g1] at hf
    cases hf
    intro user pass hup
    obtain ⟨u, k1, k2, k3, k4, k5⟩ := g5 user pass hup
    exact ⟨u, k1, k3, k4, k5, k2 ▸ g2, k2 ▸ g3, k2 ▸ g4⟩

/-! ## A file with two users -/

namespace Demo

/-- "adduser b" with the password "B" -/
def vSB : Env := { d := { d0 with uuid := [8], inp := [some (b! "m"), some (b! "B"), some (b! "B")] } }
/-- "passwd" with the new password "C" -/
def vSC : Env := { d := { d0 with uuid := [6], inp := [some (b! "m"), some (b! "C"), some (b! "C")] } }

/-- after the first session, by "a" -/
def rSB : Repl := after (b! "adduser b") vSB rS
/-- "b" opens the file -/
def uSB : Session :=
  { creds := { user := b! "b", pass := b! "B", key := toy.kdf (b! "B") (List.replicate 32 1), salt := List.replicate 32 1
               master := u1.creds.master, ivm := u1.creds.ivm }
    store := loaded rSB.u.store, startTx := rSB.u.store.log.length }
/-- after the second session, by "b" -/
def rSC : Repl := after (b! "passwd") vSC { u := uSB }

def t1 : Passwords := Txlogs.Spec.upd (fun _ => none) [97] (some [1])

theorem vB_clean : CleanEnv vSB := cleanEnv_mk (by decide) (by decide) (fun _ => rfl) (fun _ _ => rfl) rfl rfl rfl rfl rfl
theorem vC_clean : CleanEnv vSC := cleanEnv_mk (by decide) (by decide) (fun _ => rfl) (fun _ _ => rfl) rfl rfl rfl rfl rfl

/-- all text of a log is ASCII and the times are 0 -/
def asciiTx (t : Tx) : Bool :=
  decide (t.kind ∈ [.add, .del, .setk, .delk]) && t.uuid.all (fun b => b.toNat < 0x80) &&
  t.key.all (fun b => b.toNat < 0x80) && t.value.all (fun b => b.toNat < 0x80) && t.time == 0

theorem kind_ascii {k : TxKind} (h : k ∈ [.add, .del, .setk, .delk]) :
    (Json.kindStr k).all (fun b => b.toNat < 0x80) = true := by
  simp only [List.mem_cons, List.not_mem_nil, or_false] at h
  rcases h with h | h | h | h <;> subst h <;> decide

theorem kind_ok {k : TxKind} (h : k ∈ [.add, .del, .setk, .delk]) : Json.Spec.KindOk k := by
  simp only [List.mem_cons, List.not_mem_nil, or_false] at h
  rcases h with h | h | h | h <;> subst h <;> rfl

theorem ascii_clean {s : DB} (h : s.log.all asciiTx = true) : CleanLog s := by
  intro t ht
  have := List.all_eq_true.1 h t ht
  simp only [asciiTx, Bool.and_eq_true, beq_iff_eq, decide_eq_true_eq] at this
  obtain ⟨⟨⟨⟨k, a⟩, b⟩, c⟩, d⟩ := this
  refine ⟨⟨kind_ok k, valid_ascii _ (kind_ascii k), valid_ascii _ a, valid_ascii _ b, valid_ascii _ c⟩, ?_⟩
  rw [d]; unfold FitsInt64; omega

theorem u1_clean : CleanLog u1.store := ascii_clean (by decide +kernel)

theorem turnB : SharedTurn toy vSB (b! "adduser b") rS where
  turn := ⟨⟨valid_ascii _ (by decide), ⟨perm_id, perm_id', by decide, fresh_concrete u1_multi.1.good (by decide +kernel)⟩,
    parse_ne (x := (b! "adduser", [b! "b"])) (by decide +kernel) (by decide)⟩, vB_clean⟩
  draw := ⟨by decide, by decide, by decide, by decide⟩
  line := by
    intro cmd args h
    have hp : parseLine (b! "adduser b") = some (b! "adduser", [b! "b"]) := by decide +kernel
    rw [hp] at h
    cases h
    refine ⟨fun h => absurd h (by decide), fun h => absurd h (by decide), fun h => absurd h (by decide),
      fun h => absurd h (by decide), by decide, ?_⟩
    intro _ nm l h
    cases h
    exact Or.inr ⟨u1_new, by decide +kernel⟩

theorem typedB : typedPass vSB = some (b! "B") := by decide +kernel
theorem typedC : typedPass vSC = some (b! "C") := by decide +kernel

theorem tableB : lastTable toy Json.Spec.codec [(some (b! "adduser b"), vSB)] rS t1 = Txlogs.Spec.upd t1 [98] (some (b! "B")) := by
  have hp : parseLine (b! "adduser b") = some (b! "adduser", [b! "b"]) := by decide +kernel
  have ht : tableAfter vSB (b! "adduser b") rS t1 = Txlogs.Spec.upd t1 [98] (some (b! "B")) := by
    unfold tableAfter
    rw [hp, typedB]
    simp only [if_neg (show ¬ (b! "adduser" = b! "passwd") by decide), if_pos True.intro]
    rw [if_neg (fun ⟨w, h⟩ => u1_free w h)]
  unfold lastTable lastTable
  rw [ht]
  split <;> rfl

theorem runB : runRepl toy Json.Spec.codec [(some (b! "adduser b"), vSB)] { u := u1 } = (rSB, .ok ()) := by
  unfold rSB after
  exact run_eq (by decide +kernel)

theorem countB : Counted rSB.u.store := by unfold Counted; decide +kernel

theorem saveB : saveBlob toy Json.Spec.codec id id (List.replicate 40 4) rSB.u = .ok (some (fileOf rSB)) := by
  obtain ⟨f, s', h, -⟩ := C74_multi_partial toy toy_lawful [(some (b! "adduser b"), vSB)] { u := u1 } rSB t1 (List.replicate 40 4) id id
    perm_id perm_id' u1_multi.1 u1_multi.2.2 u1_wf u1_clean ⟨turnB, trivial⟩ runB countB
  exact file_ok h

theorem sharedLife1 : SharedLife toy (fileOf rSB) (Txlogs.Spec.upd t1 [98] (some (b! "B"))) rSB.u.store := by
  rw [← tableB]
  exact SharedLife.first (turns := [(some (b! "adduser b"), vSB)]) (u := u1) (iv := List.replicate 40 4) (ord := id) (ord' := id)
    u1_multi.1 u1_multi.2.2 u1_wf u1_clean ⟨turnB, trivial⟩ runB countB perm_id perm_id' saveB

theorem openB : openFile toy Json.Spec.codec none (fileOf rSB) [some (b! "b"), some (b! "B")] = (.ok uSB, []) := by decide +kernel

theorem tabB : Txlogs.Spec.upd t1 [98] (some (b! "B")) (b! "b") = some (b! "B") := by decide

theorem runC : runRepl toy Json.Spec.codec [(some (b! "passwd"), vSC)] { u := uSB } = (rSC, .ok ()) := by
  unfold rSC after
  exact run_eq (by decide +kernel)

theorem uB_store : WellFormed uSB.store ∧ uSB.creds.user = b! "b" := by
  obtain ⟨u, k1, k2, -, -, -, k6, -⟩ := C74_shared_life_partial toy toy_lawful _ _ _ sharedLife1 _ _ tabB
  have hu : uSB = u := Res.ok.inj (Prod.mk.inj (openB.symm.trans k1)).1
  rw [hu]
  exact ⟨k6, k2⟩

theorem turnC : SharedTurn toy vSC (b! "passwd") { u := uSB } where
  turn := ⟨⟨valid_ascii _ (by decide), ⟨perm_id, perm_id', by decide, fresh_concrete uB_store.1.good (by decide +kernel)⟩,
    parse_ne (x := (b! "passwd", [])) (by decide +kernel) (by decide)⟩, vC_clean⟩
  draw := ⟨by decide, by decide, by decide, by decide⟩
  line := by
    intro cmd args h
    have hp : parseLine (b! "passwd") = some (b! "passwd", []) := by decide +kernel
    rw [hp] at h
    cases h
    exact ⟨fun h => absurd h (by decide), fun h => absurd h (by decide), fun h => absurd h (by decide),
      fun h => absurd h (by decide), by decide, fun h => absurd h (by decide)⟩

def t2 : Passwords := Txlogs.Spec.upd (Txlogs.Spec.upd t1 [98] (some (b! "B"))) [98] (some (b! "C"))

theorem tableC : lastTable toy Json.Spec.codec [(some (b! "passwd"), vSC)] { u := uSB } (Txlogs.Spec.upd t1 [98] (some (b! "B"))) = t2 := by
  have hp : parseLine (b! "passwd") = some (b! "passwd", []) := by decide +kernel
  have ht : tableAfter vSC (b! "passwd") { u := uSB } (Txlogs.Spec.upd t1 [98] (some (b! "B"))) = t2 := by
    unfold tableAfter
    rw [hp, typedC]
    simp only [if_pos True.intro]
    rw [uB_store.2]
    rfl
  unfold lastTable lastTable
  rw [ht]
  split <;> rfl

theorem countC : Counted rSC.u.store := by unfold Counted; decide +kernel
theorem saveC : saveBlob toy Json.Spec.codec id id (List.replicate 40 4) rSC.u = .ok (some (fileOf rSC)) := by
  obtain ⟨u, k1, -, k3, k4, -, k6, k7⟩ := C74_shared_life_partial toy toy_lawful _ _ _ sharedLife1 _ _ tabB
  have hu : uSB = u := Res.ok.inj (Prod.mk.inj (openB.symm.trans k1)).1
  rw [← hu] at k3 k4 k6 k7
  obtain ⟨f, s', h, -⟩ := C74_multi_partial toy toy_lawful [(some (b! "passwd"), vSC)] { u := uSB } rSC _ (List.replicate 40 4) id id
    perm_id perm_id' k3 k4 k6 k7 ⟨turnC, trivial⟩ runC countC
  exact file_ok h

theorem sharedLife2 : SharedLife toy (fileOf rSC) t2 rSC.u.store := by
  rw [← tableC]
  exact SharedLife.next sharedLife1 tabB openB ⟨turnC, trivial⟩ runC countC perm_id perm_id' saveC

theorem t2_a : t2 [97] = some [1] := by decide
theorem t2_b : t2 [98] = some (b! "C") := by decide
theorem rC_log : rSC.u.store.log ≠ [] := by decide +kernel

end Demo

/-- not vacuous: "a" adds the user "b" with the password "B"; then "b" opens the file and changes the password to "C"; now "a" opens
the file with the old password and "b" with the new one -/
example : ∃ f t s ua ub, SharedLife toy f t s ∧ t [97] = some [1] ∧ t [98] = some (b! "C") ∧
    openFile toy Json.Spec.codec none f [some [97], some [1]] = (.ok ua, []) ∧
    openFile toy Json.Spec.codec none f [some [98], some (b! "C")] = (.ok ub, []) ∧ ua.store.log ≠ [] := by
  obtain ⟨ua, g1, -, -, -, g2, -⟩ := C74_shared_life_partial toy toy_lawful _ _ _ Demo.sharedLife2 _ _ Demo.t2_a
  obtain ⟨ub, h1, -⟩ := C74_shared_life_partial toy toy_lawful _ _ _ Demo.sharedLife2 _ _ Demo.t2_b
  exact ⟨_, _, _, ua, ub, Demo.sharedLife2, Demo.t2_a, Demo.t2_b, g1, h1, by rw [g2.log]; exact Demo.rC_log⟩

/-- not vacuous: one session -/
example : ∃ u, openFile toy Json.Spec.codec none (Demo.fileOf Demo.rSB) [some (b! "b"), some (b! "B")] = (.ok u, []) ∧
    u.creds.user = b! "b" := by
  obtain ⟨u, k1, k2, -⟩ := C74_shared_life_partial toy toy_lawful _ _ _ Demo.sharedLife1 _ _ Demo.tabB
  exact ⟨u, k1, k2⟩

end Verif.App
