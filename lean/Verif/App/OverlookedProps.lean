import Verif.App.RaceDemo
/-!
# C80 and C76 when a remote is mistaken for the own file
-/
namespace Verif.App
open Verif Verif.Txlogs Verif.Blob Verif.Crypt Spec
open Verif.Txlogs.Spec (GoodHistory Replays SameFile LooksSame)
open Verif.Crypt.Spec (toy toy_lawful)

theorem noChanges_alike {R l : List Tx} (hl : l ≠ []) (hs : LooksSame R l) : noChanges R l = some true := by
  obtain ⟨b, L, rfl⟩ := List.exists_cons_of_ne_nil hl
  obtain ⟨g1, g2, g3⟩ := hs
  obtain ⟨a, R', rfl⟩ := List.exists_cons_of_ne_nil (show R ≠ [] by intro k; rw [k] at g1; simp at g1)
  unfold noChanges
  rw [if_neg (by simp only [ne_eq, Decidable.not_not]; exact g1)]
  simp only [List.head?_cons, List.getLast?_cons, Option.map_some, Option.some.injEq] at g2 g3 ⊢
  simp only [g2, g3, and_self, decide_true]

theorem saveHosts_ops {now : Nat → Int} {s : DB} {hs : List (Str × Str)} :
    ∃ txs, (saveHosts now s hs).1.log = s.log ++ txs ∧ ∀ t ∈ txs, HostOp t := by
  obtain ⟨-, -, txs, h1, -, h2⟩ := saveHostsLoop_ops hs now s
  exact ⟨txs, by rw [saveHosts, updateSnapshot_log]; exact h1, h2⟩

theorem pushBack_nobody {P : Prims} {C : Codec} {w : World} {v : SyncEnv} {push : Bool} {hosts : Results} {u : Session} {inp : Input} :
    (pushBack P C w v push hosts [] u inp).pushed = [] ∧
      ∃ txs, (pushBack P C w v push hosts [] u inp).session.store.log = u.store.log ++ txs ∧ ∀ t ∈ txs, HostOp t := by
  obtain ⟨txs, h1, h2⟩ := saveHosts_ops (now := v.now) (s := u.store) (hs := v.ordH hosts)
  simp only [pushBack]
  cases hx : saveHosts v.now u.store (v.ordH hosts) with
  | mk s o =>
    rw [hx] at h1
    cases o with
    | some e => exact ⟨rfl, txs, h1, h2⟩
    | none =>
      cases push with
      | false => exact ⟨rfl, txs, h1, h2⟩
      | true =>
        simp only [Bool.true_eq_false, if_false]
        have h3 := sealFile_log P C v.ord v.ord' v.iv u.creds s
        cases hy : sealFile P C v.ord v.ord' v.iv u.creds s with
        | mk s2 o =>
          rw [hy] at h3
          replace h3 : s2.log = s.log := h3
          cases o with
          | panic => exact ⟨rfl, txs, h3.trans h1, h2⟩
          | err e => exact ⟨rfl, txs, h3.trans h1, h2⟩
          | ok ct =>
            simp only [pushAll]
            obtain ⟨txs', h4, h5⟩ := saveHosts_ops (now := v.now') (s := s2) (hs := v.ordH [])
            cases hz : saveHosts v.now' s2 (v.ordH []) with
            | mk s3 o =>
              rw [hz] at h4
              have h6 : s3.log = u.store.log ++ (txs ++ txs') := by
                rw [← List.append_assoc, ← show s.log = _ from h1, ← h3]; exact h4
              have h7 : ∀ t ∈ txs ++ txs', HostOp t := fun t ht => (List.mem_append.1 ht).elim (h2 t) (h5 t)
              cases o with
              | some e => exact ⟨rfl, _, h6, h7⟩
              | none => exact ⟨rfl, _, h6, h7⟩

/-- A remote whose log has the length of the own one and begins and ends at the same times is mistaken for it: nothing is taken
from it and nothing is sent to it, whatever is in between. -/
theorem C80_overlooked (P : Prims) (C : Codec) (w : World) (v : SyncEnv) (push : Bool) (u : Session) (uuid : Str) (inp : Input)
    (log : List Tx) (hf : Fetched P C w u uuid inp log) (hl : u.store.log ≠ []) (hs : LooksSame log u.store.log) :
    let r := syncWith P C w v push u [uuid] inp
    r.pushed = [] ∧ ∀ t, ¬ HostOp t → (t ∈ r.session.store.log ↔ t ∈ u.store.log) := by
  intro r
  obtain ⟨ct, h', i1, ⟨user, pass, p, pt⟩, i2, f1, f2, f3, f4⟩ := hf
  have hp : pullAll P C w u [uuid] inp = (some [(uuid, .skip, h')], i2) := by
    simp only [pullAll, pullOne, f1, f2]
    simp only at f3 f4
    simp only [if_neg f3, f4, noChanges_alike hl hs]
  have hr : r = syncWith P C w v push u [uuid] inp := rfl
  unfold syncWith at hr
  simp only [hp, remotes, mergeBlobs, mergeRemotes] at hr
  have hlog := updateSnapshot_log ({ u.store.resetSnapshot with log := u.store.log } : DB)
  cases hu : ({ u.store.resetSnapshot with log := u.store.log } : DB).updateSnapshot with
  | mk s o =>
    rw [hu] at hr hlog
    replace hlog : s.log = u.store.log := hlog
    cases o with
    | some e => rw [hr]; exact ⟨rfl, fun t _ => by simp only [hlog]⟩
    | none =>
      simp only [targets] at hr
      rw [hr]
      obtain ⟨g1, txs, g2, g3⟩ := pushBack_nobody (P := P) (C := C) (w := w) (v := v) (push := push) (hosts := newHosts [(uuid, .skip, h')] [])
        (u := { u with creds := u.creds, store := s }) (inp := i2)
      refine ⟨g1, fun t ht => ?_⟩
      rw [g2]
      simp only [hlog, List.mem_append]
      exact ⟨fun h => h.resolve_right fun h => ht (g3 t h), .inl⟩

namespace OverlookedDemo
open FleetDemo RaceDemo

/-- what machine 0 and the share hold after the overlapping syncs of C107 -/
def mine : Session := { on (base ++ opsN ++ opsU) with store := (on (base ++ opsN ++ opsU)).store.updateSnapshot.1 }
def there : Str := file (base ++ opsE ++ opsU)

theorem fetched : Fetched toy C (shareWorld there) mine [97] [] (base ++ opsE ++ opsU) := by
  have h : (match decryptBlob toy mine.creds there mine.creds.user mine.creds.pass [] with
      | (.ok (some x), []) => x.2.2.2 != [] && (match C.loadLog x.2.2.2 with | .ok l => l == base ++ opsE ++ opsU | _ => false)
      | _ => false) = true := by decide +kernel
  have hp : ∀ e, pullBlob (shareWorld there) [97] e [] = (some (.bytes there, []), []) := by
    intro e
    have : syncFile ≠ syncSCP := by decide
    simp only [pullBlob, shareWorld, this, if_false, if_true]
  split at h
  · rename_i x hx
    simp only [Bool.and_eq_true, bne_iff_ne, ne_eq] at h
    obtain ⟨h1, h2⟩ := h
    refine ⟨there, [], [], x, [], hp _, hx, h1, ?_⟩
    split at h2
    · rename_i l hl
      rw [hl, beq_iff_eq.1 h2]
    · cases h2
  · cases h

theorem alike : LooksSame (base ++ opsE ++ opsU) mine.store.log := ⟨by decide +kernel, by decide +kernel, by decide +kernel⟩

end OverlookedDemo

/-- C80, C76: `sync` can succeed and leave out what the remote has: two good histories of one file, of the same length and with the same
first and last times. The email address is not taken over, the note is not sent. -/
theorem C80_false : ∃ (P : Prims) (C : Codec) (w : World) (v : SyncEnv) (u : Session) (uuid : Str) (log : List Tx) (t x : Tx),
    Crypt.Spec.Lawful P ∧ Fetched P C w u uuid [] log ∧ GoodHistory u.store.log ∧ GoodHistory log ∧ SameFile u.store.log log ∧
    x ∈ log ∧ t ∈ u.store.log ∧ t ∉ log ∧
    (syncWith P C w v true u [uuid] []).result = .ok () ∧ x ∉ (syncWith P C w v true u [uuid] []).session.store.log ∧
    (syncWith P C w v true u [uuid] []).pushed = [] := by
  have hc := C80_overlooked toy FleetDemo.C (shareWorld OverlookedDemo.there) FleetDemo.v true OverlookedDemo.mine [97] [] _
    OverlookedDemo.fetched (by decide +kernel) OverlookedDemo.alike
  refine ⟨toy, FleetDemo.C, shareWorld OverlookedDemo.there, FleetDemo.v, OverlookedDemo.mine, [97], _, RaceDemo.note, RaceDemo.email,
    toy_lawful, OverlookedDemo.fetched,
    KeepDemo.good (by decide +kernel) (by decide +kernel) (by decide +kernel) (by decide +kernel),
    KeepDemo.good (by decide +kernel) (by decide +kernel) (by decide +kernel) (by decide +kernel),
    ⟨by decide +kernel, by decide +kernel⟩, by decide +kernel, by decide +kernel, by decide +kernel, by decide +kernel, ?_, hc.1⟩
  rw [hc.2 _ (by unfold HostOp; decide +kernel)]
  decide +kernel

end Verif.App
