import Verif.Crypt.Mistyped
import Verif.App.UnlockDemo
/-!
# Where a mistyped passphrase crashes the program (C45, C108)

At the start of the program a crash costs nothing. `sync` asks in the middle of a session, and first tries the passphrase of
the session by itself.
-/
namespace Verif.App
open Verif Verif.Txlogs Verif.Blob Verif.Crypt Verif.App.Spec
open Verif.Crypt.Spec (toy toy_lawful Lawful saltOf fit lastBlock)

/-- Opening a file without users with a passphrase that makes its last byte 0 or 1 crashes the program. -/
theorem C45_open_false (P : Prims) (hP : Lawful P) (C : Codec) (history : Option Int) (p : Params) (iv pt f salt pass a : Str) (rest : Input)
    (hil : iv.length = 40) (he : encrypt P 1 p iv pt = .ok f) (h0 : p.nUsers = 0) (hs : p.salts.head? = some salt) (hp : pass ≠ [])
    (hl : lastBlock P (P.kdf pass salt) f = a ++ [0] ∨ lastBlock P (P.kdf pass salt) f = a ++ [1]) :
    openFile P C history f (some pass :: rest) = (.panic, rest) := by
  have hm : isMultiUser f = .ok false := by
    obtain ⟨-, -, r, hr⟩ := encrypt_shape P 1 p iv pt f he
    obtain ⟨m, d1, -, d3, -⟩ := decrypt_header P [] pass none [] p.nUsers.toNat r
    rw [← hr] at d3
    rw [d3]
    have : m = 0 := by
      by_cases h : m = 0
      · exact h
      · exact absurd (by rw [h0]; rfl) (d1.1 h)
    rw [this]
    rfl
  unfold openFile
  simp only [hm, Bool.false_eq_true, if_false, prompt]
  rw [C45_mistyped_false P hP p iv pt f salt [] pass a hil he h0 hs hp hl]

theorem pullOne_typo {P : Prims} {C : Codec} {w : World} {u : Session} {uuid f : Str} {inp inp' : Input}
    (hw : ∀ inp, pullBlob w uuid ((u.store.snapshot.get? uuid).getD []) inp = (some (.bytes f, []), inp))
    (h : decryptBlob P u.creds f u.creds.user u.creds.pass inp = (.panic, inp')) : pullOne P C w u uuid inp = (none, inp') := by
  unfold pullOne
  simp only [hw, h]

theorem sync_typo {P : Prims} {C : Codec} {w : World} {v : SyncEnv} {u : Session} {uuid : Str} {uuids : List Str} {inp inp' : Input}
    (push : Bool) (hu : u.store.updateSnapshot = (u.store, none)) (hc : collectSyncs w v.ord u.store = uuid :: uuids)
    (h : pullOne P C w u uuid inp = (none, inp')) :
    (sync P C w v [] push u inp).result = .panic ∧ (sync P C w v [] push u inp).session = u := by
  have hp : pullAll P C w u (uuid :: uuids) inp = (none, inp') := by simp only [pullAll, h]
  have hx : sync P C w v [] push u inp = syncWith P C w v push u (uuid :: uuids) inp := by
    unfold sync
    rw [hu]
    simp only [ne_eq, not_true_eq_false, if_false, hc]
  rw [hx]
  unfold syncWith
  rw [hp]
  exact ⟨rfl, rfl⟩

/-- `sync` tries the passphrase of the session first, without asking. If a remote with another passphrase crashes with it, sync
crashes, whatever is typed, and does so every time until somebody else changes the file there. -/
theorem C108_auto_false (P : Prims) (C : Codec) (w : World) (v : SyncEnv) (u : Session) (uuid f : Str) (uuids : List Str) (push : Bool) (inp : Input)
    (hu : u.store.updateSnapshot = (u.store, none)) (hc : collectSyncs w v.ord u.store = uuid :: uuids)
    (hw : ∀ inp, pullBlob w uuid ((u.store.snapshot.get? uuid).getD []) inp = (some (.bytes f, []), inp))
    (hneg : ∀ n, parseSigned ((f.drop 12).take 4) = some n → 0 ≤ n) (hs : OtherSalt P f u.creds.user u.creds)
    (hb : byHand P f u.creds.user u.creds.pass = .panic) : (sync P C w v [] push u inp).result = .panic := by
  have hd : decrypt P u.creds.user u.creds.pass (orNil u.creds.key) u.creds.salt f = .panic := (decrypt_byHand _ hneg hs).trans hb
  have ht : tryDecrypt P u.creds f u.creds.user u.creds.pass = .done .panic := by unfold tryDecrypt; rw [hd]
  have : decryptBlob P u.creds f u.creds.user u.creds.pass inp = (.panic, inp) := by
    match inp with
    | [] => simp only [decryptBlob, ht]
    | none :: r => simp only [decryptBlob, ht]
    | some l :: r => simp only [decryptBlob, ht]
  exact (sync_typo push hu hc (pullOne_typo hw this)).1

/-- A typing error at the prompt can crash it too, after any number of passphrases that were refused. -/
theorem C108_typo_false (P : Prims) (C : Codec) (w : World) (v : SyncEnv) (u : Session) (uuid f t : Str) (uuids : List Str) (push : Bool)
    (tries : List Str) (rest : Input) (hu : u.store.updateSnapshot = (u.store, none)) (hc : collectSyncs w v.ord u.store = uuid :: uuids)
    (hw : ∀ inp, pullBlob w uuid ((u.store.snapshot.get? uuid).getD []) inp = (some (.bytes f, []), inp))
    (hneg : ∀ n, parseSigned ((f.drop 12).take 4) = some n → 0 ≤ n) (hs : OtherSalt P f u.creds.user u.creds)
    (h0 : Refuses P f u.creds.user u.creds.pass) (ht : ∀ t ∈ tries, t ≠ [] ∧ Refuses P f u.creds.user t) (hn : t ≠ [])
    (hb : byHand P f u.creds.user t = .panic) : (sync P C w v [] push u (tries.map some ++ some t :: rest)).result = .panic := by
  have hd : ∀ t, decrypt P u.creds.user t (orNil u.creds.key) u.creds.salt f = byHand P f u.creds.user t := fun t => decrypt_byHand t hneg hs
  obtain ⟨last, k1, k2⟩ := decryptBlob_tries (P := P) (c := u.creds) (f := f) (user := u.creds.user) tries (some t) rest
    (fun t h' => ⟨(ht t h').1, (hd t).trans (ht t h').2⟩) u.creds.pass ((hd _).trans h0)
  have hx : tryDecrypt P u.creds f u.creds.user t = .done .panic := by unfold tryDecrypt; rw [hd, hb]
  have : decryptBlob P u.creds f u.creds.user u.creds.pass (tries.map some ++ some t :: rest) = (.panic, rest) := by
    rw [k2]
    simp only [decryptBlob, tryDecrypt_wrong k1, if_neg hn]
    match rest with
    | [] => simp only [decryptBlob, hx]
    | none :: r => simp only [decryptBlob, hx]
    | some l :: r => simp only [decryptBlob, hx]
  exact (sync_typo push hu hc (pullOne_typo hw this)).1

/-! ## Non-vacuity -/

namespace TypoDemo
open Verif.Crypt.MistypedDemo (f pt f_ok b p)
open SyncDemo (C)

/-- the file is in a place from which sync reads it -/
def w : World := { UnlockDemo.w with readFile := fun _ _ => .bytes f }

def u (x : UInt8) : Session := { UnlockDemo.uU with creds := { pass := [x], key := List.replicate 80 x, salt := List.replicate 32 2 } }

set_option maxRecDepth 4000 in
example : openFile toy C none f [some [249]] = (.panic, []) :=
  C45_open_false toy toy_lawful C none p _ pt f (List.replicate 32 0) [249] ((b 249).take 7) [] (by decide) f_ok
    rfl rfl (by decide) (.inl (show b 249 = _ by decide +kernel))

theorem crash : byHand toy f [] [249] = .panic :=
  C45_mistyped_false toy toy_lawful p _ pt f (List.replicate 32 0) [] [249] ((b 249).take 7) (by decide) f_ok rfl rfl (by decide)
    (.inl (show b 249 = _ by decide +kernel))

theorem wrong : Refuses toy f [] [3] := UnlockDemo.tag_wrong (by decide +kernel)

theorem nonneg : ∀ n, parseSigned ((f.drop 12).take 4) = some n → 0 ≤ n := by
  intro n h
  have : parseSigned ((f.drop 12).take 4) = some 0 := by decide +kernel
  rw [this] at h
  cases h
  decide

theorem salts (x : UInt8) : OtherSalt toy f (u x).creds.user (u x).creds := by
  show saltOf toy f [] ≠ some (List.replicate 32 2)
  decide +kernel

theorem syncs (x : UInt8) : collectSyncs w id (u x).store = [97] :: [[98]] := by
  show collectSyncs w id UnlockDemo.uU.store = _
  decide +kernel

theorem current (x : UInt8) : (u x).store.updateSnapshot = ((u x).store, none) := by
  show UnlockDemo.uU.store.updateSnapshot = (UnlockDemo.uU.store, none)
  decide +kernel

-- whatever is typed
example (inp : Input) : (sync toy C w SyncDemo.v [] true (u 249) inp).result = .panic :=
  C108_auto_false toy C w SyncDemo.v (u 249) [97] f [[98]] true inp (current _) (syncs _) (fun _ => rfl) nonneg (salts _) crash

example : (sync toy C w SyncDemo.v [] true (u 3) ([[3]].map some ++ some [249] :: [])).result = .panic :=
  C108_typo_false toy C w SyncDemo.v (u 3) [97] f [249] [[98]] true [[3]] [] (current _) (syncs _) (fun _ => rfl) nonneg (salts _) wrong
    (by
      intro t ht
      simp only [List.mem_cons, List.not_mem_nil, or_false] at ht
      subst ht
      exact ⟨by decide, wrong⟩) (by decide) crash

end TypoDemo

end Verif.App
