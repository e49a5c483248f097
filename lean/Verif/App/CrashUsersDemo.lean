import Verif.App.CrashProps
import Verif.App.LockoutDemo
/-!
# C97: the hypotheses can be met in a file with users

The user changed the password on another machine, so `sync` asks for it. Whatever is typed, it does not crash.
-/
namespace Verif.App
open Verif Verif.Txlogs Verif.Blob Verif.Crypt Verif.App.Spec
open Verif.Crypt.Spec (toy toy_lawful)

namespace CrashUsersDemo
open LockDemo
open HistoryDemo (own ownB ok_log)
open Demo (perm_id perm_id')

theorem gentle : Gentle w (fun _ => True) (fun _ => True) := by
  refine ⟨trivial, trivial, fun uuid e inp _ _ => ⟨.bytes remoteFile, [], inp, ?_, fun h => absurd rfl h⟩,
    fun uuid e ct inp _ _ => ⟨true, [], inp, ?_, fun h => absurd rfl h⟩⟩
  · simp (decide := true) only [pullBlob, w, SyncDemo.w, if_true, if_false]
  · simp (decide := true) only [pushBlob, w, SyncDemo.w, if_true, if_false]

theorem there_ring : Keyring toy master there rs1 := ring (by decide +kernel)

theorem there_user : IsUser { log := there } [9] [97] :=
  isUser_concrete (by decide +kernel) _ _ ⟨[(keyName, userPrefix ++ [97]), (keySalt, hexEncode (List.replicate 32 2)),
    (keyIV, hexEncode (List.replicate 40 2)), (keyMKey, hexEncode (wrap [2] (List.replicate 40 2)))], by decide +kernel, by decide +kernel⟩

theorem there_roomy : Roomy toy there := by
  refine ⟨?_, ?_⟩
  · intro us hnd hus
    have hall : ∀ x ∈ us, x = [9] := by
      intro x hx
      obtain ⟨t, ht, a, b, c, d⟩ := hus x hx
      have : ∀ t ∈ there, t.kind = .setk → t.key = keyName → hasPrefix t.value userPrefix = true → t.uuid = [9] := by decide +kernel
      rw [← b]
      exact this t ht a c d
    cases us with
    | nil => simp
    | cons a us =>
      cases us with
      | nil => simp
      | cons b us =>
        rw [hall a (by simp), hall b (by simp)] at hnd
        simp at hnd
  · intro t ht t' ht' n n' a a' b b' c c' _
    have : ∀ t ∈ there, t.kind = .setk → t.key = keyName → hasPrefix t.value userPrefix = true → t.value = userPrefix ++ [97] := by
      decide +kernel
    have h1 := this t ht a b (by rw [c]; exact user_prefix _)
    have h2 := this t' ht' a' b' (by rw [c']; exact user_prefix _)
    rw [c] at h1
    rw [c'] at h2
    rw [List.append_cancel_left h1, List.append_cancel_left h2]

theorem saved : SavedShared toy D (LockDemo.session [2] 2 there).creds remoteFile { log := there } := by
  have hw := own_wf (ok_log there) there_own
  exact ⟨⟨by decide, by decide, by decide⟩, hw.1,
    keyring_wf (hw.2.2 (by decide +kernel)) there_own.good there_ring there_roomy ⟨_, _, there_user⟩, rfl,
    ⟨by decide, ⟨_, rfl, ⟨rfl, rfl, rfl, GoMap.nodupKeys_nil, inner_nil, rfl⟩⟩, rfl⟩, id, id, SyncDemo.iv, perm_id, perm_id', by decide +kernel⟩

/-- the password there is the new one -/
theorem opens : Opens toy { log := there } master [97] [2] (List.replicate 32 2) := by
  obtain ⟨r, hr, -, ho⟩ := keyring_opens (s := { log := there }) there_own.good there_ring there_user
  have : r = rec [2] 2 20 21 22 := by
    have h1 : r ∈ rs1 := hr.1
    simp only [rs1, List.mem_cons, List.not_mem_nil, or_false] at h1
    rcases h1 with rfl | rfl
    · rcases hr.2 (rec [2] 2 20 21 22) (by simp [rs1]) rfl with h | h
      · exact absurd h (by decide +kernel)
      · exact absurd h (by decide +kernel)
    · rfl
  rw [this] at ho
  exact ho

theorem canOpen : CanOpen toy D u.creds remoteFile [some [2]] there := by
  refine .inr ⟨_, _, saved, rfl, .inr fun user pass hu hp => ?_⟩
  have hu : user = [97] := by
    rcases hu with hu | ⟨hu, -⟩
    · exact hu
    · cases hu
  subst hu
  rcases hp with rfl | hp
  · exact .inr (.inl (by decide +kernel))
  · rw [Option.some.inj (List.mem_singleton.1 hp)]
    exact .inl ⟨List.replicate 32 2, _, opens.2, .inl ⟨by simp, rfl, .inr (by decide)⟩⟩

theorem listens : Listens w := by
  intro uuid e inp x rest h
  cases h
  exact List.suffix_refl _

theorem calm : CalmSync toy D w v [] u [some [2]] (fun _ => True) (fun _ => True) := by
  refine ⟨gentle, listens, ⟨by decide, by decide, .inr ⟨by decide, by decide⟩⟩, fun t _ _ => ⟨fun _ => trivial, fun _ => trivial⟩, by decide, perm_id, perm_id', ?_⟩
  intro uuid inp f h rest _ _ hp
  have : pullBlob w uuid ((u.store.updateSnapshot.1.snapshot.get? uuid).getD []) inp = (some (.bytes remoteFile, []), inp) := by
    simp (decide := true) only [pullBlob, w, SyncDemo.w, if_true, if_false]
  rw [this] at hp
  simp only [Prod.mk.injEq, Option.some.injEq, Pulled.bytes.injEq] at hp
  rw [← hp.1.1]
  exact ⟨_, canOpen, by simp [there, base, SyncDemo.entryOps], fun t _ _ => ⟨fun _ => trivial, fun _ => trivial⟩⟩

-- C97: it did ask and merge
example : (sync toy D w v [] true u [some [2]]).result ≠ .panic ∧
    (sync toy D w v [] true u [some [2]]).session.store.log ≠ u.store.log :=
  ⟨C97_partial toy toy_lawful _ w _ _ v [] true u [some [2]] keyed.sound syncOk calm, by decide +kernel⟩

/-- A passphrase that is typed wrong is not always refused: it may crash the program, because what comes out of the ciphers may be too
short for the hash in front of it. -/
theorem C97_typo_false : ∃ (P : Prims) (C : Codec) (w : World) (v : SyncEnv) (u : Session) (right wrong : Str),
    Crypt.Spec.Lawful P ∧ Sound u.store ∧ SyncOk P C w v [] u [some right] ∧
    CalmSync P C w v [] u [some right] (fun _ => True) (fun _ => True) ∧ (sync P C w v [] true u [some right]).result = .ok () ∧
    (sync P C w v [] true u [some wrong]).result = .panic :=
  ⟨toy, D, w, v, u, [2], [219], toy_lawful, keyed.sound, syncOk, calm, by decide +kernel, by decide +kernel⟩

end CrashUsersDemo
end Verif.App
