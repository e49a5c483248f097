import Verif.App.TornLemmas
import Verif.App.SyncDemo
import Verif.App.Repl
/-!
# C116: a push that is cut off

`ioutil.WriteFile` empties the file at the remote and then writes the new one. What is left when it does not get to the end is told
apart from a file by its length alone at seven of eight places, and never gets into anybody's file. But no `sync` writes over it
either: it is not understood, so nothing is sent there, and on every machine that has that remote the program crashes at the start
until somebody removes the file by hand.
-/
namespace Verif.App
open Verif Verif.Txlogs Verif.Blob Verif.Crypt Spec

/-- What there is after a push: the old file, the new one, a torn one, or a piece whose length is that of a whole file. -/
theorem C116_left (old now : Disk) (f : Str) (h : MayLeave old f now) :
    now = old ∨ now = some f ∨ (∃ ct, Torn f ct ∧ now = some ct) ∨ ∃ k, 88 ≤ k ∧ k < f.length ∧ k % 8 = 0 ∧ now = some (f.take k) := by
  unfold MayLeave writeFile at h
  rcases List.mem_cons.1 h with h | h
  · exact .inl h
  · obtain ⟨k, hk, rfl⟩ := List.mem_map.1 h
    have hk' := List.mem_range.1 hk
    by_cases h1 : k = f.length
    · exact .inr (.inl (by rw [h1, List.take_length]))
    · by_cases h2 : k < 88 ∨ k % 8 ≠ 0
      · exact .inr (.inr (.inl ⟨_, ⟨k, by omega, h2, rfl⟩, rfl⟩))
      · exact .inr (.inr (.inr ⟨k, by omega, by omega, by omega, rfl⟩))

/-- A torn file is never taken for a file: nobody can decrypt it, with any name, passphrase or cached key. -/
theorem C116_partial (P : Prims) (C : Codec) (c : Creds) (f ct : Str) (h : Torn f ct) : ¬ Understood P C c ct := by
  rintro ⟨user, pass, v, p, pt, log, hd, -⟩
  have := decrypt_length hd
  have := torn_length h
  omega

/-- Whatever a push left, if it does not decrypt, no `sync` of anybody repairs it: nothing is sent there. -/
theorem C116_stays_any_false (P : Prims) (C : Codec) (w : World) (v : SyncEnv) (nm : Str) (push : Bool) (u : Session) (inp : Input)
    (uuid ct : Str) (h : ¬ Understood P C u.creds ct) (hr : AlwaysReads w u.store.updateSnapshot.1 uuid ct) :
    uuid ∉ (sync P C w v nm push u inp).pushed.map Prod.fst := by
  refine C26_unreadable P C w v nm push u inp uuid ?_ ?_
  · rintro ⟨i, h1, i', hp⟩
    obtain ⟨h2, i2, hp2⟩ := hr i
    unfold syncEntry at hp
    rw [hp] at hp2
    simp at hp2
  · rintro ct' ⟨i, h1, i', hp⟩
    obtain ⟨h2, i2, hp2⟩ := hr i
    unfold syncEntry at hp
    rw [hp] at hp2
    simp only [Prod.mk.injEq, Option.some.injEq, Pulled.bytes.injEq] at hp2
    rw [hp2.1.1]
    exact h

/-- So it is with every torn file. -/
theorem C116_stays_false (P : Prims) (C : Codec) (w : World) (v : SyncEnv) (nm : Str) (push : Bool) (u : Session) (inp : Input)
    (uuid f ct : Str) (h : Torn f ct) (hr : AlwaysReads w u.store.updateSnapshot.1 uuid ct) :
    uuid ∉ (sync P C w v nm push u inp).pushed.map Prod.fst :=
  C116_stays_any_false P C w v nm push u inp uuid ct (C116_partial P C u.creds f ct h) hr

/-- A torn file for one user, at any of the remotes, crashes `sync` on every machine, whatever is typed; nothing is merged from the
other remotes and nothing sent to them. -/
theorem C116_crash_false (P : Prims) (C : Codec) (w : World) (v : SyncEnv) (push : Bool) (u : Session) (inp : Input) (s : DB)
    (uuid t ct : Str) (hpass : u.creds.pass ≠ []) (hu : u.store.updateSnapshot = (s, none)) (hx : uuid ∈ collectSyncs w v.ord s)
    (h : Torn (magic 0 ++ t) ct) (hr : AlwaysReads w s uuid ct) :
    (sync P C w v [] push u inp).result = .panic ∧ (sync P C w v [] push u inp).pushed = [] ∧
      (sync P C w v [] push u inp).session = { u with store := s } := by
  have hone : ∀ i, ∃ i', pullOne P C w { u with store := s } uuid i = (none, i') := by
    intro i
    obtain ⟨hh, i', hp⟩ := hr i
    refine ⟨i', ?_⟩
    unfold pullOne
    simp only [hp, decryptBlob_panic (decrypt_torn P (orNil u.creds.key) u.creds.salt hpass h)]
  obtain ⟨i', hi⟩ := pullAll_panic hone _ hx inp
  have : sync P C w v [] push u inp = { session := { u with store := s }, result := .panic, rest := i' } := by
    simp only [sync, hu, ne_eq, not_true, if_false, syncWith, hi]
  rw [this]
  exact ⟨rfl, rfl, rfl⟩

/-- And so every run of the program that starts with a `sync` ends there, and nothing is saved. -/
theorem C116_start_false (P : Prims) (C : Codec) (v v' : Env) (iv : Str) (turns : List Turn) (u : Session) (s : DB)
    (uuid t ct : Str) (hro : u.readOnly = false) (hpass : u.creds.pass ≠ []) (hu : u.store.updateSnapshot = (s, none))
    (hx : uuid ∈ collectSyncs v.w v.v.ord s) (h : Torn (magic 0 ++ t) ct) (hr : AlwaysReads v.w s uuid ct) :
    (session P C true v v' iv turns u).2 = .panic := by
  have hs := (C116_crash_false P C v.w v.v true u v.d.inp s uuid t ct hpass hu hx h hr).1
  have ha : ∃ r, autoSync P C v true { u := u } = (r, .panic) := by
    unfold autoSync
    rw [if_pos ⟨hro, rfl⟩]
    simp only [hs]
    exact ⟨_, rfl⟩
  obtain ⟨r, ha⟩ := ha
  unfold session
  rw [ha]

namespace TornDemo
open SyncDemo (C u w v iv logA logB fileOf)
open Verif.Crypt.Spec (toy toy_lawful)

/-- the second remote was cut off after `k` bytes -/
def cut (k : Nat) : World := { w with readFile := fun uuid _ => if uuid = [97] then .bytes (fileOf logA) else .bytes ((fileOf logB).take k) }

theorem shape : ∃ t, fileOf logB = magic 0 ++ t := ⟨(fileOf logB).drop 16, by decide +kernel⟩
theorem len : (fileOf logB).length = 192 := by decide +kernel

theorem torn (k : Nat) (hk : k < 192) (h : k < 88 ∨ k % 8 ≠ 0) : Torn (fileOf logB) ((fileOf logB).take k) :=
  ⟨k, by rw [len]; exact hk, h, rfl⟩

theorem reads (k : Nat) (s : DB) : AlwaysReads (cut k) s [98] ((fileOf logB).take k) := fun inp => ⟨[], inp, rfl⟩

-- C116: cut off after 100 bytes, the second of two remotes crashes every start of the program
example : (session toy C true { w := cut 100, v := v } {} iv [] u).2 = .panic := by
  obtain ⟨t, ht⟩ := shape
  have h := torn 100 (by decide) (by decide)
  rw [ht] at h
  exact C116_start_false toy C { w := cut 100, v := v } {} iv [] u u.store.updateSnapshot.1 [98] t _ rfl (by decide) rfl
    (by decide +kernel) h (by have := reads 100 u.store.updateSnapshot.1; rwa [ht] at this)

-- after 96 bytes it is skipped; with the whole file there it is merged and the other one sent; with the file removed it is sent
example : (sync toy C (cut 96) v [] true u []).pushed = [] ∧ (sync toy C (cut 96) v [] true u []).result = .ok () := by decide +kernel
example : (sync toy C w v [] true u []).session.store.log = logB := by decide +kernel
example : [98] ∈ (sync toy C { w with readFile := fun uuid _ => if uuid = [97] then .bytes (fileOf logA) else .notFound } v [] true u []).pushed.map Prod.fst := by
  decide +kernel

-- nothing is sent there, either way
example : [98] ∉ (sync toy C (cut 100) v [] true u []).pushed.map Prod.fst :=
  C116_stays_false toy C (cut 100) v [] true u [] [98] _ _ (torn 100 (by decide) (by decide)) (reads 100 _)

-- C116: what a push may leave
example : MayLeave none (fileOf logB) (some []) ∧ MayLeave none (fileOf logB) (some ((fileOf logB).take 100)) := by
  unfold MayLeave; decide +kernel

end TornDemo

end Verif.App
