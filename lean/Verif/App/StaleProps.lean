import Verif.App.StaleLemmas
import Verif.App.TornSpec
import Verif.App.SyncDemo
/-!
# C117: an earlier version put in the place of the file

Whoever keeps a remote cannot read the file but can put back any earlier version of it. `sync` takes nothing over from it: no entry
that was deleted, no old value, no user who was removed, and no old password. And it puts the current file there again, with one
exception: if only the password was changed since, `sync` sees no difference and leaves the old file with the old password where it is.
-/
namespace Verif.App
open Verif Verif.Txlogs Verif.Blob Verif.Crypt Spec
open Verif.Txlogs.Spec (LooksSame)

/-- Merging with any number of earlier versions, whatever their credentials, gives the file here with the credentials here, and asks
nothing. -/
theorem C117_merge (ord : Order) (hord : ∀ m, (ord m).Perm m) (c : Creds) (log : List Tx) (ho : OwnHistory log) (hs : Settled c log)
    (rs : List Remote) (hr : ∀ r ∈ rs, OldCopy log r.log ∧ r.log ≠ log) (inp : Input) :
    mergeBlobs ord c log rs inp = (.ok { creds := c, log := log }, inp) :=
  mergeRemotes_old hord ho hs rs hr inp

theorem old_remotes {P : Prims} {C : Codec} {w : World} {u : Session} {syncs : List Str} {inp i1 : Input} {l : List (Str × Fate × Str)}
    (hold : OnlyOld P C w u) (hl : pullAll P C w { u with store := u.store.updateSnapshot.1 } syncs inp = (some l, i1)) :
    ∀ r ∈ remotes l, OldCopy u.store.log r.log ∧ r.log ≠ u.store.log := by
  intro r hr
  obtain ⟨uuid, h, hm⟩ := (mem_remotes l r).1 hr
  obtain ⟨-, hone⟩ := pullAll_spec P C w _ _ _ _ _ hl
  obtain ⟨i, i', hi⟩ := hone _ hm
  obtain ⟨h1, ct, h2, v, p, pt, h3, h4, h5⟩ := pullOne_changed hi
  refine ⟨hold uuid ct h2 _ _ v p pt _ h3 h4 h5, fun he => ?_⟩
  have hlog := updateSnapshot_log u.store
  rw [he] at h1
  simp only [hlog] at h1
  exact noChanges_looksSame ⟨rfl, rfl, rfl⟩ h1

/-- Whatever `sync` does with earlier versions, and however it ends: the credentials of the session stay, and its history, to which
only lines for known hosts are added. -/
theorem C117_partial (P : Prims) (C : Codec) (w : World) (v : SyncEnv) (hord : ∀ m, (v.ord m).Perm m) (nm : Str) (push : Bool) (u : Session)
    (inp : Input) (ho : OwnHistory u.store.log) (hs : Settled u.creds u.store.log) (hold : OnlyOld P C w u) :
    let r := sync P C w v nm push u inp
    r.session.creds = u.creds ∧ u.store.log <+: r.session.store.log ∧
      ∀ t ∈ r.session.store.log, t ∈ u.store.log ∨ t.kind = .setk ∧ t.key = keyKnownHosts := by
  have hlog := updateSnapshot_log u.store
  rcases sync_cases P C w v nm push u inp with h | ⟨syncs, -, -, -, h⟩
  · obtain ⟨h1, h2, -⟩ := h
    simp only [h1, h2]
    exact ⟨trivial, List.prefix_refl _, fun t ht => .inl ht⟩
  · simp only [h]
    rcases syncWith_cases P C w v push { u with store := u.store.updateSnapshot.1 } syncs inp with ⟨h1, -⟩ | ⟨l, i1, m, i2, h1, h2, h3⟩
    · rw [h1]
      simp only [hlog]
      exact ⟨trivial, List.prefix_refl _, fun t ht => .inl ht⟩
    · simp only [hlog] at h2
      rw [C117_merge v.ord hord u.creds u.store.log ho hs _ (old_remotes hold h1) i1] at h2
      simp only [Prod.mk.injEq, Res.ok.injEq] at h2
      obtain ⟨rfl, rfl⟩ := h2
      rcases h3 with ⟨s, e, h3, h4⟩ | ⟨s, h3, h4⟩
      · have hl2 := updateSnapshot_log ({ u.store.updateSnapshot.1.resetSnapshot with log := u.store.log } : DB)
        rw [h3] at hl2
        rw [h4]
        simp only at hl2 ⊢
        rw [hl2]
        exact ⟨trivial, List.prefix_refl _, fun t ht => .inl ht⟩
      · have hl2 := updateSnapshot_log ({ u.store.updateSnapshot.1.resetSnapshot with log := u.store.log } : DB)
        rw [h3] at hl2
        rw [h4]
        obtain ⟨a, b, -⟩ := pushBack_spec P C w v push (newHosts l []) (targets l) { u with creds := u.creds, store := s } i1
        have c := pushBack_from (P := P) (C := C) (w := w) (v := v) (push := push) (hosts := newHosts l []) (ts := targets l)
          (u := { u with creds := u.creds, store := s }) (inp := i1)
        simp only at hl2 b c
        rw [hl2] at b c
        exact ⟨a, b, c⟩

/-- And the current file is put there again: when a `sync` succeeds, every remote with an earlier version that opens like the file
here was sent the file that saving the session gives. -/
theorem C117_repaired_partial (P : Prims) (C : Codec) (w : World) (v : SyncEnv) (hord : ∀ m, (v.ord m).Perm m) (u : Session) (s : DB)
    (inp : Input) (uuid ct pt : Str) (ver : Int) (p : Params) (old : List Tx) (ho : OwnHistory u.store.log)
    (hs : Settled u.creds u.store.log) (hold : OnlyOld P C w u) (hu : u.store.updateSnapshot = (s, none))
    (hx : uuid ∈ collectSyncs w v.ord s) (hne : uuid ≠ []) (hr : AlwaysReads w s uuid ct)
    (hd : decrypt P u.creds.user u.creds.pass (orNil u.creds.key) u.creds.salt ct = .ok (ver, p, pt)) (hpt : pt ≠ [])
    (hlo : C.loadLog pt = .ok old) (hneq : old ≠ u.store.log) (hok : (sync P C w v [] true u inp).result = .ok ()) :
    uuid ∈ (sync P C w v [] true u inp).pushed.map Prod.fst ∧
    ∃ s1 : DB, u.store.log <+: s1.log ∧
      saveBlob P C v.ord v.ord' v.iv { creds := u.creds, store := s1 } = .ok (some (sync P C w v [] true u inp).sent) := by
  have hlog := updateSnapshot_log u.store
  rw [hu] at hlog
  simp only at hlog
  have hsync : sync P C w v [] true u inp = syncWith P C w v true { u with store := s } (collectSyncs w v.ord s) inp := by
    simp only [sync, hu, ne_eq, not_true, if_false]
  rw [hsync] at hok ⊢
  cases hp : pullAll P C w { u with store := s } (collectSyncs w v.ord s) inp with
  | mk o i1 =>
    cases o with
    | none =>
      unfold syncWith at hok
      rw [hp] at hok
      cases hok
    | some l =>
      obtain ⟨hmap, hone⟩ := pullAll_spec P C w _ _ _ _ _ hp
      have hrem := old_remotes (u := u) hold (by rw [hu]; exact hp)
      have hm := C117_merge v.ord hord u.creds u.store.log ho hs _ hrem i1
      rw [← hlog] at hm
      obtain ⟨h1, h2, s1, h3, -, -, h4⟩ := C27_sent_partial P C w v { u with store := s } _ inp i1 i1 l _ hp hm hok
      refine ⟨?_, s1, by rw [← hlog]; exact h3, h4⟩
      rw [← hmap] at hx
      obtain ⟨⟨x, f, h⟩, hmem, rfl⟩ := List.mem_map.1 hx
      refine h2 x f h hmem ?_ hne
      rintro rfl
      obtain ⟨i, i', hi⟩ := hone _ hmem
      obtain ⟨hh, i2, hpull⟩ := hr i
      simp only at hpull
      have hb : ∀ j, decryptBlob P u.creds ct u.creds.user u.creds.pass j = (.ok (some (u.creds.user, u.creds.pass, p, pt)), j) := by
        intro j
        cases j with
        | nil => simp only [decryptBlob, tryDecrypt, hd]
        | cons a j => cases a <;> simp only [decryptBlob, tryDecrypt, hd]
      have hch : noChanges old s.log = some false := by
        have : OldCopy u.store.log old := by
          refine hold x ct ?_ _ _ ver p pt old hd hpt hlo
          unfold Reads syncEntry
          rw [hu]
          exact ⟨i, hh, i2, hpull⟩
        unfold noChanges
        rw [if_pos]
        rw [hlog]
        obtain ⟨-, e, he⟩ := this
        intro hl
        rw [← he, List.length_append] at hl
        have : e = [] := List.length_eq_zero_iff.1 (by omega)
        rw [this, List.append_nil] at he
        exact hneq he
      unfold pullOne at hi
      simp only [hpull, hb, if_neg hpt, hlo, hch] at hi
      split at hi
      · cases hi
      · cases hi

/-- If the only change since was the password, the two histories look the same, and the old file with the old password stays: `sync`
sends nothing there, whatever is typed. -/
theorem C117_password_false (P : Prims) (C : Codec) (w : World) (v : SyncEnv) (nm : Str) (push : Bool) (u : Session) (inp : Input)
    (uuid : Str) (habs : ¬ Absent w uuid (syncEntry u uuid)) (hsame : SameThere P C w u uuid) :
    uuid ∉ (sync P C w v nm push u inp).pushed.map Prod.fst := by
  intro h
  obtain ⟨⟨x, ok⟩, hx, rfl⟩ := List.mem_map.1 h
  have hlog := updateSnapshot_log u.store
  rcases sync_cases P C w v nm push u inp with h' | ⟨syncs, hs, -, -, h'⟩
  · rw [h'.2.2.2.2.2] at hx; cases hx
  · rw [h'] at hx
    rcases syncWith_cases P C w v push { u with store := u.store.updateSnapshot.1 } syncs inp with
      ⟨h1, h2⟩ | ⟨l, i1, m, i2, h1, h2, h3⟩
    · rw [h2] at hx; cases hx
    · rcases h3 with ⟨s, e, h3, h4⟩ | ⟨s, h3, h4⟩
      · rw [h4] at hx; cases hx
      · rw [h4] at hx
        obtain ⟨-, -, b, -⟩ := pushBack_spec P C w v push (newHosts l []) (targets l) { u with creds := m.creds, store := s } i2
        obtain ⟨ht1, f, hh, ht2, ht3⟩ := (mem_targets _ _).1 (b _ hx)
        obtain ⟨-, hone⟩ := pullAll_spec P C w _ _ _ _ _ h1
        obtain ⟨i, i', hi⟩ := hone _ ht2
        rcases pullOne_fate hi ht3 with ⟨-, h⟩ | ⟨ct, r, rfl, -⟩
        · exact habs h
        · obtain ⟨g1, ct, g2, ver, p, pt, g3, g4, g5⟩ := pullOne_changed hi
          have := hsame ct g2 _ _ ver p pt _ g3 g4 g5
          simp only [hlog] at g1
          exact noChanges_looksSame this g1

namespace StaleDemo
open SyncDemo (C u w v iv logA logB fileOf)
open Verif.Crypt.Spec (toy toy_lawful)
open HistoryDemo (own ownB)

/-- the file here has one operation more than the earlier version that is at both remotes -/
def uB : Session := { u with store := { log := logB } }
def wOld : World := { w with readFile := fun _ _ => .bytes (fileOf logA) }
def C' : Codec := { C with loadLog := fun _ => .ok logA }

theorem ownHistory : OwnHistory uB.store.log := own (by decide +kernel)

theorem settled : Settled uB.creds uB.store.log := by
  have h : users id { log := logB } = ((users id { log := logB }).1, .ok []) := by decide +kernel
  have := users_hasUsers (fun m => .refl _) h
  refine ⟨⟨fun h => absurd rfl h, fun h => absurd rfl (this.2 h)⟩, fun h => absurd rfl h⟩

theorem onlyOld : OnlyOld toy C' wOld uB := by
  intro uuid ct _ user pass ver p pt log _ _ hl
  cases hl
  exact ⟨by decide, [⟨9, .setk, [98], b! "note", [1]⟩], rfl⟩

-- C117: nothing is taken over from the earlier version, and both remotes get the current file
example : (sync toy C' wOld v [] true uB []).session.creds = uB.creds :=
  (C117_partial toy C' wOld v (fun m => .refl _) [] true uB [] ownHistory settled onlyOld).1
example : (sync toy C' wOld v [] true uB []).session.store.log = logB ∧
    (sync toy C' wOld v [] true uB []).pushed = [([97], true), ([98], true)] ∧ (sync toy C' wOld v [] true uB []).sent = fileOf logB := by
  decide +kernel
example : [98] ∈ (sync toy C' wOld v [] true uB []).pushed.map Prod.fst := by
  obtain ⟨p, hp⟩ := SyncDemo.reads
  exact (C117_repaired_partial toy C' wOld v (fun m => .refl _) uB _ [] [98] (fileOf logA) [1] 1 p logA ownHistory settled onlyOld rfl
    (by decide +kernel) (by decide) (fun inp => ⟨[], inp, rfl⟩) hp (by decide) rfl (by decide) (by decide +kernel)).1

/-- the password was changed, and nothing else -/
def uNew : Session := { u with creds := { u.creds with pass := [2], key := List.replicate 80 2, salt := List.replicate 32 2 } }

-- whatever is typed, also the old password, nothing is sent to the remotes, which hold the file for the old password
example (inp : Input) : [97] ∉ (sync toy C' wOld v [] true uNew inp).pushed.map Prod.fst := by
  refine C117_password_false toy C' wOld v [] true uNew inp [97] ?_ ?_
  · rintro ⟨i, h, i', hp⟩
    simp (decide := true) only [pullBlob, wOld, w, if_true, if_false] at hp
    cases hp
  · intro ct _ user pass ver p pt log _ _ hl
    cases hl
    exact ⟨rfl, rfl, rfl⟩
example : (sync toy C' wOld v [] true uNew [some [1], some [1]]).pushed = [] ∧
    (sync toy C' wOld v [] true uNew [some [1], some [1]]).result = .ok () := by decide +kernel

end StaleDemo

end Verif.App
