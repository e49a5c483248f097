import Verif.App.NetFleetProps
/-!
# What `sync` overwrites: C94
-/
set_option linter.unusedSimpArgs false
namespace Verif.App
open Verif Verif.Txlogs Verif.Blob Verif.Crypt Verif.App.Spec
open Verif.Crypt.Spec (toy toy_lawful)

theorem updateSnapshot_done {s s' : DB} (h : s.updateSnapshot = (s', none)) : s'.version ≥ s'.log.length := by
  unfold DB.updateSnapshot at h
  split at h
  · rename_i hv; cases h; exact hv
  · rename_i hv
    rcases updateLoop_spec (s.log.drop s.version) s.version s.snapshot with ⟨x, -, h4⟩ | ⟨e, n, x, -, -, -, -, h7⟩
    · rw [h4] at h
      cases h
      simp only [List.length_drop]
      omega
    · rw [h7] at h
      cases h

theorem hostOps_url {x k : Str} (hk : k ≠ keyKnownHosts) : ∀ (txs : List Tx) (v : Nat) (snap : Snapshot), (∀ t ∈ txs, HostOp t) →
    val (((DB.updateLoop txs v snap).2.1.get? x).getD []) k = val ((snap.get? x).getD []) k
  | [], _, _, _ => rfl
  | t :: txs, v, snap, h => by
    simp only [DB.updateLoop]
    obtain ⟨h1, h2⟩ := h t (by simp)
    cases ha : applyTx snap t with
    | error e => rfl
    | ok snap' =>
      simp only
      rw [hostOps_url hk txs (v + 1) snap' (fun t ht => h t (by simp [ht]))]
      unfold applyTx at ha
      rw [h1] at ha
      simp only [getEntry] at ha
      cases hg : snap.get? t.uuid with
      | none => rw [hg] at ha; cases ha
      | some en =>
        rw [hg] at ha
        simp only [Except.ok.injEq] at ha
        rw [← ha, GoMap.get?_set]
        by_cases hx : x = t.uuid
        · subst hx
          rw [if_pos rfl, hg]
          simp only [Option.getD_some, val]
          rw [h2, GoMap.get?_set, if_neg hk]
        · rw [if_neg hx]

/-- `saveHosts` changes nothing but known hosts. -/
theorem saveHosts_url {now : Nat → Int} {s s' : DB} {hs : List (Str × Str)} {e : Option TxErr} (hv : s.version ≥ s.log.length)
    (h : saveHosts now s hs = (s', e)) {x k : Str} (hk : k ≠ keyKnownHosts) :
    val ((s'.snapshot.get? x).getD []) k = val ((s.snapshot.get? x).getD []) k := by
  obtain ⟨h1, h2, txs, h3, -, h5⟩ := saveHostsLoop_ops hs now s
  unfold saveHosts DB.updateSnapshot at h
  split at h
  · cases h; rw [h1]
  · cases h
    simp only
    rw [h1, h2, h3]
    refine hostOps_url hk _ _ _ fun t ht => h5 t ?_
    have : (s.log ++ txs).drop s.version = txs.drop (s.version - s.log.length) := by
      rw [List.drop_append, List.drop_of_length_le hv, List.nil_append]
    rw [this] at ht
    exact List.mem_of_mem_drop ht

theorem mem_pushAll {w : World} {s : DB} {ct : Str} : ∀ (ts : List Str) (m : Results) (inp : Input) (x : Str × Bool),
    x ∈ (pushAll w s ct ts m inp).1 → ∃ i h i', pushBlob w x.1 ((s.snapshot.get? x.1).getD []) ct i = (some (x.2, h), i')
  | [], _, _, x, h => by cases h
  | y :: ts, m, inp, x, h => by
    simp only [pushAll] at h
    cases hp : pushBlob w y ((s.snapshot.get? y).getD []) ct inp with
    | mk a i =>
      rw [hp] at h
      cases a with
      | none => cases h
      | some q =>
        obtain ⟨ok, hh⟩ := q
        simp only [List.mem_cons] at h
        rcases h with rfl | h
        · exact ⟨_, _, _, hp⟩
        · exact mem_pushAll ts _ _ x h

theorem pushBack_target {P : Prims} {C : Codec} {w : World} {v : SyncEnv} {push : Bool} {hosts : Results} {ts : List Str} {u : Session}
    {inp : Input} {x : Str × Bool} (h : x ∈ (pushBack P C w v push hosts ts u inp).pushed) :
    ∃ (e : Entry) (i : Input) (hh : Str) (i' : Input), pushBlob w x.1 e (pushBack P C w v push hosts ts u inp).sent i = (some (x.2, hh), i') ∧
      ∀ k, k ≠ keyKnownHosts →
        val e k = val (((pushBack P C w v push hosts ts u inp).session.store.snapshot.get? x.1).getD []) k := by
  unfold pushBack at h ⊢
  cases hs : saveHosts v.now u.store (v.ordH hosts) with
  | mk s e =>
    rw [hs] at h
    cases e with
    | some e => cases h
    | none =>
      have hv := updateSnapshot_done (s := saveHostsLoop v.now u.store (v.ordH hosts)) hs
      have hnop : s.updateSnapshot = (s, none) := by simp [DB.updateSnapshot, hv]
      have hst := sealFile_store P C v.ord v.ord' v.iv u.creds hnop
      simp only at h ⊢
      by_cases hp : push = false
      · rw [if_pos hp] at h; cases h
      · rw [if_neg hp] at h
        rw [if_neg hp]
        cases hf : sealFile P C v.ord v.ord' v.iv u.creds s with
        | mk s1 r =>
          rw [hf] at h hst
          simp only at hst
          subst hst
          cases r with
          | panic => cases h
          | err e => cases h
          | ok ct =>
            simp only at h ⊢
            cases hpa : pushAll w s1 ct ts [] inp with
            | mk done q =>
              obtain ⟨crash, m, i2⟩ := q
              have hmem := mem_pushAll (w := w) (s := s1) (ct := ct) ts [] inp x
              rw [hpa] at h hmem
              cases crash with
              | true =>
                obtain ⟨i, hh, i', a⟩ := hmem h
                exact ⟨_, i, hh, i', a, fun _ _ => rfl⟩
              | false =>
                simp only at h ⊢
                cases hs2 : saveHosts v.now' s1 (v.ordH m) with
                | mk s2 e2 =>
                  rw [hs2] at h
                  cases e2 with
                  | some e =>
                    obtain ⟨i, hh, i', a⟩ := hmem h
                    exact ⟨_, i, hh, i', a, fun k hk => (saveHosts_url hv hs2 hk).symm⟩
                  | none =>
                    obtain ⟨i, hh, i', a⟩ := hmem h
                    exact ⟨_, i, hh, i', a, fun k hk => (saveHosts_url hv hs2 hk).symm⟩

/-- Where `sync` pushes to: to the remote as the entry says after the merge, except for its known hosts. -/
theorem C94_target (P : Prims) (C : Codec) (w : World) (v : SyncEnv) (nm : Str) (push : Bool) (u : Session) (inp : Input)
    (uuid : Str) (ok : Bool) (h : (uuid, ok) ∈ (sync P C w v nm push u inp).pushed) :
    ∃ (e : Entry) (i : Input) (hh : Str) (i' : Input), pushBlob w uuid e (sync P C w v nm push u inp).sent i = (some (ok, hh), i') ∧
      ∀ k, k ≠ keyKnownHosts →
        val e k = val (((sync P C w v nm push u inp).session.store.snapshot.get? uuid).getD []) k := by
  rcases sync_cases P C w v nm push u inp with h' | ⟨syncs, hs, -, -, h'⟩
  · rw [h'.2.2.2.2.2] at h; cases h
  · rw [h'] at h ⊢
    rcases syncWith_cases P C w v push { u with store := u.store.updateSnapshot.1 } syncs inp with
      ⟨h1, h2⟩ | ⟨l, i1, m, i2, h1, h2, h3⟩
    · rw [h2] at h; cases h
    · rcases h3 with ⟨s, e, h3, h4⟩ | ⟨s, h3, h4⟩
      · rw [h4] at h; cases h
      · rw [h4] at h ⊢
        exact pushBack_target h

/-- If the address of the remote did not change in the merge, `sync` writes to the address it has read from, where there was nothing
or something that it could decrypt and parse. -/
theorem C94_partial (P : Prims) (C : Codec) (w : World) (v : SyncEnv) (nm : Str) (push : Bool) (u : Session) (inp : Input)
    (uuid : Str) (ok : Bool) (h : (uuid, ok) ∈ (sync P C w v nm push u inp).pushed)
    (hurl : val (((sync P C w v nm push u inp).session.store.snapshot.get? uuid).getD []) keyURL = val (syncEntry u uuid) keyURL) :
    ∃ (e : Entry) (i : Input) (hh : Str) (i' : Input), pushBlob w uuid e (sync P C w v nm push u inp).sent i = (some (ok, hh), i') ∧
      val e keyURL = val (syncEntry u uuid) keyURL ∧
      (Absent w uuid (syncEntry u uuid) ∨ ∃ ct, Reads w uuid (syncEntry u uuid) ct ∧ Understood P C u.creds ct) := by
  obtain ⟨e, i, hh, i', h1, h2⟩ := C94_target P C w v nm push u inp uuid ok h
  exact ⟨e, i, hh, i', h1, (h2 keyURL (by decide)).trans hurl, (C26_pushed P C w v nm push u inp uuid ok h).2.2⟩

/-- The same for remotes that are files: the file at the path that is written was absent, or read, decrypted and parsed. -/
theorem C94_file_partial (P : Prims) (C : Codec) (o : Outside) (v : SyncEnv) (nm : Str) (push : Bool) (u : Session) (inp : Input)
    (uuid : Str) (ok : Bool) (h : (uuid, ok) ∈ (sync P C (netWorld o) v nm push u inp).pushed)
    (hf : (netWorld o).scheme (val (syncEntry u uuid) keyURL) = some syncFile)
    (hurl : val (((sync P C (netWorld o) v nm push u inp).session.store.snapshot.get? uuid).getD []) keyURL =
      val (syncEntry u uuid) keyURL) :
    ∃ path, ok = o.write path (sync P C (netWorld o) v nm push u inp).sent ∧
      (o.read path = .notFound ∨ ∃ ct, o.read path = .bytes ct ∧ Understood P C u.creds ct) := by
  obtain ⟨e, i, hh, i', h1, h2, h3⟩ := C94_partial P C (netWorld o) v nm push u inp uuid ok h hurl
  have hne : ¬ syncFile = syncSCP := by decide
  have hp : filePath e = filePath (syncEntry u uuid) := by unfold filePath; rw [h2]
  unfold pushBlob at h1
  rw [h2, hf] at h1
  simp only [if_neg hne, if_true, Prod.mk.injEq, Option.some.injEq] at h1
  refine ⟨filePath e, h1.1.1.symm, ?_⟩
  have hpull : ∀ inp, pullBlob (netWorld o) uuid (syncEntry u uuid) inp = (some (o.read (filePath e), []), inp) := by
    intro inp
    unfold pullBlob
    rw [hf]
    simp only [if_neg hne, if_true]
    rw [hp]
    rfl
  rcases h3 with ⟨a, b, c, h3⟩ | ⟨ct, ⟨a, b, c, h3⟩, h4⟩
  · rw [hpull] at h3
    cases h3' : o.read (filePath e) <;> rw [h3'] at h3 <;> first | exact .inl rfl | (cases h3; done)
  · rw [hpull] at h3
    simp only [Prod.mk.injEq, Option.some.injEq] at h3
    exact .inr ⟨ct, h3.1.1, h4⟩

/-! ## A remote that moved -/

namespace MovedDemo
open SyncDemo (iv)

/-- the remote as it was -/
def log0 : List Tx :=
  [⟨1, .add, [97], [], []⟩, ⟨2, .setk, [97], keyName, b! "sync/a"⟩, ⟨3, .setk, [97], keySync, b! "true"⟩,
   ⟨4, .setk, [97], keyURL, b! "file:///a"⟩]
/-- another machine moved it to `/b`, and left this in the old place -/
def logA : List Tx := log0 ++ [⟨5, .setk, [97], keyURL, b! "file:///b"⟩]
/-- and went on from there -/
def logB : List Tx := logA ++ [⟨6, .add, [1], [], []⟩, ⟨7, .setk, [1], keyName, b! "bank"⟩]

def C : Codec where
  marshal s := if s.log = log0 then [1] else if s.log = logA then [2] else [3]
  load t := .ok (some { log := if t = [1] then log0 else if t = [2] then logA else logB })
  loadLog t := .ok (if t = [1] then log0 else if t = [2] then logA else logB)

def u : Session :=
  { creds := { pass := [1], key := List.replicate 80 1, salt := List.replicate 32 1 }, store := { log := log0 } }

def fileOf (log : List Tx) : Str :=
  match saveBlob toy C id id iv { u with store := { log := log } } with
  | .ok (some f) => f
  | _ => []

def o : Outside where
  net _ := none
  sha := id
  parseKey := some
  read p := if p = b! "/a" then .bytes (fileOf logA) else if p = b! "/b" then .bytes (fileOf logB) else .notFound
  write _ _ := true

def v : SyncEnv := { iv := iv }

theorem opens (log : List Tx) (t : UInt8) (h : SyncDemo.text (decrypt toy u.creds.user u.creds.pass (orNil u.creds.key) u.creds.salt (fileOf log)) = some (1, [t])) :
    ∃ p, decrypt toy u.creds.user u.creds.pass (orNil u.creds.key) u.creds.salt (fileOf log) = .ok (1, p, [t]) :=
  SyncDemo.text_some h

end MovedDemo

open MovedDemo in
set_option maxRecDepth 1000000 in
/-- `sync` overwrites files it has not read: if the merge changes the address of the remote, it reads the file at the old address and
writes the one at the new address. What others did there is gone. -/
theorem C94_false : ¬ ∀ (P : Prims) (C : Codec) (o : Outside) (v : SyncEnv) (u : Session) (inp : Input) (uuid ct : Str) (log : List Tx),
    Crypt.Spec.Lawful P → (∀ m, (v.ord m).Perm m) →
    (sync P C (netWorld o) v [] true u inp).result = .ok () → (uuid, true) ∈ (sync P C (netWorld o) v [] true u inp).pushed →
    o.read (filePath (((sync P C (netWorld o) v [] true u inp).session.store.snapshot.get? uuid).getD [])) = .bytes ct →
    (∃ p pt, decrypt P u.creds.user u.creds.pass (orNil u.creds.key) u.creds.salt ct = .ok (1, p, pt) ∧ C.loadLog pt = .ok log) →
    u.store.log <+: log →
    ∀ t ∈ log, t ∈ (sync P C (netWorld o) v [] true u inp).session.store.log := by
  intro h
  obtain ⟨p, hp⟩ := opens logB 3 (by decide +kernel)
  have := h toy C o v u [] [97] (fileOf logB) logB toy_lawful (fun m => .refl _) (by decide +kernel) (by decide +kernel) (by decide +kernel)
    ⟨p, _, hp, rfl⟩ ⟨logB.drop 4, by decide +kernel⟩ ⟨6, .add, [1], [], []⟩ (by decide)
  revert this
  decide +kernel

namespace MovedDemo

-- without the move the file is read and written in its place
def logN : List Tx := log0 ++ [⟨5, .setk, [97], b! "note", [1]⟩]
def CN : Codec where
  marshal s := if s.log = log0 then [1] else [2]
  load t := .ok (some { log := if t = [1] then log0 else logN })
  loadLog t := .ok (if t = [1] then log0 else logN)
def oN : Outside := { o with read := fun p => if p = b! "/a" then .bytes (fileOf logA) else .notFound }

example := C94_file_partial toy CN oN v [] true u [] [97] true (by decide +kernel) (by decide +kernel) (by decide +kernel)
example := C94_target toy C (netWorld o) v [] true u [] [97] true (by decide +kernel)

end MovedDemo

end Verif.App
