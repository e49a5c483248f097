import Verif.App.NetProps
import Verif.App.KeepProps
import Verif.App.HistoryLemmas3
/-!
# Lemmas about the known hosts of a sync entry
-/
set_option linter.unusedSimpArgs false
namespace Verif.App
open Verif Verif.Txlogs Verif.Blob Verif.Crypt Verif.App.Spec

theorem split_join_snoc (sep : UInt8) (l : List Str) (x : Str) (h : ∀ y ∈ l, sep ∉ y) :
    Verif.split sep (join sep (l ++ [x])) = l ++ Verif.split sep x := by
  induction l with
  | nil => rfl
  | cons y l ih =>
    rw [List.cons_append, join_cons_ne _ _ (by simp), split_append_sep, split_of_notMem sep y (h y (by simp)),
      ih (fun z hz => h z (by simp [hz]))]
    rfl

/-- what is on record stays on record when a line is added -/
theorem onRecord_append {sha : Str → Str} {known address : Str} {s : Server} (line : Str) (h : OnRecord sha known address s) :
    OnRecord sha (appendHost known line) address s := by
  obtain ⟨l, a, rest, ⟨pre, post, h1, h2, h3⟩, h4⟩ := h
  unfold appendHost
  by_cases hk : known = []
  · subst hk
    cases pre with
    | nil =>
      simp only [split, List.nil_append, List.cons.injEq] at h1
      rw [← h1.1] at h4
      simp [split] at h4
    | cons x pre => simp [split] at h1
  · rw [if_neg hk]
    refine ⟨l, a, rest, ⟨pre, post ++ split newline line, ?_, h2, h3⟩, h4⟩
    rw [split_join_snoc _ _ _ (split_notMem newline known), h1]
    simp

/-- a line that was added where there was none is on record -/
theorem onRecord_new {sha : Str → Str} {known address : Str} {s : Server} (hp : Plain (hostKey address s)) (h : Unknown known address) :
    OnRecord sha (appendHost known (hostLine sha (hostKey address s))) address s := by
  have hs := split_hostLine sha (hostKey address s) hp
  refine ⟨hostLine sha (hostKey address s), s.addr, [], ?_, hs⟩
  unfold KnownLine
  rw [split_appendHost _ _ (newline_hostLine sha _ hp)]
  split
  · exact ⟨[], [], rfl, by rw [hs]; rfl, by simp⟩
  · exact ⟨split newline known, [], rfl, by rw [hs]; rfl, h⟩

/-- a server on record is not asked about -/
theorem dial_quiet {o : Outside} {c : SshConfig} {known : Str} {s : Server} (hs : o.net c.address = some s)
    (h : OnRecord o.sha known c.address s) (inp : Input) :
    (dial o c known inp).rest = inp ∧ (dial o c known inp).host = [] := by
  obtain ⟨line, a, rest, h1, h2⟩ := h
  have := (C28_known o.sha known (hostKey c.address s) inp line a s.keyType (hexEncode (o.sha s.key)) rest h1 h2).1 ⟨rfl, rfl⟩
  unfold dial
  rw [hs]
  simp only
  split
  · exact ⟨rfl, rfl⟩
  · rw [this]; exact ⟨rfl, rfl⟩

theorem ssh_quiet {o : Outside} {e : Entry} {c : SshConfig} {s : Server} (hc : sshConfig o.parseKey e = .ok c)
    (hs : o.net c.address = some s) (h : OnRecord o.sha (val e keyKnownHosts) c.address s) (ct : Str) (inp : Input) :
    (sshPull o e inp).rest = inp ∧ (sshPull o e inp).host = [] ∧ (sshPush o e ct inp).rest = inp ∧ (sshPush o e ct inp).host = [] := by
  obtain ⟨h1, h2⟩ := dial_quiet hs h inp
  unfold sshPull sshPush
  rw [hc]
  simp only
  refine ⟨?_, ?_, ?_, ?_⟩
  · split <;> exact h1
  · split <;> exact h2
  · split <;> exact h1
  · split
    · rfl
    · rfl
    · simp only; split
      · exact h2
      · rfl

/-! ## `saveHosts` -/

/-- as `saveHostsLoop_meaning`, for a log that can be replayed afterwards -/
theorem saveHostsLoop_added (hs : List (Str × Str)) : ∀ (now : Nat → Int) (s : DB) (st st' : Txlogs.Spec.State),
    (hs.map Prod.fst).Nodup → Txlogs.Spec.meaning Txlogs.Spec.empty s.log = some st →
    Txlogs.Spec.meaning Txlogs.Spec.empty (saveHostsLoop now s hs).log = some st' → HostsAdded s.snapshot hs st st' := by
  intro now s st st' hn hm hm'
  have hex : ∀ u ∈ hs.map Prod.fst, (st u).isSome := by
    clear hn
    induction hs generalizing now s st with
    | nil => simp
    | cons p hs ih =>
      obtain ⟨u, h⟩ := p
      simp only [saveHostsLoop] at hm'
      cases he : st u with
      | none =>
        exfalso
        obtain ⟨-, -, txs, h5, -⟩ := saveHostsLoop_snapshot (fun i => now (i + 1)) (s.setKey (now 0) u keyKnownHosts
          (appendHost (val ((s.snapshot.get? u).getD []) keyKnownHosts) h)) hs
        rw [h5, meaning_append] at hm'
        have hnone : Txlogs.Spec.meaning Txlogs.Spec.empty (s.setKey (now 0) u keyKnownHosts
            (appendHost (val ((s.snapshot.get? u).getD []) keyKnownHosts) h)).log = none := by
          simp only [DB.setKey, DB.appendLog, meaning_snoc, hm, Option.bind_some, Txlogs.Spec.apply, he]
        rw [hnone] at hm'
        cases hm'
      | some e =>
        have hm1 : Txlogs.Spec.meaning Txlogs.Spec.empty (s.setKey (now 0) u keyKnownHosts
            (appendHost (val ((s.snapshot.get? u).getD []) keyKnownHosts) h)).log =
            some (Txlogs.Spec.upd st u (some (Txlogs.Spec.upd e keyKnownHosts
              (some (appendHost (val ((s.snapshot.get? u).getD []) keyKnownHosts) h))))) := by
          simp only [DB.setKey, DB.appendLog, meaning_snoc, hm, Option.bind_some, Txlogs.Spec.apply, he]
        have := ih (fun i => now (i + 1)) _ _ hm1 hm'
        intro v hv
        simp only [List.map_cons, List.mem_cons] at hv
        by_cases hvu : v = u
        · subst hvu; rw [he]; rfl
        · have h2 := this v (hv.resolve_left hvu)
          simpa only [Txlogs.Spec.upd, if_neg hvu] using h2
  obtain ⟨st1, h1, h2⟩ := saveHostsLoop_meaning hs now s st hn hm hex
  rw [h1] at hm'
  cases hm'
  exact h2

theorem fresh_done {s s' : DB} (h : Ok s) (hu : s.updateSnapshot = (s', none)) : Fresh s' ∧ s'.log = s.log := by
  rcases updateSnapshot_spec h.coh with ⟨snap, -, h2⟩ | ⟨e, n, snap, -, -, -, -, h2, -⟩
  · have ho := ok_update h
    rw [hu] at h2
    cases h2
    rw [hu] at ho
    exact ⟨⟨ho, rfl⟩, rfl⟩
  · rw [hu] at h2; cases h2

/-- what the new known hosts of an entry are -/
def addedTo (hs : Results) (uuid known : Str) : Str :=
  match GoMap.get? hs uuid with
  | none => known
  | some h => appendHost known h

/-- after `saveHosts`, each entry is what it was, but for its known hosts -/
theorem saveHosts_entry {now : Nat → Int} {s s' : DB} {hs : Results} (hf : Fresh s) (hn : (hs.map Prod.fst).Nodup)
    (h : saveHosts now s hs = (s', none)) :
    Fresh s' ∧ ∀ uuid e', s'.snapshot.get? uuid = some e' → ∃ e, s.snapshot.get? uuid = some e ∧
      val e' keyKnownHosts = addedTo hs uuid (val e keyKnownHosts) ∧ ∀ k, k ≠ keyKnownHosts → e'.get? k = e.get? k := by
  obtain ⟨h3, h4, txs, h5, -⟩ := saveHostsLoop_snapshot now s hs
  have hok : Ok (saveHostsLoop now s hs) := ok_append hf.1 h5 h4 h3
  unfold saveHosts at h
  obtain ⟨hf', hl⟩ := fresh_done hok h
  have hm := hf.meaning
  have hm' := hf'.meaning
  rw [hl] at hm'
  have ha := saveHostsLoop_added hs now s _ _ hn hm hm'
  refine ⟨hf', ?_⟩
  intro uuid e' he'
  have h1 := ha uuid
  simp only [Txlogs.Spec.view, he', Option.map_some] at h1
  cases he : s.snapshot.get? uuid with
  | none =>
    rw [he] at h1
    exfalso
    split at h1 <;> cases h1
  | some e =>
    rw [he] at h1
    refine ⟨e, rfl, ?_⟩
    unfold addedTo
    cases hg : GoMap.get? hs uuid with
    | none =>
      rw [hg] at h1
      simp only [Option.map_some, Option.some.injEq] at h1
      refine ⟨?_, fun k _ => congrFun h1 k⟩
      unfold val
      rw [show e'.get? keyKnownHosts = e.get? keyKnownHosts from congrFun h1 _]
    | some x =>
      rw [hg] at h1
      simp only [Option.map_some, Option.some.injEq, Option.getD_some] at h1
      refine ⟨?_, ?_⟩
      · have := congrFun h1 keyKnownHosts
        simp only [Txlogs.Spec.upd, if_true] at this
        simp only [val, this, Option.getD_some]
      · intro k hk
        have := congrFun h1 k
        simpa only [Txlogs.Spec.upd, if_neg hk] using this

theorem newHosts_nodup : ∀ (l : List (Str × Fate × Str)) (m : Results), GoMap.NodupKeys m → GoMap.NodupKeys (newHosts l m)
  | [], _, h => h
  | (uuid, _, x) :: l, m, h => by
    simp only [newHosts]
    refine newHosts_nodup l _ ?_
    split
    · exact h
    · exact GoMap.nodupKeys_set h _ _

theorem pushAll_nodup (w : World) (s : DB) (ct : Str) : ∀ (ts : List Str) (m : Results) (inp : Input), GoMap.NodupKeys m →
    GoMap.NodupKeys (pushAll w s ct ts m inp).2.2.1
  | [], m, inp, h => h
  | uuid :: ts, m, inp, h => by
    simp only [pushAll]
    split
    · exact h
    · rename_i ok x i _
      have := pushAll_nodup w s ct ts (if x = [] then m else m.set uuid x) i (by
        split
        · exact h
        · exact GoMap.nodupKeys_set h _ _)
      simpa using this

theorem perm_keys {m m' : Results} (hp : m'.Perm m) (h : GoMap.NodupKeys m) : (m'.map Prod.fst).Nodup :=
  (hp.map Prod.fst).nodup_iff.2 h

/-- what `pushBack` leaves of an entry: its known hosts were added to, with the accepted line first; the rest is as it was -/
theorem pushBack_entry {P : Prims} {C : Codec} {w : World} {v : SyncEnv} {push : Bool} {hosts : Results} {ts : List Str} {u : Session}
    {inp : Input} (hord : ∀ r, (v.ordH r).Perm r) (hf : Fresh u.store) (hn : GoMap.NodupKeys hosts)
    (hok : (pushBack P C w v push hosts ts u inp).result = .ok ()) {uuid : Str} {e' : Entry}
    (he' : (pushBack P C w v push hosts ts u inp).session.store.snapshot.get? uuid = some e') :
    ∃ e more, u.store.snapshot.get? uuid = some e ∧
      val e' keyKnownHosts = addedTo more uuid (addedTo hosts uuid (val e keyKnownHosts)) ∧
      ∀ k, k ≠ keyKnownHosts → e'.get? k = e.get? k := by
  have hsame : ∀ known, addedTo (v.ordH hosts) uuid known = addedTo hosts uuid known := by
    intro known
    have : GoMap.get? (v.ordH hosts) uuid = GoMap.get? hosts uuid := by
      apply Option.ext
      intro x
      rw [← GoMap.mem_iff_get? (m := v.ordH hosts) (perm_keys (hord _) hn), ← GoMap.mem_iff_get? hn]
      exact (hord hosts).mem_iff
    unfold addedTo
    rw [this]
  unfold pushBack at hok he'
  split at hok
  · cases hok
  · rename_i s1 h1
    rw [h1] at he'
    simp only at he'
    obtain ⟨hf1, hent⟩ := saveHosts_entry hf (perm_keys (hord _) hn) h1
    split at hok
    · rename_i hp
      rw [if_pos hp] at he'
      obtain ⟨e, a, b, c⟩ := hent _ _ he'
      exact ⟨e, [], a, by rw [b, hsame]; rfl, c⟩
    · rename_i hp
      rw [if_neg hp] at he'
      have hup : s1.updateSnapshot = (s1, none) := by
        rcases updateSnapshot_spec hf1.coh with ⟨snap, -, h2⟩ | ⟨e, n, snap, h2, -⟩
        · have h3 := update_fresh hf1
          rw [h2] at h3
          rw [h2, ← h3]
        · rw [hf1.meaning] at h2; cases h2
      have hst := sealFile_store P C v.ord v.ord' v.iv u.creds hup
      split at hok
      · cases hok
      · cases hok
      · rename_i s2 ct h2
        rw [h2] at he' hst
        simp only at he' hst
        subst hst
        have hnd := pushAll_nodup w s2 ct ts [] inp GoMap.nodupKeys_nil
        split at hok
        · cases hok
        · rename_i done more i h3
          rw [h3] at he' hnd
          simp only at he' hnd
          split at hok
          · cases hok
          · rename_i s3 h4
            rw [h4] at he'
            simp only at he'
            obtain ⟨-, hent'⟩ := saveHosts_entry hf1 (perm_keys (hord _) hnd) h4
            obtain ⟨e1, a1, b1, c1⟩ := hent' _ _ he'
            obtain ⟨e, a, b, c⟩ := hent _ _ a1
            exact ⟨e, v.ordH more, a, by rw [b1, b, hsame], fun k hk => (c1 k hk).trans (c k hk)⟩

/-- a new line of the pull loop comes from the server of the entry -/
theorem pullOne_host {P : Prims} {C : Codec} {o : Outside} {u : Session} {uuid : Str} {inp inp' : Input} {f : Fate} {h : Str}
    (hp : pullOne P C (netWorld o) u uuid inp = (some (f, h), inp')) (hne : h ≠ []) :
    (sshPull o ((u.store.snapshot.get? uuid).getD []) inp).host = h := by
  have key : ∀ p i, pullBlob (netWorld o) uuid ((u.store.snapshot.get? uuid).getD []) inp = (some (p, h), i) →
      (sshPull o ((u.store.snapshot.get? uuid).getD []) inp).host = h := by
    intro p i hb
    unfold pullBlob at hb
    split at hb
    · cases hb
    · split at hb
      · simp only [netWorld, Prod.mk.injEq] at hb
        obtain ⟨hb, -⟩ := hb
        cases ho : (sshPull o ((u.store.snapshot.get? uuid).getD []) inp).out with
        | none => rw [ho] at hb; cases hb
        | some q => rw [ho] at hb; simp only [Option.map_some, Option.some.injEq, Prod.mk.injEq] at hb; exact hb.2
      · split at hb
        · cases hb; exact absurd rfl hne
        · cases hb; exact absurd rfl hne
  unfold pullOne at hp
  simp only at hp
  split at hp
  · cases hp
  · rename_i hb; cases hp; exact key _ _ hb
  · rename_i hb; cases hp; exact key _ _ hb
  · rename_i ct h1 i1 hb
    have hh : h1 = h := by
      split at hp
      · cases hp
      · cases hp; rfl
      · cases hp; rfl
      · split at hp
        · cases hp; rfl
        · split at hp
          · cases hp
          · cases hp; rfl
          · split at hp
            · cases hp
            · cases hp; rfl
            · split at hp
              · cases hp; rfl
              · cases hp
    subst hh
    exact key _ _ hb

end Verif.App
