import Verif.App.Hosts
import Verif.Blob.Lemmas2
/-!
# Properties of the host key check: C28, C29

`sha` stands for SHA-256 and is an arbitrary function: "another key" is another key type or another hash of the key; two
different keys with the same hash would be a collision of `sha`.
-/
set_option linter.unusedSimpArgs false
namespace Verif.App
open Verif Verif.Txlogs Verif.Blob

/-! ## Vocabulary -/

/-- `line` is the first of the stored lines whose first word is `host`. -/
def FirstLineFor (known host line : Str) : Prop :=
  ∃ pre post, split newline known = pre ++ line :: post ∧ (split space line).head? = some host ∧
    ∀ l ∈ pre, (split space l).head? ≠ some host

/-- no stored line is about `host` -/
def NoLineFor (known host : Str) : Prop :=
  ∀ l ∈ split newline known, (split space l).head? ≠ some host

/-- host name, address and key type contain no white space (they come from the ssh library) -/
def Plain (k : HostKey) : Prop :=
  ∀ s ∈ [k.hostname, k.addr, k.keyType], space ∉ s ∧ newline ∉ s

/-! ## Helper lemmas -/

theorem checkKnown_skip (sha : Str → Str) (k : HostKey) (pre rest : List Str)
    (h : ∀ l ∈ pre, (split space l).head? ≠ some k.hostname) :
    checkKnown sha k (pre ++ rest) = checkKnown sha k rest := by
  induction pre with
  | nil => rfl
  | cons l pre ih =>
    simp only [List.cons_append, checkKnown]
    rw [if_pos (h l (by simp))]
    exact ih (fun x hx => h x (by simp [hx]))

theorem checkKnown_none (sha : Str → Str) (k : HostKey) (ls : List Str)
    (h : ∀ l ∈ ls, (split space l).head? ≠ some k.hostname) : checkKnown sha k ls = .ok false := by
  have := checkKnown_skip sha k ls [] h
  simpa [checkKnown] using this

theorem checkKnown_hit (sha : Str → Str) (k : HostKey) (line : Str) (post : List Str) (a t h : Str)
    (rest : List Str) (hl : split space line = k.hostname :: a :: t :: h :: rest) :
    checkKnown sha k (line :: post) =
      if t ≠ k.keyType then .err .typeChanged else if h ≠ keyHash sha k then .err .keyChanged else .ok true := by
  simp [checkKnown, hl]

theorem first_or_none (known host : Str) : NoLineFor known host ∨ ∃ line, FirstLineFor known host line := by
  unfold NoLineFor FirstLineFor
  generalize split newline known = ls
  induction ls with
  | nil => left; simp
  | cons l ls ih =>
    by_cases h : (split space l).head? = some host
    · right; exact ⟨l, [], ls, rfl, h, by simp⟩
    · rcases ih with ih | ⟨line, pre, post, h1, h2, h3⟩
      · left
        intro x hx
        rcases List.mem_cons.1 hx with rfl | hx
        · exact h
        · exact ih x hx
      · right
        refine ⟨line, l :: pre, post, by simp [h1], h2, ?_⟩
        intro x hx
        rcases List.mem_cons.1 hx with rfl | hx
        · exact h
        · exact h3 x hx

theorem keyHash_plain (sha : Str → Str) (k : HostKey) : space ∉ keyHash sha k ∧ newline ∉ keyHash sha k := by
  constructor <;> intro h <;> have := hexEncode_range _ _ h <;> revert this <;> decide

theorem split_hostLine (sha : Str → Str) (k : HostKey) (hp : Plain k) :
    split space (hostLine sha k) = [k.hostname, k.addr, k.keyType, keyHash sha k] := by
  refine split_join space _ (by simp) ?_
  intro x hx
  simp only [List.mem_cons, List.not_mem_nil, or_false] at hx
  rcases hx with rfl | rfl | rfl | rfl
  · exact (hp _ (by simp)).1
  · exact (hp _ (by simp)).1
  · exact (hp _ (by simp)).1
  · exact (keyHash_plain sha k).1

theorem newline_hostLine (sha : Str → Str) (k : HostKey) (hp : Plain k) : newline ∉ hostLine sha k := by
  have h1 := (hp k.hostname (by simp)).2
  have h2 := (hp k.addr (by simp)).2
  have h3 := (hp k.keyType (by simp)).2
  have h4 := (keyHash_plain sha k).2
  have h5 : newline ≠ space := by decide
  simp [hostLine, join, h1, h2, h3, h4, h5]

/-- the lines after storing a new one -/
theorem split_appendHost (known line : Str) (h : newline ∉ line) :
    split newline (appendHost known line) =
      if known = [] then [line] else split newline known ++ [line] := by
  unfold appendHost
  split
  · exact split_of_notMem _ _ h
  · refine split_join newline _ (by simp) ?_
    intro x hx
    rcases List.mem_append.1 hx with hx | hx
    · exact split_notMem newline known x hx
    · simp at hx; subst hx; exact h

/-! ## C28 -/

/-- C28 (known host): the first line for the host decides, without a prompt: the same key type and key hash are accepted
and nothing new is stored; anything else is rejected. -/
theorem C28_known (sha : Str → Str) (known : Str) (k : HostKey) (inp : Input) (line a t h : Str) (rest : List Str)
    (hl : FirstLineFor known k.hostname line) (hw : split space line = k.hostname :: a :: t :: h :: rest) :
    (t = k.keyType ∧ h = keyHash sha k → callback sha known k inp = (.ok none, inp)) ∧
    (¬ (t = k.keyType ∧ h = keyHash sha k) → ∃ e, callback sha known k inp = (.err e, inp)) := by
  obtain ⟨pre, post, h1, h2, h3⟩ := hl
  have hc : checkKnown sha k (split newline known) =
      if t ≠ k.keyType then .err .typeChanged else if h ≠ keyHash sha k then .err .keyChanged else .ok true := by
    rw [h1, checkKnown_skip sha k pre _ h3, checkKnown_hit sha k line post a t h rest hw]
  unfold callback
  rw [hc]
  constructor
  · rintro ⟨rfl, rfl⟩; simp
  · intro hn
    by_cases ht : t = k.keyType
    · have hh : h ≠ keyHash sha k := fun hh => hn ⟨ht, hh⟩
      exact ⟨.keyChanged, by simp [ht, hh]⟩
    · exact ⟨.typeChanged, by simp [ht]⟩

/-- C28 (unknown host): accepted exactly if the user answers `y` or `Y`, and then this host and key are to be stored. -/
theorem C28_unknown (sha : Str → Str) (known : Str) (k : HostKey) (inp : Input)
    (hn : NoLineFor known k.hostname) :
    (∀ r, (callback sha known k inp).1 = .ok r ↔
      (inp.head? = some (some (b! "y")) ∨ inp.head? = some (some (b! "Y"))) ∧ r = some (hostLine sha k)) ∧
    (callback sha known k inp).1 ≠ .panic := by
  unfold callback
  rw [checkKnown_none sha k _ hn]
  cases inp with
  | nil => simp [prompt]
  | cons a rest =>
    cases a with
    | none => simp [prompt]
    | some line =>
      simp only [prompt, List.head?_cons, Option.some.injEq]
      split
      · rename_i hy
        refine ⟨fun r => ?_, by simp⟩
        simp only [Res.ok.injEq, hy, true_and]
        exact eq_comm
      · rename_i hy
        exact ⟨fun r => by simp [hy], by simp⟩

/-- C28 (next time): once an accepted host is stored, the same key is accepted without a prompt and every other key type or
key hash for that host is rejected without a prompt. -/
theorem C28_next_time (sha : Str → Str) (known : Str) (k k' : HostKey) (inp rest inp' : Input) (line : Str)
    (hp : Plain k) (hn : NoLineFor known k.hostname)
    (hy : callback sha known k inp = (.ok (some line), rest)) (hh : k'.hostname = k.hostname) :
    (k'.keyType = k.keyType ∧ sha k'.blob = sha k.blob →
      callback sha (appendHost known line) k' inp' = (.ok none, inp')) ∧
    (¬ (k'.keyType = k.keyType ∧ sha k'.blob = sha k.blob) →
      ∃ e, callback sha (appendHost known line) k' inp' = (.err e, inp')) := by
  have h1 : (callback sha known k inp).1 = .ok (some line) := by rw [hy]
  have h2 := (((C28_unknown sha known k inp hn).1 _).1 h1).2
  simp only [Option.some.injEq] at h2
  subst h2
  have hs := split_hostLine sha k hp
  have hfirst : FirstLineFor (appendHost known (hostLine sha k)) k'.hostname (hostLine sha k) := by
    unfold FirstLineFor
    rw [split_appendHost _ _ (newline_hostLine sha k hp), hh]
    split
    · exact ⟨[], [], rfl, by rw [hs]; rfl, by simp⟩
    · exact ⟨split newline known, [], rfl, by rw [hs]; rfl, hn⟩
  have := C28_known sha (appendHost known (hostLine sha k)) k' inp' (hostLine sha k) k.addr k.keyType (keyHash sha k) []
    hfirst (by rw [hs, hh])
  have hk : keyHash sha k = keyHash sha k' ↔ sha k'.blob = sha k.blob := by
    unfold keyHash
    exact ⟨fun h => (hexEncode_injective h).symm, fun h => by rw [h]⟩
  rw [hk] at this
  refine ⟨fun h => this.1 ⟨h.1.symm, h.2⟩, fun h => this.2 (fun h' => h ⟨h'.1.symm, h'.2⟩)⟩

/-- C28 (other hosts): storing a host does not change the verdict on any other host. -/
theorem C28_other_hosts (sha : Str → Str) (known : Str) (k k' : HostKey) (inp : Input) (hp : Plain k)
    (hh : k'.hostname ≠ k.hostname) (hne : k'.hostname ≠ []) :
    callback sha (appendHost known (hostLine sha k)) k' inp = callback sha known k' inp := by
  have hs := split_hostLine sha k hp
  have hlast : checkKnown sha k' [hostLine sha k] = .ok false :=
    checkKnown_none sha k' _ (by
      intro l hl
      simp at hl; subst hl
      rw [hs]; simp [Ne.symm hh])
  have key : checkKnown sha k' (split newline (appendHost known (hostLine sha k))) =
      checkKnown sha k' (split newline known) := by
    rw [split_appendHost _ _ (newline_hostLine sha k hp)]
    split
    · rename_i hk
      subst hk
      rw [hlast]
      exact (checkKnown_none sha k' _ (by simp [split, Ne.symm hne])).symm
    · generalize split newline known = ls
      induction ls with
      | nil => rw [List.nil_append, hlast]; rfl
      | cons l ls ih =>
        simp only [List.cons_append, checkKnown, ih]
  unfold callback
  rw [key]

/-- C28 as stated is false: a stored line without four words (`knownhosts` can be edited with `set`) for the host crashes the
check. -/
theorem C28_false : ¬ ∀ (sha : Str → Str) (known : Str) (k : HostKey) (inp : Input),
    (callback sha known k inp).1 ≠ .panic := by
  intro h
  exact h id (b! "h:22") ⟨b! "h:22", b! "1.1.1.1:22", b! "ssh-rsa", []⟩ [] (by decide)

/-- C28 (no crash): with four words in every stored line the check never crashes, provided the host name is not empty. -/
theorem C28_no_crash_partial (sha : Str → Str) (known : Str) (k : HostKey) (inp : Input) (hne : k.hostname ≠ [])
    (hw : ∀ l ∈ split newline known, l ≠ [] → 4 ≤ (split space l).length) :
    (callback sha known k inp).1 ≠ .panic := by
  rcases first_or_none known k.hostname with hn | ⟨line, hl⟩
  · exact (C28_unknown sha known k inp hn).2
  · obtain ⟨pre, post, h1, h2, h3⟩ := hl
    have hlne : line ≠ [] := by rintro rfl; simp [split] at h2; exact hne h2
    have h4 := hw line (by rw [h1]; simp) hlne
    match hs : split space line, h4 with
    | a :: b :: c :: d :: rest, _ =>
      rw [hs] at h2
      simp at h2; subst h2
      have := C28_known sha known k inp line b c d rest ⟨pre, post, h1, by rw [hs]; rfl, h3⟩ hs
      by_cases hc : c = k.keyType ∧ d = keyHash sha k
      · rw [this.1 hc]; simp
      · obtain ⟨e, he⟩ := this.2 hc
        rw [he]; simp

section
private def hk : HostKey := ⟨b! "h:22", b! "1.1.1.1:22", b! "ssh-rsa", b! "K"⟩
private def hk2 : HostKey := { hk with blob := b! "L" }
-- the hypotheses of C28_next_time are met, and the conclusion is visible
example : Plain hk ∧ NoLineFor (b! "other 2.2.2.2:22 ssh-rsa 00") hk.hostname ∧
    callback id (b! "other 2.2.2.2:22 ssh-rsa 00") hk [some (b! "y")] =
      (.ok (some (b! "h:22 1.1.1.1:22 ssh-rsa 4b")), []) := by
  refine ⟨?_, ?_, by decide⟩
  · unfold Plain; decide
  · unfold NoLineFor; decide
example : callback id (appendHost (b! "other 2.2.2.2:22 ssh-rsa 00") (b! "h:22 1.1.1.1:22 ssh-rsa 4b")) hk2 [some (b! "y")] =
    (.err .keyChanged, [some (b! "y")]) := by decide
end

/-! ## C29 -/

theorem saveHostsLoop_snapshot (now : Nat → Int) (s : DB) (hs : List (Str × Str)) :
    (saveHostsLoop now s hs).snapshot = s.snapshot ∧ (saveHostsLoop now s hs).version = s.version ∧
      ∃ txs, (saveHostsLoop now s hs).log = s.log ++ txs ∧ txs.length = hs.length := by
  induction hs generalizing now s with
  | nil => exact ⟨rfl, rfl, [], by simp [saveHostsLoop], rfl⟩
  | cons p hs ih =>
    obtain ⟨u, h⟩ := p
    simp only [saveHostsLoop]
    obtain ⟨h1, h2, txs, h3, h4⟩ := ih (fun i => now (i + 1))
      (s.setKey (now 0) u keyKnownHosts (appendHost (val ((s.snapshot.get? u).getD []) keyKnownHosts) h))
    refine ⟨h1, h2, ⟨now 0, .setk, u, keyKnownHosts,
      appendHost (val ((s.snapshot.get? u).getD []) keyKnownHosts) h⟩ :: txs, ?_, by simp [h4]⟩
    rw [h3]
    simp [DB.setKey, DB.appendLog]

/-- What `saveHosts` leaves in the store: the new line is appended to the known hosts of each of the entries, nothing else
changes. -/
def HostsAdded (snap : Snapshot) (hosts : List (Str × Str)) (st st' : Spec.State) : Prop :=
  ∀ u, st' u =
    match GoMap.get? hosts u with
    | none => st u
    | some h => (st u).map (fun e => Spec.upd e keyKnownHosts
        (some (appendHost (val ((snap.get? u).getD []) keyKnownHosts) h)))

theorem saveHostsLoop_meaning (hs : List (Str × Str)) : ∀ (now : Nat → Int) (s : DB) (st : Spec.State),
    (hs.map Prod.fst).Nodup → Spec.meaning Spec.empty s.log = some st →
    (∀ u ∈ hs.map Prod.fst, (st u).isSome) →
    ∃ st', Spec.meaning Spec.empty (saveHostsLoop now s hs).log = some st' ∧ HostsAdded s.snapshot hs st st' := by
  induction hs with
  | nil => intro now s st _ h _; exact ⟨st, h, fun u => rfl⟩
  | cons p hs ih =>
    obtain ⟨u, h⟩ := p
    intro now s st hn hm hex
    simp only [List.map_cons, List.nodup_cons] at hn
    have hu := hex u (by simp)
    cases he : st u with
    | none => rw [he] at hu; cases hu
    | some e =>
      simp only [saveHostsLoop]
      have hm' : Spec.meaning Spec.empty (s.setKey (now 0) u keyKnownHosts
          (appendHost (val ((s.snapshot.get? u).getD []) keyKnownHosts) h)).log =
          some (Spec.upd st u (some (Spec.upd e keyKnownHosts
            (some (appendHost (val ((s.snapshot.get? u).getD []) keyKnownHosts) h))))) := by
        simp only [DB.setKey, DB.appendLog, meaning_snoc, hm, Option.bind_some, Spec.apply, he]
      obtain ⟨st', h1, h2⟩ := ih (fun i => now (i + 1)) _ _ hn.2 hm' (by
        intro v hv
        simp only [Spec.upd]
        split
        · rfl
        · exact hex v (by simp [hv]))
      refine ⟨st', h1, ?_⟩
      intro v
      have := h2 v
      simp only [DB.setKey, DB.appendLog] at this
      rw [this]
      by_cases hv : u = v
      · subst hv
        have hg : GoMap.get? hs u = none := GoMap.get?_eq_none_iff.2 hn.1
        simp [hg, GoMap.get?_cons, Spec.upd, he]
      · simp only [GoMap.get?_cons, hv, if_false, Spec.upd, Ne.symm hv]

/-- C29 (partial): if the entries the host keys belong to still exist, recording them keeps the store replayable; each of
these entries gets its new line appended, and nothing else changes. -/
theorem C29_save_hosts_partial (now : Nat → Int) (s : DB) (hs : List (Str × Str)) (st : Spec.State)
    (hok : Ok s) (hm : Spec.meaning Spec.empty s.log = some st) (hn : (hs.map Prod.fst).Nodup)
    (hex : ∀ u ∈ hs.map Prod.fst, (st u).isSome) :
    (saveHosts now s hs).2 = none ∧
    ∃ st', Spec.meaning Spec.empty (saveHosts now s hs).1.log = some st' ∧ HostsAdded s.snapshot hs st st' := by
  obtain ⟨st', h1, h2⟩ := saveHostsLoop_meaning hs now s st hn hm hex
  obtain ⟨h3, h4, txs, h5, -⟩ := saveHostsLoop_snapshot now s hs
  have hc : Coherent (saveHostsLoop now s hs) := coherent_append hok.coh h5 h4 h3
  unfold saveHosts
  rw [updateSnapshot_log]
  refine ⟨?_, st', h1, h2⟩
  rcases updateSnapshot_spec hc with ⟨snap, -, h6⟩ | ⟨e, n, snap, h6, -⟩
  · rw [h6]
  · rw [h1] at h6; cases h6

/-- C29 as stated is false: if the merge deleted the sync entry (the remote side had removed it) the new host line is still
written to it, and the log cannot be replayed any more. -/
theorem C29_false : ¬ ∀ (now : Nat → Int) (s : DB) (hs : List (Str × Str)), Ok s →
    (Spec.meaning Spec.empty s.log).isSome → (Spec.meaning Spec.empty (saveHosts now s hs).1.log).isSome := by
  intro h
  have := h (fun i => 4 + i) { log := [⟨1, .add, b! "u", [], []⟩, ⟨2, .del, b! "u", [], []⟩] } [(b! "u", b! "line")]
    ⟨⟨by decide, rfl⟩, GoMap.nodupKeys_nil, inner_nil⟩ (by decide)
  revert this
  decide

section
private def syncEntry : DB :=
  { log := [⟨1, .add, b! "u", [], []⟩, ⟨2, .setk, b! "u", keyKnownHosts, b! "a b c d"⟩] }
-- an update of a stored list of hosts
example : ((saveHosts (fun i => 4 + i) syncEntry.updateSnapshot.1 [(b! "u", b! "e f g h")]).1.snapshot.get? (b! "u")).map
    (fun e => val e keyKnownHosts) = some (b! "a b c d\ne f g h") := by decide
end

end Verif.App
