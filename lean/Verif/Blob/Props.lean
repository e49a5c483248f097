import Verif.Blob.Lemmas2
/-!
# Properties of the blob layer (C30 - C33, C35 - C39)

`Ok s` (`Lemmas.lean`) says that the snapshot cached in `s` is what a prefix of the log means and that a map has no
key twice; a newly opened file satisfies it (`ok_opened`) and every call keeps it (`inv_bstep`).
-/
set_option linter.unusedSimpArgs false
namespace Verif.Blob
open Verif Verif.Txlogs

/-- the state of a file that has just been opened -/
def opened (log : List Tx) : DB := { DB.new with log := log }

theorem ok_opened (log : List Tx) : Ok (opened log) := by
  have := ok_append (s := DB.new) (s' := opened log) (txs := log) ok_new (by simp [opened, DB.new]) rfl rfl
  exact this

/-! ## C30 -/

/-- No two visible entries share a name after any sequence of calls, whatever uuids, names, keys, values and indexes
were passed, and whatever order the maps were visited in. The same holds for every earlier point of the log. -/
theorem C30_unique_names (cs : List Call) (hord : ∀ c ∈ cs, ∀ m, (c.ord m).Perm m) (s : DB)
    (h : brun DB.new cs = some s) (u v n : Str) (hu : Spec.Named s u n) (hv : Spec.Named s v n) :
    u = v := by
  have hl := (inv_brun hord inv_new h).uniq
  obtain ⟨e, ⟨st, h1, h2⟩, h3⟩ := hu
  obtain ⟨f, ⟨st', h4, h5⟩, h6⟩ := hv
  rw [h1] at h4; cases h4
  exact hl s.log.length st (by rw [List.take_length]; exact h1) u v e f n h2 h5 h3 h6

theorem C30_unique_names_history (cs : List Call) (hord : ∀ c ∈ cs, ∀ m, (c.ord m).Perm m) (s : DB)
    (h : brun DB.new cs = some s) (k : Nat) (u v n : Str)
    (hu : Spec.Named (opened (s.log.take k)) u n) (hv : Spec.Named (opened (s.log.take k)) v n) :
    u = v := by
  have hl := (inv_brun hord inv_new h).uniq
  obtain ⟨e, ⟨st, h1, h2⟩, h3⟩ := hu
  obtain ⟨f, ⟨st', h4, h5⟩, h6⟩ := hv
  rw [h1] at h4; cases h4
  exact hl k st h1 u v e f n h2 h5 h3 h6

/-- Not vacuous: two entries are made, the second attempt at the name "a" is refused and "c" is accepted. -/
example : ∃ s, brun DB.new [{ op := .new (b! "u1") (b! "a") }, { op := .new (b! "u2") (b! "a") },
    { op := .new (b! "u2") (b! "c") }, { op := .rename (b! "u2") (b! "a") }] = some s ∧
    s.log.length = 6 := by
  refine ⟨_, rfl, by decide⟩

/-! ## C31 -/

/-- A call on an entry that exists, or making an entry under a uuid that does not exist yet. -/
def ValidOp (s : DB) : BOp → Prop
  | .new u _ => ¬ Exists s u
  | .newUser u _ => ¬ Exists s u
  | .newSync u _ => ¬ Exists s u
  | .rename u _ => Exists s u
  | .set u _ _ => Exists s u
  | .deleteKey u _ => Exists s u
  | .setTwofactor u _ => Exists s u
  | .addLabel u _ => Exists s u
  | .removeLabel u i => Exists s u ∧ 0 ≤ i
  | .delete u => Exists s u
  | .read => True

theorem newSyncLoop_update {s : DB} (ord : Order) (now : Nat → Int) (u : Str) (fuel : Nat) (nm : Str)
    (h : Good s) : newSyncLoop ord now u fuel s nm = newSyncLoop ord now u fuel s.updateSnapshot.1 nm := by
  cases fuel with
  | zero => rfl
  | succ fuel =>
    have hg := good_update h
    obtain ⟨-, hf, -, -⟩ := good_withSnapshot h (fun s => ((s, .panic) : Out Str))
    have : new ord now u s nm = new ord now u s.updateSnapshot.1 nm := by
      unfold new
      rw [(good_withSnapshot h _).1, (good_withSnapshot hg _).1, update_fresh hf]
    simp only [newSyncLoop, this]

theorem longNames_le (m : Snapshot) (n : Nat) : longNames m n ≤ m.length :=
  Nat.le_trans (List.length_filter_le _ _) (List.length_filterMap_le _ _)

/-- `NewSync` in a good store -/
theorem newSync_good {s : DB} (ord : Order) (hord : ∀ m, (ord m).Perm m) (now : Nat → Int)
    (u kind : Str) (h : Good s) (hfresh : ¬ Exists s u) (fuel : Nat) (hfuel : s.log.length < fuel) :
    ∃ s' k, newSync ord now u fuel s kind = some (s', .ok u) ∧ Good s' ∧
      Spec.Named s' u (syncPrefix ++ kind ++ List.replicate k 49) ∧
      (∀ v, ¬ Spec.Named s v (syncPrefix ++ kind ++ List.replicate k 49)) ∧
      ∀ j < k, ∃ v, Spec.Named s v (syncPrefix ++ kind ++ List.replicate j 49) := by
  obtain ⟨-, hf, hg, hlog⟩ := good_withSnapshot h (fun s => ((s, .panic) : Out Str))
  have hle := snapshot_length_le hf
  rw [hlog] at hle
  have hl := longNames_le s.updateSnapshot.1.snapshot (syncPrefix ++ kind).length
  unfold newSync
  rw [newSyncLoop_update ord now u fuel _ h]
  obtain ⟨s', k, h1, h2, h3, h4, h5⟩ := newSyncLoop_spec ord hord now u fuel (syncPrefix ++ kind) hg hf
    (by rw [exists_log hlog]; exact hfresh) (by omega)
  refine ⟨s', k, h1, h2, h3, ?_, ?_⟩
  · intro v; rw [← named_log hlog]; exact h4 v
  · intro j hj; obtain ⟨v, hv⟩ := h5 j hj; exact ⟨v, (named_log hlog v _).1 hv⟩

theorem good_set {s : DB} (now : Nat → Int) (u k v : Str) (h : Good s) (he : Exists s u) :
    Good (set now s u k v).1 ∧ (set now s u k v).2 ≠ .panic := by
  unfold set
  split
  · exact ⟨h, by simp⟩
  · obtain ⟨h1, h2⟩ := good_touch now u h he
    exact ⟨(good_setKey _ _ _ _ h1 h2).1, by simp⟩

theorem good_rename {s : DB} (ord : Order) (hord : ∀ m, (ord m).Perm m) (now : Nat → Int) (u nm : Str)
    (h : Good s) : Good (rename ord now s u nm).1 ∧ (rename ord now s u nm).2 ≠ .panic := by
  unfold rename
  obtain ⟨-, hf, hg, hlog⟩ := good_withSnapshot h (fun s => ((s, .panic) : Out Str))
  rw [(good_withSnapshot h _).1]
  obtain ⟨b, hb⟩ := good_nameTaken hg hf (hord _) nm
  simp only [hb]
  cases b with
  | true => exact ⟨hg, by simp⟩
  | false =>
    cases hm : s.updateSnapshot.1.snapshot.get? u with
    | none => exact ⟨hg, by simp⟩
    | some e =>
      obtain ⟨h1, h2⟩ := good_touch now u hg ((exists_iff hf u).2 ⟨e, hm⟩)
      exact ⟨(good_setKey _ _ _ _ h1 h2).1, by simp⟩

/-- A valid call in a good store does not panic and leaves a good store. -/
theorem good_bstep {s : DB} (c : Call) (hord : ∀ m, (c.ord m).Perm m) (h : Good s)
    (hv : ValidOp s c.op) : ∃ s', bstep s c = some s' ∧ Good s' := by
  have hnew : ∀ u nm, ¬ Exists s u → ∃ s', fin (new c.ord c.now u s nm) = some s' ∧ Good s' := by
    intro u nm hu
    rcases good_newOp c.ord hord c.now u nm h hu with ⟨s', h1, h2, -⟩ | ⟨s', h1, h2, -⟩ <;>
      exact ⟨s', by rw [h1]; rfl, h2⟩
  have hfin : ∀ {α : Type} (r : Out α), Good r.1 → r.2 ≠ .panic → ∃ s', fin r = some s' ∧ Good s' := by
    rintro α ⟨s', o⟩ h1 h2
    cases o with
    | panic => exact absurd rfl h2
    | ok a => exact ⟨s', rfl, h1⟩
    | err e => exact ⟨s', rfl, h1⟩
  unfold bstep
  cases hop : c.op with
  | new u nm => rw [hop] at hv; exact hnew u nm hv
  | newUser u nm => rw [hop] at hv; exact hnew u _ hv
  | newSync u k =>
    rw [hop] at hv
    obtain ⟨s', k', h1, h2, -⟩ := newSync_good c.ord hord c.now u k h hv (s.log.length + 2) (by omega)
    simp only [h1]
    exact ⟨s', rfl, h2⟩
  | rename u nm =>
    obtain ⟨h1, h2⟩ := good_rename c.ord hord c.now u nm h
    exact hfin _ h1 h2
  | set u k v =>
    rw [hop] at hv
    obtain ⟨h1, h2⟩ := good_set c.now u k v h hv
    exact hfin _ h1 h2
  | deleteKey u k =>
    rw [hop] at hv
    simp only [deleteKey]
    split
    · exact hfin _ h (by simp)
    · rename_i hk
      simp only [not_or] at hk
      obtain ⟨h1, h2⟩ := good_touch c.now u h hv
      exact hfin _ (good_deleteKey _ _ _ hk.1 h1 h2).1 (by simp)
  | setTwofactor u k =>
    rw [hop] at hv
    simp only [setTwofactor]
    generalize (if hasPrefix k _ = true then k else c.uri u k) = x
    split
    · obtain ⟨h1, h2⟩ := good_touch c.now u h hv
      exact hfin _ (good_setKey _ _ _ _ h1 h2).1 (by simp)
    · exact hfin _ h (by simp)
  | addLabel u l =>
    rw [hop] at hv
    obtain ⟨e, he⟩ := hv
    obtain ⟨en, h1, -, h3, h4⟩ := mustFind_visible h.ok u e he
    simp only [addLabel, h1]
    obtain ⟨h5, h6⟩ := good_touch c.now u (good_update h) ((exists_log h3 u).2 ⟨e, he⟩)
    obtain ⟨h7, h8⟩ := good_set (fun i => c.now (i + 2)) u keyLabels
      (if val en keyLabels = [] then l else join comma (split comma (val en keyLabels) ++ [l])) h5 h6
    exact hfin _ h7 h8
  | removeLabel u i =>
    rw [hop] at hv
    obtain ⟨⟨e, he⟩, hi⟩ := hv
    obtain ⟨en, h1, -, h3, h4⟩ := mustFind_visible h.ok u e he
    simp only [removeLabel, h1]
    have hg := good_update h
    have hex := (exists_log h3 u).2 ⟨e, he⟩
    split
    · exact hfin _ hg (by simp)
    · split
      · exact hfin _ (good_deleteKey _ _ _ keyLabels_ne hg hex).1 (by simp)
      · rw [if_neg (by omega)]
        obtain ⟨h5, h6⟩ := good_touch c.now u hg hex
        exact hfin _ (good_setKey _ _ _ _ h5 h6).1 (by simp)
  | delete u => rw [hop] at hv; exact ⟨_, rfl, good_delete _ u h hv⟩
  | read => exact ⟨_, rfl, good_update h⟩

/-- States reached from an empty file by calls that name existing entries (or fresh uuids for new ones). -/
inductive Reachable : DB → Prop where
  | new : Reachable DB.new
  | step {s s' : DB} (c : Call) : Reachable s → (∀ m, (c.ord m).Perm m) → ValidOp s c.op →
      bstep s c = some s' → Reachable s'

theorem reachable_good {s : DB} (h : Reachable s) : Good s := by
  induction h with
  | new => exact good_new
  | step c _ hord hv hs ih =>
    obtain ⟨s', h1, h2⟩ := good_bstep c hord ih hv
    rw [hs] at h1; cases h1; exact h2

/-- Every reachable file can be read and every entry in it has a name. -/
theorem C31_named_partial {s : DB} (h : Reachable s) :
    Spec.Readable s ∧ ∀ u e, Spec.Visible s u e → ∃ n, e keyName = some n := by
  obtain ⟨st, h1, h2⟩ := (reachable_good h).named
  refine ⟨by simp [Spec.Readable, h1], ?_⟩
  rintro u e ⟨st', h3, h4⟩
  rw [h1] at h3; cases h3
  exact Option.isSome_iff_exists.1 (h2 u e h4)

/-- In a reachable file no valid call panics. -/
theorem C31_calls_partial {s : DB} (h : Reachable s) (c : Call) (hord : ∀ m, (c.ord m).Perm m)
    (hv : ValidOp s c.op) : bstep s c ≠ none := by
  obtain ⟨s', h1, -⟩ := good_bstep c hord (reachable_good h) hv
  rw [h1]; simp

/-- In a reachable file the lookups by name neither panic nor fail, and neither do `New` and `Rename` apart from
refusing a taken name (or an unknown uuid). -/
theorem C31_lookups_partial {s : DB} (h : Reachable s) (ord : Order) (hord : ∀ m, (ord m).Perm m) :
    (∀ nm, ∃ s' r, findByName ord s nm = (s', .ok r)) ∧
    (∀ nm, ∃ s' r, findUser ord s nm = (s', .ok r)) ∧
    (∃ s' r, users ord s = (s', .ok r)) ∧
    (∀ ls, ∃ s' r, searchLabels ord s ls = (s', .ok r)) ∧
    (∀ now u nm, (rename ord now s u nm).2 ≠ .panic) ∧
    (∀ now u nm, (new ord now u s nm).2 ≠ .panic) ∧
    (∀ lower q, (∀ u n, Spec.Named s u n → ValidUtf8 n) →
      ∃ s' r, search lower ord s q = (s', .ok r)) := by
  have hg0 := reachable_good h
  obtain ⟨-, hf, hg, hlog⟩ := good_withSnapshot hg0 (fun s => ((s, .panic) : Out Str))
  have hnames := good_names hg hf (hord _)
  have hloop : ∀ nm (l : List (Str × Entry)), (∀ p ∈ l, (name p.2).isSome) →
      ∃ r, findNameLoop nm l = some r := by
    intro nm l hl
    induction l with
    | nil => exact ⟨_, rfl⟩
    | cons p l ih =>
      obtain ⟨u, e⟩ := p
      obtain ⟨n, hn⟩ := Option.isSome_iff_exists.1 (hl (u, e) (by simp))
      simp only at hn
      simp only [findNameLoop, hn]
      split
      · exact ⟨_, rfl⟩
      · exact ih (fun p hp => hl p (by simp [hp]))
  have hfind : ∀ nm, ∃ s' r, findByName ord s nm = (s', .ok r) := by
    intro nm
    unfold findByName
    rw [(good_withSnapshot hg0 _).1]
    obtain ⟨r, hr⟩ := hloop nm _ hnames
    exact ⟨_, r, by rw [hr]⟩
  have hcol : ∀ keep, (∀ p ∈ ord s.updateSnapshot.1.snapshot, (keep p.2).isSome) →
      ∃ r, collect keep (ord s.updateSnapshot.1.snapshot) [] = some r :=
    fun keep hk => collect_some keep _ [] hk hnames
  refine ⟨hfind, fun nm => hfind _, ?_, ?_, ?_, ?_, ?_⟩
  · unfold users
    rw [(good_withSnapshot hg0 _).1]
    obtain ⟨r, hr⟩ := hcol (fun e => (name e).map isUserEntry) (by
      intro p hp; simpa using hnames p hp)
    exact ⟨_, r, by rw [hr]⟩
  · intro ls
    unfold searchLabels
    rw [(good_withSnapshot hg0 _).1]
    split
    · exact ⟨_, _, rfl⟩
    · obtain ⟨r, hr⟩ := hcol (if ls = [] then fun _ => some true else labelsKeep ls) (by
        intro p hp
        split
        · rfl
        · unfold labelsKeep; simp only; split <;> rfl)
      exact ⟨s.updateSnapshot.1, r, by simp only [hr]⟩
  · intro now u nm
    exact (good_rename ord hord now u nm hg0).2
  · intro now u nm
    unfold new
    rw [(good_withSnapshot hg0 _).1]
    obtain ⟨b, hb⟩ := good_nameTaken hg hf (hord _) nm
    simp only [hb]
    cases b <;> simp
  · intro lower q hval
    unfold search
    rw [(good_withSnapshot hg0 _).1]
    split
    · exact ⟨_, _, rfl⟩
    · obtain ⟨r, hr⟩ := hcol (if q = [] then fun _ => some true else searchKeep lower (split slash q)) (by
        rintro ⟨u, e⟩ hp
        obtain ⟨n, hn⟩ := Option.isSome_iff_exists.1 (hnames _ hp)
        split
        · rfl
        · refine searchKeep_isSome lower _ e n hn (hval u n ?_)
          rw [← named_log hlog, named_fresh hf]
          exact ⟨e, (mem_order hf.nodup (hord _) u e).1 hp, hn⟩)
      exact ⟨s.updateSnapshot.1, r, by simp only [hr]⟩

/-- Not vacuous: a reachable file with an entry that was created, relabelled and searched for. -/
example : ∃ s, Reachable s ∧ Spec.Named s (b! "u1") (b! "a") := by
  have h1 : ValidOp DB.new (.new (b! "u1") (b! "a")) := by
    rintro ⟨e, st, h1, h2⟩; cases h1; cases h2
  obtain ⟨s, h2, -⟩ := good_bstep { op := .new (b! "u1") (b! "a") } (fun m => List.Perm.refl m) good_new h1
  refine ⟨s, .step _ .new (fun m => List.Perm.refl m) h1 h2, ?_⟩
  cases h2
  exact ⟨_, ⟨_, rfl, rfl⟩, by decide⟩

/-- The claim over *all* sequences of calls is false: `Set` on a uuid that does not exist is recorded without any
check, and from then on the file cannot be read. -/
theorem C31_false : ∃ cs s, brun DB.new cs = some s ∧ ¬ Spec.Readable s :=
  ⟨[{ op := .set (b! "u1") (b! "k") (b! "v") }], _, rfl, by unfold Spec.Readable; decide⟩

/-- ... and a search for a name that is not valid UTF-8 can panic (`C34_panics`), so the last part of
`C31_lookups_partial` needs its hypothesis. -/
theorem C31_search_panics : ∃ s, Reachable s ∧ (search id id s [0xFF]).2 = .panic := by
  have h1 : ValidOp DB.new (.new (b! "u1") [0x61, 0xFF]) := by
    rintro ⟨e, st, h1, h2⟩; cases h1; cases h2
  obtain ⟨s, h2, -⟩ := good_bstep { op := .new (b! "u1") [0x61, 0xFF] } (fun m => List.Perm.refl m)
    good_new h1
  refine ⟨s, .step _ .new (fun m => List.Perm.refl m) h1 h2, ?_⟩
  cases h2
  have h3 : split slash [0xFF] = [[0xFF]] := split_of_notMem _ _ (by decide)
  have h4 := Fuzzy.C34_panics id rfl
  have h5 : ∀ t : DB × Option TxErr, t.2 = none → ∀ e, t.1.snapshot = [(b! "u1", e)] →
      name e = some [0x61, 0xFF] → ∀ s : DB, s.updateSnapshot = t → (search id id s [0xFF]).2 = .panic := by
    rintro ⟨t, o⟩ rfl e h6 h7 s h8
    simp only at h6
    simp [search, withSnapshot, h8, h3, h6, collect, searchKeep, h7, h4]
  exact h5 _ rfl _ rfl (by decide) _ rfl


/-! ## C32 -/

theorem rangeAux_ascii (s : Str) (h : ∀ b ∈ s, b.toNat < 0x80) (fuel off : Nat) (hf : s.length ≤ fuel) :
    (rangeAux fuel s off).map Prod.snd = s.map UInt8.toNat := by
  induction s generalizing fuel off with
  | nil => cases fuel <;> rfl
  | cons b s ih =>
    cases fuel with
    | zero => simp at hf
    | succ fuel =>
      have hb := h b (by simp)
      simp only [rangeAux, decodeRune, hb, if_true, List.map_cons, List.drop_succ_cons, List.drop_zero]
      rw [ih (fun c hc => h c (by simp [hc])) fuel _ (by simpa using hf)]

theorem runes_ascii (s : Str) (h : ∀ b ∈ s, b.toNat < 0x80) : runes s = s.map UInt8.toNat :=
  rangeAux_ascii s h _ 0 (Nat.le_refl _)

theorem byte_forall (P : UInt8 → Prop) (h : ∀ n : Fin 256, P (UInt8.ofNat n.1)) (b : UInt8) : P b := by
  have := h ⟨b.toNat, b.toNat_lt⟩
  simpa using this

set_option maxRecDepth 4000 in
theorem lowerByte_ascii : ∀ b : UInt8, (Spec.lowerByte b).toNat < 0x80 → b.toNat < 0x80 :=
  byte_forall _ (by decide)
set_option maxRecDepth 4000 in
theorem lowerByte_lt : ∀ b : UInt8, b.toNat < 0x80 → (Spec.lowerByte b).toNat < 0x80 :=
  byte_forall _ (by decide)
set_option maxRecDepth 4000 in
theorem foldAscii_byte : ∀ b : UInt8, b.toNat < 0x80 → foldAscii b.toNat = (Spec.lowerByte b).toNat :=
  byte_forall _ (by decide)

theorem equalFold_caseVariant (k p : Str) (hp : ∀ b ∈ p, b.toNat < 0x80) (h : Spec.CaseVariant k p) :
    equalFold k p = true := by
  have hk : ∀ b ∈ k, b.toNat < 0x80 := by
    intro b hb
    apply lowerByte_ascii
    have : Spec.lowerByte b ∈ p.map Spec.lowerByte := by
      rw [← h]; exact List.mem_map.2 ⟨b, hb, rfl⟩
    obtain ⟨c, hc, h2⟩ := List.mem_map.1 this
    rw [← h2]; exact lowerByte_lt c (hp c hc)
  have hfold : ∀ s : Str, (∀ b ∈ s, b.toNat < 0x80) →
      (s.map UInt8.toNat).map foldAscii = (s.map Spec.lowerByte).map UInt8.toNat := by
    intro s hs
    rw [List.map_map, List.map_map]
    exact List.map_congr_left (fun b hb => foldAscii_byte b (hs b hb))
  unfold equalFold
  rw [runes_ascii k hk, runes_ascii p hp, hfold k hk, hfold p hp, h]
  simp

/-- `Set` refuses every spelling of a protected key and changes nothing. -/
theorem C32_set_refused (now : Nat → Int) (s : DB) (u k v p : Str)
    (hp : p ∈ [b! "name", b! "updated", b! "totp", b! "iv", b! "salt", b! "mkey"])
    (h : Spec.CaseVariant k p) : set now s u k v = (s, .err (.keyNotAllowed k)) := by
  replace hp : p ∈ protectedKeys := (by decide : ∀ p ∈ [b! "name", b! "updated", b! "totp", b! "iv", b! "salt", b! "mkey"],
    p ∈ protectedKeys) p hp
  have hany : protectedKeys.any (fun p => equalFold k p) = true := by
    refine List.any_eq_true.2 ⟨p, hp, equalFold_caseVariant k p ?_ h⟩
    have : ∀ p ∈ protectedKeys, ∀ b ∈ p, b.toNat < 0x80 := by decide
    exact this p hp
  simp only [set, hany, if_true]

/-- What a `Set` that is not refused does: exactly that key (and `updated`) of exactly that entry. -/
theorem C32_set_effect (now : Nat → Int) (s s' : DB) (u k v : Str) (e : Str → Option Str)
    (he : Spec.Visible s u e) (h : set now s u k v = (s', .ok ())) :
    (∀ p ∈ protectedKeys, k ≠ p) ∧
    Spec.Visible s' u (Txlogs.Spec.upd (Txlogs.Spec.upd e keyUpdated (some (fmtInt (now 0)))) k (some v)) ∧
    ∀ w f, w ≠ u → (Spec.Visible s' w f ↔ Spec.Visible s w f) := by
  unfold set at h
  split at h
  · cases h
  · rename_i hp
    cases h
    obtain ⟨h1, h2⟩ := visible_setKey (now 1) u keyUpdated (fmtInt (now 0)) e he
    obtain ⟨h3, h4⟩ := visible_setKey (s := touchUpdated s now u) (now 2) u k v _ h1
    refine ⟨?_, h3, fun w f hw => (h4 w f hw).trans (h2 w f hw)⟩
    rintro p hpm rfl
    exact hp (List.any_eq_true.2 ⟨k, hpm, equalFold_refl k⟩)

/-- `DeleteKey` refuses `name` and `updated` ... -/
theorem C32_delete_refused_partial (now : Nat → Int) (s : DB) (u k : Str)
    (h : k = keyName ∨ k = keyUpdated) : deleteKey now s u k = (s, .err (.keyNotAllowed k)) := by
  simp only [deleteKey, h, if_true]

/-- ... and does not otherwise touch the name of any entry ... -/
theorem C32_delete_effect_partial (now : Nat → Int) (s s' : DB) (u k : Str) (e : Str → Option Str)
    (he : Spec.Visible s u e) (h : deleteKey now s u k = (s', .ok ())) :
    Spec.Visible s' u (Txlogs.Spec.upd (Txlogs.Spec.upd e keyUpdated (some (fmtInt (now 0)))) k none) ∧
    (∀ w f, w ≠ u → (Spec.Visible s' w f ↔ Spec.Visible s w f)) ∧
    k ≠ keyName ∧ k ≠ keyUpdated := by
  unfold deleteKey at h
  split at h
  · cases h
  · rename_i hp
    cases h
    simp only [not_or] at hp
    obtain ⟨h1, h2⟩ := visible_setKey (now 1) u keyUpdated (fmtInt (now 0)) e he
    obtain ⟨h3, h4⟩ := visible_deleteKey (s := touchUpdated s now u) (now 2) u k _ h1
    exact ⟨h3, fun w f hw => (h4 w f hw).trans (h2 w f hw), hp⟩

/-- ... but it does not follow the rule of `Set`: the keys holding the encrypted master key and the salt of a user
can be removed. -/
theorem C32_delete_false : ∃ s u p e, Spec.Visible s u e ∧ p ∈ protectedKeys ∧ e p ≠ none ∧
    ∃ s' e', deleteKey (fun _ => 0) s u p = (s', .ok ()) ∧ Spec.Visible s' u e' ∧ e' p = none := by
  have he : Spec.Visible (opened [⟨0, .add, b! "u", [], []⟩, ⟨0, .setk, b! "u", keyMKey, b! "m"⟩]) (b! "u")
      (Txlogs.Spec.upd (fun _ => none) keyMKey (some (b! "m"))) := ⟨_, rfl, rfl⟩
  refine ⟨_, b! "u", keyMKey, _, he, by decide, by decide, _, _, rfl,
    (C32_delete_effect_partial (fun _ => 0) _ _ (b! "u") keyMKey _ he rfl).1, by decide⟩

/-- Not vacuous: `Set` refuses "Name" and "mKEY", even "ſalt" (U+017F folds to `s`) and "mKey" written with the
Kelvin sign, and accepts "pass". -/
example : Spec.CaseVariant (b! "mKEY") keyMKey ∧
    (∀ s, (set (fun _ => 0) s (b! "u") (b! "mKEY") []).2 = .err (.keyNotAllowed (b! "mKEY"))) ∧
    (∀ s, (set (fun _ => 0) s (b! "u") ([0xC5, 0xBF] ++ b! "alt") []).2 ≠ .ok ()) ∧
    (∀ s, (set (fun _ => 0) s (b! "u") (b! "m" ++ [0xE2, 0x84, 0xAA] ++ b! "ey") []).2 ≠ .ok ()) ∧
    (∀ s, (set (fun _ => 0) s (b! "u") keyPass []).2 = .ok ()) := by
  refine ⟨by unfold Spec.CaseVariant; decide, fun s => ?_, fun s => ?_, fun s => ?_, fun s => ?_⟩
  · rw [C32_set_refused (fun _ => 0) s (b! "u") (b! "mKEY") [] keyMKey (by decide)
      (by unfold Spec.CaseVariant; decide)]
  · have : protectedKeys.any (fun p => equalFold ([0xC5, 0xBF] ++ b! "alt") p) = true := by decide
    simp only [set, this, if_true]; simp
  · have : protectedKeys.any (fun p => equalFold (b! "m" ++ [0xE2, 0x84, 0xAA] ++ b! "ey") p) = true := by
      decide
    simp only [set, this, if_true]; simp
  · have : protectedKeys.any (fun p => equalFold keyPass p) = false := by decide
    simp only [set, this]; simp

/-- `MustFind` panics exactly for entries that do not exist. -/
theorem C31_must_find {s : DB} (h : Reachable s) (u : Str) :
    ((mustFind s u).2 = .panic ↔ ¬ Exists s u) ∧ ((find s u).2 = .ok none ↔ ¬ Exists s u) ∧
    ∀ e, Spec.Visible s u e → ∃ en, (mustFind s u).2 = .ok en ∧ (e = fun k => en.get? k) := by
  have hg0 := reachable_good h
  obtain ⟨h1, hf, hg, hlog⟩ := good_withSnapshot hg0 (fun s => ((s, .ok (s.snapshot.get? u)) : Out (Option Entry)))
  have hfind : find s u = (s.updateSnapshot.1, .ok (s.updateSnapshot.1.snapshot.get? u)) := h1
  have hex : Exists s u ↔ (s.updateSnapshot.1.snapshot.get? u).isSome := by
    constructor
    · rintro ⟨e, he⟩
      obtain ⟨en, h2, -⟩ := (visible_fresh hf u e).1 ((visible_log hlog u e).2 he)
      rw [h2]; rfl
    · intro h2
      cases h3 : s.updateSnapshot.1.snapshot.get? u with
      | none => rw [h3] at h2; cases h2
      | some en => exact ⟨_, (visible_log hlog u _).1 ((visible_fresh hf u _).2 ⟨en, h3, rfl⟩)⟩
  refine ⟨?_, ?_, ?_⟩
  · rw [hex]
    unfold mustFind
    rw [hfind]
    cases s.updateSnapshot.1.snapshot.get? u <;> simp
  · rw [hex, hfind]
    cases s.updateSnapshot.1.snapshot.get? u <;> simp
  · intro e he
    obtain ⟨en, h2, h3, -⟩ := mustFind_visible hg0.ok u e he
    exact ⟨en, by rw [h2], h3⟩

/-- Not vacuous: a new file, in which nothing is found. -/
example : Reachable DB.new ∧ (mustFind DB.new (b! "u")).2 = .panic := ⟨.new, by decide⟩

/-! ## C33 -/

/-- A search returns exactly the visible entries whose name the query selects, each with its name, and does not
change the file. -/
theorem C33_search_exact (lower : Nat → Nat) (ord : Order) (hord : ∀ m, (ord m).Perm m) {s s' : DB}
    (h : Ok s) (q : Str) (r : Results) (hr : search lower ord s q = (s', .ok r)) :
    s'.log = s.log ∧
    ∀ u n, r.get? u = some n ↔ Spec.Named s u n ∧ Spec.Selects lower q n := by
  unfold search at hr
  obtain ⟨hr, h2, h3⟩ := withSnapshot_ok h hr
  · split at hr
    · rename_i hemp
      cases hr
      refine ⟨h3, fun u n => ?_⟩
      constructor
      · intro hget; simp at hget
      · rintro ⟨hn, -⟩
        rw [← named_log h3, named_fresh h2] at hn
        obtain ⟨en, hen, -⟩ := hn
        rw [hemp] at hen; simp at hen
    · generalize hkeep : (if q = [] then (fun _ => some true : Entry → Option Bool) else
          searchKeep lower (split slash q)) = keep at hr
      simp only at hr
      split at hr
      · cases hr
      · rename_i r' hc
        cases hr
        subst hkeep
        refine ⟨h3, fun u n => ?_⟩
        rw [collect_spec _ _ _ (order_nodup h2.nodup (hord _)) hc, ← named_log h3, named_fresh h2]
        have key : ∀ e : Entry, name e = some n →
            ((if q = [] then (fun _ => some true : Entry → Option Bool) else
              searchKeep lower (split slash q)) e = some true ↔ Spec.Selects lower q n) := by
          intro e he
          by_cases hq : q = []
          · simp [hq, Spec.Selects]
          · simp only [hq, if_false]; exact searchKeep_iff lower q hq e n he
        constructor
        · rintro ⟨e, h4, h5, h6⟩
          exact ⟨⟨e, (mem_order h2.nodup (hord _) u e).1 h4, h6⟩, (key e h6).1 h5⟩
        · rintro ⟨⟨e, h4, h6⟩, h5⟩
          exact ⟨e, (mem_order h2.nodup (hord _) u e).2 h4, (key e h6).2 h5, h6⟩

/-- When the search succeeds: always, if the file can be read and every entry has a well-formed name. -/
theorem C33_search_total (lower : Nat → Nat) (ord : Order) (hord : ∀ m, (ord m).Perm m) {s : DB}
    (h : Ok s) (q : Str) (hread : Spec.Readable s)
    (hnames : ∀ u e, Spec.Visible s u e → ∃ n, e keyName = some n ∧ ValidUtf8 n) :
    ∃ s' r, search lower ord s q = (s', .ok r) := by
  have hg : Good s := by
    obtain ⟨st, hst⟩ := Option.isSome_iff_exists.1 hread
    refine ⟨h, st, hst, fun u e he => ?_⟩
    obtain ⟨n, hn, -⟩ := hnames u e ⟨st, hst, he⟩
    simp [hn]
  obtain ⟨-, hf, hg', hlog⟩ := good_withSnapshot hg (fun s => ((s, .panic) : Out Str))
  have hnm := good_names hg' hf (hord _)
  unfold search
  rw [(good_withSnapshot hg _).1]
  split
  · exact ⟨_, _, rfl⟩
  · obtain ⟨r, hr⟩ := collect_some (if q = [] then fun _ => some true else searchKeep lower (split slash q))
      (ord s.updateSnapshot.1.snapshot) [] (by
        rintro ⟨u, e⟩ hp
        obtain ⟨n, hn⟩ := Option.isSome_iff_exists.1 (hnm _ hp)
        split
        · rfl
        · have hvis : Spec.Visible s u (fun k => e.get? k) := by
            rw [← visible_log hlog, visible_fresh hf]
            exact ⟨e, (mem_order hf.nodup (hord _) u e).1 hp, rfl⟩
          obtain ⟨n', h1, h2⟩ := hnames u _ hvis
          exact searchKeep_isSome lower _ e n' h1 h2) hnm
    exact ⟨s.updateSnapshot.1, r, by simp only [hr]⟩

/-- a file with the given `(uuid, name)` entries -/
def sample (l : List (Str × Str)) : DB :=
  opened (l.flatMap fun p => [⟨0, .add, p.1, [], []⟩, ⟨0, .setk, p.1, keyName, p.2⟩])

/-- Not vacuous: "w/gh" selects "web/github" but not "web" or "mail/gh". -/
example : Spec.Selects asciiLower (b! "w/gh") (b! "web/github") ∧
    ¬ Spec.Selects asciiLower (b! "w/gh") (b! "web") ∧
    ¬ Spec.Selects asciiLower (b! "w/gh") (b! "mail/gh") := by
  have key : ∀ n, Spec.Selects asciiLower (b! "w/gh") n ↔
      searchKeep asciiLower (split slash (b! "w/gh")) [(keyName, n)] = some true := by
    intro n
    exact (searchKeep_iff asciiLower (b! "w/gh") (by decide) [(keyName, n)] n rfl).symm
  rw [key, key, key]
  decide

/-! ## C35 -/

/-- A label search returns exactly the visible entries carrying every requested label, provided no entry carries a
label twice. (The requested labels may repeat.) -/
theorem C35_labels_exact_partial (ord : Order) (hord : ∀ m, (ord m).Perm m) {s s' : DB} (h : Ok s)
    (hnd : ∀ u e, Spec.Visible s u e → (Spec.labelsOf e).Nodup) (ls : List Str) (r : Results)
    (hr : searchLabels ord s ls = (s', .ok r)) :
    s'.log = s.log ∧ ∀ u n, r.get? u = some n ↔
      ∃ e, Spec.Visible s u e ∧ e keyName = some n ∧ ∀ l ∈ ls, l ∈ Spec.labelsOf e := by
  unfold searchLabels at hr
  obtain ⟨hr, h2, h3⟩ := withSnapshot_ok h hr
  split at hr
  · rename_i hemp
    cases hr
    refine ⟨h3, fun u n => ?_⟩
    constructor
    · intro hget; simp at hget
    · rintro ⟨e, hv, -, -⟩
      rw [← visible_log h3, visible_fresh h2] at hv
      obtain ⟨en, hen, -⟩ := hv
      rw [hemp] at hen; simp at hen
  · generalize hkeep : (if ls = [] then (fun _ => some true : Entry → Option Bool) else
          labelsKeep ls) = keep at hr
    simp only at hr
    split at hr
    · cases hr
    · rename_i r' hc
      cases hr
      subst hkeep
      refine ⟨h3, fun u n => ?_⟩
      rw [collect_spec _ _ _ (order_nodup h2.nodup (hord _)) hc]
      have key : ∀ e : Entry, s.updateSnapshot.1.snapshot.get? u = some e →
          Spec.Visible s u (fun k => e.get? k) ∧
          ((if ls = [] then (fun _ => some true : Entry → Option Bool) else labelsKeep ls) e = some true ↔
            ∀ l ∈ ls, l ∈ Spec.labelsOf (fun k => e.get? k)) := by
        intro e he
        have hv : Spec.Visible s u (fun k => e.get? k) := by
          rw [← visible_log h3, visible_fresh h2]; exact ⟨e, he, rfl⟩
        refine ⟨hv, ?_⟩
        by_cases hl : ls = []
        · simp [hl]
        · simp only [hl, if_false]; exact labelsKeep_iff ls hl e (hnd u _ hv)
      constructor
      · rintro ⟨e, h4, h5, h6⟩
        obtain ⟨hv, hk⟩ := key e ((mem_order h2.nodup (hord _) u e).1 h4)
        exact ⟨_, hv, h6, hk.1 h5⟩
      · rintro ⟨f, hv, h6, h5⟩
        rw [← visible_log h3, visible_fresh h2] at hv
        obtain ⟨e, he, rfl⟩ := hv
        exact ⟨e, (mem_order h2.nodup (hord _) u e).2 he, (key e he).2.2 h5, h6⟩

/-- one entry "u" named "n" with the given label text -/
def labelled (v : Str) : DB :=
  opened [⟨0, .add, b! "u", [], []⟩, ⟨0, .setk, b! "u", keyName, b! "n"⟩,
    ⟨0, .setk, b! "u", keyLabels, v⟩]

theorem labelled_visible (v : Str) : ∃ e, Spec.Visible (labelled v) (b! "u") e ∧
    e keyLabels = some v ∧ e keyName = some (b! "n") :=
  ⟨_, ⟨_, rfl, rfl⟩, rfl, rfl⟩

/-- False in general: an entry labelled `a,a` is returned for the labels `a` and `b`, because both copies of `a` are
counted; and it is not returned for `a`, `a`. (`AddLabel` happily adds a label twice.) -/
theorem C35_false :
    (∃ s r, searchLabels id (labelled (b! "a,a")) [b! "a", b! "b"] = (s, .ok r) ∧
      r.get? (b! "u") = some (b! "n")) ∧
    (∃ s r, searchLabels id (labelled (b! "a,a")) [b! "a", b! "a"] = (s, .ok r) ∧
      r.get? (b! "u") = none) ∧
    (∀ e, Spec.Visible (labelled (b! "a,a")) (b! "u") e → Spec.labelsOf e = [b! "a", b! "a"]) := by
  refine ⟨⟨_, _, rfl, by decide⟩, ⟨_, _, rfl, by decide⟩, ?_⟩
  rintro e ⟨st, h1, h2⟩
  cases h1; cases h2
  decide

/-- Not vacuous: an entry labelled `a,b` is found by `b`,`a`,`b` and not by `a`,`c`. -/
example : (∃ s r, searchLabels id (labelled (b! "a,b")) [b! "b", b! "a", b! "b"] = (s, .ok r) ∧
      r.get? (b! "u") = some (b! "n")) ∧
    (∃ s r, searchLabels id (labelled (b! "a,b")) [b! "a", b! "c"] = (s, .ok r) ∧
      r.get? (b! "u") = none) :=
  ⟨⟨_, _, rfl, by decide⟩, ⟨_, _, rfl, by decide⟩⟩

/-! ## C36 -/

theorem join_snoc (sep : UInt8) (l : List Str) (hl : l ≠ []) (x : Str) :
    join sep (l ++ [x]) = join sep l ++ sep :: x := by
  induction l with
  | nil => exact absurd rfl hl
  | cons y l ih =>
    cases l with
    | nil => simp [join]
    | cons z l =>
      have := ih (by simp)
      simp only [List.cons_append, join] at this ⊢
      rw [this]
      simp

/-- the effect of a touch followed by a write of another key -/
theorem touch_then_set {s : DB} (now : Nat → Int) (t : Int) (u k v : Str) (e : Str → Option Str)
    (he : Spec.Visible s u e) :
    Spec.Visible ((touchUpdated s now u).setKey t u k v) u
      (Txlogs.Spec.upd (Txlogs.Spec.upd e keyUpdated (some (fmtInt (now 0)))) k (some v)) ∧
    ∀ w f, w ≠ u → (Spec.Visible ((touchUpdated s now u).setKey t u k v) w f ↔ Spec.Visible s w f) := by
  obtain ⟨h1, h2⟩ := visible_setKey (now 1) u keyUpdated (fmtInt (now 0)) e he
  obtain ⟨h3, h4⟩ := visible_setKey (s := touchUpdated s now u) t u k v _ h1
  exact ⟨h3, fun w f hw => (h4 w f hw).trans (h2 w f hw)⟩

/-- `Labels` returns the labels the entry carries. -/
theorem C36_labels (en : Entry) : labels en = Spec.labelsOf (fun k => en.get? k) := by
  show (if (en.get? keyLabels).getD [] = [] then [] else split comma ((en.get? keyLabels).getD [])) =
    match en.get? keyLabels with | none => [] | some v => if v = [] then [] else split comma v
  cases en.get? keyLabels <;> rfl

/-- Not vacuous: no labels, and two. -/
example : labels [] = [] ∧ labels [(keyLabels, [])] = [] ∧ labels [(keyLabels, b! "a,b")] = [b! "a", b! "b"] := by decide

/-- `AddLabel` appends the label (split at commas) after the existing ones and changes no other key except
`updated`, and no other entry. -/
theorem C36_add (now : Nat → Int) {s : DB} (h : Ok s) (u label : Str) (hl : label ≠ [])
    (e : Str → Option Str) (he : Spec.Visible s u e) :
    ∃ s' e', addLabel now s u label = (s', .ok ()) ∧ Spec.Visible s' u e' ∧
      Spec.labelsOf e' = Spec.labelsOf e ++ split comma label ∧
      (∀ k, k ≠ keyLabels → k ≠ keyUpdated → e' k = e k) ∧
      ∀ w f, w ≠ u → (Spec.Visible s' w f ↔ Spec.Visible s w f) := by
  obtain ⟨en, h1, rfl, h3, h4⟩ := mustFind_visible h u e he
  have he' := (visible_log h3 u _).2 he
  obtain ⟨v1, v2⟩ := visible_setKey (now 1) u keyUpdated (fmtInt (now 0)) _ he'
  have hnp : protectedKeys.any (fun p => equalFold keyLabels p) = false := by decide
  generalize hv' : (if val en keyLabels = [] then label
    else join comma (split comma (val en keyLabels) ++ [label])) = v'
  obtain ⟨w1, w2⟩ := touch_then_set (s := touchUpdated s.updateSnapshot.1 now u) (fun i => now (i + 2))
    (now 4) u keyLabels v' _ v1
  refine ⟨_, _, ?_, w1, ?_, ?_, fun w f hw => (w2 w f hw).trans ((v2 w f hw).trans (visible_log h3 w f))⟩
  · simp only [addLabel, h1, hv', set, hnp]
    rfl
  · have hne : (keyLabels == keyUpdated) = false := by decide
    unfold Spec.labelsOf
    simp only [Txlogs.Spec.upd, if_true]
    by_cases hv : val en keyLabels = []
    · simp only [hv, if_true] at hv'
      subst hv'
      simp only [hl, if_false]
      unfold val at hv
      cases hg : en.get? keyLabels with
      | none => rfl
      | some x => rw [hg] at hv; simp at hv; subst hv; simp
    · simp only [hv, if_false] at hv'
      rw [join_snoc _ _ (split_ne_nil _ _), join_split] at hv'
      subst hv'
      unfold val at hv ⊢
      cases hg : en.get? keyLabels with
      | none => rw [hg] at hv; simp at hv
      | some x =>
        rw [hg] at hv
        simp at hv
        simp [hv, split_append_sep]
  · intro k hk1 hk2
    simp [Txlogs.Spec.upd, hk1, hk2]

/-- For a label without a comma: exactly that label is appended. -/
theorem C36_add_one (now : Nat → Int) {s : DB} (h : Ok s) (u label : Str) (hl : label ≠ [])
    (hc : comma ∉ label) (e : Str → Option Str) (he : Spec.Visible s u e) :
    ∃ s' e', addLabel now s u label = (s', .ok ()) ∧ Spec.Visible s' u e' ∧
      Spec.labelsOf e' = Spec.labelsOf e ++ [label] := by
  obtain ⟨s', e', h1, h2, h3, -⟩ := C36_add now h u label hl e he
  rw [split_of_notMem _ _ hc] at h3
  exact ⟨s', e', h1, h2, h3⟩

theorem labelsOf_ne {en : Entry} {x : Str} {ls : List Str}
    (h : Spec.labelsOf (fun k => en.get? k) = x :: ls) :
    split comma (val en keyLabels) = x :: ls := by
  unfold Spec.labelsOf at h
  simp only at h
  unfold val
  cases hg : en.get? keyLabels with
  | none => rw [hg] at h; simp at h
  | some v =>
    rw [hg] at h
    simp only at h
    split at h
    · cases h
    · simpa using h

/-- Removing the only label removes it. -/
theorem C36_remove_only_partial (now : Nat → Int) {s : DB} (h : Ok s) (u l : Str)
    (e : Str → Option Str) (he : Spec.Visible s u e) (hls : Spec.labelsOf e = [l]) :
    ∃ s' e', removeLabel now s u 0 = (s', .ok ()) ∧ Spec.Visible s' u e' ∧ Spec.labelsOf e' = [] ∧
      (∀ k, k ≠ keyLabels → e' k = e k) ∧ ∀ w f, w ≠ u → (Spec.Visible s' w f ↔ Spec.Visible s w f) := by
  obtain ⟨en, h1, rfl, h3, h4⟩ := mustFind_visible h u e he
  obtain ⟨v1, v2⟩ := visible_deleteKey (now 0) u keyLabels _ ((visible_log h3 u _).2 he)
  refine ⟨_, _, ?_, v1, ?_, ?_, fun w f hw => (v2 w f hw).trans (visible_log h3 w f)⟩
  · simp only [removeLabel, h1, labelsOf_ne hls]
    rfl
  · simp [Spec.labelsOf, Txlogs.Spec.upd]
  · intro k hk; simp [Txlogs.Spec.upd, hk]

/-- What removing any one of two or more labels really does: only the *last* label survives. -/
theorem C36_remove_actual (now : Nat → Int) {s : DB} (h : Ok s) (u : Str) (i : Nat) (ls : List Str)
    (last : Str) (e : Str → Option Str) (he : Spec.Visible s u e)
    (hls : Spec.labelsOf e = ls ++ [last]) (hne : ls ≠ []) (hi : i ≤ ls.length) :
    ∃ s' e', removeLabel now s u i = (s', .ok ()) ∧ Spec.Visible s' u e' ∧
      e' keyLabels = some last ∧ (∀ k, k ≠ keyLabels → k ≠ keyUpdated → e' k = e k) ∧
      ∀ w f, w ≠ u → (Spec.Visible s' w f ↔ Spec.Visible s w f) := by
  obtain ⟨en, h1, rfl, h3, h4⟩ := mustFind_visible h u e he
  obtain ⟨v1, v2⟩ := touch_then_set now (now 2) u keyLabels last _ ((visible_log h3 u _).2 he)
  have hsp : split comma (val en keyLabels) = ls ++ [last] := by
    cases ls with
    | nil => exact absurd rfl hne
    | cons x ls => exact labelsOf_ne hls
  have hlen : 0 < ls.length := List.length_pos_iff.2 hne
  refine ⟨_, _, ?_, v1, by simp [Txlogs.Spec.upd], ?_, fun w f hw => (v2 w f hw).trans (visible_log h3 w f)⟩
  · simp only [removeLabel, h1, hsp]
    rw [if_neg (by simp; omega), if_neg (by simp; omega), if_neg (by omega)]
    have hdrop : (ls ++ [last]).drop ((ls ++ [last]).length - 1) = [last] := by simp
    rw [hdrop]
    have : ∀ x : List Str, (x ++ [last]).drop ((x ++ [last]).length - 1) = [last] := by intro x; simp
    rw [this]
    simp [join]
  · intro k hk1 hk2
    simp [Txlogs.Spec.upd, hk1, hk2]

/-- So the removal is right for the first of two labels. -/
theorem C36_remove_first_of_two_partial (now : Nat → Int) {s : DB} (h : Ok s) (u a b : Str)
    (e : Str → Option Str) (he : Spec.Visible s u e) (hls : Spec.labelsOf e = [a, b]) (hb : b ≠ []) :
    ∃ s' e', removeLabel now s u 0 = (s', .ok ()) ∧ Spec.Visible s' u e' ∧ Spec.labelsOf e' = [b] := by
  obtain ⟨s', e', h1, h2, h3, -⟩ := C36_remove_actual now h u 0 [a] b e he hls (by simp) (by simp)
  refine ⟨s', e', h1, h2, ?_⟩
  have hc : comma ∉ b := by
    obtain ⟨en, -, rfl, -, -⟩ := mustFind_visible h u e he
    exact split_notMem comma _ b (by rw [labelsOf_ne hls]; simp)
  unfold Spec.labelsOf
  rw [h3]
  simp only [hb, if_false]
  exact split_of_notMem _ _ hc

/-- An index past the end is refused and nothing changes. -/
theorem C36_remove_out_of_range (now : Nat → Int) {s : DB} (h : Ok s) (u : Str) (i : Nat)
    (e : Str → Option Str) (he : Spec.Visible s u e) (hi : (Spec.labelsOf e).length ≤ i) (hi0 : 0 < i) :
    ∃ s', removeLabel now s u i = (s', .err .indexOutOfRange) ∧ s'.log = s.log := by
  obtain ⟨en, h1, rfl, h3, h4⟩ := mustFind_visible h u e he
  refine ⟨_, ?_, h3⟩
  simp only [removeLabel, h1]
  rw [if_pos]
  cases hl : Spec.labelsOf (fun k => en.get? k) with
  | cons x ls => rw [labelsOf_ne hl]; rw [hl] at hi; simp at hi ⊢; omega
  | nil =>
    have : val en keyLabels = [] := by
      unfold Spec.labelsOf at hl
      simp only at hl
      unfold val
      cases hg : en.get? keyLabels with
      | none => rfl
      | some v =>
        rw [hg] at hl
        simp only at hl
        split at hl
        · simpa using ‹v = []›
        · exact absurd hl (split_ne_nil _ _)
    rw [this]
    simp [split]
    omega

/-- False in general: removing the first of the labels `a,b,c` leaves only `c`; removing the last of `a,b` leaves
the removed label `b`. -/
theorem C36_false :
    (∃ s s' u i e e', Spec.Visible s u e ∧ removeLabel (fun _ => 0) s u i = (s', .ok ()) ∧
      Spec.Visible s' u e' ∧ i = 0 ∧ Spec.labelsOf e = [b! "a", b! "b", b! "c"] ∧
      Spec.labelsOf e' = [b! "c"]) ∧
    (∃ s s' u i e e', Spec.Visible s u e ∧ removeLabel (fun _ => 0) s u i = (s', .ok ()) ∧
      Spec.Visible s' u e' ∧ i = 1 ∧ Spec.labelsOf e = [b! "a", b! "b"] ∧
      Spec.labelsOf e' = [b! "b"]) := by
  constructor
  · obtain ⟨e, h1, h2, -⟩ := labelled_visible (b! "a,b,c")
    have hl : Spec.labelsOf e = [b! "a", b! "b", b! "c"] := by unfold Spec.labelsOf; rw [h2]; decide
    obtain ⟨s', e', h3, h4, h5, -⟩ := C36_remove_actual (fun _ => 0) (ok_opened _) (b! "u") 0
      [b! "a", b! "b"] (b! "c") e h1 hl (by simp) (by simp)
    exact ⟨_, s', _, 0, e, e', h1, h3, h4, rfl, hl, by unfold Spec.labelsOf; rw [h5]; decide⟩
  · obtain ⟨e, h1, h2, -⟩ := labelled_visible (b! "a,b")
    have hl : Spec.labelsOf e = [b! "a", b! "b"] := by unfold Spec.labelsOf; rw [h2]; decide
    obtain ⟨s', e', h3, h4, h5, -⟩ := C36_remove_actual (fun _ => 0) (ok_opened _) (b! "u") 1
      [b! "a"] (b! "b") e h1 hl (by simp) (by simp)
    exact ⟨_, s', _, 1, e, e', h1, h3, h4, rfl, hl, by unfold Spec.labelsOf; rw [h5]; decide⟩

/-- Not vacuous: an entry with one label, and one with two. -/
example : (∃ e, Spec.Visible (labelled (b! "a")) (b! "u") e ∧ Spec.labelsOf e = [b! "a"]) ∧
    (∃ e, Spec.Visible (labelled (b! "a,b")) (b! "u") e ∧ Spec.labelsOf e = [b! "a", b! "b"]) := by
  constructor
  · obtain ⟨e, h1, h2, -⟩ := labelled_visible (b! "a")
    exact ⟨e, h1, by unfold Spec.labelsOf; rw [h2]; decide⟩
  · obtain ⟨e, h1, h2, -⟩ := labelled_visible (b! "a,b")
    exact ⟨e, h1, by unfold Spec.labelsOf; rw [h2]; decide⟩

/-! ## C37 -/

/-- `RenameDuplicates` never changes a name. -/
theorem C37_never_renames (ord : Order) (hord : ∀ m, (ord m).Perm m) (now : Nat → Int) {s s' : DB}
    (h : Ok s) (r : GoMap Str Str) (hr : renameDuplicates ord now s = (s', .ok r)) (u n : Str) :
    Spec.Named s' u n ↔ Spec.Named s u n := by
  unfold renameDuplicates at hr
  obtain ⟨hr, h2, h3⟩ := withSnapshot_ok h hr
  split at hr
  · cases hr
  · rename_i s2 r2 hloop
    cases hr
    rw [renameLoop_names _ _ _ _ _ _ _ (fun p hp => ?_) hloop, named_log h3]
    rw [exists_iff h2]
    exact ⟨p.2, (mem_order h2.nodup (hord _) p.1 p.2).1 hp⟩

/-- When the names already are unique nothing happens and nothing is reported. -/
theorem C37_unique_noop_partial (ord : Order) (hord : ∀ m, (ord m).Perm m) (now : Nat → Int) {s : DB}
    (h : Good s) (huniq : ∀ u v n, Spec.Named s u n → Spec.Named s v n → u = v) :
    ∃ s', renameDuplicates ord now s = (s', .ok []) ∧ s'.log = s.log := by
  obtain ⟨-, hf, hg, hlog⟩ := good_withSnapshot h (fun s => ((s, .panic) : Out Str))
  unfold renameDuplicates
  rw [(good_withSnapshot h _).1]
  refine ⟨s.updateSnapshot.1, ?_, hlog⟩
  rw [renameLoop_unique _ now [] [] _ (good_names hg hf (hord _)) ?_ (by simp)]
  have hnd := order_nodup hf.nodup (hord s.updateSnapshot.1.snapshot)
  have hmem := fun u e => (mem_order hf.nodup (hord s.updateSnapshot.1.snapshot) u e).1
  have hnames := good_names hg hf (hord s.updateSnapshot.1.snapshot)
  generalize ord s.updateSnapshot.1.snapshot = l at *
  have hpair : ∀ p ∈ l, ∀ q ∈ l, name p.2 = name q.2 → p.1 = q.1 := by
    intro p hp q hq heq
    obtain ⟨n, hn⟩ := Option.isSome_iff_exists.1 (hnames p hp)
    apply huniq p.1 q.1 n
    · rw [← named_log hlog, named_fresh hf]; exact ⟨p.2, hmem p.1 p.2 hp, hn⟩
    · rw [← named_log hlog, named_fresh hf]; exact ⟨q.2, hmem q.1 q.2 hq, heq ▸ hn⟩
  clear hmem hnames
  induction l with
  | nil => simp
  | cons p l ih =>
    simp only [List.map_cons, List.nodup_cons] at hnd ⊢
    refine ⟨?_, ih hnd.2 (fun a ha b hb => hpair a (by simp [ha]) b (by simp [hb]))⟩
    intro hin
    obtain ⟨q, hq, heq⟩ := List.mem_map.1 hin
    apply hnd.1
    rw [hpair p (by simp) q (by simp [hq]) heq.symm]
    exact List.mem_map.2 ⟨q, hq, rfl⟩

/-- False: with two entries named "a" it reports the rename of "a" to "a1", yet both entries are still called "a"
(the write is refused because `name` is a protected key, and the error is dropped). -/
theorem C37_false : ∃ s s' r, renameDuplicates id (fun _ => 0) s = (s', .ok r) ∧
    r.get? (b! "a") = some (b! "a1") ∧ Spec.Named s' (b! "u") (b! "a") ∧ Spec.Named s' (b! "v") (b! "a") := by
  have hu : Spec.Named (sample [(b! "u", b! "a"), (b! "v", b! "a")]) (b! "u") (b! "a") :=
    ⟨_, ⟨_, rfl, rfl⟩, by decide⟩
  have hv : Spec.Named (sample [(b! "u", b! "a"), (b! "v", b! "a")]) (b! "v") (b! "a") :=
    ⟨_, ⟨_, rfl, rfl⟩, by decide⟩
  obtain ⟨s', hr⟩ : ∃ s', renameDuplicates id (fun _ => 0) (sample [(b! "u", b! "a"), (b! "v", b! "a")]) =
      (s', .ok [(b! "a", b! "a1")]) := ⟨_, rfl⟩
  have h := C37_never_renames id (fun m => List.Perm.refl m) (fun _ => 0) (ok_opened _) _ hr
  exact ⟨_, s', _, hr, by decide, (h _ _).2 hu, (h _ _).2 hv⟩

/-- Not vacuous: a file with two differently named entries. -/
example : Good (sample [(b! "u", b! "a"), (b! "v", b! "c")]) := by
  refine ⟨ok_opened _, _, rfl, ?_⟩
  intro w e he
  by_cases h1 : w = b! "v"
  · subst h1; cases he; decide
  · by_cases h2 : w = b! "u"
    · subst h2; cases he; decide
    · exfalso
      revert he
      simp [sample, Txlogs.Spec.apply, Txlogs.Spec.upd, Txlogs.Spec.empty, h1, h2]

/-! ## C38 -/

/-- `NewSync` terminates, after at most one more attempt than the log has operations, and makes an entry whose
name is `sync/kind` followed by the smallest number of 1s that makes it unused. -/
theorem C38_new_sync {s : DB} (h : Reachable s) (ord : Order) (hord : ∀ m, (ord m).Perm m)
    (now : Nat → Int) (u kind : Str) (hu : ¬ Exists s u) (fuel : Nat) (hfuel : s.log.length < fuel) :
    ∃ s' k, newSync ord now u fuel s kind = some (s', .ok u) ∧
      Spec.Named s' u (syncPrefix ++ kind ++ List.replicate k 49) ∧
      (∀ v, ¬ Spec.Named s v (syncPrefix ++ kind ++ List.replicate k 49)) ∧
      ∀ j < k, ∃ v, Spec.Named s v (syncPrefix ++ kind ++ List.replicate j 49) := by
  obtain ⟨s', k, h1, -, h2⟩ := newSync_good ord hord now u kind (reachable_good h) hu fuel hfuel
  exact ⟨s', k, h1, h2⟩

/-- Not vacuous: with "sync/scp" taken the new entry is "sync/scp1". -/
example : ∃ s' , newSync id (fun _ => 0) (b! "v") 9 (sample [(b! "u", b! "sync/scp")]) (b! "scp") =
    some (s', .ok (b! "v")) ∧ Spec.Named s' (b! "v") (b! "sync/scp1") :=
  ⟨_, rfl, _, ⟨_, rfl, rfl⟩, by decide⟩

/-! ## C39 -/

theorem exactMatch_spec (q : Str) (l : List (Str × Str)) (hne : ∀ p ∈ l, p.1 ≠ []) :
    (exactMatch q l ≠ [] → (exactMatch q l, q) ∈ l) ∧
    ((∃ u, (u, q) ∈ l) → exactMatch q l ≠ []) := by
  induction l with
  | nil => simp [exactMatch]
  | cons p l ih =>
    obtain ⟨u, n⟩ := p
    obtain ⟨i1, i2⟩ := ih (fun p hp => hne p (by simp [hp]))
    simp only [exactMatch]
    by_cases hn : n = q
    · subst hn
      simp only [if_true]
      exact ⟨fun _ => by simp, fun _ => hne (u, n) (by simp)⟩
    · simp only [hn, if_false]
      refine ⟨fun h => by simp [i1 h], ?_⟩
      rintro ⟨w, hw⟩
      rcases List.mem_cons.1 hw with h | h
      · cases h; exact absurd rfl hn
      · exact i2 ⟨w, h⟩

/-- What `findOne` selects is an entry matching the query, and either the only such entry or one whose name is
exactly the query. (`hne`: uuids come from the generator and are never empty.) -/
theorem C39_selects (lower : Nat → Nat) (ord : Order) (hord : ∀ m, (ord m).Perm m)
    (ord' : Results → Results) (hord' : ∀ m, (ord' m).Perm m) {s s' : DB} (h : Ok s) (q id : Str)
    (hne : ∀ u n, Spec.Named s u n → u ≠ [])
    (hr : findOne lower ord ord' s q = (s', .ok id)) :
    s'.log = s.log ∧
    (id ≠ [] → ∃ n, Spec.Named s id n ∧ Spec.Selects lower q n ∧
      (n = q ∨ ∀ v m, Spec.Named s v m → Spec.Selects lower q m → v = id)) ∧
    ((∃ u, Spec.Named s u q) → Spec.Named s id q) ∧
    (id = [] → (∀ u, ¬ Spec.Named s u q) ∧
      ((∀ u n, Spec.Named s u n → ¬ Spec.Selects lower q n) ∨
        ∃ u v n m, u ≠ v ∧ Spec.Named s u n ∧ Spec.Named s v m ∧ Spec.Selects lower q n ∧
          Spec.Selects lower q m)) := by
  unfold findOne at hr
  cases hs : search lower ord s q with
  | mk s2 o =>
  cases o with
  | err e => rw [hs] at hr; simp at hr
  | panic => rw [hs] at hr; simp at hr
  | ok es =>
    rw [hs] at hr
    simp only at hr
    obtain ⟨hlog, hex⟩ := C33_search_exact lower ord hord h q es hs
    have hnd : GoMap.NodupKeys es := by
      unfold search at hs
      obtain ⟨hs, -, -⟩ := withSnapshot_ok h hs
      split at hs
      · cases hs; exact GoMap.nodupKeys_nil
      · generalize hkeep : (if q = [] then (fun _ => some true : Entry → Option Bool) else
          searchKeep lower (split slash q)) = keep at hs
        simp only at hs
        split at hs
        · cases hs
        · rename_i hc; cases hs; exact collect_nodup _ _ _ _ GoMap.nodupKeys_nil hc
    have hmem : ∀ u n, (u, n) ∈ ord' es ↔ Spec.Named s u n ∧ Spec.Selects lower q n := by
      intro u n
      rw [(hord' es).mem_iff, GoMap.mem_iff_get? hnd, hex]
    have hnd' : ((ord' es).map Prod.fst).Nodup := ((hord' es).map Prod.fst).nodup_iff.2 hnd
    generalize ord' es = l at *
    have hself := selects_self lower q
    match l, hr, hmem, hnd' with
    | [], hr, hmem, _ =>
      cases hr
      refine ⟨hlog, by simp, ?_, fun _ => ⟨?_, Or.inl ?_⟩⟩
      · rintro ⟨u, hu⟩; exact absurd ((hmem u q).2 ⟨hu, hself⟩) (by simp)
      · intro u hu; exact absurd ((hmem u q).2 ⟨hu, hself⟩) (by simp)
      · intro u n hu hsel; exact absurd ((hmem u n).2 ⟨hu, hsel⟩) (by simp)
    | [(i, n)], hr, hmem, _ =>
      cases hr
      obtain ⟨h1, h2⟩ := (hmem id n).1 (by simp)
      refine ⟨hlog, fun _ => ⟨n, h1, h2, Or.inr ?_⟩, ?_, ?_⟩
      · intro v m hv hsel
        have := (hmem v m).2 ⟨hv, hsel⟩
        simp at this; exact this.1
      · rintro ⟨u, hu⟩
        have := (hmem u q).2 ⟨hu, hself⟩
        simp at this
        rw [this.2]; exact h1
      · intro hid; exact absurd hid (hne id n h1)
    | (i, n) :: (j, m) :: l, hr, hmem, hnd' =>
      simp only at hr
      obtain ⟨e1, e2⟩ := exactMatch_spec q ((i, n) :: (j, m) :: l)
        (fun p hp => hne p.1 p.2 ((hmem p.1 p.2).1 hp).1)
      simp only [Prod.mk.injEq, Res.ok.injEq] at hr
      obtain ⟨rfl, rfl⟩ := hr
      refine ⟨hlog, ?_, ?_, ?_⟩
      · intro hid
        obtain ⟨h1, h2⟩ := (hmem _ _).1 (e1 hid)
        exact ⟨q, h1, h2, Or.inl rfl⟩
      · rintro ⟨u, hu⟩
        exact ((hmem _ _).1 (e1 (e2 ⟨u, (hmem u q).2 ⟨hu, hself⟩⟩))).1
      · intro hid
        refine ⟨fun u hu => e2 ⟨u, (hmem u q).2 ⟨hu, hself⟩⟩ hid, Or.inr ⟨i, j, n, m, ?_, ?_⟩⟩
        · simp at hnd'; exact hnd'.1.1
        · obtain ⟨a1, a2⟩ := (hmem i n).1 (by simp)
          obtain ⟨b1, b2⟩ := (hmem j m).1 (by simp)
          exact ⟨a1, b1, a2, b2⟩

/-- Not vacuous: with "git" and "github" the query "git" selects the entry "git" although both match, and "gi"
selects nothing. -/
example : (∃ s, findOne asciiLower id id (sample [(b! "u", b! "github"), (b! "v", b! "git")]) (b! "git") =
      (s, .ok (b! "v"))) ∧
    (∃ s, findOne asciiLower id id (sample [(b! "u", b! "github"), (b! "v", b! "git")]) (b! "gi") =
      (s, .ok [])) := ⟨⟨_, rfl⟩, ⟨_, rfl⟩⟩

end Verif.Blob
