import Verif.Json.DecodeLemmas
/-!
# Property C11: a saved store is read back

`Clean s` says that all strings of the store are well-formed UTF-8. Anything a user types or pastes that is not, is replaced by
U+FFFD when the file is written (`C11_any` says exactly how), and two different names can become the same (`C11_false`).
-/
namespace Verif.Json
open Verif Verif.Txlogs Verif.Json.Spec Verif.App.Spec

/-- Whatever the strings are, the saved text is read back as a store with the same version and the same operations in the same
order, each string with its ill-formed bytes replaced. `NewLog` gives the same operations. -/
theorem C11_any (s : DB) (hr : InRange s) :
    (∃ s', load (marshal s) = .ok (some s') ∧ s'.version = s.version ∧ s'.log = s.log.map cleaned ∧ s'.txPoint = 0 ∧
      s'.snapshot.NodupKeys) ∧
    loadLog (marshal s) = .ok (s.log.map cleaned) := by
  refine ⟨?_, loadLog_marshal hr⟩
  have hsnap : ∃ snap : Snapshot, decMap (decMap (decStr []) []) [] (snapVal s.snapshot) = some snap ∧
      snap.NodupKeys := by
    refine decMap_ok _ _ _ _ ?_ _
    intro e
    obtain ⟨m, hm, _⟩ := decMap_ok quote (fun s => JVal.str (sanitize s)) [] (decStr []) (fun x => ⟨_, rfl⟩) e
    exact ⟨m, hm⟩
  obtain ⟨snap, h1, h2⟩ := hsnap
  have key : ∀ snap' : Snapshot, snap'.NodupKeys →
      (s.snapshot ≠ [] → decMap (decMap (decStr []) []) [] (snapVal s.snapshot) = some snap') →
      (s.snapshot = [] → snap' = []) →
      ∃ s', load (marshal s) = .ok (some s') ∧ s'.version = s.version ∧ s'.log = s.log.map cleaned ∧ s'.txPoint = 0 ∧
        s'.snapshot.NodupKeys := by
    intro snap' hn ha hb
    refine ⟨{ version := s.version, snapshot := snap', log := s.log.map cleaned }, ?_, rfl, rfl, rfl, hn⟩
    unfold load
    rw [parse_marshal]
    simp only [steps_db hr ha hb]
  by_cases h0 : s.snapshot = []
  · exact key [] GoMap.nodupKeys_nil (fun h => absurd h0 h) (fun _ => rfl)
  · exact key snap h2 (fun _ => h1) (fun h => absurd h h0)

theorem cleaned_clean {t : Tx} (h : CleanTx t) : cleaned t = t := by
  unfold cleaned
  rw [sanitize_valid h.kind, sanitize_valid h.uuid, sanitize_valid h.key, sanitize_valid h.value, h.kindOk]

theorem map_cleaned {l : List Tx} (h : ∀ t ∈ l, CleanTx t) : l.map cleaned = l := by
  have : l.map cleaned = l.map id := List.map_congr_left fun t ht => cleaned_clean (h t ht)
  rw [this, List.map_id]

/-- A store whose strings are well-formed UTF-8 is read back: same version, same operations, same snapshot (as a map of maps);
`NewLog` on the same text gives the same operations. Missing from C11: stores with other strings. -/
theorem C11_partial (s : DB) (h : Clean s) : Faithful codec s := by
  have hlog := map_cleaned h.log
  refine ⟨?_, ?_, ?_⟩
  · show marshal s ≠ []
    rw [marshal_items]
    simp [object]
  · have hentry : ∀ p ∈ s.snapshot, ∃ m, decMap (decStr []) [] (entryVal p.2) = some m ∧
        (∀ k, m.get? k = p.2.get? k) ∧ m.NodupKeys := by
      intro p hp
      obtain ⟨hm, hv⟩ := h.entries p hp
      obtain ⟨m, h1, h2, h3⟩ := decMap_clean quote (fun s => JVal.str (sanitize s)) [] (decStr []) id p.2 hm (by
        intro q hq
        simp only [decStr, sanitize_valid (hv q hq), id])
      exact ⟨m, h1, (fun k => by rw [h3 k]; simp), h2⟩
    -- what an entry is read as
    let g : Entry → Entry := fun e => (decMap (decStr []) [] (entryVal e)).getD []
    have hg : ∀ p ∈ s.snapshot, decMap (decStr []) [] (entryVal p.2) = some (g p.2) ∧
        (∀ k, (g p.2).get? k = p.2.get? k) ∧ (g p.2).NodupKeys := by
      intro p hp
      obtain ⟨m, h1, h2⟩ := hentry p hp
      have : g p.2 = m := by simp only [g, h1, Option.getD_some]
      rw [this]
      exact ⟨h1, h2⟩
    obtain ⟨snap, h1, h2, h3⟩ := decMap_clean marshalEntry entryVal [] (decMap (decStr []) []) g s.snapshot h.snapshot
      (fun p hp => (hg p hp).1)
    have hempty : s.snapshot = [] → snap = [] := by
      intro h0
      have h1' := h1
      rw [h0] at h1'
      have : decMap (decMap (decStr []) []) [] (mapVal marshalEntry entryVal [] []) = some [] := rfl
      rw [this] at h1'
      exact (Option.some.inj h1').symm
    refine ⟨{ version := s.version, snapshot := snap, log := s.log.map cleaned }, ?_, rfl, hlog, rfl, h2, ?_, ?_⟩
    · show load (marshal s) = _
      unfold load
      rw [parse_marshal]
      simp only [steps_db h.toInRange (fun _ => h1) hempty]
    · intro u e hu
      have hu : snap.get? u = some e := hu
      rw [h3 u] at hu
      cases hs : s.snapshot.get? u with
      | none => rw [hs] at hu; cases hu
      | some e' =>
        rw [hs] at hu
        cases hu
        exact (hg (u, e') (GoMap.mem_of_get? hs)).2.2
    · funext u
      unfold Txlogs.Spec.view
      simp only [h3 u]
      cases hu : s.snapshot.get? u with
      | none => rfl
      | some e =>
        have := (hg (u, e) (GoMap.mem_of_get? hu)).2.1
        simp only [Option.map_some]
        exact congrArg some (funext this)
  · show loadLog (marshal s) = _
    rw [loadLog_marshal h.toInRange, hlog]

/-- `Save` refuses inside a transaction and otherwise gives this text. -/
theorem C11_save (s : DB) : save s = if s.txPoint = 0 then .ok (marshal s) else .err .saveInTransaction := by
  unfold save
  by_cases h : s.txPoint = 0 <;> simp [h]

/-- The four kinds of operation are written with the names of tx.go:11-14 and read back. -/
theorem C11_kinds : kindStr .add = b! "add" ∧ kindStr .del = b! "del" ∧ kindStr .setk = b! "setk" ∧ kindStr .delk = b! "delk" ∧
    ∀ k, (∀ s, k ≠ TxKind.other s) → KindOk k ∧ ValidUtf8 (kindStr k) := by
  refine ⟨rfl, rfl, rfl, rfl, ?_⟩
  intro k hk
  have hv : ∀ s : Str, sanitize s = s → ValidUtf8 s := fun s h => h ▸ valid_sanitize s
  cases k with
  | other s => exact absurd rfl (hk s)
  | add => exact ⟨by unfold KindOk; decide, hv _ (by decide +kernel)⟩
  | del => exact ⟨by unfold KindOk; decide, hv _ (by decide +kernel)⟩
  | setk => exact ⟨by unfold KindOk; decide, hv _ (by decide +kernel)⟩
  | delk => exact ⟨by unfold KindOk; decide, hv _ (by decide +kernel)⟩

/-- two operations whose values differ only in ill-formed bytes -/
def badA : DB := { log := [⟨1, .add, b! "u", [], []⟩, ⟨2, .setk, b! "u", b! "pass", [0x61, 0xFF]⟩] }
def badB : DB := { log := [⟨1, .add, b! "u", [], []⟩, ⟨2, .setk, b! "u", b! "pass", [0x61, 0xFE]⟩] }

/-- As stated C11 is false: a password with a byte that is not UTF-8 (typed in a terminal using another encoding, or imported)
does not survive saving, and two different passwords become the same. -/
theorem C11_false : loadLog (marshal badA) ≠ .ok badA.log ∧ badA ≠ badB ∧ marshal badA = marshal badB := by
  decide +kernel

/-- The text `null` is accepted by `New`, which then returns no store, and makes `NewLog` crash. -/
theorem C11_null : load (b! "null") = .ok none ∧ loadLog (b! " null\n") = .panic := by decide +kernel

/-- non-vacuity: a store with all kinds of characters that need escaping, a snapshot and a negative time -/
def demo : DB :=
  { version := 2
    snapshot := [(b! "u", [(b! "name", b! "a/b"), (b! "notes", b! "x\n\"<&>\\\t é😀")]), (b! "t", [])]
    log := [⟨-5, .add, b! "u", [], []⟩, ⟨1571887979000000000, .setk, b! "u", b! "name", b! "a/b"⟩, ⟨0, .del, b! "t", [], []⟩] }

/-- every string of the example is well-formed because decoding and encoding gives it back -/
theorem valid_of_sanitize {s : Str} (h : sanitize s = s) : ValidUtf8 s := h ▸ valid_sanitize s

theorem demo_clean : Clean demo := by
  refine ⟨⟨by decide, ?_⟩, ?_, ⟨by unfold GoMap.NodupKeys; decide, ?_⟩, ?_⟩
  · decide
  · have : ∀ t ∈ demo.log, KindOk t.kind ∧ sanitize (kindStr t.kind) = kindStr t.kind ∧ sanitize t.uuid = t.uuid ∧
        sanitize t.key = t.key ∧ sanitize t.value = t.value := by unfold KindOk; decide +kernel
    intro t ht
    obtain ⟨h1, h2, h3, h4, h5⟩ := this t ht
    exact ⟨h1, valid_of_sanitize h2, valid_of_sanitize h3, valid_of_sanitize h4, valid_of_sanitize h5⟩
  · have : ∀ p ∈ demo.snapshot, sanitize p.1 = p.1 := by decide +kernel
    exact fun p hp => valid_of_sanitize (this p hp)
  · have : ∀ p ∈ demo.snapshot, (p.2.map Prod.fst).Nodup ∧ (∀ q ∈ p.2, sanitize q.1 = q.1) ∧
        ∀ q ∈ p.2, sanitize q.2 = q.2 := by decide +kernel
    intro p hp
    obtain ⟨h1, h2, h3⟩ := this p hp
    exact ⟨⟨h1, fun q hq => valid_of_sanitize (h2 q hq)⟩, fun q hq => valid_of_sanitize (h3 q hq)⟩

example : Faithful codec demo := C11_partial demo demo_clean

/-- the text of a small store, character by character -/
example : marshal { version := 1, snapshot := [(b! "u", [])], log := [⟨7, .setk, b! "u", b! "k", b! "a\"<\n"⟩] } =
    b! "{\"version\":1,\"snapshot\":{\"u\":{}},\"log\":[{\"time\":7,\"kind\":\"setk\",\"uuid\":\"u\",\"key\":\"k\",\"value\":\"a\\\"\\u003c\\n\"}]}" := by
  decide +kernel

end Verif.Json
