import Verif.App.TransferSpec
import Verif.App.AccountsDemo
import Verif.App.Repl
import Verif.App.ImportLemmas
import Verif.Csv.Props
/-!
# Properties of export and import

C59 and C60.
-/
set_option linter.unusedSimpArgs false
namespace Verif.App
open Verif Verif.Txlogs Verif.Blob Verif.Crypt Verif.App.Spec
open Verif.Crypt.Spec (toy toy_lawful)

/-! ## C59 -/

/-- The export is a table of the entries as of the last operation that is in the snapshot of the file. -/
theorem C59_as_of_snapshot (s : DB) (h : Ok s) :
    ∃ st, Txlogs.Spec.meaning Txlogs.Spec.empty (s.log.take s.version) = some st ∧ Table st (exportRecords s) := by
  refine ⟨_, h.coh.2, exportKeys s, exportEntries s, ?_, ?_, ?_, ?_, ?_⟩
  · exact nodup_sortStr.2 (nodup_dedup _)
  · exact nodup_sortStr.2 h.nodup
  · intro k
    unfold exportKeys
    rw [mem_sortStr, mem_dedup, List.mem_flatMap]
    constructor
    · rintro ⟨⟨u, e⟩, hp, hk⟩
      refine ⟨u, fun k => e.get? k, view_of_get (GoMap.get?_of_mem h.nodup hp), ?_⟩
      cases hg : e.get? k with
      | none => exact absurd hk (GoMap.get?_eq_none_iff.1 hg)
      | some v => simp [hg]
    · rintro ⟨u, e, hv, hk⟩
      obtain ⟨en, h1, rfl⟩ := view_some hv
      refine ⟨(u, en), GoMap.mem_of_get? h1, ?_⟩
      apply Decidable.byContradiction
      intro hn
      have hn : en.get? k = none := GoMap.get?_eq_none_iff.2 hn
      simp [hn] at hk
  · intro u
    unfold exportEntries
    rw [mem_sortStr]
    simp only [Txlogs.Spec.view]
    cases hg : s.snapshot.get? u with
    | none => simpa using GoMap.get?_eq_none_iff.1 hg
    | some e =>
      simp only [Option.map_some, Option.isSome_some, iff_true]
      exact List.mem_map.2 ⟨_, GoMap.mem_of_get? hg, rfl⟩
  · unfold exportRecords
    congr 1
    apply List.map_congr_left
    intro u hu
    apply List.map_congr_left
    intro k _
    simp only [Txlogs.Spec.view, val]
    cases hg : s.snapshot.get? u with
    | none => simp
    | some e => simp

/-- If the file was saved with a current snapshot the export is a table of all entries with their current values. -/
theorem C59_current_partial (s : DB) (h : Ok s) (hv : s.version = s.log.length) :
    ∃ st, Txlogs.Spec.meaning Txlogs.Spec.empty s.log = some st ∧ Table st (exportRecords s) := by
  obtain ⟨st, h1, h2⟩ := C59_as_of_snapshot s h
  rw [hv, List.take_length] at h1
  exact ⟨st, h1, h2⟩

/-- The file written is then read by a CSV reader as exactly these records, if no value contains a carriage return followed by
a line feed. -/
theorem C59_file_partial (s : DB) (hk : 2 ≤ (exportKeys s).length)
    (hcr : ∀ r ∈ exportRecords s, ∀ f ∈ r, Csv.NoCRLF f) :
    ∃ f, export_ (b! "CSV") true s = .ok f ∧ Csv.read f = (exportRecords s, true) := by
  have hl : ∀ r ∈ exportRecords s, r.length = (exportKeys s).length := by
    intro r hr
    unfold exportRecords at hr
    rcases List.mem_cons.1 hr with rfl | hr
    · rfl
    · obtain ⟨u, -, rfl⟩ := List.mem_map.1 hr
      simp
  refine ⟨_, rfl, Csv.C72_roundtrip_partial (exportKeys s).length _ ⟨by omega, hl, ?_, hcr⟩⟩
  rintro r hr rfl
  have := hl _ hr
  simp at this
  omega

namespace TransferDemo

/-- a new file in which the user adds the entry `a` with user name `me`, without auto-sync -/
def turns : List Turn :=
  [(some (b! "add a"), { d := { uuid := b! "u", inp := [some [], some (b! "me"), some (b! "m"), some (b! "p"), some (b! "p")] } })]

/-- the store at the end -/
def store : DB := (session toy (Demo.codec {}) false {} {} (List.replicate 40 2) turns Demo.u0).1.u.store

/-- the same session with a codec that is faithful for this store -/
def run : Repl × Res AppErr (Option Str) := session toy (Demo.codec store) false {} {} (List.replicate 40 2) turns Demo.u0

/-- the file saved -/
def file : Str := match run.2 with | .ok (some f) => f | _ => []

/-- the file opened again -/
def reopened : Session := match (openFile toy (Demo.codec store) none file [some [1]]).1 with | .ok u => u | _ => {}

theorem saved : run = (run.1, .ok (some file)) := Prod.ext rfl (by decide +kernel)

theorem opens : openFile toy (Demo.codec store) none file [some [1]] = (.ok reopened, []) := by decide +kernel

theorem store_eq : run.1.u.store = store := by decide +kernel

theorem log_eq : reopened.store.log = [⟨0, .add, b! "u", [], []⟩, ⟨0, .setk, b! "u", keyUpdated, b! "0"⟩,
    ⟨0, .setk, b! "u", keyName, b! "a"⟩, ⟨0, .setk, b! "u", keyUser, b! "me"⟩, ⟨0, .setk, b! "u", keyPass, b! "p"⟩] := by
  decide +kernel

theorem exported : exportRecords reopened.store = [[]] := by decide +kernel

end TransferDemo

/-- False: a file saved after `add a`, without synchronisation, is exported as an empty table. -/
theorem C59_false : ¬ ∀ (P : Prims) (C : Codec) (iv pass : Str) (turns : List Turn) (u u' : Session) (r : Repl) (f : Str)
    (inp : Input) (st : Txlogs.Spec.State), Good u.store → Faithful C r.u.store →
    session P C false {} {} iv turns u = (r, .ok (some f)) → openFile P C none f [some pass] = (.ok u', inp) →
    Txlogs.Spec.meaning Txlogs.Spec.empty u'.store.log = some st → Table st (exportRecords u'.store) := by
  intro hall
  obtain ⟨keys, uuids, -, -, hk, -, hr⟩ := hall toy (Demo.codec TransferDemo.store) (List.replicate 40 2) [1]
    TransferDemo.turns Demo.u0 TransferDemo.reopened TransferDemo.run.1 TransferDemo.file [] _ good_new
    (by
      rw [TransferDemo.store_eq]
      exact ⟨by simp [Demo.codec], ⟨_, rfl, rfl, rfl, by decide +kernel, by unfold GoMap.NodupKeys; decide +kernel,
        fun u e h => (show ∀ p ∈ TransferDemo.store.snapshot, (p.2.map Prod.fst).Nodup by decide +kernel) (u, e) (GoMap.mem_of_get? h), rfl⟩, rfl⟩)
    TransferDemo.saved TransferDemo.opens (by rw [TransferDemo.log_eq]; rfl)
  rw [TransferDemo.exported] at hr
  simp only [List.cons.injEq] at hr
  have : keyName ∈ keys := (hk keyName).2 ⟨b! "u", _, rfl, rfl⟩
  rw [← hr.1] at this
  cases this

/-! ## C60 -/

/-- Importing a file of seven-column records makes one entry for each record -- the header included -- with the user name,
password, url, notes and labels of the record, under the name in the record followed by as many `1` as make it unique; all other
entries stay as they are, and names stay unique. -/
theorem C60_partial (toLower : Str → Str) (ord : Order) (hord : ∀ m, (ord m).Perm m) (ds : Nat → Draw) (s : DB) (out : Str)
    (header : List Str) (rs : List (List Str)) (hout : Csv.read out = (header :: rs, true)) (hh : header.length = 7)
    (hhead : join comma header = lastpassHeader) (hg : Good s) (hu : LogUnique s.log)
    (hfresh : ∀ i ≤ rs.length, ¬ Exists s (ds i).uuid)
    (hdist : ∀ i j, i < j → j ≤ rs.length → (ds i).uuid ≠ (ds j).uuid) :
    ∃ s', importCsv toLower ord ds s out = (s', .ok ()) ∧
      (∀ (i : Nat) (r : List Str), (header :: rs)[i]? = some r → ∃ k, Blob.Spec.Visible s' (ds i).uuid
        (imported toLower ((ds i).now 1) (recordName toLower r ++ List.replicate k 49) r)) ∧
      (∀ w f, (∀ i ≤ rs.length, w ≠ (ds i).uuid) → (Blob.Spec.Visible s' w f ↔ Blob.Spec.Visible s w f)) ∧
      (∀ v w n, Blob.Spec.Named s' v n → Blob.Spec.Named s' w n → v = w) := by
  have hw := read_width out header rs (by rw [hout])
  obtain ⟨s', h1, -, h3, -, h5, h6⟩ := importRecords_spec toLower ord hord (header :: rs) ds s
    (fun r hr => (hw r hr).trans hh) hg hu
    (fun i hi => hfresh i (by simp at hi; omega)) (fun i j hij hj => hdist i j hij (by simp at hj; omega))
  refine ⟨s', ?_, h5, fun w f hw => h6 w f (fun i hi => hw i (by simp at hi; omega)), ?_⟩
  · simp only [importCsv, hout, headerOk, hhead, h1]
    simp
  · rintro v w n ⟨e, ⟨st, a1, a2⟩, a3⟩ ⟨f, ⟨st', b1, b2⟩, b3⟩
    rw [a1] at b1
    cases b1
    exact h3 s'.log.length st (by rw [List.take_length]; exact a1) v w e f n a2 b2 a3 b3

/-- importing a file that consists of the header only -/
def headerImport : DB × Res AppErr Unit := importCsv id id (fun _ => { uuid := b! "u" }) {} (lastpassHeader ++ [10])

theorem headerImport_ok : headerImport = (headerImport.1, .ok ()) := Prod.ext rfl (by decide +kernel)

theorem headerImport_log : headerImport.1.log =
    [⟨0, .add, b! "u", [], []⟩, ⟨0, .setk, b! "u", keyUpdated, b! "0"⟩, ⟨0, .setk, b! "u", keyName, b! "name"⟩,
     ⟨0, .setk, b! "u", keyUser, b! "username"⟩, ⟨0, .setk, b! "u", keyPass, b! "password"⟩,
     ⟨0, .setk, b! "u", keyURL, b! "url"⟩, ⟨0, .setk, b! "u", keyNotes, b! "extra"⟩,
     ⟨0, .setk, b! "u", keyLabels, b! "grouping"⟩] := by decide +kernel

theorem headerImport_exists : Exists headerImport.1 (b! "u") := by
  unfold Blob.Exists Blob.Spec.Visible
  rw [headerImport_log]
  exact ⟨_, _, rfl, rfl⟩

/-- False: the header of the file becomes an entry of its own. -/
theorem C60_false : ¬ ∀ (toLower : Str → Str) (ord : Order) (ds : Nat → Draw) (s s' : DB) (out : Str) (header : List Str)
    (rs : List (List Str)), (∀ m, (ord m).Perm m) → Good s → Csv.read out = (header :: rs, true) →
    join comma header = lastpassHeader → importCsv toLower ord ds s out = (s', .ok ()) →
    ∀ u, Exists s' u → Exists s u ∨ ∃ i < rs.length, u = (ds i).uuid := by
  intro hall
  have h := hall id id (fun _ => { uuid := b! "u" }) {} headerImport.1 (lastpassHeader ++ [10])
    [b! "url", b! "username", b! "password", b! "extra", b! "name", b! "grouping", b! "fav"] [] (fun m => List.Perm.refl m)
    good_new (by decide +kernel) (by decide +kernel) headerImport_ok (b! "u") headerImport_exists
  rcases h with ⟨e, st, h1, h2⟩ | ⟨i, hi, -⟩
  · cases h1; simp [Txlogs.Spec.empty] at h2
  · simp at hi

/-- A header given as a single quoted field passes the check, and the program crashes. -/
theorem C60_crash_false (toLower : Str → Str) (ord : Order) (ds : Nat → Draw) (s : DB) :
    importCsv toLower ord ds s (b! "\"" ++ lastpassHeader ++ b! "\"\n") = (s, .panic) := by
  have h : Csv.read (b! "\"" ++ lastpassHeader ++ b! "\"\n") = ([[lastpassHeader]], true) := by decide +kernel
  unfold importCsv
  rw [h]
  rfl

/-! ## The hypotheses can be met -/

/-- C59_current_partial and C59_file_partial: an entry with a line break and a comma in its notes -/
example : let s := ((Blob.new id (fun _ => 0) (b! "u") {} (b! "a")).1.setKey 1 (b! "u") keyNotes (b! "x,\ny")).updateSnapshot.1
    s.version = s.log.length ∧ 2 ≤ (exportKeys s).length ∧ (∀ r ∈ exportRecords s, ∀ f ∈ r, Csv.NoCRLF f) ∧
    exportRecords s = [[b! "name", b! "notes", b! "updated"], [b! "a", b! "x,\ny", b! "0"]] := by
  decide +kernel

/-- C60_partial: two records with the same name -/
example : let out := lastpassHeader ++ b! "\nhttp://x,me,pw,,A b,Web,1\nhttp://y,,,note,A b,,0\n"
    Csv.read out = ([b! "url", b! "username", b! "password", b! "extra", b! "name", b! "grouping", b! "fav"] ::
      [[b! "http://x", b! "me", b! "pw", [], b! "A b", b! "Web", b! "1"],
       [b! "http://y", [], [], b! "note", b! "A b", [], b! "0"]], true) ∧
    ((importCsv id id (fun i => { uuid := [UInt8.ofNat i] }) {} out).1.updateSnapshot.1.snapshot.map (fun p => name p.2)) =
      [some (b! "name"), some (b! "A_b"), some (b! "A_b1")] := by
  decide +kernel

end Verif.App
