import Verif.App.ImportedLemmas
import Verif.App.FileProps
import Verif.App.YearsProps
import Verif.App.ReplProps
import Verif.App.DateProps
/-!
# C123: an import leaves a file like any other
-/
set_option linter.unusedSimpArgs false
namespace Verif.App
open Verif Verif.Txlogs Verif.Blob Verif.Crypt Verif.App.Spec
open Verif.Crypt.Spec (toy toy_lawful)
open Demo (perm_id)

/-- However an import ends, what it leaves is in order: the history replays, names are unique and every entry has one, and nothing of
the old history is gone. If every entry had a date, every entry has one. If all texts were well-formed and those of the table are,
they still are. -/
theorem C123_import (toLower : Str → Str) (hlow : ∀ x, ValidUtf8 (toLower x)) (ord : Order) (hord : ∀ m, (ord m).Perm m)
    (ds : Nat → Draw) (created : Bool) (out : Option Str) (u : Session) (inp : Input) (h : Sound u.store)
    (hi : ∀ t, out = some t → ImportOk ds (Csv.read t).1.length u.store) :
    let u' := (importLastpass toLower ord ds created out u inp).1
    Sound u'.store ∧ u.store.log <+: u'.store.log ∧ (DatedHistory u.store.log → DatedHistory u'.store.log) ∧
      ((∀ t, out = some t → ValidUtf8 t) → CleanLog u.store → CleanLog u'.store) ∧
      u'.store.log.length ≤ u.store.log.length + 8 * ((out.map fun t => (Csv.read t).1.length).getD 0) ∧
      u' = { u with store := u'.store } := by
  have hsame : ∀ o : Res AppErr Unit, let u' := ((u, o) : Session × Res AppErr Unit).1
      Sound u'.store ∧ u.store.log <+: u'.store.log ∧ (DatedHistory u.store.log → DatedHistory u'.store.log) ∧
      ((∀ t, out = some t → ValidUtf8 t) → CleanLog u.store → CleanLog u'.store) ∧
      u'.store.log.length ≤ u.store.log.length + 8 * ((out.map fun t => (Csv.read t).1.length).getD 0) ∧
      u' = { u with store := u'.store } := fun o => ⟨h, List.prefix_rfl, id, fun _ hc => hc, Nat.le_add_right _ _, rfl⟩
  have hgo : ∀ t, out = some t → let s' := (importCsv toLower ord ds u.store t).1
      Sound s' ∧ u.store.log <+: s'.log ∧ (DatedHistory u.store.log → DatedHistory s'.log) ∧
      ((∀ t, out = some t → ValidUtf8 t) → CleanLog u.store → CleanLog s') ∧
      s'.log.length ≤ u.store.log.length + 8 * ((out.map fun t => (Csv.read t).1.length).getD 0) := by
    rintro t rfl
    obtain ⟨a, b, c, d, e⟩ := imported_all hlow hord (Csv.read t).1 h (hi t rfl)
    unfold importCsv
    simp only
    split
    · cases hx : importRecords toLower ord ds u.store (Csv.read t).1 with
      | mk s o =>
        rw [hx] at a b c d e
        cases o <;> exact ⟨a, b, c, fun ht hc => d hc (text_read (ht t rfl)), e⟩
    · exact ⟨h, List.prefix_rfl, id, fun _ hc => hc, Nat.le_add_right _ _⟩
  have hwhole : let u' := (match out with
        | none => ((u, .err .external) : Session × Res AppErr Unit)
        | some out => match importCsv toLower ord ds u.store out with
          | (s, r) => ({ u with store := s }, r)).1
      Sound u'.store ∧ u.store.log <+: u'.store.log ∧ (DatedHistory u.store.log → DatedHistory u'.store.log) ∧
      ((∀ t, out = some t → ValidUtf8 t) → CleanLog u.store → CleanLog u'.store) ∧
      u'.store.log.length ≤ u.store.log.length + 8 * ((out.map fun t => (Csv.read t).1.length).getD 0) ∧
      u' = { u with store := u'.store } := by
    cases hout : out with
    | none => rw [hout] at hsame; exact hsame _
    | some t =>
      obtain ⟨a, b, c, d, e⟩ := hgo t hout
      rw [hout] at d e
      exact ⟨a, b, c, d, e, rfl⟩
  unfold importLastpass
  simp only
  split
  · exact hwhole
  · split
    · exact hsame _
    · split
      · exact hwhole
      · exact hsame _

/-- An import into a file with one user, new or not, that succeeds is saved, and the file opens with the same passphrase to exactly
what was imported, in order and with dates. -/
theorem C123_file_partial (P : Prims) (hP : Crypt.Spec.Lawful P) (toLower : Str → Str) (hlow : ∀ x, ValidUtf8 (toLower x))
    (v v' : Env) (hord : ∀ m, (v.ord m).Perm m) (ds : Nat → Draw) (salt iv pass t : Str) (hiv : iv.length = 40)
    (inp inp' : Input) (old : Disk) (u u' : Session)
    (hopen : load P Json.Spec.codec none salt old inp = (.ok u, inp')) (ho : OwnSession P u pass) (h : Sound u.store)
    (hd : DatedHistory u.store.log) (hc : CleanLog u.store) (hi : ImportOk ds (Csv.read t).1.length u.store) (ht : ValidUtf8 t)
    (hn : u.store.log.length + 8 * (Csv.read t).1.length < 18446744073709551616)
    (hr : importLastpass toLower v.ord ds old.isNone (some t) u inp' = (u', .ok ())) :
    ∃ f u'', (main P Json.Spec.codec none salt iv v v' (.lpassimport toLower ds (some t)) inp old).1.getLast? = some (some f) ∧
      (main P Json.Spec.codec none salt iv v v' (.lpassimport toLower ds (some t)) inp old).2 = .ok () ∧
      openFile P Json.Spec.codec none f [some pass] = (.ok u'', []) ∧ Spec.SameStore u''.store u'.store ∧ OwnSession P u'' pass ∧
      Sound u''.store ∧ DatedHistory u''.store.log ∧ CleanLog u''.store ∧ u.store.log <+: u''.store.log := by
  have key := C123_import toLower hlow v.ord hord ds old.isNone (some t) u inp' h (fun x hx => by cases hx; exact hi)
  rw [hr] at key
  obtain ⟨a, b, c, d, e, g⟩ := key
  have hclean := d (fun x hx => by cases hx; exact ht) hc
  have hro : u'.readOnly = u.readOnly := (congrArg Session.readOnly g).trans rfl
  have hcr : u'.creds = u.creds := (congrArg Session.creds g).trans rfl
  have hcount : Counted u'.store := Nat.lt_of_le_of_lt e (by simpa using hn)
  obtain ⟨f, s', g1, g2, g3⟩ := C51_save_open_single P hP Json.Spec.codec v'.ord v'.ord' iv hiv u' (hro.trans ho.writable) a.tx
    (C77_saved _ a.wf hclean hcount) (by rw [hcr]; exact ho.creds) pass ho.pass_ne (by rw [hcr]; exact ho.key)
  refine ⟨f, _, ?_, ?_, g3, g2, ⟨rfl, rfl, ⟨rfl, ?_, ?_⟩, ho.pass_ne, ?_, .inl rfl⟩, sound_sameStore a g2, ?_, ?_, ?_⟩
  · simp only [main, hopen, work, hr, saveTrace, g1, getLast?_writeFile]
  · simp only [main, hopen, work, hr, g1]
  · rw [hcr]; exact ho.creds.key
  · rw [hcr]; exact ho.creds.salt
  · rw [hcr]; exact ho.key
  · show DatedHistory s'.log
    rw [g2.log]; exact c hd
  · intro x hx
    exact hclean x (g2.log ▸ hx)
  · show u.store.log <+: s'.log
    rw [g2.log]; exact b

/-- With `--time` an import changes nothing on the disk, whether it succeeds or not. -/
theorem C123_past (P : Prims) (C : Codec) (past : Int) (salt iv : Str) (v v' : Env) (toLower : Str → Str) (ds : Nat → Draw)
    (out : Option Str) (inp : Input) (old : Disk) :
    (main P C (some past) salt iv v v' (.lpassimport toLower ds out) inp old).1 = [old] := by
  have hro : ∀ u inp', load P C (some past) salt old inp = (.ok u, inp') → u.readOnly = true := by
    intro u inp' hl
    cases old with
    | some f => exact C57_opened P C past f inp inp' u hl
    | none =>
      simp only [load, createFile] at hl
      split at hl
      · cases hl
      · split at hl
        · cases hl
        · split at hl
          · cases hl
          · split at hl
            · cases hl
            · split at hl
              · cases hl; rfl
              · cases hl
              · cases hl
  unfold main
  cases hl : load P C (some past) salt old inp with
  | mk o inp' =>
    cases o with
    | err e => rfl
    | panic => rfl
    | ok u =>
      have hu := hro u inp' hl
      simp only [work]
      cases hx : importLastpass toLower v.ord ds old.isNone out u inp' with
      | mk u' o =>
        have hu' : u'.readOnly = true := by
          have : (importLastpass toLower v.ord ds old.isNone out u inp').1.readOnly = u.readOnly := by
            unfold importLastpass
            simp only
            have hgo : (match out with
                | none => ((u, .err .external) : Session × Res AppErr Unit)
                | some out => match importCsv toLower v.ord ds u.store out with
                  | (s, r) => ({ u with store := s }, r)).1.readOnly = u.readOnly := by
              cases out <;> rfl
            split
            · exact hgo
            · split
              · rfl
              · split
                · exact hgo
                · rfl
          rw [hx] at this
          exact this.trans hu
        cases o with
        | err e => rfl
        | panic => rfl
        | ok _ => simp [saveTrace, saveBlob, hu']

/-! ## Not vacuous -/

namespace ImportedDemo

/-- lower case for texts of plain letters -/
def toLower (s : Str) : Str := if s.all (fun b => b.toNat < 0x80) then s.map (fun b => if 65 ≤ b ∧ b ≤ 90 then b + 32 else b) else []

theorem toLower_valid (x : Str) : ValidUtf8 (toLower x) := by
  unfold toLower
  split
  · rename_i h
    refine valid_ascii _ ?_
    rw [List.all_eq_true] at h ⊢
    intro b hb
    obtain ⟨c, hc, rfl⟩ := List.mem_map.1 hb
    have := h c hc
    revert this
    simp only [decide_eq_true_eq]
    split
    · rename_i hr
      intro h1
      obtain ⟨a1, a2⟩ := hr
      have a3 : c.toNat ≤ 90 := a2
      have : (c + 32).toNat = c.toNat + 32 := by
        rw [UInt8.toNat_add]; simp; omega
      omega
    · exact id
  · exact valid_nil

/-- a list with two records -/
def csv : Str := lastpassHeader ++ b! "\nhttps://a,me,secret,,My Bank,Money,1\n"

/-- a list with a record whose name begins with "User/" -/
def csvUser : Str := lastpassHeader ++ b! "\nhttps://a,joe,secret,,User/Joe,,0\n"

def ds (i : Nat) : Draw := { now := fun j => 100 * (i + 1) + j, uuid := [UInt8.ofNat (i + 1)] }

theorem csv_read : Csv.read csv = ([[b! "url", b! "username", b! "password", b! "extra", b! "name", b! "grouping", b! "fav"],
    [b! "https://a", b! "me", b! "secret", [], b! "My Bank", b! "Money", b! "1"]], true) := by decide +kernel

theorem ok : ImportOk ds (Csv.read csv).1.length DB.new := by
  rw [csv_read]
  have hlt : ∀ i, i < 2 → i = 0 ∨ i = 1 := by omega
  refine ⟨fun i _ t ht => (by cases ht), ?_, ?_, ?_, ?_, ?_, fun _ t ht => (by cases ht), ?_⟩
  · intro i j hij hj
    obtain ⟨rfl, rfl⟩ : i = 0 ∧ j = 1 := by simp at hj; omega
    decide
  · intro i hi
    rcases hlt i hi with rfl | rfl <;> decide
  · intro i hi
    rcases hlt i hi with rfl | rfl <;> exact valid_ascii _ (by decide)
  · intro k hk i j hij hj
    simp only [ds]; omega
  · intro k hk
    simp only [ds]; omega
  · intro k hk i hi
    simp only [List.length_cons, List.length_nil] at hk
    simp only [ds, FitsInt64]; omega

theorem text : ValidUtf8 csv := valid_ascii _ (by decide +kernel)

theorem sound_empty : Sound DB.new := ⟨wf_new_file, C86_new, rfl⟩

def salt : Str := List.replicate 32 1
def iv : Str := List.replicate 40 2

/-- a new file -/
def u0 : Session := { creds := { key := toy.kdf (b! "p") salt, salt := salt }, store := {}, readOnly := false, startTx := 0 }

/-- after the import -/
def u1 : Session := (importLastpass toLower id ds true (some csv) u0 []).1

/-- C123_import and C123_file_partial: a new file made from a list -/
example : ∃ f u'', (main toy Json.Spec.codec none salt iv {} {} (.lpassimport toLower ds (some csv)) [some (b! "p"), some (b! "p")] none).1.getLast?
      = some (some f) ∧
    (main toy Json.Spec.codec none salt iv {} {} (.lpassimport toLower ds (some csv)) [some (b! "p"), some (b! "p")] none).2 = .ok () ∧
    openFile toy Json.Spec.codec none f [some (b! "p")] = (.ok u'', []) ∧ Spec.SameStore u''.store u1.store ∧
    OwnSession toy u'' (b! "p") ∧ Sound u''.store ∧ DatedHistory u''.store.log ∧ CleanLog u''.store ∧ DB.new.log <+: u''.store.log :=
  C123_file_partial toy toy_lawful toLower toLower_valid {} {} perm_id ds salt iv (b! "p") csv rfl _ [] none u0 u1 (by decide +kernel)
    (own_new toy_lawful (pass := b! "p") (salt := salt) (inp := []) rfl (by decide +kernel)).1 sound_empty C109_new
    (fun _ h => (by cases h)) ok text (by rw [csv_read]; decide) (Prod.ext rfl (by decide +kernel))

/-- ... it holds the header and the record -/
example : (u1.store.log.filter fun t => t.key = keyName).map Tx.value = [b! "name", b! "my_bank"] := by decide +kernel

end ImportedDemo

/-- False for a file with users: a record whose name begins with "User/" makes a user without a key, the file cannot be written, and
the import, which was said to be complete, is lost. -/
theorem C123_false : ∃ (u u' : Session) (e : AppErr) (f : Str), WellFormed u.store ∧ MultiSession toy u ∧
    saveBlob toy Json.Spec.codec id id (List.replicate 40 4) u = .ok (some f) ∧
    importLastpass ImportedDemo.toLower id (fun i => { uuid := [UInt8.ofNat (i + 50)] }) false (some ImportedDemo.csvUser) u [some (b! "y")] = (u', .ok ()) ∧
    saveBlob toy Json.Spec.codec id id (List.replicate 40 4) u' = .err e :=
  ⟨Demo.rS.u, (importLastpass ImportedDemo.toLower id (fun i => { uuid := [UInt8.ofNat (i + 50)] }) false (some ImportedDemo.csvUser) Demo.rS.u
      [some (b! "y")]).1, .crypt .badParams, Demo.fileOf Demo.rS, Demo.u1_wf, Demo.u1_multi.1, by decide +kernel,
    Prod.ext rfl (by decide +kernel), by decide +kernel⟩

/-- False with `--time`: the import says it is complete and the program ends without an error, but nothing is saved. -/
theorem C123_past_false : ∃ (past : Int) (inp : Input) (u u' : Session) (inp' : Input),
    load toy Json.Spec.codec (some past) ImportedDemo.salt none inp = (.ok u, inp') ∧
    importLastpass ImportedDemo.toLower id ImportedDemo.ds true (some ImportedDemo.csv) u inp' = (u', .ok ()) ∧
    u'.store.log ≠ u.store.log ∧
    main toy Json.Spec.codec (some past) ImportedDemo.salt ImportedDemo.iv {} {} (.lpassimport ImportedDemo.toLower ImportedDemo.ds
      (some ImportedDemo.csv)) inp none = ([none], .ok ()) :=
  ⟨5, [some (b! "p"), some (b! "p")], { ImportedDemo.u0 with readOnly := true },
    (importLastpass ImportedDemo.toLower id ImportedDemo.ds true (some ImportedDemo.csv) { ImportedDemo.u0 with readOnly := true } []).1, [],
    by decide +kernel, Prod.ext rfl (by decide +kernel), by decide +kernel,
    Prod.ext (C123_past toy Json.Spec.codec 5 _ _ _ _ _ _ _ _ _) (by decide +kernel)⟩

end Verif.App
