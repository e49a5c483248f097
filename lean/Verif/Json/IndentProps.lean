import Verif.Json.IndentLemmas
import Verif.Json.Props
/-!
# Property C110, first part: what `dumpall` prints

`dumpall` prints `marshalIndent s` and a line break.
-/
namespace Verif.Json
open Verif Verif.Txlogs Verif.Json.Spec Verif.App.Spec

/-- what `dumpall` prints (commands.go:1225-1232) -/
def dumpall (s : DB) : Str := marshalIndent s ++ [10]

/-- Whatever the store, `New` and `NewLog` take what `dumpall` prints for the same text as the one in the file. -/
theorem C110_dumpall (s : DB) : load (dumpall s) = load (marshal s) ∧ loadLog (dumpall s) = loadLog (marshal s) := by
  have h := parse_indent s [10] (by decide) (.inr ⟨10, [], rfl, .inr (.inr (.inr rfl))⟩)
  unfold load loadLog dumpall
  rw [h]
  exact ⟨rfl, rfl⟩

/-- So it holds the whole history: every operation, also those of entries and values that were deleted or replaced. -/
theorem C110_history (s : DB) (hr : InRange s) : loadLog (dumpall s) = .ok (s.log.map cleaned) := by
  rw [(C110_dumpall s).2]
  exact (C11_any s hr).2

/-- It is a backup: the store can be read from it. -/
theorem C110_backup_partial (s : DB) (h : Clean s) : ∃ s', load (dumpall s) = .ok (some s') ∧ SameStore s' s := by
  rw [(C110_dumpall s).1]
  exact (C11_partial s h).load

/-- non-vacuity -/
example : ∃ s', load (dumpall demo) = .ok (some s') ∧ SameStore s' demo := C110_backup_partial demo demo_clean

example : dumpall { version := 1, snapshot := [(b! "u", [])], log := [⟨7, .setk, b! "u", b! "k", b! "a,{\"<\n"⟩] } =
    b! "{\n  \"version\": 1,\n  \"snapshot\": {\n    \"u\": {}\n  },\n  \"log\": [\n    {\n      \"time\": 7,\n      \"kind\": \"setk\",\n      \"uuid\": \"u\",\n      \"key\": \"k\",\n      \"value\": \"a,{\\\"\\u003c\\n\"\n    }\n  ]\n}\n" := by
  decide +kernel

/-- A password that was replaced, of an entry that was deleted, is printed. -/
def gone : DB := { log := [⟨1, .add, b! "u", [], []⟩, ⟨2, .setk, b! "u", b! "pass", b! "old"⟩, ⟨3, .setk, b! "u", b! "pass", b! "new"⟩, ⟨4, .del, b! "u", [], []⟩] }

/-- As with C11 two stores can be printed alike. -/
theorem C110_dumpall_false : badA ≠ badB ∧ dumpall badA = dumpall badB := by decide +kernel

example : gone.updateSnapshot.1.snapshot = [] ∧ loadLog (dumpall gone) = .ok gone.log := by
  refine ⟨by decide +kernel, ?_⟩
  rw [C110_history gone ⟨by decide, by decide⟩]
  decide +kernel

end Verif.Json
