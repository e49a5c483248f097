import Verif.App.TightProps
import Verif.Scp.Props
/-!
# More of what wrong programs slipped through

Each theorem here rejects a wrong program that the other theorems of its claim accepted (see `seeded/LOG.jsonl`).
-/
namespace Verif.Blob
open Verif Verif.Txlogs

/-! ## C70 -/

/-- `Get` returns the value of that very key, the empty text if there is none; it crashes exactly for the keys that are protected,
in letters of either case. -/
theorem C70_blob_get (e : Entry) (key : Str) :
    (get e key = none ↔ ∃ p ∈ protectedKeys, equalFold key p = true) ∧
      ((∀ p ∈ protectedKeys, equalFold key p = false) → get e key = some ((e.get? key).getD [])) := by
  unfold get
  constructor
  · constructor
    · intro h
      split at h
      · rename_i h1; exact List.any_eq_true.1 h1
      · cases h
    · intro h
      rw [if_pos (List.any_eq_true.2 h)]
  · intro h
    rw [if_neg (by
      intro h1
      obtain ⟨p, hp, hq⟩ := List.any_eq_true.1 h1
      rw [h p hp] at hq; cases hq)]
    rfl

example : get [(b! "user", b! "bob")] (b! "user") = some (b! "bob") := by decide
example : get [(b! "totp", b! "x")] (b! "TOTP") = none := by decide

/-! ## C37 -/

/-- The name that `RenameDuplicates` makes up is the old one followed by one or more `1`, and none of those it has seen. -/
theorem C37_fresh (names : List Str) (nm : Str) :
    freshName names (names.length + 1) nm ∉ names ∧
      ∃ k, freshName names (names.length + 1) nm = nm ++ List.replicate (k + 1) 49 :=
  freshName_not_mem names _ nm (Nat.lt_succ_of_le (List.length_filter_le _ _))

/-- But it has seen only the names before: with `a`, `a` and `a1` in that order it makes up `a1`, which is taken. -/
theorem C37_taken_false : ∃ s s' r, renameDuplicates id (fun _ => 0) s = (s', .ok r) ∧
    r.get? (b! "a") = some (b! "a1") ∧ Spec.Named s (b! "w") (b! "a1") := by
  let s := sample [(b! "u", b! "a"), (b! "v", b! "a"), (b! "w", b! "a1")]
  have h : (renameDuplicates id (fun _ => 0) s).2 = .ok [(b! "a", b! "a1")] := by decide +kernel
  exact ⟨s, (renameDuplicates id (fun _ => 0) s).1, _, Prod.ext rfl h, by decide, _, ⟨_, rfl, rfl⟩, by decide⟩

/-! ## C31 -/

theorem findNameLoop_nameless (nm : Str) : ∀ l : List (Str × Entry), (∃ p ∈ l, name p.2 = none) → (∀ p ∈ l, name p.2 ≠ some nm) →
    findNameLoop nm l = none := by
  intro l
  induction l with
  | nil => rintro ⟨p, hp, -⟩; cases hp
  | cons p l ih =>
    rintro ⟨q, hq, hn⟩ h
    obtain ⟨u, e⟩ := p
    simp only [findNameLoop]
    rcases List.mem_cons.1 hq with rfl | hq
    · simp only at hn; rw [hn]
    · split
      · rfl
      · rename_i n hn'
        rw [if_neg (fun k => h _ (List.mem_cons_self ..) (by rw [hn', k]))]
        exact ih ⟨q, hq, hn⟩ fun p hp => h p (List.mem_cons_of_mem _ hp)

/-- One entry without a name is enough to make every lookup of a name that nobody has crash, whatever the order in which the entries
are visited. -/
theorem C31_nameless_false (ord : Order) (hord : ∀ m, (ord m).Perm m) {s : DB} (h : Ok s) (u nm : Str)
    (e : Str → Option Str) (he : Spec.Visible s u e) (hn : e keyName = none) (hnone : ∀ w, ¬ Spec.Named s w nm) :
    (findByName ord s nm).2 = .panic := by
  unfold findByName
  obtain ⟨st, hst, hu⟩ := he
  rcases withSnapshot_cases h _ with ⟨e', -, h1⟩ | ⟨h1, h2, h3⟩
  · rw [h1] at hst; cases hst
  · rw [h1]
    have hm := h2.meaning
    rw [h3, hst] at hm
    cases hm
    obtain ⟨en, h4, rfl⟩ := view_some hu
    rw [findNameLoop_nameless nm _ ⟨(u, en), (mem_order h2.nodup (hord _) _ _).2 h4, hn⟩]
    rintro ⟨w, en'⟩ hp hnm
    exact hnone w ⟨_, ⟨_, hst, view_of_get ((mem_order h2.nodup (hord _) _ _).1 hp)⟩, hnm⟩

/-- Not vacuous: the file as it was between the creation of an entry and the naming of it, which is what history mode shows for a
time in between. -/
example : ∃ s : DB, Ok s ∧ Spec.Readable s ∧ (∃ e, Spec.Visible s (b! "u") e ∧ e keyName = none) ∧ ∀ w nm, ¬ Spec.Named s w nm := by
  refine ⟨{ log := [{ kind := .add, time := 1, uuid := b! "u" }] }, ok_opened _, rfl, ⟨_, ⟨_, rfl, rfl⟩, rfl⟩, ?_⟩
  rintro w nm ⟨e, ⟨st, h1, h2⟩, h3⟩
  cases h1
  by_cases hw : w = b! "u"
  · subst hw; cases h2; cases h3
  · revert h2
    simp [Txlogs.Spec.upd, Txlogs.Spec.empty, hw]

end Verif.Blob

namespace Verif.Scp
open Verif

/-! ## C56 -/

/-- The other side has taken what it was sent exactly if the first byte of its reply is 0. -/
theorem C56_response (got : Str) : readResponse got = .ok () ↔ ∃ rest, got = 0 :: rest := by
  unfold readResponse
  split
  · simp
  · rename_i c msg
    split
    · rename_i h; subst h; simp
    · rename_i h
      split <;> simp [h]

/-- A refusal is an error with the code and the message of the other side. -/
theorem C56_refusal (c : UInt8) (msg : Str) (hc : c = 1 ∨ c = 2) (hm : 2 ≤ msg.length) :
    readResponse (c :: msg) = .err (.remote c.toNat msg) := by
  unfold readResponse
  simp only
  rw [if_neg (by rcases hc with rfl | rfl <;> decide), if_pos hc, if_pos (by simp; omega)]

theorem indexOf_isSome (sub : Str) : ∀ s : Str, (indexOf s sub).isSome = true ↔ ∃ a b, s = a ++ sub ++ b := by
  intro s
  induction s with
  | nil =>
    simp only [indexOf]
    split
    · rename_i h; subst h; simp
    · rename_i h
      constructor
      · intro k; cases k
      · rintro ⟨a, b, k⟩
        have := congrArg List.length k
        simp at this
        exact absurd (List.eq_nil_of_length_eq_zero (by omega)) h
  | cons c s ih =>
    simp only [indexOf]
    split
    · rename_i h
      obtain ⟨b, hb⟩ := List.isPrefixOf_iff_prefix.1 h
      exact ⟨fun _ => ⟨[], b, by simpa using hb.symm⟩, fun _ => rfl⟩
    · rename_i h
      rw [Option.isSome_map, ih]
      constructor
      · rintro ⟨a, b, rfl⟩; exact ⟨c :: a, b, by simp⟩
      · rintro ⟨a, b, k⟩
        cases a with
        | nil => exact absurd (List.isPrefixOf_iff_prefix.2 ⟨b, by simpa using k.symm⟩) h
        | cons d a =>
          simp only [List.cons_append, List.cons.injEq] at k
          exact ⟨a, b, k.2⟩

/-- Only a warning of the other side that says, in letters of either case, that there is no such file counts as that. -/
theorem C56_not_found (e : ScpErr) : isNotFoundErr e = true ↔
    ∃ msg a b, e = .remote 1 msg ∧ msg.map lowerByte = a ++ b! "no such file or directory" ++ b := by
  unfold isNotFoundErr
  split
  · rename_i code msg
    rw [Bool.and_eq_true, decide_eq_true_iff, indexOf_isSome]
    constructor
    · rintro ⟨rfl, a, b, h⟩; exact ⟨msg, a, b, rfl, h⟩
    · rintro ⟨m, a, b, h, k⟩; cases h; exact ⟨rfl, a, b, k⟩
  · rename_i h
    constructor
    · intro k; cases k
    · rintro ⟨m, a, b, rfl, k⟩; exact absurd rfl (h 1 m)

example : isNotFoundErr (.remote 1 (b! "scp: x: No such file or directory\n")) = true := by decide +kernel
example : isNotFoundErr (.remote 1 (b! "scp: x: Permission denied\n")) = false := by decide +kernel

end Verif.Scp
