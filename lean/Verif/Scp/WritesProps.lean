import Verif.Scp.Writes
import Verif.Scp.Props
/-!
# Writes that fail (C55, C56, C92)
-/
namespace Verif.Scp
open Verif

theorem through_prefix (w : Wrote) (s : Str) : through w s <+: s := by
  cases w with
  | none => exact List.prefix_refl s
  | some k => exact List.take_prefix k s

theorem send_split (filename : Str) (mode : Nat) (contents : Str) :
    sendFile filename mode contents = sendHeader filename mode contents ++ contents ++ [0] := rfl

/-- What `sendFile` writes is always the beginning of the message, and all of it, answered well, if `sendFile` succeeds. If a write
fails, `sendFile` fails. -/
theorem C55_written (w0 w1 w2 : Wrote) (filename : Str) (mode : Nat) (contents first : Str) :
    (sendFileW w0 w1 w2 filename mode contents first).1 <+: sendFile filename mode contents ∧
    ((sendFileW w0 w1 w2 filename mode contents first).2 = .ok () →
      (sendFileW w0 w1 w2 filename mode contents first).1 = sendFile filename mode contents ∧ readResponse first = .ok ()) ∧
    (w0 ≠ none ∨ (w1 ≠ none ∧ contents ≠ []) ∨ w2 ≠ none → (sendFileW w0 w1 w2 filename mode contents first).2 = .err none) := by
  rw [send_split]
  unfold sendFileW
  cases w0 with
  | some k =>
    refine ⟨?_, fun h => ?_, fun _ => rfl⟩
    · simp only [Option.isSome_some, if_true]
      exact (through_prefix _ _).trans (by rw [List.append_assoc]; exact List.prefix_append _ _)
    · simp at h
  | none =>
    simp only [Option.isSome_none, Bool.false_eq_true, if_false]
    by_cases h1 : contents ≠ [] ∧ w1.isSome = true
    · rw [if_pos h1]
      refine ⟨?_, fun h => ?_, fun _ => rfl⟩
      · rw [List.append_assoc]
        exact (List.prefix_append_right_inj _).2 ((through_prefix _ _).trans (List.prefix_append _ _))
      · cases h
    · rw [if_neg h1]
      cases w2 with
      | some k =>
        refine ⟨?_, fun h => ?_, fun _ => rfl⟩
        · exact List.prefix_append _ _
        · simp at h
      | none =>
        simp only [Option.isSome_none, Bool.false_eq_true, if_false]
        refine ⟨List.prefix_refl _, fun h => ⟨by first | rfl | trivial, ?_⟩, fun h => ?_⟩
        · cases hr : readResponse first with
          | ok a => rfl
          | err e => rw [hr] at h; cases h
          | panic => rw [hr] at h; cases h
        · rcases h with h | ⟨h, h'⟩ | h
          · exact absurd rfl h
          · refine absurd ⟨h', ?_⟩ h1
            cases w1 with
            | none => exact absurd rfl h
            | some k => rfl
          · exact absurd rfl h

/-- If all writes work, `readFile` is what it was modelled as. -/
theorem readFileW_all (inp : Str) : readFileW none none none inp = match readFile inp with
    | .ok f => .ok f
    | .err e => .err (some e)
    | .panic => .panic := by
  unfold readFileW readFile
  simp only [Option.isSome_none, Bool.false_eq_true, if_false]
  cases readLine inp with
  | none => rfl
  | some x =>
    obtain ⟨str, rest⟩ := x
    cases str with
    | nil => rfl
    | cons c str =>
      simp only
      by_cases h1 : c = 1 ∨ c = 2
      · simp only [h1, if_true]
      · simp only [h1, if_false]
        by_cases h2 : c ≠ 67
        · rw [if_pos h2, if_pos h2]
        · rw [if_neg h2, if_neg h2]
          generalize fields str = fs
          match fs with
          | [] => rfl
          | [_] => rfl
          | [_, _] => rfl
          | _ :: _ :: _ :: _ :: _ => rfl
          | [f0, f1, f2] =>
            simp only
            cases parseOct32 f0 with
            | none => rfl
            | some mode =>
              simp only
              cases parseDec32 f1 with
              | none => rfl
              | some length =>
                simp only
                by_cases h3 : length < 0
                · rw [if_pos h3, if_pos h3]
                · rw [if_neg h3, if_neg h3]
                  by_cases h4 : (List.take (length.toNat + 1) rest).length < length.toNat + 1
                  · rw [if_pos h4, if_pos h4]
                  · rw [if_neg h4, if_neg h4]
                    by_cases h5 : (List.take (length.toNat + 1) rest).getLast? ≠ some 0
                    · rw [if_pos h5, if_pos h5]
                    · rw [if_neg h5, if_neg h5]

/-- However the acknowledgements go, `readFile` either fails at one of them or ends as it would with all of them delivered; it
succeeds only if all of them were. -/
theorem C56_acknowledged (w0 w1 w2 : Wrote) (inp : Str) :
    (readFileW w0 w1 w2 inp = .err none ∨ readFileW w0 w1 w2 inp = readFileW none none none inp) ∧
    (∀ f, readFileW w0 w1 w2 inp = .ok f → readFile inp = .ok f ∧ w0 = none ∧ w1 = none ∧ w2 = none) := by
  have key : (readFileW w0 w1 w2 inp = .err none ∨ readFileW w0 w1 w2 inp = readFileW none none none inp) ∧
      (∀ f, readFileW w0 w1 w2 inp = .ok f → w0 = none ∧ w1 = none ∧ w2 = none) := by
    cases w0 with
    | some k => exact ⟨.inl rfl, fun f h => by simp [readFileW] at h⟩
    | none =>
      unfold readFileW
      simp only [Option.isSome_none, Bool.false_eq_true, if_false]
      cases readLine inp with
      | none => exact ⟨.inr rfl, fun f h => by cases h⟩
      | some x =>
        obtain ⟨str, rest⟩ := x
        cases str with
        | nil => exact ⟨.inr rfl, fun f h => by cases h⟩
        | cons c str =>
          simp only
          by_cases h1 : c = 1 ∨ c = 2
          · rw [if_pos h1, if_pos h1]
            exact ⟨.inr rfl, fun f h => by cases h⟩
          · rw [if_neg h1, if_neg h1]
            by_cases h2 : c ≠ 67
            · rw [if_pos h2, if_pos h2]
              exact ⟨.inr rfl, fun f h => by cases h⟩
            · rw [if_neg h2, if_neg h2]
              split
              · split
                · exact ⟨.inr rfl, fun f h => by cases h⟩
                · split
                  · exact ⟨.inr rfl, fun f h => by cases h⟩
                  · cases w1 with
                    | some k => exact ⟨.inl rfl, fun f h => by simp at h⟩
                    | none =>
                      simp only [Option.isSome_none, Bool.false_eq_true, if_false]
                      split
                      · exact ⟨.inr rfl, fun f h => by cases h⟩
                      · split
                        · exact ⟨.inr rfl, fun f h => by cases h⟩
                        · split
                          · exact ⟨.inr rfl, fun f h => by cases h⟩
                          · cases w2 with
                            | some k => exact ⟨.inl rfl, fun f h => by simp at h⟩
                            | none => exact ⟨.inr rfl, fun _ _ => by simp⟩
              · exact ⟨.inr rfl, fun f h => by cases h⟩
  refine ⟨key.1, fun f h => ⟨?_, key.2 f h⟩⟩
  rcases key.1 with h1 | h1
  · rw [h] at h1; cases h1
  · rw [h, readFileW_all] at h1
    cases hr : readFile inp with
    | ok g => rw [hr] at h1; cases h1; rfl
    | err e => rw [hr] at h1; cases h1
    | panic => rw [hr] at h1; cases h1

/-- C55_written, C56_acknowledged -/
example : sendFileW none (some 1) none (b! "f") 384 (b! "abc") [0] = (b! "C0600 3 f\na", .err none) ∧
    sendFileW none none none (b! "f") 384 (b! "abc") [0] = (b! "C0600 3 f\nabc" ++ [0], .ok ()) ∧
    sendFileW none (some 1) none (b! "f") 384 [] [0] = (b! "C0600 0 f\n" ++ [0], .ok ()) ∧
    readFileW none (some 0) none (b! "C0600 3 f\nabc" ++ [0]) = .err none ∧
    (match readFileW none none none (b! "C0600 3 f\nabc" ++ [0]) with | .ok f => f.contents | _ => []) = b! "abc" := by decide +kernel

end Verif.Scp

namespace Verif.App
open Verif

/-- A failed write looks to `sync` like a server that could not be started or a connection that could not be closed: everything that
is proved for all servers holds with writes that fail. -/
theorem C92_writes (w0 w1 w2 : Scp.Wrote) (r : Reply) :
    receivedW w0 w1 w2 r = received r ∨ receivedW w0 w1 w2 r = received { r with start := false } := by
  by_cases hs : r.start = false
  · exact .inl (by unfold receivedW received; rw [if_pos hs, if_pos hs])
  · rcases (Scp.C56_acknowledged w0 w1 w2 r.out).1 with h | h
    · refine .inr ?_
      unfold receivedW received
      rw [if_neg hs, h]
      rfl
    · refine .inl ?_
      unfold receivedW received
      rw [if_neg hs, if_neg hs, h, Scp.readFileW_all]
      cases Scp.readFile r.out <;> rfl

/-- And a push that is told to have worked has written everything and was answered as in the model without failing writes. -/
theorem C92_written (w0 w1 w2 : Scp.Wrote) (path ct : Str) (r : Reply) :
    (deliveredW w0 w1 w2 path ct r).1 <+: sendInput path ct ∧
    ((deliveredW w0 w1 w2 path ct r).2 = true → (deliveredW w0 w1 w2 path ct r).1 = sendInput path ct ∧ delivered r = true) ∧
    ((deliveredW w0 w1 w2 path ct r).2 = delivered r ∨ (deliveredW w0 w1 w2 path ct r).2 = delivered { r with start := false }) := by
  have hf : delivered { r with start := false } = false := rfl
  by_cases hs : r.start = false
  · have h1 : deliveredW w0 w1 w2 path ct r = ([], false) := by unfold deliveredW; rw [if_pos hs]
    rw [h1]
    exact ⟨List.nil_prefix, fun h => absurd h (by simp), .inr hf.symm⟩
  · have h1 : deliveredW w0 w1 w2 path ct r = ((Scp.sendFileW w0 w1 w2 path 384 ct r.first).1,
        (match (Scp.sendFileW w0 w1 w2 path 384 ct r.first).2 with | .ok () => true | _ => false) && r.exit && r.close) := by
      unfold deliveredW; rw [if_neg hs]; rfl
    have hs' : r.start = true := by simpa using hs
    obtain ⟨a, b, -⟩ := Scp.C55_written w0 w1 w2 path 384 ct r.first
    rw [h1]
    refine ⟨a, ?_, ?_⟩
    · intro h
      cases hx : (Scp.sendFileW w0 w1 w2 path 384 ct r.first).2 with
      | ok u =>
        obtain ⟨b1, b2⟩ := b hx
        rw [hx] at h
        refine ⟨b1, ?_⟩
        simp only [delivered, hs', b2]
        exact h
      | err e => rw [hx] at h; simp at h
      | panic => rw [hx] at h; simp at h
    · cases hx : (Scp.sendFileW w0 w1 w2 path 384 ct r.first).2 with
      | ok u =>
        obtain ⟨-, b2⟩ := b hx
        refine .inl ?_
        simp only [delivered, hs', b2, Bool.true_and]
      | err e => exact .inr (by simp [hf])
      | panic => exact .inr (by simp [hf])

/-- C92_writes, C92_written -/
example : receivedW none none (some 0) { out := b! "C0600 3 f\nabc" ++ [0] } = some .failed ∧
    receivedW none none none { out := b! "C0600 3 f\nabc" ++ [0] } = some (.bytes (b! "abc")) ∧
    deliveredW none none none (b! "f") (b! "abc") { first := [0] } = (b! "C0600 3 f\nabc" ++ [0], true) ∧
    deliveredW none (some 2) none (b! "f") (b! "abc") { first := [0] } = (b! "C0600 3 f\nab", false) := by decide +kernel

end Verif.App
