import Verif.Scp.Model
/-!
# C55, C56: the scp messages
-/
namespace Verif.Scp
open Verif

/-! ## helper lemmas -/

theorem octAux_acc (fuel n : Nat) (acc : Str) (h : n < fuel) :
    octAux fuel n acc = octAux fuel n [] ++ acc := by
  induction fuel generalizing n acc with
  | zero => omega
  | succ fuel ih =>
    simp only [octAux]
    split
    · simp
    · rw [ih (n / 8) (UInt8.ofNat (48 + n % 8) :: acc) (by omega), ih (n / 8) [UInt8.ofNat (48 + n % 8)] (by omega)]
      simp

theorem octAux_fuel (fuel fuel' n : Nat) (acc : Str) (h : n < fuel) (h' : n < fuel') :
    octAux fuel n acc = octAux fuel' n acc := by
  induction fuel generalizing n acc fuel' with
  | zero => omega
  | succ fuel ih =>
    cases fuel' with
    | zero => omega
    | succ fuel' =>
      simp only [octAux]
      split
      · rfl
      · exact ih _ _ _ (by omega) (by omega)

theorem fmtOct_lt (n : Nat) (h : n < 8) : fmtOct n = [UInt8.ofNat (48 + n)] := by
  have h1 : n / 8 = 0 := by omega
  have h2 : n % 8 = n := by omega
  simp [fmtOct, octAux, h1, h2]

theorem fmtOct_ge (n : Nat) (h : 8 ≤ n) : fmtOct n = fmtOct (n / 8) ++ [UInt8.ofNat (48 + n % 8)] := by
  have h1 : ¬ n / 8 = 0 := by omega
  simp only [fmtOct]
  conv => lhs; unfold octAux
  simp only [h1, if_false]
  rw [octAux_acc _ _ _ (by omega), octAux_fuel n (n / 8 + 1) _ _ (by omega) (by omega)]

theorem fmtOct_facts (n : Nat) : (fmtOct n).all (fun b => 48 ≤ b.toNat && b.toNat ≤ 55) = true ∧
    (fmtOct n).foldl (fun n b => n * 8 + (b.toNat - 48)) 0 = n := by
  induction n using Nat.strongRecOn with
  | _ n ih =>
    by_cases h : n < 8
    · rw [fmtOct_lt n h]
      have := toNat_ofNat_lt (show 48 + n < 256 by omega)
      simp only [List.all_cons, List.all_nil, Bool.and_true, List.foldl_cons, List.foldl_nil, this]
      refine ⟨?_, by omega⟩
      simp; omega
    · rw [fmtOct_ge n (by omega)]
      obtain ⟨h2, h3⟩ := ih (n / 8) (by omega)
      have := toNat_ofNat_lt (show 48 + n % 8 < 256 by omega)
      refine ⟨?_, ?_⟩
      · simp only [List.all_append, h2, Bool.true_and, List.all_cons, List.all_nil, this]
        simp; omega
      · simp only [List.foldl_append, h3, List.foldl_cons, List.foldl_nil, this]
        omega

theorem parseOct_fmtOct (n : Nat) (h : n ≤ 2147483647) : parseOct32 (48 :: fmtOct n) = some (n : Int) := by
  obtain ⟨h2, h3⟩ := fmtOct_facts n
  have : parseOctDigits (48 :: fmtOct n) = some n := by
    simp only [parseOctDigits, List.all_cons, h2, List.foldl_cons]
    simp [h3]
  simp [parseOct32, parseOctSigned, this, int32]
  omega

theorem parseDec_fmtNat (n : Nat) : parseDec32 (fmtNat n) = int32 n := by
  have := parseSigned_fmtInt (n : Int)
  have h : fmtInt (n : Int) = fmtNat n := by simp [fmtInt]
  rw [h] at this
  simp [parseDec32, this]

theorem noSpace_digits (s : Str) (h : s.all (fun b => 48 ≤ b.toNat && b.toNat ≤ 57) = true) : NoSpace s := by
  apply noSpace_ascii
  intro b hb
  have := (List.all_eq_true.1 h) b hb
  simp at this
  refine ⟨by omega, ?_⟩
  simp [isSpaceRune]; omega

theorem noSpace_fmtNat (n : Nat) : NoSpace (fmtNat n) := noSpace_digits _ (fmtNat_facts n).2.1

theorem noSpace_fmtOct (n : Nat) : NoSpace (48 :: fmtOct n) := by
  apply noSpace_digits
  have := (fmtOct_facts n).1
  rw [List.all_eq_true] at this ⊢
  intro b hb
  rcases List.mem_cons.1 hb with rfl | hb
  · decide
  · have := this b hb
    simp at this ⊢; omega

theorem readLine_append (s rest : Str) (h : (10 : UInt8) ∉ s) : readLine (s ++ 10 :: rest) = some (s ++ [10], rest) := by
  induction s with
  | nil => simp [readLine]
  | cons b s ih =>
    have hb : b ≠ 10 := fun h' => h (by simp [h'])
    simp [readLine, hb, ih (fun h' => h (by simp [h']))]

theorem readLine_some {s l r : Str} (h : readLine s = some (l, r)) :
    ∃ l', l = l' ++ [10] ∧ (10 : UInt8) ∉ l' ∧ s = l' ++ 10 :: r := by
  induction s generalizing l r with
  | nil => simp [readLine] at h
  | cons b s ih =>
    simp only [readLine] at h
    split at h
    · rename_i hb
      cases h
      exact ⟨[], by simp, by simp, by simp [hb]⟩
    · rename_i hb
      cases h' : readLine s with
      | none => simp [h'] at h
      | some p =>
        obtain ⟨l1, r1⟩ := p
        simp [h'] at h
        obtain ⟨l', h1, h2, h3⟩ := ih h'
        refine ⟨b :: l', by rw [← h.1, h1]; simp, ?_, by rw [h3, ← h.2]; simp⟩
        simp [h2, Ne.symm hb]

theorem first_newline (s : Str) (h : (10 : UInt8) ∈ s) : ∃ x y, s = x ++ 10 :: y ∧ (10 : UInt8) ∉ x := by
  induction s with
  | nil => simp at h
  | cons b p ih =>
    by_cases hb : b = 10
    · exact ⟨[], p, by simp [hb], by simp⟩
    · have : (10 : UInt8) ∈ p := by
        rcases List.mem_cons.1 h with h | h
        · exact absurd h.symm hb
        · exact h
      obtain ⟨x, y, h4, h5⟩ := ih this
      exact ⟨b :: x, y, by simp [h4], by simp [h5, Ne.symm hb]⟩

theorem takeWhile_ne_nil_of_head {α : Type} (p : α → Bool) (l : List α) (a : α) (h : l.head? = some a)
    (ha : p a = true) : l.takeWhile p ≠ [] := by
  cases l with
  | nil => simp at h
  | cons b l => simp at h; subst h; simp [List.takeWhile, ha]

theorem base_ne_nil (s : Str) : base s ≠ [] := by
  unfold base
  split
  · simp
  · simp only
    split
    · simp
    · rename_i _ h
      intro h'
      rw [List.reverse_eq_nil_iff] at h'
      simp only [stripSlashes, List.reverse_reverse] at h h'
      generalize hd : s.reverse.dropWhile (fun x => decide (x = 47)) = d at h h'
      cases d with
      | nil => simp at h
      | cons b d =>
        have hb : b ≠ 47 := by
          have := List.head?_dropWhile_not (fun x => decide (x = 47)) s.reverse
          rw [hd] at this
          simpa using this
        simp [List.takeWhile, hb] at h'

/-- the header of `sendFile`, split into fields -/
theorem header_fields (filename : Str) (mode : Nat) (n : Nat) (hb : NoSpace (base filename)) :
    fields (b! "0" ++ fmtOct mode ++ b! " " ++ fmtNat n ++ b! " " ++ base filename ++ b! "\n") =
      [48 :: fmtOct mode, fmtNat n, base filename] := by
  have e : b! "0" ++ fmtOct mode ++ b! " " ++ fmtNat n ++ b! " " ++ base filename ++ b! "\n" =
      (48 :: fmtOct mode) ++ 32 :: (fmtNat n ++ 32 :: (base filename ++ 10 :: [])) := by simp
  rw [e, fields_word _ (by simp) (noSpace_fmtOct mode) 32 (by decide) (by decide),
    fields_word _ (fmtNat_facts n).1 (noSpace_fmtNat n) 32 (by decide) (by decide),
    fields_word _ (base_ne_nil _) hb 10 (by decide) (by decide)]
  simp

theorem sendFile_line (filename : Str) (mode : Nat) (contents : Str) (hb : (10 : UInt8) ∉ base filename) :
    readLine (sendFile filename mode contents) =
      some (67 :: (b! "0" ++ fmtOct mode ++ b! " " ++ fmtNat contents.length ++ b! " " ++ base filename ++ b! "\n"),
        contents ++ [0]) := by
  have h1 : (10 : UInt8) ∉ (48 :: fmtOct mode) := noSpace_notMem (noSpace_fmtOct mode) 10 (by decide) (by decide)
  have h2 : (10 : UInt8) ∉ fmtNat contents.length :=
    noSpace_notMem (noSpace_fmtNat _) 10 (by decide) (by decide)
  have e : sendFile filename mode contents =
      (67 :: ((48 :: fmtOct mode) ++ 32 :: (fmtNat contents.length ++ 32 :: base filename))) ++
        10 :: (contents ++ [0]) := by simp [sendFile]
  rw [e, readLine_append]
  · simp
  · simp only [List.mem_cons, List.mem_append, not_or] at h1 ⊢
    exact ⟨by decide, h1, by decide, h2, by decide, hb⟩

/-! ## C55 scp transfer preserves the file -/

/-- The stream written by `sendFile`, read by `readFile`, gives back base name, mode, length and contents: for all
contents below 2 GiB, all 31-bit modes, all file names whose last component has no white space. Missing for the full property: larger contents,
refuted by `C55_false`. -/
theorem C55_roundtrip_partial (filename : Str) (mode : Nat) (contents : Str) (hm : mode ≤ 2147483647)
    (hl : contents.length ≤ 2147483647) (hb : NoSpace (base filename)) :
    readFile (sendFile filename mode contents) =
      .ok { filename := base filename, length := contents.length, mode := mode, contents := contents } := by
  have hnl := noSpace_notMem hb 10 (by decide) (by decide)
  simp only [readFile, sendFile_line _ _ _ hnl]
  rw [if_neg (by decide), if_neg (by decide)]
  simp only [header_fields _ _ _ hb, parseOct_fmtOct mode hm, parseDec_fmtNat, int32]
  rw [if_pos (by omega)]
  simp only
  rw [if_neg (by omega)]
  have ht : (contents ++ [(0 : UInt8)]).take ((contents.length : Int).toNat + 1) = contents ++ [0] := by
    apply List.take_of_length_le; simp
  simp only [ht, List.length_append, List.length_cons, List.length_nil]
  rw [if_neg (by omega), if_neg (by simp)]
  simp

/-- Contents of 2 GiB or more are written but never accepted: the length is parsed with 32 bits although the package
comment promises int64. -/
theorem C55_false (filename : Str) (mode : Nat) (contents : Str) (hm : mode ≤ 2147483647)
    (hl : 2147483647 < contents.length) (hb : NoSpace (base filename)) :
    readFile (sendFile filename mode contents) = .err .length := by
  have hnl := noSpace_notMem hb 10 (by decide) (by decide)
  simp only [readFile, sendFile_line _ _ _ hnl]
  rw [if_neg (by decide), if_neg (by decide)]
  simp only [header_fields _ _ _ hb, parseOct_fmtOct mode hm, parseDec_fmtNat, int32]
  rw [if_neg (by omega)]

/-- White space in the name breaks the transfer. -/
theorem C55_space_rejected (mode : Nat) (contents : Str) :
    readFile (sendFile (b! "/home/me/my file") mode contents) = .err .fieldCount := by
  have hbase : base (b! "/home/me/my file") = b! "my file" := by decide
  simp only [readFile, sendFile_line _ _ _ (show (10 : UInt8) ∉ base (b! "/home/me/my file") by decide)]
  rw [if_neg (by decide), if_neg (by decide)]
  have e : b! "0" ++ fmtOct mode ++ b! " " ++ fmtNat contents.length ++ b! " " ++ base (b! "/home/me/my file") ++ b! "\n" =
      (48 :: fmtOct mode) ++ 32 :: (fmtNat contents.length ++ 32 :: (b! "my" ++ 32 :: (b! "file" ++ 10 :: []))) := by
    simp [hbase]
  rw [e, fields_word _ (by simp) (noSpace_fmtOct mode) 32 (by decide) (by decide),
    fields_word _ (fmtNat_facts _).1 (noSpace_fmtNat _) 32 (by decide) (by decide),
    fields_word _ (by simp) (by decide) 32 (by decide) (by decide),
    fields_word _ (by simp) (by decide) 10 (by decide) (by decide)]

example : NoSpace (base (b! "/home/me/bpass.blob")) ∧ base (b! "/home/me/bpass.blob") = b! "bpass.blob" := by decide
example : readFile (sendFile (b! "d/f") 0o600 (b! "hi")) =
    .ok { filename := b! "f", length := 2, mode := 0o600, contents := b! "hi" } := by decide

/-! ## C56 A truncated or malformed scp stream is an error -/

/-- If `readFile` succeeds, the stream began with a complete header `C<mode> <length> <name>` ended by a newline,
followed by exactly `length` bytes of content and a zero byte. -/
theorem C56_success_complete (inp : Str) (f : ScpFile) (h : readFile inp = .ok f) :
    ∃ hdr m l rest, inp = 67 :: hdr ++ 10 :: (f.contents ++ 0 :: rest) ∧ (10 : UInt8) ∉ hdr ∧
      fields (hdr ++ [10]) = [m, l, f.filename] ∧ parseOct32 m = some f.mode ∧ parseDec32 l = some f.length ∧
      (f.contents.length : Int) = f.length := by
  unfold readFile at h
  split at h
  · cases h
  · rename_i str rest hrl
    obtain ⟨l', h1, h2, h3⟩ := readLine_some hrl
    split at h
    · cases h
    · rename_i _ c str'
      split at h
      · cases h
      · split at h
        · cases h
        · rename_i hc hC
          have hC : c = 67 := by simpa using hC
          split at h
          · rename_i f0 f1 f2 hf
            split at h
            · cases h
            · rename_i m hm
              split at h
              · cases h
              · rename_i l hl
                split at h
                · cases h
                · rename_i hneg
                  simp only at h
                  split at h
                  · cases h
                  · rename_i hbl
                    split at h
                    · cases h
                    · rename_i hz
                      cases h
                      have hz : (rest.take (l.toNat + 1)).getLast? = some 0 := by simpa using hz
                      cases l' with
                      | nil =>
                        simp only [List.nil_append] at h1
                        cases h1
                        exact absurd hC (by decide)
                      | cons c0 l' =>
                        simp only [List.cons_append, List.cons.injEq] at h1
                        obtain ⟨rfl, rfl⟩ := h1
                        have hlen : (rest.take (l.toNat + 1)).length = l.toNat + 1 := by
                          have := List.length_take_le (l.toNat + 1) rest
                          omega
                        obtain ⟨ys, hys⟩ := List.getLast?_eq_some_iff.1 hz
                        refine ⟨l', f0, f1, rest.drop (l.toNat + 1), ?_, fun hx => h2 (by simp [hx]), hf, hm, hl, ?_⟩
                        · simp only
                          rw [h3, hC, hys, List.dropLast_concat]
                          have := List.take_append_drop (l.toNat + 1) rest
                          rw [hys] at this
                          generalize rest.drop (l.toNat + 1) = rd at this ⊢
                          rw [← this]
                          simp
                        · simp only [List.length_dropLast, hlen]
                          omega
          · cases h

/-- It does crash: on a header that announces a negative length. -/
theorem C56_false : readFile (b! "C0644 -1 x\n") = .panic := by decide

/-- It crashes on nothing else: for every stream, a panic means that the header announced a negative length. Missing for
the full property: the streams of `C56_false`. -/
theorem C56_no_crash_partial (inp : Str) : readFile inp = .panic ↔
    ∃ hdr rest m l name mode length, inp = 67 :: hdr ++ 10 :: rest ∧ (10 : UInt8) ∉ hdr ∧
      fields (hdr ++ [10]) = [m, l, name] ∧ parseOct32 m = some mode ∧ parseDec32 l = some length ∧ length < 0 := by
  constructor
  · intro h
    unfold readFile at h
    split at h
    · cases h
    · rename_i str rest hrl
      obtain ⟨l', h1, h2, h3⟩ := readLine_some hrl
      split at h
      · cases h
      · rename_i _ c str'
        split at h
        · cases h
        · split at h
          · cases h
          · rename_i hc hC
            have hC : c = 67 := by simpa using hC
            split at h
            · rename_i f0 f1 f2 hf
              split at h
              · cases h
              · rename_i m hm
                split at h
                · cases h
                · rename_i l hl
                  split at h
                  · rename_i hneg
                    cases l' with
                    | nil =>
                      simp only [List.nil_append] at h1
                      cases h1
                      exact absurd hC (by decide)
                    | cons c0 l' =>
                      simp only [List.cons_append, List.cons.injEq] at h1
                      obtain ⟨rfl, rfl⟩ := h1
                      exact ⟨l', rest, f0, f1, f2, m, l, by rw [h3, hC], fun hx => h2 (by simp [hx]), hf, hm, hl, hneg⟩
                  · simp only at h
                    split at h
                    · cases h
                    · split at h <;> cases h
            · cases h
  · rintro ⟨hdr, rest, m, l, name, mode, length, rfl, h1, h2, h3, h4, h5⟩
    have := readLine_append (67 :: hdr) rest (by simp [h1])
    simp only [readFile, this]
    simp only [List.cons_append]
    rw [if_neg (by decide), if_neg (by decide)]
    simp only [h2, h3, h4]
    rw [if_pos h5]

/-- Every proper prefix of what `sendFile` writes is rejected. -/
theorem C56_truncated (filename : Str) (mode : Nat) (contents : Str) (hm : mode ≤ 2147483647)
    (hl : contents.length ≤ 2147483647) (hb : NoSpace (base filename)) (pre suf : Str)
    (hcut : sendFile filename mode contents = pre ++ suf) (hne : suf ≠ []) : ∃ e, readFile pre = .err e := by
  have hnl := noSpace_notMem hb 10 (by decide) (by decide)
  have hline := sendFile_line filename mode contents hnl
  obtain ⟨hd, h1, h2, h3⟩ := readLine_some hline
  by_cases hin : (10 : UInt8) ∈ pre
  · -- the cut is behind the header
    obtain ⟨x, y, hxy, hx⟩ := first_newline pre hin
    have hpre := readLine_append x y hx
    rw [← hxy] at hpre
    have hfull : readLine (sendFile filename mode contents) = some (x ++ [10], y ++ suf) := by
      rw [hcut, hxy, List.append_assoc, List.cons_append]
      exact readLine_append x (y ++ suf) hx
    rw [hline] at hfull
    injection hfull with hfull
    injection hfull with h4 h5
    refine ⟨.shortRead, ?_⟩
    simp only [readFile, hpre, ← h4]
    rw [if_neg (by decide), if_neg (by decide)]
    simp only [header_fields _ _ _ hb, parseOct_fmtOct mode hm, parseDec_fmtNat, int32]
    rw [if_pos (by omega)]
    simp only
    rw [if_neg (by omega), if_pos]
    have := congrArg List.length h5
    have hs : 0 < suf.length := List.length_pos_iff.2 hne
    simp only [List.length_append, List.length_cons, List.length_nil] at this
    rw [List.length_take]
    omega
  · refine ⟨.header, ?_⟩
    have : readLine pre = none := by
      cases h : readLine pre with
      | none => rfl
      | some p =>
        obtain ⟨l', -, -, h6⟩ := readLine_some (l := p.1) (r := p.2) (by simpa using h)
        exact absurd (by rw [h6]; simp) hin
    simp [readFile, this]

example : readFile (b! "C0644 3 x\nab") = .err .shortRead := by decide
example : readFile (b! "C0644 1 x\nab") = .err .noZero := by decide

/-- An error the other side reports (a line starting with byte 1 or 2) is passed on with its text, whatever follows. -/
theorem C56_remote_error (c : UInt8) (hc : c = 1 ∨ c = 2) (msg rest : Str) (h : (10 : UInt8) ∉ msg) :
    readFile (c :: msg ++ 10 :: rest) = .err (.remote c.toNat (msg ++ [10])) := by
  have := readLine_append (c :: msg) rest (by rcases hc with rfl | rfl <;> simp [h])
  rw [List.cons_append] at this
  rw [readFile, List.cons_append, this]
  simp only [List.cons_append]
  rw [if_pos hc]

example : readFile (1 :: b! "no such file\n") = .err (.remote 1 (b! "no such file\n")) :=
  C56_remote_error 1 (.inl rfl) (b! "no such file") [] (by decide)

/-- A stream that starts with another byte is not taken for a file. -/
theorem C56_other_start (c : UInt8) (h1 : c ≠ 1) (h2 : c ≠ 2) (h67 : c ≠ 67) (rest : Str) :
    readFile (c :: rest) = .err .initialChar ∨ readFile (c :: rest) = .err .header := by
  unfold readFile
  cases h : readLine (c :: rest) with
  | none => right; rfl
  | some p =>
    obtain ⟨l, r⟩ := p
    obtain ⟨l', h3, h4, h5⟩ := readLine_some h
    cases l' with
    | nil =>
      have : c = 10 := by simp at h5; exact h5.1
      subst this
      left; subst h3; simp
    | cons d l' =>
      have : c = d := by simp at h5; exact h5.1
      subst this
      left; subst h3; simp [h1, h2, h67]

example : readFile (b! "D0755 0 dir\n") = .err .initialChar := by decide

end Verif.Scp
