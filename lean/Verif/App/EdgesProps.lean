import Verif.App.EdgesSpec
import Verif.App.AddSyncProps
/-!
# C83 (pinentry), C84 (which file), C85 (the hidden prompt on Windows), C81 (completion)
-/
namespace Verif.App
open Verif Verif.Txlogs Verif.Blob Verif.Crypt Verif.App.Spec

/-! ## C83 -/

theorem pinReplace_escape (p rest : Str) : pinReplace (pinEscape p ++ rest) = p ++ pinReplace rest := by
  induction p with
  | nil => rfl
  | cons c p ih =>
    have : pinEscape (c :: p) = (if c = 37 then b! "%25" else if c = 13 then b! "%0D" else if c = 10 then b! "%0A" else [c]) ++
        pinEscape p := by simp [pinEscape]
    rw [this]
    by_cases h1 : c = 37
    · subst h1; simp [pinReplace, ih]
    · by_cases h2 : c = 13
      · subst h2; simp [pinReplace, ih]
      · by_cases h3 : c = 10
        · subst h3; simp [pinReplace, ih]
        · rw [if_neg h1, if_neg h2, if_neg h3, List.append_assoc, List.singleton_append, pinReplace.eq_def]
          simp only [if_neg h1, ih, List.cons_append]

theorem pinSetup_iff (n : Nat) (ls rest : List Str) : pinSetup n ls = some rest ↔ ls = List.replicate n (b! "OK") ++ rest := by
  induction n generalizing ls with
  | zero => simp [pinSetup, eq_comm]
  | succ n ih =>
    cases ls with
    | nil => simp [pinSetup, List.replicate_succ]
    | cons l ls =>
      simp only [pinSetup, List.replicate_succ, List.cons_append, List.cons.injEq]
      split
      · rename_i h; rw [ih]; simp [h]
      · rename_i h; simp [h]

/-- Exactly these conversations give a password: the program greets, accepts every setting, and then either sends one line of data
and says OK, or says OK at once (the empty password), or says that the user cancelled (the empty password too). -/
theorem C83_only (found starts exits : Bool) (settings : Nat) (ls : List Str) (pw : Str) :
    pinentry found starts settings ls exits = .ok pw ↔ found = true ∧ starts = true ∧ ∃ more, ls = pinStart settings ++ more ∧
      ((∃ d rest, more = (b! "D " ++ d) :: b! "OK" :: rest ∧ exits = true ∧ pw = pinReplace d) ∨
       (∃ rest, more = b! "OK" :: rest ∧ exits = true ∧ pw = []) ∨
       (∃ msg rest, more = msg :: rest ∧ hasPrefix msg (b! "ERR") = true ∧ (indexOf msg (b! "Operation cancelled")).isSome ∧
          pw = [])) := by
  unfold pinentry
  cases found with
  | false => simp
  | true =>
  cases starts with
  | false => simp
  | true =>
  simp only [not_true_eq_false, if_false, true_and]
  have hd : ∀ d : Str, hasPrefix (b! "D " ++ d) (b! "D ") = true := fun d => (hasPrefix_iff _ _).2 ⟨_, rfl⟩
  cases ls with
  | nil => simp [pinStart]
  | cons l ls =>
    simp only [ne_eq, ite_not]
    split
    · rename_i hl
      subst hl
      cases hset : pinSetup settings ls with
      | none =>
        simp only [reduceCtorEq, pinStart, List.cons_append, List.cons.injEq, true_and, false_iff, not_exists, not_and]
        intro more hm
        rw [(pinSetup_iff _ _ _).2 hm] at hset
        cases hset
      | some ls' =>
        have hls := (pinSetup_iff _ _ _).1 hset
        subst hls
        simp only [pinStart, List.cons_append, List.cons.injEq, true_and, List.append_cancel_left_eq, exists_eq_left']
        cases ls' with
        | nil => simp
        | cons resp ls' =>
          simp only [List.cons.injEq]
          by_cases h1 : hasPrefix resp (b! "D ") = true
          · rw [if_pos h1]
            obtain ⟨d, rfl⟩ := (hasPrefix_iff _ _).1 h1
            have hne : ¬ (b! "D " ++ d = b! "OK") := by simp
            have hnp : ¬ hasPrefix (b! "D " ++ d) (b! "ERR") = true := by simp [hasPrefix, List.isPrefixOf]
            cases ls' with
            | nil =>
              simp only [reduceCtorEq, false_iff]
              rintro (⟨d', r, ⟨-, h⟩, -⟩ | ⟨r, ⟨h, -⟩, -⟩ | ⟨m, r, ⟨rfl, -⟩, h, -⟩)
              · cases h
              · exact hne h
              · exact hnp h
            | cons r' ls' =>
              constructor
              · intro h
                simp only at h
                split at h
                · rename_i hr
                  split at h
                  · rename_i he
                    cases h
                    exact .inl ⟨d, ls', ⟨rfl, by rw [hr]⟩, he, rfl⟩
                  · cases h
                · cases h
              · rintro (⟨d', r, ⟨h, h'⟩, he, rfl⟩ | ⟨r, ⟨h, -⟩, -⟩ | ⟨m, r, ⟨rfl, -⟩, h, -⟩)
                · have := List.append_cancel_left h
                  subst this
                  cases h'
                  simp [he]
                · exact absurd h hne
                · exact absurd h hnp
          · rw [if_neg h1]
            have hnd : ∀ d : Str, ¬ resp = b! "D " ++ d := fun d h => h1 (h ▸ hd d)
            split
            · rename_i h2
              constructor
              · intro h
                cases h
                exact .inr (.inr ⟨resp, ls', ⟨rfl, rfl⟩, h2.1, h2.2, rfl⟩)
              · rintro (⟨d, r, ⟨h, -⟩, -⟩ | ⟨r, ⟨rfl, -⟩, -⟩ | ⟨m, r, -, -, -, rfl⟩)
                · exact absurd h (hnd d)
                · exact absurd h2.1 (by decide)
                · rfl
            · rename_i h2
              split
              · rename_i h3
                subst h3
                constructor
                · intro h
                  split at h
                  · rename_i he
                    cases h
                    exact .inr (.inl ⟨ls', ⟨rfl, rfl⟩, he, rfl⟩)
                  · cases h
                · rintro (⟨d, r, ⟨h, -⟩, -⟩ | ⟨r, -, he, rfl⟩ | ⟨m, r, ⟨rfl, -⟩, h, -⟩)
                  · exact absurd h (hnd d)
                  · simp [he, pinReplace]
                  · exact absurd h (by decide)
              · rename_i h3
                simp only [reduceCtorEq, false_iff]
                rintro (⟨d, r, ⟨h, -⟩, -⟩ | ⟨r, ⟨h, -⟩, -⟩ | ⟨m, r, ⟨rfl, -⟩, h, h', -⟩)
                · exact hnd d h
                · exact h3 h
                · exact h2 ⟨h, h'⟩
    · rename_i hl
      simp only [reduceCtorEq, pinStart, List.cons_append, List.cons.injEq, false_iff, not_exists, not_and]
      intro more h
      exact absurd h.1 hl

/-- A password typed into pinentry arrives as it was typed. -/
theorem C83_typed (settings : Nat) (p : Str) (more : List Str) :
    pinentry true true settings (pinStart settings ++ (b! "D " ++ pinEscape p) :: b! "OK" :: more) true = .ok p := by
  have := pinReplace_escape p []
  simp only [List.append_nil] at this
  exact (C83_only ..).2 ⟨rfl, rfl, _, rfl, .inl ⟨_, _, rfl, rfl, by rw [this]; simp [pinReplace]⟩⟩

theorem getPassword_empty (ent : Nat → Nat → UInt8) : getPassword ent [some (b! "m"), some [], some []] = .ok [] := by
  obtain ⟨pw, h1, -⟩ := (C54_meets_partial (ent 0) 32 {} (by decide)).2
    (by simp [Impossible, Classes.needLen, Classes.all])
  have : (b! "m" = b! "y") = False := by decide
  simp [getPassword, pwLoop, h1, choose]

/-- Cancelling pinentry is taken for an empty password. Whoever cancels both windows of `passwd` or `adduser` gets the empty
password, with which the file cannot be opened (`C51_empty_password_false`). -/
theorem C83_cancel_false : ∀ settings more exits, pinentry true true settings
      (pinStart settings ++ b! "ERR 83886179 Operation cancelled <Pinentry>" :: more) exits = .ok [] ∧
    ∀ ent, getPassword ent [some (b! "m"), promptPassword (.ok []) none, promptPassword (.ok []) none] = .ok [] := by
  intro settings more exits
  refine ⟨(C83_only ..).2 ⟨rfl, rfl, _, rfl, .inr (.inr ⟨_, _, rfl, by decide, by decide, rfl⟩)⟩, fun ent => ?_⟩
  exact getPassword_empty ent

/-- A password that the program sends in two pieces (the protocol allows no more than 1000 bytes in a line) is refused. -/
theorem C83_long_false (settings : Nat) (d d' : Str) (more : List Str) (exits : Bool) (pw : Str) :
    pinentry true true settings (pinStart settings ++ (b! "D " ++ d) :: (b! "D " ++ d') :: more) exits ≠ .ok pw := by
  rw [ne_eq, C83_only]
  rintro ⟨-, -, m, h, h1⟩
  have := List.append_cancel_left h
  subst this
  rcases h1 with ⟨e, r, h, -⟩ | ⟨r, h, -⟩ | ⟨m, r, h, h', -⟩
  · simp at h
  · simp at h
  · cases h
    revert h'
    simp [hasPrefix, List.isPrefixOf]

/-- Escapes with small letters, or of other bytes, are left as they are: the password that arrives is not the one typed. -/
theorem C83_lower_false : pinReplace (b! "a%0ab") = b! "a%0ab" ∧ pinReplace (b! "a%20b") = b! "a%20b" := by decide

/-- The hypotheses of `C83_typed` are met by the conversation with a program that is sent three settings. -/
example : pinentry true true 3 [b! "OK Pleased to meet you", b! "OK", b! "OK", b! "OK", b! "D 100%25", b! "OK"] true = .ok (b! "100%") :=
  C83_typed 3 (b! "100%") []
example : pinentry true true 1 [b! "OK Pleased to meet you", b! "ERR 5 no"] true = .err ∧
    pinentry true true 1 [b! "OK Pleased to meet you", b! "OK", b! "D a"] true = .err ∧
    pinentry true true 1 [b! "OK Pleased to meet you", b! "OK", b! "D a", b! "OK"] false = .err ∧
    pinentry false true 1 [] true = .notFound := by decide

/-! ## C84 -/

/-- The file given with -f is opened, if it is not the default; without -f it is `$BPASS`, and the default if that is not set. -/
theorem C84_file_partial (dflt bpass : Str) : (∀ f, f ≠ dflt → chooseFile dflt (some f) bpass = f) ∧
    (bpass ≠ [] → chooseFile dflt none bpass = bpass) ∧ chooseFile dflt none [] = dflt := by
  refine ⟨?_, ?_, ?_⟩
  · intro f hf; simp [chooseFile, hf]
  · intro hb; simp [chooseFile, hb]
  · simp [chooseFile]

/-- False: whoever gives the default file with -f gets another one if `$BPASS` is set. -/
theorem C84_false : ∀ dflt bpass : Str, bpass ≠ [] → chooseFile dflt (some dflt) bpass = bpass := by
  intro dflt bpass hb; simp [chooseFile, hb]

/-- The name shown at the prompt is the path with every directory shortened to its first letter. Partial: the first letters are
ASCII. -/
theorem C84_short_partial (dirs : List Str) (name : Str) (hd : dirs ≠ []) (h : ∀ d ∈ dirs, (47 : UInt8) ∉ d) (hn : (47 : UInt8) ∉ name)
    (ha : ∀ d ∈ dirs, ∀ c ∈ d.head?, c.toNat < 0x80) :
    shortPath (join 47 (dirs ++ [name])) = join 47 (dirs.map (List.take 1) ++ [name]) := by
  have hs : split 47 (join 47 (dirs ++ [name])) = dirs ++ [name] := by
    refine split_join 47 _ (by simp) ?_
    intro x hx
    rcases List.mem_append.1 hx with hx | hx
    · exact h x hx
    · simp only [List.mem_singleton] at hx; rw [hx]; exact hn
  unfold shortPath
  simp only [hs]
  rw [if_neg (by cases dirs <;> simp_all)]
  simp only [List.dropLast_concat, List.getLast?_concat, Option.getD_some]
  congr 2
  refine List.map_congr_left ?_
  intro d hx
  cases d with
  | nil => rfl
  | cons c d =>
    have hc := ha _ hx c (by simp)
    show encodeRune c.toNat = _
    unfold encodeRune
    rw [if_pos hc]
    simp

/-- A name without directories is shown as it is, and the last part of a path always. -/
theorem C84_name (file : Str) : ((47 : UInt8) ∉ file → shortPath file = file) ∧
    (split 47 (shortPath file)).getLast? = (split 47 file).getLast? := by
  have h1 : (47 : UInt8) ∉ file → shortPath file = file := by
    intro h
    unfold shortPath
    simp [split_of_notMem 47 file h]
  refine ⟨h1, ?_⟩
  unfold shortPath
  simp only
  split
  · rfl
  · rename_i hl
    have hne := split_ne_nil 47 file
    rw [split_join 47 _ (by simp)]
    · rw [List.getLast?_concat]
      obtain ⟨x, hx⟩ : ∃ x, (split 47 file).getLast? = some x := by
        cases h : (split 47 file).getLast? with
        | none => exact absurd (List.getLast?_eq_none_iff.1 h) hne
        | some x => exact ⟨x, rfl⟩
      simp [hx]
    · intro x hx
      rcases List.mem_append.1 hx with hx | hx
      · obtain ⟨p, hp, rfl⟩ := List.mem_map.1 hx
        have hnp := split_notMem 47 file p ((List.dropLast_sublist _).subset hp)
        cases p with
        | nil => simp
        | cons c p =>
          have hc : c ≠ 47 := fun h => hnp (by simp [h])
          have hlt := c.toNat_lt
          refine encodeRune_notMem (Or.inl (by omega)) 47 (by decide) ?_
          intro h
          exact hc (UInt8.toNat_inj.1 h)
      · simp only [List.mem_singleton] at hx
        subst hx
        cases h : (split 47 file).getLast? with
        | none => simp
        | some x => exact split_notMem 47 file x (List.mem_of_getLast? h)

/-- False for other letters: the directory `é` is shown as `Ã`. -/
theorem C84_short_false : shortPath (b! "/é/x") = b! "/Ã/x" := by decide

example : chooseFile (b! "/home/me/.bpass") (some (b! "/tmp/x")) (b! "/env") = b! "/tmp/x" ∧ shortPath (b! "/home/me/.bpass") = b! "/h/m/.bpass" := by
  decide

/-! ## C85 -/

theorem findIdx_none {l : List UInt16} : l.findIdx? specialKey = none ↔ ∀ c ∈ l, specialKey c = false := by
  rw [List.findIdx?_eq_none_iff]

/-- Text that arrives in any number of reads without backspace is the line, without white space at both ends. -/
theorem C85_text_partial (reads : List (List UInt16)) (last after : List UInt16) (h : ∀ l ∈ reads, ∀ c ∈ l, specialKey c = false)
    (hl : ∀ c ∈ last, specialKey c = false) (more : List (List UInt16)) :
    hiddenLine (reads ++ (last ++ 13 :: after) :: more) =
      .line (trimSpace ((reads.map utf16Text).flatten ++ utf16Text last)) := by
  have key : ∀ (reads : List (List UInt16)) (buf : List UInt16) (builder : Str), (∀ l ∈ reads, ∀ c ∈ l, specialKey c = false) →
      (∀ c ∈ buf, specialKey c = false) → hiddenLoop buf builder (reads ++ (last ++ 13 :: after) :: more) =
        .line (trimSpace (builder ++ ((reads.map utf16Text).flatten ++ utf16Text last))) := by
    intro reads
    induction reads with
    | nil =>
      intro buf builder _ hb
      simp only [List.nil_append, hiddenLoop]
      have : ((last ++ 13 :: after) ++ buf.drop (last ++ 13 :: after).length).findIdx? specialKey = some last.length := by
        rw [List.findIdx?_eq_some_iff_getElem]
        refine ⟨by simp, by simp [specialKey], ?_⟩
        intro j hj
        rw [List.getElem_append_left (by simp; omega), List.getElem_append_left hj]
        simpa using hl _ (List.getElem_mem hj)
      rw [this]
      simp
    | cons l reads ih =>
      intro buf builder hr hb
      simp only [List.cons_append, hiddenLoop]
      have hn : ∀ c ∈ l ++ buf.drop l.length, specialKey c = false := by
        intro c hc
        rcases List.mem_append.1 hc with hc | hc
        · exact hr l (by simp) c hc
        · exact hb c (List.mem_of_mem_drop hc)
      rw [findIdx_none.2 hn]
      simp only
      rw [ih _ _ (fun l' hl' => hr l' (List.mem_cons_of_mem _ hl')) hn]
      simp
  rw [hiddenLine, key reads _ [] h (by intro c hc; rw [List.eq_of_mem_replicate hc]; decide)]
  rfl

theorem utf16Decode_units (r : Nat) (hr : Scalar r) (rest : List UInt16) :
    utf16Decode (utf16Units r ++ rest) = r :: utf16Decode rest := by
  unfold utf16Units
  unfold Scalar at hr
  split
  · rename_i h
    have e : (UInt16.ofNat r).toNat = r := by simp [UInt16.toNat_ofNat']; omega
    rw [List.singleton_append, utf16Decode.eq_def]
    simp only [e]
    rw [if_neg (by omega), if_neg (by omega)]
  · rename_i h
    have e1 : (UInt16.ofNat (0xD800 + (r - 0x10000) / 1024)).toNat = 0xD800 + (r - 0x10000) / 1024 := by
      simp only [UInt16.toNat_ofNat']; omega
    have e2 : (UInt16.ofNat (0xDC00 + (r - 0x10000) % 1024)).toNat = 0xDC00 + (r - 0x10000) % 1024 := by
      simp only [UInt16.toNat_ofNat']; omega
    simp only [List.cons_append, List.nil_append]
    rw [utf16Decode.eq_def]
    simp only [e1, e2]
    have e3 : (0xD800 + (r - 0x10000) / 1024 - 0xD800) * 1024 + (0xDC00 + (r - 0x10000) % 1024 - 0xDC00) + 0x10000 = r := by omega
    rw [if_pos (by omega), if_pos (by omega), e3]

/-- The code units of a text give the text. -/
theorem C85_units (rs : List Nat) (h : ∀ r ∈ rs, Scalar r) : utf16Text (rs.flatMap utf16Units) = encodeRunes rs := by
  unfold utf16Text
  congr 1
  induction rs with
  | nil => rw [List.flatMap_nil, utf16Decode.eq_def]
  | cons r rs ih =>
    rw [List.flatMap_cons, utf16Decode_units r (h r (by simp)), ih (fun x hx => h x (List.mem_cons_of_mem _ hx))]

theorem text_key {k : UInt8} (h : k.toNat < 0x80) : utf16Text [UInt16.ofNat k.toNat] = [k] := by
  have := C85_units [k.toNat] (by simp [Scalar]; omega)
  simp only [List.flatMap_cons, List.flatMap_nil, List.append_nil, utf16Units] at this
  rw [if_pos (by omega)] at this
  rw [this]
  simp [encodeRunes, encodeRune, h]

/-- Keys typed one at a time: letters are appended, backspace takes back the last one, and Enter ends the line. Backspace on an
empty line crashes. Partial: ASCII keys only. -/
theorem C85_keys_partial (keys : List UInt8) (hk : ∀ k ∈ keys, TextKey k) (more : List (List UInt16)) :
    hiddenLine (keys.map (fun k => [UInt16.ofNat k.toNat]) ++ [13] :: more) =
      match typedKeys keys [] with
      | none => .panic
      | some s => .line (trimSpace s) := by
  obtain ⟨z, hz, h0⟩ : ∃ z, List.replicate 256 (0 : UInt16) = 0 :: z ∧ z.findIdx? specialKey = none :=
    ⟨List.replicate 255 0, rfl, findIdx_none.2 (by intro c hc; rw [List.eq_of_mem_replicate hc]; decide)⟩
  have key : ∀ (keys : List UInt8) (c : UInt16) (builder : Str), (∀ k ∈ keys, TextKey k) →
      hiddenLoop (c :: z) builder (keys.map (fun k => [UInt16.ofNat k.toNat]) ++ [13] :: more) =
        match typedKeys keys builder with
        | none => .panic
        | some s => .line (trimSpace s) := by
    intro keys
    induction keys with
    | nil =>
      intro c builder _
      simp only [List.map_nil, List.nil_append, hiddenLoop, typedKeys, List.length_singleton, List.drop_one, List.tail_cons,
        List.singleton_append, List.nil_append]
      rw [List.findIdx?_cons, if_pos (by decide)]
      have : utf16Text [] = [] := by
        have := C85_units [] (by simp)
        exact this
      simp [this]
    | cons k keys ih =>
      intro c builder hk
      have hlt : k.toNat < 0x80 := (hk k (by simp)).1
      have hne := (hk k (by simp)).2
      have hu : (UInt16.ofNat k.toNat).toNat = k.toNat := by simp only [UInt16.toNat_ofNat']; omega
      have hi : ∀ b : UInt8, (UInt16.ofNat k.toNat = UInt16.ofNat b.toNat) ↔ k = b := by
        intro b
        constructor
        · intro h
          have := congrArg UInt16.toNat h
          simp only [UInt16.toNat_ofNat'] at this
          have hb := b.toNat_lt
          exact UInt8.toNat_inj.1 (by omega)
        · rintro rfl; rfl
      have ih' := fun c b => ih c b (fun k' hk' => hk k' (List.mem_cons_of_mem _ hk'))
      simp only [List.map_cons, List.cons_append, hiddenLoop, typedKeys, List.length_singleton, List.drop_one, List.tail_cons,
        List.nil_append]
      rw [List.findIdx?_cons, h0]
      by_cases h8 : k = 8
      · subst h8
        rw [if_pos (by decide)]
        simp only [List.getD_cons_zero]
        rw [if_pos (by decide), if_pos trivial]
        split
        · rfl
        · exact ih' _ _
      · have hs : specialKey (UInt16.ofNat k.toNat) = false := by
          simp only [List.mem_cons, List.not_mem_nil, or_false, not_or] at hne
          simp only [specialKey, Bool.or_eq_false_iff, decide_eq_false_iff_not]
          exact ⟨⟨⟨⟨fun h => h8 ((hi 8).1 h), fun h => hne.1 ((hi 13).1 h)⟩, fun h => hne.2.1 ((hi 10).1 h)⟩,
            fun h => hne.2.2.1 ((hi 4).1 h)⟩, fun h => hne.2.2.2 ((hi 3).1 h)⟩
        rw [hs, if_neg (by simp), if_neg h8]
        simp only [Option.map_none]
        rw [text_key hlt]
        exact ih' _ _
  rw [hiddenLine, hz]
  exact key keys 0 [] hk

/-- Backspace as the first key crashes the program. -/
theorem C85_crash_false : ∀ more, hiddenLine ([8] :: more) = .panic := by
  intro more
  have : ([8] ++ (List.replicate 256 (0 : UInt16)).drop [(8 : UInt16)].length).findIdx? specialKey = some 0 := by
    rw [List.singleton_append, List.findIdx?_cons, if_pos (by decide)]
  unfold hiddenLine hiddenLoop
  simp only [this]
  rfl

/-- Backspace takes back one byte, not one letter: after `é` half of it is left. -/
theorem C85_letter_false : hiddenLine [[0xE9], [8], [13]] = .line [0xC3] := by decide +kernel

/-- White space at both ends is lost: the password ` a ` becomes `a`. -/
theorem C85_trim_false : hiddenLine [[32], [97], [32], [13]] = .line (b! "a") := by decide +kernel

/-- Pasting text with a backspace in it loses what comes before it in the paste, and the backspace works again with later keys
(the buffer is not cleared): typing `xy`, pasting `ab` and backspace, and typing `c` leaves nothing of `xyac`. -/
theorem C85_stale_false : hiddenLine [[120], [121], [97, 98, 8], [99], [13]] = .line [] := by decide +kernel

/-- A character outside the basic plane that arrives in two reads becomes two replacement characters. -/
theorem C85_pair_false : hiddenLine [[0xD83D], [0xDE00], [13]] = .line (encodeRunes [0xFFFD, 0xFFFD]) ∧
    hiddenLine [[0xD83D, 0xDE00], [13]] = .line (encodeRunes [0x1F600]) := by decide +kernel

example : hiddenLine ([b! "se", b! "x", [8], b! "cret"].map (·.map fun k => UInt16.ofNat k.toNat) ++ [[13]]) = .line (b! "secret") := by
  decide +kernel

/-! ## Completion -/

/-- Completion offers the names of all entries, each once and in order, and changes nothing. -/
theorem C81_completion (v : Env) (u : Session) (hv : EnvOk v u.store) (h : WellFormed u.store) :
    ∃ l, (completions v u).2 = .ok l ∧ Same u (completions v u).1 ∧ (∀ n, n ∈ l ↔ ∃ w, Blob.Spec.Named u.store w n) ∧ l.Nodup ∧
      l.Pairwise (fun a b => strLe a b = true) := by
  obtain ⟨r, hr, -⟩ := wf_search v.lower hv.ord h []
  unfold completions
  rw [hr]
  refine ⟨_, rfl, same_update u, ?_⟩
  have hl := lists_of hv.ord' (results_nodup (hr : withSnapshot _ _ = _)) h.unique _
    (C33_search_exact v.lower v.ord hv.ord h.good.ok [] r hr).2
  have hsel : ∀ n, Blob.Spec.Selects v.lower [] n := fun n => .inl rfl
  by_cases hne : r = []
  · subst hne
    have : v.ord' [] = [] := List.Perm.eq_nil (hv.ord' [])
    simp only [this, List.map_nil, sortStr]
    rcases hl with ⟨hl, -⟩ | ⟨-, h2, -⟩
    · refine ⟨fun n => ⟨fun h => by simp at h, ?_⟩, List.nodup_nil, List.Pairwise.nil⟩
      rintro ⟨w, hw⟩
      exact absurd ⟨w, hw, hsel n⟩ (hl n)
    · exact absurd ((h2 (b! "No entries found")).1 (by simp [lsLines])) (by
        rintro ⟨w, hw, -⟩
        have := (C33_search_exact v.lower v.ord hv.ord h.good.ok [] [] hr).2 w (b! "No entries found")
        simp [GoMap.get?] at this
        exact this hw (hsel _))
  · unfold lsLines at hl
    rw [if_neg hne] at hl
    rcases hl with ⟨hl, -⟩ | ⟨-, h2, h3, h4⟩
    · exfalso
      obtain ⟨p, hp⟩ := List.exists_mem_of_ne_nil r hne
      have := (C33_search_exact v.lower v.ord hv.ord h.good.ok [] r hr).2 p.1 p.2
      exact hl p.2 ⟨p.1, this.1 ((GoMap.mem_iff_get? (results_nodup (hr : withSnapshot _ _ = _))).1 hp)⟩
    · refine ⟨fun n => (h2 n).trans ?_, h3, h4⟩
      constructor
      · rintro ⟨w, hw, -⟩; exact ⟨w, hw⟩
      · rintro ⟨w, hw⟩; exact ⟨w, hw, hsel n⟩

example : (completions Demo.vV ShowDemo.u).2 = .ok [b! "bank", b! "barn"] := by decide +kernel

end Verif.App
