import Verif.Csv.Model
/-!
# Properties of the CSV files

C72: what the exporter writes can be read back.
-/
set_option linter.unusedSimpArgs false
namespace Verif.Csv
open Verif

/-! ## Statements -/

/-- the text has no "\r\n" -/
def NoCRLF (s : Str) : Prop := ∀ a b, s ≠ a ++ cr :: lf :: b

/-- A table that CSV can carry: at least one field in each record, all records of the same width, no record that is just one
empty field, no "\r\n" inside a field. -/
structure Plain (n : Nat) (rs : List (List Str)) : Prop where
  pos : 0 < n
  width : ∀ r ∈ rs, r.length = n
  nonempty : ∀ r ∈ rs, r ≠ [[]]
  noCRLF : ∀ r ∈ rs, ∀ f ∈ r, NoCRLF f

/-! ## Lemmas -/

theorem needsQuotes_false {f : Str} (h : needsQuotes f = false) :
    comma ∉ f ∧ quote ∉ f ∧ cr ∉ f ∧ lf ∉ f := by
  unfold needsQuotes at h
  by_cases h0 : f = []
  · subst h0; simp
  · rw [if_neg h0] at h
    split at h
    · cases h
    · split at h
      · cases h
      · rename_i h2
        simp only [Bool.or_eq_true, not_or, List.contains_iff_mem] at h2
        exact ⟨h2.1.1.1, h2.1.1.2, h2.1.2, h2.2⟩

theorem parse_bare (f rest cur : Str) (rec : List Str) (h1 : comma ∉ f) (h2 : quote ∉ f) (h3 : lf ∉ f) :
    parse .bare cur rec (f ++ rest) = parse .bare (cur ++ f) rec rest := by
  induction f generalizing cur with
  | nil => simp
  | cons c f ih =>
    simp only [List.mem_cons, not_or] at h1 h2 h3
    rw [List.cons_append, parse, if_neg (Ne.symm h3.1), if_neg (Ne.symm h1.1), if_neg (Ne.symm h2.1),
      ih _ h1.2 h2.2 h3.2]
    simp

theorem parse_escape (f rest cur : Str) (rec : List Str) :
    parse .quoted cur rec (escape f ++ quote :: rest) = parse .closing (cur ++ f) rec rest := by
  induction f generalizing cur with
  | nil => simp [escape, parse]
  | cons c f ih =>
    by_cases hc : c = quote
    · subst hc
      have : escape (quote :: f) ++ quote :: rest = quote :: quote :: (escape f ++ quote :: rest) := by
        simp [escape]
      rw [this, parse, if_pos rfl, parse, if_pos rfl, ih]
      simp
    · have : escape (c :: f) ++ quote :: rest = c :: (escape f ++ quote :: rest) := by simp [escape, hc]
      rw [this, parse, if_neg hc, ih]
      simp

/-- a field followed by a comma -/
theorem parse_field_comma (st : St) (hst : st = .field ∨ (st = .start)) (f rest : Str) (rec : List Str)
    (hrec : st = .start → rec = []) :
    parse st [] rec (writeField f ++ comma :: rest) = parse .field [] (rec ++ [f]) rest := by
  unfold writeField
  by_cases hq : needsQuotes f = true
  · rw [if_pos hq]
    have hc : (quote :: escape f ++ [quote]) ++ comma :: rest = quote :: (escape f ++ quote :: comma :: rest) := by simp
    rw [hc]
    rcases hst with rfl | rfl
    · rw [parse, if_neg (by decide), if_pos rfl, parse_escape, parse, if_neg (by decide), if_pos rfl]
      simp
    · rw [hrec rfl]
      rw [parse, if_neg (by decide), if_pos rfl, parse_escape, parse, if_neg (by decide), if_pos rfl]
      simp
  · rw [if_neg hq]
    obtain ⟨h1, h2, -, h3⟩ := needsQuotes_false (by simpa using hq)
    cases f with
    | nil =>
      rcases hst with rfl | rfl
      · rw [List.nil_append, parse, if_neg (by decide), if_neg (by decide), if_pos rfl]
      · rw [hrec rfl]
        rw [List.nil_append, parse, if_neg (by decide), if_neg (by decide), if_pos rfl]; rfl
    | cons c f =>
      simp only [List.mem_cons, not_or] at h1 h2 h3
      rcases hst with rfl | rfl
      · rw [List.cons_append, parse, if_neg (Ne.symm h3.1), if_neg (Ne.symm h2.1), if_neg (Ne.symm h1.1),
          parse_bare _ _ _ _ h1.2 h2.2 h3.2, parse, if_neg (by decide), if_pos rfl]
        simp
      · rw [hrec rfl]
        rw [List.cons_append, parse, if_neg (Ne.symm h3.1), if_neg (Ne.symm h2.1), if_neg (Ne.symm h1.1),
          parse_bare _ _ _ _ h1.2 h2.2 h3.2, parse, if_neg (by decide), if_pos rfl]
        simp

/-- the last field of a record -/
theorem parse_field_lf (st : St) (hst : st = .field ∨ st = .start) (f rest : Str) (rec : List Str)
    (hrec : st = .start → rec = [] ∧ f ≠ []) :
    parse st [] rec (writeField f ++ lf :: rest) =
      ((rec ++ [f]) :: (parse .start [] [] rest).1, (parse .start [] [] rest).2) := by
  unfold writeField
  by_cases hq : needsQuotes f = true
  · rw [if_pos hq]
    have hc : (quote :: escape f ++ [quote]) ++ lf :: rest = quote :: (escape f ++ quote :: lf :: rest) := by simp
    rw [hc]
    rcases hst with rfl | rfl
    · rw [parse, if_neg (by decide), if_pos rfl, parse_escape, parse, if_neg (by decide), if_neg (by decide), if_pos rfl]
      simp
    · rw [(hrec rfl).1]
      rw [parse, if_neg (by decide), if_pos rfl, parse_escape, parse, if_neg (by decide), if_neg (by decide), if_pos rfl]
      simp
  · rw [if_neg hq]
    obtain ⟨h1, h2, -, h3⟩ := needsQuotes_false (by simpa using hq)
    cases f with
    | nil =>
      rcases hst with rfl | rfl
      · rw [List.nil_append, parse, if_pos rfl]
      · exact absurd rfl (hrec rfl).2
    | cons c f =>
      simp only [List.mem_cons, not_or] at h1 h2 h3
      rcases hst with rfl | rfl
      · rw [List.cons_append, parse, if_neg (Ne.symm h3.1), if_neg (Ne.symm h2.1), if_neg (Ne.symm h1.1),
          parse_bare _ _ _ _ h1.2 h2.2 h3.2, parse, if_pos rfl]
        simp
      · rw [(hrec rfl).1]
        rw [List.cons_append, parse, if_neg (Ne.symm h3.1), if_neg (Ne.symm h2.1), if_neg (Ne.symm h1.1),
          parse_bare _ _ _ _ h1.2 h2.2 h3.2, parse, if_pos rfl]
        simp

theorem parse_fields (fs : List Str) (hne : fs ≠ []) (rec : List Str) (rest : Str) :
    parse .field [] rec (writeFields fs ++ lf :: rest) =
      ((rec ++ fs) :: (parse .start [] [] rest).1, (parse .start [] [] rest).2) := by
  induction fs generalizing rec with
  | nil => exact absurd rfl hne
  | cons f fs ih =>
    cases fs with
    | nil => exact parse_field_lf .field (.inl rfl) f rest rec (by simp)
    | cons g fs =>
      simp only [writeFields, List.append_assoc, List.cons_append]
      rw [parse_field_comma .field (.inl rfl) f _ rec (by simp), ih (by simp)]
      simp

theorem parse_record (r : List Str) (hne : r ≠ []) (hne' : r ≠ [[]]) (rest : Str) :
    parse .start [] [] (writeRecord r ++ rest) =
      (r :: (parse .start [] [] rest).1, (parse .start [] [] rest).2) := by
  unfold writeRecord
  rw [List.append_assoc, List.singleton_append]
  cases r with
  | nil => exact absurd rfl hne
  | cons f fs =>
    cases fs with
    | nil => exact parse_field_lf .start (.inr rfl) f rest [] (fun _ => ⟨rfl, by rintro rfl; exact hne' rfl⟩)
    | cons g fs =>
      simp only [writeFields, List.append_assoc, List.cons_append]
      rw [parse_field_comma .start (.inr rfl) f _ [] (by simp), parse_fields _ (by simp)]
      simp

theorem parse_write (rs : List (List Str)) (h : ∀ r ∈ rs, r ≠ [] ∧ r ≠ [[]]) :
    parse .start [] [] (write rs) = (rs, true) := by
  induction rs with
  | nil => rfl
  | cons r rs ih =>
    have := h r (by simp)
    rw [show write (r :: rs) = writeRecord r ++ write rs by simp [write], parse_record r this.1 this.2,
      ih (fun x hx => h x (by simp [hx]))]

/-! ### line ends -/

/-- no "\r\n", as a check -/
def crlfFree : Str → Bool
  | [] => true
  | [_] => true
  | c :: d :: rest => !(c = cr && d = lf) && crlfFree (d :: rest)

theorem crlfFree_iff (s : Str) : crlfFree s = true ↔ NoCRLF s := by
  induction s with
  | nil => simp [crlfFree, NoCRLF]
  | cons c s ih =>
    cases s with
    | nil =>
      simp only [crlfFree, true_iff]
      intro a b h
      have := congrArg List.length h
      simp at this; omega
    | cons d s =>
      unfold crlfFree
      rw [Bool.and_eq_true, ih]
      constructor
      · rintro ⟨h1, h2⟩ a b hab
        cases a with
        | nil =>
          simp only [List.nil_append, List.cons.injEq] at hab
          simp [hab.1, hab.2.1] at h1
        | cons x a =>
          simp only [List.cons_append, List.cons.injEq] at hab
          exact h2 a b hab.2
      · intro h
        refine ⟨?_, fun a b hab => h (c :: a) b (by rw [hab]; rfl)⟩
        simp only [Bool.not_eq_true', Bool.and_eq_false_iff, decide_eq_false_iff_not]
        by_cases hc : c = cr
        · right
          rintro rfl
          exact h [] s (by simp [hc])
        · exact .inl hc

instance (s : Str) : Decidable (NoCRLF s) := decidable_of_iff _ (crlfFree_iff s)

theorem crlfFree_append (a b : Str) (ha : crlfFree a = true) (hb : crlfFree b = true)
    (h : a.getLast? = some cr → b.head? ≠ some lf) : crlfFree (a ++ b) = true := by
  induction a with
  | nil => exact hb
  | cons c a ih =>
    cases a with
    | nil =>
      cases b with
      | nil => rfl
      | cons d b =>
        simp only [List.singleton_append, crlfFree, hb, Bool.and_true, Bool.not_eq_true', Bool.and_eq_false_iff,
          decide_eq_false_iff_not]
        by_cases hc : c = cr
        · right
          rintro rfl
          exact h (by simp [hc]) rfl
        · exact .inl hc
    | cons d a =>
      simp only [List.cons_append, crlfFree, Bool.and_eq_true] at ha ⊢
      refine ⟨ha.1, ?_⟩
      have := ih ha.2 (by simpa using h)
      simpa using this

theorem normalize_id (s : Str) (h : crlfFree s = true) (hl : s.getLast? ≠ some cr) : normalize s = s := by
  induction s with
  | nil => rfl
  | cons c s ih =>
    cases s with
    | nil =>
      simp only [List.getLast?_singleton, ne_eq, Option.some.injEq] at hl
      simp [normalize, hl]
    | cons d s =>
      simp only [crlfFree, Bool.and_eq_true, Bool.not_eq_true', Bool.and_eq_false_iff, decide_eq_false_iff_not] at h
      rw [normalize, if_neg (by rcases h.1 with h | h <;> simp [h]), ih h.2 (by simpa using hl)]

theorem crlfFree_cons (c : UInt8) (s : Str) (hs : crlfFree s = true) (h : c ≠ cr ∨ s.head? ≠ some lf) :
    crlfFree (c :: s) = true := by
  have := crlfFree_append [c] s rfl hs (by
    intro hc
    simp only [List.getLast?_singleton, Option.some.injEq] at hc
    rcases h with h | h
    · exact absurd hc h
    · exact h)
  simpa using this

theorem escape_head (f : Str) : (escape f).head? = f.head? := by
  cases f with
  | nil => rfl
  | cons c f =>
    by_cases h : c = quote
    · simp [escape, h]
    · simp [escape, h]

theorem crlfFree_escape (f : Str) (h : crlfFree f = true) : crlfFree (escape f) = true := by
  induction f with
  | nil => rfl
  | cons c f ih =>
    have hf : crlfFree f = true := by
      cases f with
      | nil => rfl
      | cons d f => simp only [crlfFree, Bool.and_eq_true] at h; exact h.2
    by_cases hc : c = quote
    · have he : escape (c :: f) = quote :: quote :: escape f := by simp [escape, hc]
      rw [he]
      exact crlfFree_cons _ _ (crlfFree_cons _ _ (ih hf) (.inl (by decide))) (.inl (by decide))
    · have he : escape (c :: f) = c :: escape f := by simp [escape, hc]
      rw [he]
      refine crlfFree_cons _ _ (ih hf) ?_
      rw [escape_head]
      by_cases hcr : c = cr
      · right
        cases f with
        | nil => simp
        | cons d f =>
          simp only [crlfFree, hcr, Bool.and_eq_true, Bool.not_eq_true', Bool.and_eq_false_iff,
            decide_eq_false_iff_not] at h
          simpa using h.1
      · exact .inl hcr

theorem getLast?_writeField (f : Str) : (writeField f).getLast? ≠ some cr := by
  unfold writeField
  by_cases hq : needsQuotes f = true
  · rw [if_pos hq, List.getLast?_append]
    simp [quote, cr]
  · rw [if_neg hq]
    obtain ⟨-, -, h, -⟩ := needsQuotes_false (by simpa using hq)
    intro hl
    exact h (List.mem_of_getLast? hl)

theorem crlfFree_of_notMem (s : Str) (h : cr ∉ s) : crlfFree s = true := by
  rw [crlfFree_iff]
  rintro a b rfl
  simp at h

theorem crlfFree_writeField (f : Str) (h : crlfFree f = true) : crlfFree (writeField f) = true := by
  unfold writeField
  by_cases hq : needsQuotes f = true
  · rw [if_pos hq, List.cons_append]
    refine crlfFree_cons _ _ (crlfFree_append _ _ (crlfFree_escape f h) rfl ?_) (.inl (by decide))
    simp [quote, lf]
  · rw [if_neg hq]
    exact h

theorem getLast?_writeFields (fs : List Str) : (writeFields fs).getLast? ≠ some cr := by
  induction fs with
  | nil => simp [writeFields]
  | cons f fs ih =>
    cases fs with
    | nil => exact getLast?_writeField f
    | cons g fs =>
      rw [writeFields, List.getLast?_append, List.getLast?_cons]
      · cases hg : (writeFields (g :: fs)).getLast? with
        | none => simp [comma, cr]
        | some x => rw [hg] at ih; simpa using ih
      · simp

theorem crlfFree_writeFields (fs : List Str) (h : ∀ f ∈ fs, crlfFree f = true) : crlfFree (writeFields fs) = true := by
  induction fs with
  | nil => rfl
  | cons f fs ih =>
    cases fs with
    | nil => exact crlfFree_writeField f (h f (by simp))
    | cons g fs =>
      rw [writeFields]
      · refine crlfFree_append _ _ (crlfFree_writeField f (h f (by simp))) ?_ (by simp [comma, lf])
        exact crlfFree_cons _ _ (ih (fun x hx => h x (by simp [hx]))) (.inl (by decide))
      · simp

theorem crlfFree_write (rs : List (List Str)) (h : ∀ r ∈ rs, ∀ f ∈ r, crlfFree f = true) :
    crlfFree (write rs) = true ∧ (write rs).getLast? ≠ some cr := by
  induction rs with
  | nil => exact ⟨rfl, by simp [write]⟩
  | cons r rs ih =>
    have hw : write (r :: rs) = writeFields r ++ lf :: write rs := by simp [write, writeRecord]
    obtain ⟨h1, h2⟩ := ih (fun x hx => h x (by simp [hx]))
    rw [hw]
    constructor
    · refine crlfFree_append _ _ (crlfFree_writeFields r (h r (by simp))) (crlfFree_cons _ _ h1 (.inl (by decide))) ?_
      intro hl
      exact absurd hl (getLast?_writeFields r)
    · rw [List.getLast?_append, List.getLast?_cons]
      cases hg : (write rs).getLast? with
      | none => simp [lf, cr]
      | some x => rw [hg] at h2; simpa using h2

theorem sameWidth_all (n : Nat) (rs : List (List Str)) (h : ∀ r ∈ rs, r.length = n) : sameWidth n rs = (rs, true) := by
  induction rs with
  | nil => rfl
  | cons r rs ih =>
    rw [sameWidth, if_pos (h r (by simp)), ih (fun x hx => h x (by simp [hx]))]
    rfl

/-! ## C72 -/

/-- Every plain table is read back exactly as it was written. -/
theorem C72_roundtrip_partial (n : Nat) (rs : List (List Str)) (h : Plain n rs) : read (write rs) = (rs, true) := by
  obtain ⟨h1, h2⟩ := crlfFree_write rs (fun r hr f hf => (crlfFree_iff f).2 (h.noCRLF r hr f hf))
  unfold read
  rw [normalize_id _ h1 h2, parse_write rs (fun r hr => ⟨by
    rintro rfl
    have := h.width [] hr
    have := h.pos
    simp at *; omega, h.nonempty r hr⟩)]
  cases rs with
  | nil => rfl
  | cons r rs =>
    simp only
    rw [sameWidth_all r.length _ (fun x hx => by rw [h.width x hx, h.width r (by simp)])]
    rfl

/-- A carriage return before a line feed is lost. -/
theorem C72_false : ¬ ∀ (n : Nat) (rs : List (List Str)), 0 < n → (∀ r ∈ rs, r.length = n) → read (write rs) = (rs, true) := by
  intro h
  have := h 2 [[b! "name", b! "notes"], [b! "a", b! "one\r\ntwo"]] (by decide) (by decide)
  revert this
  decide +kernel

/-- An entry of which the only exported key is empty is lost altogether. -/
theorem C72_empty_false : read (write [[b! "name"], [[]], [b! "b"]]) = ([[b! "name"], [b! "b"]], true) := by
  decide +kernel

/-! ## The hypotheses can be met -/

example : Plain 3 [[b! "name", b! "notes", b! "pass"], [b! "a,b", b! "say \"hi\"\nand more\r", []], [b! " x", b! "\\.", b! "日本"]] where
  pos := by decide
  width := by decide
  nonempty := by decide
  noCRLF := by decide +kernel

end Verif.Csv
