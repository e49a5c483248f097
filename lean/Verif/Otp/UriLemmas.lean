import Verif.Otp.Lemmas
/-!
# Facts about the uris of two factor keys
-/
set_option linter.unusedSimpArgs false
namespace Verif.Otp
open Verif Verif.Otp.Spec Verif.Url

theorem trimSpace_noSpace {s : Str} (h : NoSpace s) : trimSpace s = s := by
  unfold trimSpace
  have h1 : ∀ l : List (Nat × Str), (∀ p ∈ l, isSpaceRune p.1 = false) → l.dropWhile (fun p => isSpaceRune p.1) = l := by
    intro l hl
    cases l with
    | nil => rfl
    | cons p ps => rw [List.dropWhile_cons_of_neg (by simp [hl p (by simp)])]
  rw [h1 _ h]
  simp only
  rw [h1 _ (fun p hp => h p (by simpa using hp)), List.reverse_reverse]
  exact pieces_flatten s

/-- bytes of the parts of a uri that are written by escaping -/
def tame (c : UInt8) : Bool :=
  33 ≤ c.toNat && c.toNat < 127 && c ≠ 35 && c ≠ 63 && c ≠ 47 && c ≠ 59

theorem tame_facts (c : UInt8) (h : tame c = true) : plain c = true ∧ c ≠ 47 ∧ c ≠ 59 ∧ c.toNat < 0x80 ∧ isSpaceRune c.toNat = false :=
  byteInd (p := fun c => tame c = true → plain c = true ∧ c ≠ 47 ∧ c ≠ 59 ∧ c.toNat < 0x80 ∧ isSpaceRune c.toNat = false)
    (by decide +kernel) c h

theorem queryEscape_mem (s : Str) : ∀ x ∈ queryEscape s, tame x = true ∧ x ≠ 38 ∧ x ≠ 61 := by
  induction s with
  | nil => simp [queryEscape]
  | cons c s ih =>
    intro x hx
    simp only [queryEscape, List.mem_append] at hx
    exact hx.elim (byteInd (p := fun c => ∀ x ∈ queryEscapeByte c, tame x = true ∧ x ≠ 38 ∧ x ≠ 61) (by decide +kernel) c x) (ih x)

theorem pathEscape_mem (s : Str) : ∀ x ∈ pathEscape s, tame x = true := by
  induction s with
  | nil => simp [pathEscape]
  | cons c s ih =>
    intro x hx
    simp only [pathEscape, List.mem_append] at hx
    exact hx.elim (byteInd (p := fun c => ∀ x ∈ (if segmentEscapes c then [37, upperHex (c.toNat / 16), upperHex (c.toNat % 16)] else [c]),
      tame x = true) (by decide +kernel) c x) (ih x)

theorem queryUnescape_escape (s : Str) : queryUnescape (queryEscape s) = some s := by
  induction s with
  | nil => rfl
  | cons c s ih =>
    have hlt : c.toNat < 256 := c.toNat_lt
    rw [queryEscape]
    unfold queryEscapeByte
    split
    · rename_i h; subst h
      rw [List.cons_append, List.nil_append, queryUnescape.eq_def]
      simp [ih]
    · split
      · simp only [List.cons_append, List.nil_append, queryUnescape, if_true, unhex_upperHex _ (show c.toNat / 16 < 16 by omega),
          unhex_upperHex _ (show c.toNat % 16 < 16 by omega), ih, Option.map_some, byte_split]
      · rename_i h
        have hc : c ≠ 37 ∧ c ≠ 43 := by
          constructor <;> (intro h'; subst h'; exact absurd (by decide) h)
        rw [List.cons_append, List.nil_append, queryUnescape.eq_def]
        simp [hc.1, hc.2, ih]

theorem unescape_pathEscape (s : Str) : unescape .path (pathEscape s) = some s := by
  induction s with
  | nil => rfl
  | cons c s ih =>
    have hlt : c.toNat < 256 := c.toNat_lt
    rw [pathEscape]
    split
    · simp only [List.cons_append, List.nil_append, unescape, if_true, unhex_upperHex _ (show c.toNat / 16 < 16 by omega),
        unhex_upperHex _ (show c.toNat % 16 < 16 by omega), ih, Option.map_some, byte_split, escapeOk]
      simp
    · rename_i h
      have hc : c ≠ 37 := by intro h'; subst h'; exact absurd (by decide) h
      rw [List.cons_append, List.nil_append, unescape.eq_def]
      simp [hc, ih]

/-- a query does not change how a url is parsed -/
theorem parse_query {scheme t q : Str} (hs : scheme.all isLower = true) (hne : scheme ≠ []) (ht : ∀ x ∈ t, plain x = true)
    (h2 : 2 ≤ t.length) (hq : ∀ x ∈ q, x ≠ 35 ∧ 32 ≤ x.toNat ∧ x ≠ 127) :
    parse (scheme ++ 58 :: (t ++ 63 :: q)) = parse (scheme ++ 58 :: t) := by
  have hpl : ∀ x ∈ scheme ++ 58 :: t, plain x = true := by
    intro x hx
    simp only [List.mem_append, List.mem_cons] at hx
    rcases hx with h | rfl | h
    · exact plain_of_lower hs x h
    · decide
    · exact ht x h
  obtain ⟨f1, f2, f3⟩ := plain_facts hpl
  obtain ⟨t1, t2, t3⟩ := plain_facts ht
  obtain ⟨s1, s2, s3⟩ := plain_facts (plain_of_lower hs)
  have g1 : (35 : UInt8) ∉ scheme ++ 58 :: (t ++ 63 :: q) := by
    intro h
    simp only [List.mem_append, List.mem_cons] at h
    rcases h with h | h | h | h | h
    · exact s1 h
    · exact absurd h (by decide)
    · exact t1 h
    · exact absurd h (by decide)
    · exact (hq _ h).1 rfl
  have g3 : (scheme ++ 58 :: (t ++ 63 :: q)).any (fun c => c.toNat < 32 || c.toNat = 127) = false := by
    have hqa : q.any (fun c => decide (c.toNat < 32) || decide (c.toNat = 127)) = false := by
      rw [List.any_eq_false]
      intro x hx h
      obtain ⟨-, b, c⟩ := hq x hx
      simp only [Bool.or_eq_true, decide_eq_true_eq] at h
      rcases h with h | h
      · omega
      · exact c (UInt8.toNat_inj.1 (by rw [h]; rfl))
    rw [List.any_append, List.any_cons, List.any_append, List.any_cons, s3, t3, hqa]
    decide
  have e : ∀ x : Str, 1 ≤ x.length → scheme ++ 58 :: x ≠ b! "*" := by
    intro x hx h
    have := congrArg List.length h
    simp at this
    omega
  unfold parse
  rw [cut_none f1, cut_none g1]
  unfold parse'
  rw [if_neg (by rw [g3]; simp), if_neg (e (t ++ 63 :: q) (by simp; omega)), if_neg (by rw [f3]; simp), if_neg (e t (by omega)),
    getScheme_letters _ _ _ [] hs (by simpa using hne), getScheme_letters _ _ _ [] hs (by simpa using hne)]
  have d1 : dropQuery (t ++ 63 :: q) = t := by unfold dropQuery; rw [cut_append t2]; rfl
  have d2 : dropQuery t = t := by unfold dropQuery; rw [cut_none t2]; rfl
  simp only [d1, d2]

theorem rawQuery_of {r q : Str} (h35 : (35 : UInt8) ∉ r) (h63 : (63 : UInt8) ∉ r) (hq : (35 : UInt8) ∉ q) :
    rawQuery (r ++ 63 :: q) = q := by
  unfold rawQuery
  rw [cut_none (c := 35) (x := r ++ 63 :: q) (by
    intro h
    simp only [List.mem_append, List.mem_cons] at h
    rcases h with h | h | h
    · exact h35 h
    · exact absurd h (by decide)
    · exact hq h)]
  simp only [Option.map_none, Option.getD_none]
  rw [cut_append h63]
  rfl

theorem uri_trim {label q : Str} (hl : ∀ x ∈ label, tame x = true) (hq : ∀ x ∈ q, x ≠ 35 ∧ 33 ≤ x.toNat ∧ x.toNat < 127) :
    trimSpace (b! "otpauth://totp/" ++ label ++ 63 :: q) = b! "otpauth://totp/" ++ label ++ 63 :: q := by
  refine trimSpace_noSpace (noSpace_ascii _ fun c hc => ?_)
  rcases List.mem_append.1 hc with hc | hc
  · rcases List.mem_append.1 hc with hc | hc
    · exact (show ∀ c ∈ b! "otpauth://totp/", c.toNat < 0x80 ∧ isSpaceRune c.toNat = false from by decide) c hc
    · exact (tame_facts c (hl c hc)).2.2.2
  · rcases List.mem_cons.1 hc with rfl | hc
    · decide
    · exact byteInd (p := fun c => 33 ≤ c.toNat → c.toNat < 127 → c.toNat < 0x80 ∧ isSpaceRune c.toNat = false) (by decide +kernel) c
        (hq c hc).2.1 (hq c hc).2.2

theorem uri_parse {label q p : Str} (hl : ∀ x ∈ label, tame x = true) (hp : unescape .path label = some p)
    (hq : ∀ x ∈ q, x ≠ 35 ∧ 33 ≤ x.toNat ∧ x.toNat < 127) :
    parse (b! "otpauth://totp/" ++ label ++ 63 :: q) = some { scheme := b! "otpauth", host := b! "totp", path := 47 :: p } := by
  have hplain : ∀ x ∈ b! "//totp/" ++ label, plain x = true := by
    intro x hx
    rcases List.mem_append.1 hx with hx | hx
    · exact (show ∀ c ∈ b! "//totp/", plain c = true from by decide) x hx
    · exact (tame_facts x (hl x hx)).1
  have e := parse_query (scheme := b! "otpauth") (t := b! "//totp/" ++ label) (q := q) (by decide) (by decide) hplain (by simp)
    (fun x hx => ⟨(hq x hx).1, by have := (hq x hx).2.1; omega, by
      intro h; subst h; have := (hq _ hx).2.2; exact absurd this (by decide)⟩)
  have ha : parseAuthority (b! "totp") = some (none, b! "totp") := by decide +kernel
  have e3 := parse_parts (scheme := b! "otpauth") (authority := b! "totp") (p := 47 :: label) (by decide) (by decide) (by decide) (by decide) (by
    intro x hx
    rcases List.mem_cons.1 hx with rfl | hx
    · decide
    · exact (tame_facts x (hl x hx)).1) (.inr rfl)
  rw [ha] at e3
  simp only [unescape_slash, hp, Option.map_some] at e3
  exact (show _ = _ from e).trans e3

/-- A uri with a label and a query: the code is that of the secret in the query. -/
theorem code_uri (v : Env) (unix : Nat) (label q : Str) (hl : ∀ x ∈ label, tame x = true) (hl' : (unescape .path label).isSome = true)
    (hq : ∀ x ∈ q, x ≠ 35 ∧ 33 ≤ x.toNat ∧ x.toNat < 127) :
    uriOk (b! "otpauth://totp/" ++ label ++ 63 :: q) = true ∧
    code v unix (b! "otpauth://totp/" ++ label ++ 63 :: q) = generate v (queryGet (parseQuery q) (b! "secret")) unix := by
  obtain ⟨p, hp⟩ := Option.isSome_iff_exists.1 hl'
  have hns := uri_trim hl hq
  have hparse := uri_parse hl hp hq
  have hpl2 : ∀ x ∈ b! "otpauth://totp/" ++ label, plain x = true := by
    intro x hx
    rcases List.mem_append.1 hx with hx | hx
    · exact (show ∀ c ∈ b! "otpauth://totp/", plain c = true from by decide) x hx
    · exact (tame_facts x (hl x hx)).1
  obtain ⟨r1, r2, -⟩ := plain_facts hpl2
  have hraw := rawQuery_of r1 r2 (fun h => (hq 35 h).1 rfl)
  generalize b! "otpauth://totp/" ++ label ++ 63 :: q = uri at *
  unfold uriOk code
  rw [hns, hparse]
  refine ⟨rfl, ?_⟩
  simp only
  rw [if_neg (by decide), hraw]

theorem secret_alone (s : Str) : queryGet (parseQuery (b! "secret=" ++ queryEscape s)) (b! "secret") = s := by
  have hm := queryEscape_mem s
  have h38 : (38 : UInt8) ∉ b! "secret=" ++ queryEscape s := by
    intro h
    rcases List.mem_append.1 h with h | h
    · exact absurd h (by decide)
    · exact (hm _ h).2.1 rfl
  have h59 : (b! "secret=" ++ queryEscape s).contains 59 = false := by
    rw [Bool.eq_false_iff]
    intro h
    rw [List.contains_iff_mem] at h
    rcases List.mem_append.1 h with h | h
    · exact absurd h (by decide)
    · exact (tame_facts _ (hm _ h).1).2.2.1 rfl
  have hcut : cut 61 (b! "secret=" ++ queryEscape s) = some (b! "secret", queryEscape s) :=
    cut_append (c := 61) (x := b! "secret") (by decide) _
  have hun : queryUnescape (b! "secret") = some (b! "secret") := by decide +kernel
  have hpair : queryPair (b! "secret=" ++ queryEscape s) = some (b! "secret", s) := by
    unfold queryPair
    rw [if_neg (by rw [h59]; simp), hcut]
    simp only [Option.getD_some, hun, queryUnescape_escape]
  unfold parseQuery
  rw [split_of_notMem 38 _ h38]
  simp only [List.filterMap_cons, hpair, List.filterMap_nil]
  simp [queryGet]

/-- what `SetTwofactor` makes of a secret is taken, and gives the codes of the secret -/
theorem code_made (v : Env) (unix : Nat) (uuid secret : Str) :
    uriOk (makeUri uuid secret) = true ∧ code v unix (makeUri uuid secret) = generate v secret unix := by
  have e : makeUri uuid secret = b! "otpauth://totp/" ++ pathEscape (b! "bpass:" ++ uuid) ++ 63 :: (b! "secret=" ++ queryEscape secret) := by
    simp [makeUri]
  rw [e]
  have := code_uri v unix (pathEscape (b! "bpass:" ++ uuid)) (b! "secret=" ++ queryEscape secret) (pathEscape_mem _)
    (by rw [unescape_pathEscape]; rfl) (by
      intro x hx
      rcases List.mem_append.1 hx with hx | hx
      · exact (show ∀ c ∈ b! "secret=", c ≠ 35 ∧ 33 ≤ c.toNat ∧ c.toNat < 127 from by decide) x hx
      · exact byteInd (p := fun c => tame c = true → c ≠ 35 ∧ 33 ≤ c.toNat ∧ c.toNat < 127) (by decide +kernel) x (queryEscape_mem _ x hx).1)
  rw [secret_alone] at this
  exact this

end Verif.Otp
