import Verif.Go.UrlLemmas
/-!
# How urls that were written are read
-/
namespace Verif.Url
open Verif

def isLower (c : UInt8) : Bool := 97 ≤ c.toNat && c.toNat ≤ 122

theorem getScheme_letters (whole t : Str) (x seen : Str) (hx : x.all isLower = true) (hne : seen ++ x ≠ []) :
    getScheme whole seen (x ++ 58 :: t) = some (seen ++ x, t) := by
  induction x generalizing seen with
  | nil =>
    have hs : seen ≠ [] := by simpa using hne
    simp [getScheme, hs]
  | cons c x ih =>
    simp only [List.all_cons, Bool.and_eq_true] at hx
    have hc : (97 ≤ c.toNat ∧ c.toNat ≤ 122) ∨ (65 ≤ c.toNat ∧ c.toNat ≤ 90) := by
      left; simpa [isLower] using hx.1
    rw [List.cons_append, getScheme, if_pos hc, ih (seen ++ [c]) hx.2 (by simp)]
    simp

theorem map_lower {x : Str} (hx : x.all isLower = true) : x.map lower = x := by
  induction x with
  | nil => rfl
  | cons c x ih =>
    simp only [List.all_cons, Bool.and_eq_true] at hx
    have h1 : 97 ≤ c.toNat := by have := hx.1; simp [isLower] at this; exact this.1
    simp only [List.map_cons, ih hx.2, lower]
    rw [if_neg (by omega)]

theorem plain_facts {s : Str} (h : ∀ x ∈ s, plain x = true) :
    (35 : UInt8) ∉ s ∧ (63 : UInt8) ∉ s ∧ s.any (fun c => c.toNat < 32 || c.toNat = 127) = false := by
  refine ⟨fun hx => ?_, fun hx => ?_, ?_⟩
  · have := h _ hx; simp [plain] at this
  · have := h _ hx; simp [plain] at this
  · rw [List.any_eq_false]
    intro c hc
    have := h c hc
    simp only [plain, Bool.and_eq_true, decide_eq_true_eq, ne_eq] at this
    obtain ⟨⟨⟨h1, h2⟩, -⟩, -⟩ := this
    have h3 : c.toNat ≠ 127 := fun e => h2 (by rw [← UInt8.toNat_inj]; exact e)
    simp only [Bool.or_eq_true, decide_eq_true_eq, not_or]
    omega

theorem plain_of_lower {x : Str} (hx : x.all isLower = true) : ∀ c ∈ x, plain c = true := by
  intro c hc
  have h := List.all_eq_true.1 hx c hc
  exact byteInd (p := fun c => isLower c = true → plain c = true) (by decide +kernel) c h

/-- how a url with scheme, authority and path is taken apart -/
theorem parse_parts {scheme authority p : Str} (hs : scheme.all isLower = true) (hne : scheme ≠ [])
    (ha : ∀ x ∈ authority, plain x = true) (h47 : (47 : UInt8) ∉ authority) (hp : ∀ x ∈ p, plain x = true)
    (hp' : p = [] ∨ p.head? = some 47) :
    parse (scheme ++ 58 :: 47 :: 47 :: (authority ++ p)) =
      match parseAuthority authority with
      | none => none
      | some (user, host) => (unescape .path p).map fun q => { scheme := scheme, user := user, host := host, path := q } := by
  have hall : ∀ x ∈ scheme ++ 58 :: 47 :: 47 :: (authority ++ p), plain x = true := by
    intro x hx
    simp only [List.mem_append, List.mem_cons] at hx
    rcases hx with h | rfl | rfl | rfl | h | h
    · exact plain_of_lower hs x h
    · decide
    · decide
    · decide
    · exact ha x h
    · exact hp x h
  obtain ⟨f1, f2, f3⟩ := plain_facts hall
  have hrest : dropQuery (47 :: 47 :: (authority ++ p)) = 47 :: 47 :: (authority ++ p) := by
    unfold dropQuery
    rw [cut_none (fun h => f2 (by simp only [List.mem_append]; exact .inr (List.mem_cons_of_mem _ h)))]
    rfl
  have hstar : scheme ++ 58 :: 47 :: 47 :: (authority ++ p) ≠ b! "*" := by
    intro h
    have := congrArg List.length h
    simp at this
    omega
  have hcut : (match cut 47 (authority ++ p) with
      | some (a, r) => (a, 47 :: r)
      | none => (authority ++ p, [])) = (authority, p) := by
    rcases hp' with rfl | hp'
    · rw [List.append_nil, cut_none h47]
    · cases p with
      | nil => cases hp'
      | cons c r =>
        cases hp'
        rw [cut_append h47]
  unfold parse
  rw [cut_none f1]
  unfold parse'
  rw [if_neg (by rw [f3]; simp), if_neg hstar, getScheme_letters _ _ _ [] hs (by simpa using hne)]
  simp only [List.nil_append, map_lower hs, hrest]
  rw [if_neg (by simp), if_neg (by simp), if_pos ⟨.inl hne, by simp [hasPrefix]⟩]
  simp only [List.drop_succ_cons, List.drop_zero]
  cases hc : cut 47 (authority ++ p) with
  | none =>
    rw [hc] at hcut
    simp only [Prod.mk.injEq] at hcut
    rw [hcut.1]
    simp only [← hcut.2]
    rfl
  | some ar =>
    obtain ⟨a, r⟩ := ar
    rw [hc] at hcut
    simp only [Prod.mk.injEq] at hcut
    simp only [hcut.1, hcut.2]
    rfl

/-- how an authority with a user is taken apart -/
theorem parseAuthority_any {user : Str × Option Str} {h : Str} (hat : (64 : UInt8) ∉ h) :
    parseAuthority (userString (some user) ++ h) = (parseHost h).map fun host => (some user, host) := by
  cases hh : parseHost h with
  | none =>
    have : ∃ a, userString (some user) = a ++ [64] := by
      obtain ⟨u, p⟩ := user
      cases p <;> exact ⟨_, rfl⟩
    obtain ⟨a, e⟩ := this
    rw [e, show a ++ [64] ++ h = a ++ 64 :: h by simp]
    simp only [parseAuthority, lastCut_append _ hat, hh, Option.map_none]
  | some host =>
  simp only [Option.map_some]
  obtain ⟨u, p⟩ := user
  cases p with
  | none =>
    have hu := escape_plain_user u
    have h58 : (58 : UInt8) ∉ escape .userPassword u := fun k => (hu _ k).2.2.2.1 rfl
    have hv : validUserinfo (escape .userPassword u) = true := List.all_eq_true.2 fun x hx => (hu x hx).2.2.2.2
    have e : userString (some (u, none)) ++ h = escape .userPassword u ++ 64 :: h := by simp [userString]
    rw [e]
    simp only [parseAuthority, lastCut_append _ hat, hh, hv, if_true, cut_none h58, unescape_user, Option.map_some]
  | some p =>
    have hu := escape_plain_user u
    have hp := escape_plain_user p
    have h58 : (58 : UInt8) ∉ escape .userPassword u := fun k => (hu _ k).2.2.2.1 rfl
    have hv : validUserinfo (escape .userPassword u ++ 58 :: escape .userPassword p) = true := by
      refine List.all_eq_true.2 fun x hx => ?_
      simp only [List.mem_append, List.mem_cons] at hx
      rcases hx with hx | rfl | hx
      · exact (hu x hx).2.2.2.2
      · decide
      · exact (hp x hx).2.2.2.2
    have e : userString (some (u, some p)) ++ h = (escape .userPassword u ++ 58 :: escape .userPassword p) ++ 64 :: h := by
      simp [userString]
    rw [e]
    simp only [parseAuthority, lastCut_append _ hat, hh, hv, if_true, cut_append h58, unescape_user]

theorem unescape_slash (s : Str) : unescape .path (47 :: s) = (unescape .path s).map (47 :: ·) := by
  rw [unescape.eq_def]
  simp

theorem escape_head (path : Str) : (escape .path path = [] ↔ path = []) ∧ ((escape .path path).head? = some 47 ↔ path.head? = some 47) := by
  cases path with
  | nil => simp [escape]
  | cons c s =>
    have h := byteInd (p := fun c => escapeByte .path c ≠ [] ∧ ((escapeByte .path c).head? = some 47 ↔ c = 47)) (by decide +kernel) c
    obtain ⟨h1, h2⟩ := h
    cases he : escapeByte .path c with
    | nil => exact absurd he h1
    | cons a b =>
      rw [he] at h2
      simpa [escape, he] using h2

theorem writePath_facts (path : Str) : (∀ x ∈ writePath path, plain x = true) ∧ unescape .path (writePath path) = some path ∧
    (writePath path = [] ↔ path = []) ∧ ((writePath path).head? = some 47 ↔ path.head? = some 47) := by
  unfold writePath
  split
  · rename_i h; subst h
    exact ⟨by decide, rfl, by decide, by decide⟩
  · exact ⟨escape_plain_path path, unescape_path path, escape_head path⟩

theorem userString_plain (user : Str × Option Str) : ∀ x ∈ userString (some user), plain x = true ∧ x ≠ 47 := by
  obtain ⟨u, p⟩ := user
  intro x hx
  have hu := escape_plain_user u
  cases p with
  | none =>
    simp only [userString, List.mem_append, List.mem_cons, List.not_mem_nil, or_false] at hx
    rcases hx with k | rfl
    · exact ⟨(hu x k).1, (hu x k).2.1⟩
    · decide
  | some p =>
    have hp := escape_plain_user p
    simp only [userString, List.mem_append, List.mem_cons, List.not_mem_nil, or_false] at hx
    rcases hx with ((k | rfl) | k) | rfl
    · exact ⟨(hu x k).1, (hu x k).2.1⟩
    · decide
    · exact ⟨(hp x k).1, (hp x k).2.1⟩
    · decide

/-- a url with a user and a host, written and read: a path that does not start with a slash gets one -/
theorem parse_toString_any {scheme : Str} {user : Str × Option Str} {host path : Str} (hs : scheme.all isLower = true) (hne : scheme ≠ [])
    (hhne : host ≠ []) :
    parse (toString { scheme := scheme, user := some user, host := host, path := path }) =
      (parseHost (escape .host host)).map fun h =>
        { scheme := scheme, user := some user, host := h
          path := if path = [] ∨ path.head? = some 47 then path else 47 :: path } := by
  obtain ⟨w1, w2, w3, w4⟩ := writePath_facts path
  have hhe := escape_plain_host host
  have hat : (64 : UInt8) ∉ escape .host host := fun k => (hhe _ k).2.2 rfl
  have hus := userString_plain user
  have ha : ∀ x ∈ userString (some user) ++ escape .host host, plain x = true := by
    intro x hx
    rcases List.mem_append.1 hx with k | k
    · exact (hus x k).1
    · exact (hhe x k).1
  have h47 : (47 : UInt8) ∉ userString (some user) ++ escape .host host := by
    intro hx
    rcases List.mem_append.1 hx with k | k
    · exact (hus _ k).2 rfl
    · exact (hhe _ k).2.1 rfl
  have e : toString { scheme := scheme, user := some user, host := host, path := path } =
      scheme ++ 58 :: 47 :: 47 :: ((userString (some user) ++ escape .host host) ++
        (if path = [] ∨ path.head? = some 47 then writePath path else 47 :: writePath path)) := by
    have k : (if writePath path ≠ [] ∧ (writePath path).head? ≠ some 47 ∧ host ≠ [] then [47] else ([] : Str)) ++ writePath path =
        if path = [] ∨ path.head? = some 47 then writePath path else 47 :: writePath path := by
      by_cases h1 : path = []
      · subst h1; simp [writePath, escape]
      · have h1' : writePath path ≠ [] := fun k => h1 (w3.1 k)
        by_cases h2 : path.head? = some 47
        · have h2' := w4.2 h2
          simp [h2, h2']
        · have h2' : (writePath path).head? ≠ some 47 := fun k => h2 (w4.1 k)
          simp [h1, h1', h2, h2', hhne]
    rw [← k]
    simp [toString]
  rw [e, parse_parts hs hne ha h47 (by split <;> simp_all [plain]) (by
      split
      · rename_i h
        rcases h with h | h
        · exact .inl (w3.2 h)
        · exact .inr (w4.2 h)
      · exact .inr rfl), parseAuthority_any hat]
  cases parseHost (escape .host host) with
  | none => rfl
  | some h =>
    simp only [Option.map_some]
    split
    · rw [w2]; rfl
    · rw [unescape_slash, w2]; rfl

/-- a url with a user, written and read -/
theorem parse_toString {scheme : Str} {user : Str × Option Str} {host path : Str} (hs : scheme.all isLower = true) (hne : scheme ≠ [])
    (hh : parseHost (escape .host host) = some host) (hhne : host ≠ []) :
    parse (toString { scheme := scheme, user := some user, host := host, path := path }) =
      some { scheme := scheme, user := some user, host := host
             path := if path = [] ∨ path.head? = some 47 then path else 47 :: path } := by
  rw [parse_toString_any hs hne hhne, hh]
  rfl

/-- a url of a file, written and read -/
theorem parse_toString_file {scheme path : Str} (hs : scheme.all isLower = true) (hne : scheme ≠ []) (hp : path.head? = some 47) :
    parse (toString { scheme := scheme, path := path }) = some { scheme := scheme, path := path } := by
  obtain ⟨w1, w2, w3, w4⟩ := writePath_facts path
  have hpne : path ≠ [] := by intro h; rw [h] at hp; cases hp
  have e : toString { scheme := scheme, path := path } = scheme ++ 58 :: 47 :: 47 :: (([] : Str) ++ writePath path) := by
    simp [toString, hpne, userString, escape]
  rw [e, parse_parts hs hne (by simp) (by simp) w1 (.inr (w4.2 hp))]
  have : parseAuthority [] = some (none, []) := rfl
  rw [this]
  simp only [w2, Option.map_some]

/-! ## hosts -/

theorem digit_facts {p : Str} (hp : p.all isDigit = true) : (∀ c ∈ p, hostByte c = true) ∧ (58 : UInt8) ∉ p ∧ (93 : UInt8) ∉ p ∧
    (37 : UInt8) ∉ p ∧ escape .host p = p := by
  have h : ∀ c ∈ p, isDigit c = true := List.all_eq_true.1 hp
  refine ⟨fun c hc => ?_, fun hx => ?_, fun hx => ?_, fun hx => ?_, ?_⟩
  · exact byteInd (p := fun c => isDigit c = true → hostByte c = true) (by decide +kernel) c (h c hc)
  · have := h _ hx; revert this; decide
  · have := h _ hx; revert this; decide
  · have := h _ hx; revert this; decide
  · clear hp
    induction p with
    | nil => rfl
    | cons c p ih =>
      have hc : escapeByte .host c = [c] :=
        byteInd (p := fun c => isDigit c = true → escapeByte .host c = [c]) (by decide +kernel) c (h c (by simp))
      rw [escape, hc, ih (fun c hc => h c (by simp [hc]))]
      rfl

/-- a host name or address: bytes that urls allow in hosts, and no brackets -/
def HostOk (host : Str) : Prop := host ≠ [] ∧ ∀ c ∈ host, hostByte c = true ∧ c ≠ 91 ∧ c ≠ 93 ∧ c ≠ 37

theorem cutZone_host {s : Str} (h : ∀ c ∈ s, hostByte c = true ∧ c ≠ 37) : cutZone (escape .host s) = none := by
  induction s with
  | nil => rfl
  | cons c s ih =>
    have hs := ih (fun c hc => h c (by simp [hc]))
    have hc := byteInd (p := fun c => hostByte c = true ∧ c ≠ 37 → (escapeByte .host c = [c]) ∨
      ∃ n < 16, ∃ k < 16, (8 ≤ n ∧ escapeByte .host c = [37, upperHex n, upperHex k])) (by decide +kernel) c (h c (by simp))
    have h37 := (h c (by simp)).2
    have no : ∀ (b : UInt8) (t : Str), b ≠ 37 → cutZone t = none → cutZone (b :: t) = none := by
      intro b t hb ht
      have : hasPrefix (b :: t) (b! "%25") = false := by
        simp only [hasPrefix, List.isPrefixOf, Bool.and_eq_false_iff, beq_eq_false_iff_ne]
        exact .inl (Ne.symm hb)
      simp [cutZone, this, ht]
    rcases hc with hc | ⟨n, hn, k, hk, h8, hc⟩
    · rw [escape, hc]
      exact no c _ h37 hs
    · rw [escape, hc]
      have hx : ∀ n < 16, upperHex n ≠ 37 ∧ (8 ≤ n → upperHex n ≠ 50) := by decide +kernel
      have h1 := no _ _ (hx k hk).1 hs
      have h2 := no _ _ (hx n hn).1 h1
      have : hasPrefix (37 :: upperHex n :: upperHex k :: escape .host s) (b! "%25") = false := by
        simp only [hasPrefix, List.isPrefixOf, Bool.and_eq_false_iff, beq_eq_false_iff_ne]
        exact .inr (.inl (Ne.symm ((hx n hn).2 h8)))
      show cutZone (37 :: upperHex n :: upperHex k :: escape .host s) = none
      rw [cutZone, this, h2]
      rfl

theorem parseHost_plain {host port : Str} (h : HostOk host) (h58 : (58 : UInt8) ∉ host) (hp : port.all isDigit = true) :
    parseHost (escape .host (host ++ 58 :: port)) = some (host ++ 58 :: port) := by
  obtain ⟨d1, d2, d3, d4, d5⟩ := digit_facts hp
  have hall : ∀ c ∈ host ++ 58 :: port, hostByte c = true := by
    intro c hc
    simp only [List.mem_append, List.mem_cons] at hc
    rcases hc with hc | rfl | hc
    · exact (h.2 c hc).1
    · decide
    · exact d1 c hc
  have e : escape .host (host ++ 58 :: port) = escape .host host ++ 58 :: port := by
    rw [escape_append, escape, d5]; rfl
  have hhead : (escape .host (host ++ 58 :: port)).head? ≠ some 91 := by
    cases host with
    | nil => exact absurd rfl h.1
    | cons c s =>
      have hc := (h.2 c (by simp)).2.1
      have := byteInd (p := fun c => c ≠ 91 → escapeByte .host c ≠ [] ∧ (escapeByte .host c).head? ≠ some 91) (by decide +kernel) c hc
      cases he : escapeByte .host c with
      | nil => exact absurd he this.1
      | cons a b =>
        rw [he] at this
        simpa [escape, he] using this.2
  have hu := unescape_host hall
  unfold parseHost
  rw [if_neg hhead, hu, e, lastCut_append _ d2]
  simp only
  rw [if_pos]
  simpa [validOptionalPort] using hp

/-- a byte that a host cannot have is escaped, but the escape is refused -/
theorem unescape_bad {s : Str} {c : UInt8} (hm : c ∈ s) (hc : hostByte c = false) : unescape .host (escape .host s) = none := by
  induction s with
  | nil => cases hm
  | cons a s ih =>
    have hbad := byteInd (p := fun c => hostByte c = false → (c.toNat / 16 < 8 ∧ c ≠ 37 ∧ escapeByte .host c = [37, upperHex (c.toNat / 16), upperHex (c.toNat % 16)] ∧
      escapeOk .host (c.toNat / 16) (c.toNat % 16) = false)) (by decide +kernel)
    by_cases ha : hostByte a = false
    · obtain ⟨-, -, h3, h4⟩ := hbad a ha
      rw [escape, h3]
      simp only [List.cons_append, List.nil_append, unescape, if_true, unhex_upperHex _ (show a.toNat / 16 < 16 by have := a.toNat_lt; omega),
        unhex_upperHex _ (show a.toNat % 16 < 16 by omega), h4]
      rfl
    · have hm' : c ∈ s := by
        rcases List.mem_cons.1 hm with rfl | h
        · exact absurd hc ha
        · exact h
      have ih := ih hm'
      have hg := byteInd (p := fun c => hostByte c = true → (escapeByte .host c = [c] ∧ c ≠ 37) ∨
        (escapeByte .host c = [37, upperHex (c.toNat / 16), upperHex (c.toNat % 16)])) (by decide +kernel) a (by simpa using ha)
      rw [escape]
      rcases hg with ⟨h1, h2⟩ | h1
      · rw [h1, List.cons_append, List.nil_append, unescape.eq_def]
        simp only [if_neg h2, ih, Option.map_none, ite_self]
      · rw [h1]
        simp only [List.cons_append, List.nil_append, unescape, if_true, unhex_upperHex _ (show a.toNat / 16 < 16 by have := a.toNat_lt; omega),
          unhex_upperHex _ (show a.toNat % 16 < 16 by omega), ih, Option.map_none, ite_self]

theorem parseHost_bad {host port : Str} {c : UInt8} (hm : c ∈ host) (hc : hostByte c = false) (h58 : (58 : UInt8) ∉ host)
    (h91 : host.head? ≠ some 91) (hp : port.all isDigit = true) : parseHost (escape .host (joinHostPort host port)) = none := by
  obtain ⟨d1, d2, d3, d4, d5⟩ := digit_facts hp
  have hj : joinHostPort host port = host ++ 58 :: port := by
    simp [joinHostPort, h58]
  have hun : unescape .host (escape .host (host ++ 58 :: port)) = none := unescape_bad (by simp [hm]) hc
  have e : escape .host (host ++ 58 :: port) = escape .host host ++ 58 :: port := by
    rw [escape_append, show (58 :: port) = [58] ++ port from rfl, escape_append, d5, show escape .host [58] = [58] from by decide]
  have hhead : (escape .host host ++ 58 :: port).head? ≠ some 91 := by
    cases host with
    | nil => cases hm
    | cons x s =>
      have := byteInd (p := fun c => c ≠ 91 → escapeByte .host c ≠ [] ∧ (escapeByte .host c).head? ≠ some 91)
        (by decide +kernel) x (by rintro rfl; exact h91 rfl)
      cases he : escapeByte .host x with
      | nil => exact absurd he this.1
      | cons a b =>
        rw [he] at this
        simpa [escape, he] using this.2
  unfold parseHost
  rw [hj, e, if_neg hhead, lastCut_append _ d2, ← e, hun]
  simp

theorem parseHost_bracket {host port : Str} (h : HostOk host) (hp : port.all isDigit = true) :
    parseHost (escape .host ([91] ++ host ++ [93, 58] ++ port)) = some ([91] ++ host ++ [93, 58] ++ port) := by
  obtain ⟨d1, d2, d3, d4, d5⟩ := digit_facts hp
  have hall : ∀ c ∈ [91] ++ host ++ [93, 58] ++ port, hostByte c = true := by
    intro c hc
    simp only [List.mem_append, List.mem_cons, List.not_mem_nil, or_false] at hc
    rcases hc with ((rfl | hc) | rfl | rfl) | hc
    · decide
    · exact (h.2 c hc).1
    · decide
    · decide
    · exact d1 c hc
  have e : escape .host ([91] ++ host ++ [93, 58] ++ port) = (91 :: escape .host host) ++ 93 :: (58 :: port) := by
    simp only [escape_append, d5]
    have e1 : escape .host [91] = [91] := by decide
    have e2 : escape .host [93, 58] = [93, 58] := by decide
    rw [e1, e2]; simp
  have h93 : (93 : UInt8) ∉ 58 :: port := by
    simp only [List.mem_cons, not_or]; exact ⟨by decide, d3⟩
  have hu := unescape_host hall
  have hz : cutZone (91 :: escape .host host) = none := by
    have e1 : (91 : UInt8) :: escape .host host = escape .host (91 :: host) := by
      have : escapeByte .host 91 = [91] := by decide
      rw [escape, this]; rfl
    rw [e1]
    refine cutZone_host fun c hc => ?_
    rcases List.mem_cons.1 hc with rfl | hc
    · decide
    · exact ⟨(h.2 c hc).1, (h.2 c hc).2.2.2⟩
  unfold parseHost
  rw [e] at hu ⊢
  rw [if_pos (by rfl), lastCut_append _ h93]
  simp only [hz, hu]
  rw [if_pos]
  simpa [validOptionalPort] using hp

/-- a host and a port, joined, written into a url, read and taken apart -/
theorem host_roundtrip {host port : Str} (h : HostOk host) (hp : port.all isDigit = true) :
    parseHost (escape .host (joinHostPort host port)) = some (joinHostPort host port) ∧
      splitHostPort (joinHostPort host port) = (host, port) := by
  obtain ⟨d1, d2, d3, d4, d5⟩ := digit_facts hp
  have hv : validOptionalPort (58 :: port) = true := by simpa [validOptionalPort] using hp
  unfold joinHostPort
  split
  · refine ⟨parseHost_bracket h hp, ?_⟩
    have e : [91] ++ host ++ [93, 58] ++ port = (91 :: (host ++ [93])) ++ 58 :: port := by simp
    rw [e]
    unfold splitHostPort
    rw [lastCut_append _ d2]
    simp only [hv, if_true]
    rw [if_pos]
    · simp
    · constructor
      · rfl
      · rw [← List.cons_append, List.getLast?_concat]
  · rename_i h58
    have h58 : (58 : UInt8) ∉ host := by simpa using h58
    refine ⟨by simpa using parseHost_plain h h58 hp, ?_⟩
    have e : host ++ [58] ++ port = host ++ 58 :: port := by simp
    rw [e]
    unfold splitHostPort
    rw [lastCut_append _ d2]
    simp only [hv, if_true]
    rw [if_neg]
    rintro ⟨h1, -⟩
    cases host with
    | nil => cases h1
    | cons c s => cases h1; exact (h.2 91 (by simp)).2.1 rfl

theorem joinHostPort_ne (host port : Str) : joinHostPort host port ≠ [] := by
  unfold joinHostPort; split <;> simp

end Verif.Url
