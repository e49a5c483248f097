import Verif.Go.Url
/-!
# Facts about urls
-/
namespace Verif.Url
open Verif

theorem byteInd {p : UInt8 → Prop} (h : ∀ n < 256, p (UInt8.ofNat n)) (c : UInt8) : p c := by
  have := h c.toNat (by have := c.toNat_lt; omega)
  rwa [UInt8.ofNat_toNat] at this

theorem cut_append {c : UInt8} {x : Str} (h : c ∉ x) (y : Str) : cut c (x ++ c :: y) = some (x, y) := by
  induction x with
  | nil => simp [cut]
  | cons b x ih =>
    simp only [List.mem_cons, not_or] at h
    simp only [List.cons_append, cut, if_neg (Ne.symm h.1), ih h.2, Option.map_some]

theorem cut_none {c : UInt8} {x : Str} (h : c ∉ x) : cut c x = none := by
  induction x with
  | nil => rfl
  | cons b x ih =>
    simp only [List.mem_cons, not_or] at h
    simp only [cut, if_neg (Ne.symm h.1), ih h.2, Option.map_none]

theorem lastCut_none {c : UInt8} {x : Str} (h : c ∉ x) : lastCut c x = none := by
  induction x with
  | nil => rfl
  | cons b x ih =>
    simp only [List.mem_cons, not_or] at h
    simp only [lastCut, ih h.2, if_neg (Ne.symm h.1)]

theorem lastCut_append {c : UInt8} (x : Str) {y : Str} (h : c ∉ y) : lastCut c (x ++ c :: y) = some (x, y) := by
  induction x with
  | nil => simp [lastCut, lastCut_none h]
  | cons b x ih => simp only [List.cons_append, lastCut, ih]

/-! ## escape -/

theorem escape_append (m : Mode) (s t : Str) : escape m (s ++ t) = escape m s ++ escape m t := by
  induction s with
  | nil => rfl
  | cons c s ih => simp [escape, ih]

/-- a byte is escaped to bytes that may stand in this part of a url -/
theorem escape_mem {m : Mode} {Q : UInt8 → Prop} (hQ : ∀ n < 256, ∀ x ∈ escapeByte m (UInt8.ofNat n), Q x) (s : Str) :
    ∀ x ∈ escape m s, Q x := by
  induction s with
  | nil => simp [escape]
  | cons c s ih =>
    intro x hx
    simp only [escape, List.mem_append] at hx
    exact hx.elim (byteInd (p := fun c => ∀ x ∈ escapeByte m c, Q x) hQ c x) (ih x)

theorem unescape_cons {m : Mode} {c : UInt8} {t s : Str}
    (h : escapeByte m c = [c] ∧ c ≠ 37 ∧ ¬ ((m = .host ∨ m = .zone) ∧ c.toNat < 0x80 ∧ shouldEscape m c = true) ∨
      ∃ a b x y, escapeByte m c = [37, a, b] ∧ unhex a = some x ∧ unhex b = some y ∧ escapeOk m x y = true ∧ UInt8.ofNat (x * 16 + y) = c)
    (ht : unescape m t = some s) : unescape m (escapeByte m c ++ t) = some (c :: s) := by
  rcases h with ⟨h1, h2, h3⟩ | ⟨a, b, x, y, h1, h2, h3, h4, h5⟩
  · rw [h1, List.cons_append, List.nil_append, unescape.eq_def]
    simp only [if_neg h2, if_neg h3, ht, Option.map_some]
  · rw [h1]
    simp only [List.cons_append, List.nil_append, unescape, if_true, h2, h3, h4, ht, Option.map_some, h5]

theorem byte_split (c : UInt8) : UInt8.ofNat (c.toNat / 16 * 16 + c.toNat % 16) = c := by
  have : c.toNat / 16 * 16 + c.toNat % 16 = c.toNat := by omega
  rw [this, UInt8.ofNat_toNat]

theorem unhex_upperHex : ∀ n < 16, unhex (upperHex n) = some n := by decide +kernel

/-- escaping can be undone where every escaped byte may be written as `%xx` -/
theorem unescape_escape {m : Mode} {s : Str}
    (h : ∀ c ∈ s, (shouldEscape m c = false ∧ c ≠ 37) ∨ (shouldEscape m c = true ∧ escapeOk m (c.toNat / 16) (c.toNat % 16) = true)) :
    unescape m (escape m s) = some s := by
  induction s with
  | nil => rfl
  | cons c s ih =>
    have hs := ih (fun c hc => h c (List.mem_cons_of_mem _ hc))
    refine unescape_cons ?_ hs
    have hlt : c.toNat < 256 := c.toNat_lt
    rcases h c (by simp) with ⟨h1, h2⟩ | ⟨h1, h2⟩
    · exact .inl ⟨by simp [escapeByte, h1], h2, by simp [h1]⟩
    · exact .inr ⟨_, _, c.toNat / 16, c.toNat % 16, by simp only [escapeByte, h1, if_true], unhex_upperHex _ (by omega), unhex_upperHex _ (by omega), h2,
        byte_split c⟩

theorem unescape_path (s : Str) : unescape .path (escape .path s) = some s := by
  refine unescape_escape fun c _ => ?_
  exact byteInd (p := fun c => (shouldEscape .path c = false ∧ c ≠ 37) ∨
    (shouldEscape .path c = true ∧ escapeOk .path (c.toNat / 16) (c.toNat % 16) = true)) (by decide +kernel) c

theorem unescape_user (s : Str) : unescape .userPassword (escape .userPassword s) = some s := by
  refine unescape_escape fun c _ => ?_
  exact byteInd (p := fun c => (shouldEscape .userPassword c = false ∧ c ≠ 37) ∨
    (shouldEscape .userPassword c = true ∧ escapeOk .userPassword (c.toNat / 16) (c.toNat % 16) = true)) (by decide +kernel) c

/-- bytes that may stand in a host: letters, digits, `-._~!$&'()*+,;=:[]<>"`, `%` and everything outside ASCII -/
def hostByte (c : UInt8) : Bool := c.toNat ≥ 0x80 || c = 37 || !shouldEscape .host c

theorem unescape_host {s : Str} (h : ∀ c ∈ s, hostByte c = true) : unescape .host (escape .host s) = some s := by
  refine unescape_escape fun c hc => ?_
  exact byteInd (p := fun c => hostByte c = true → (shouldEscape .host c = false ∧ c ≠ 37) ∨
    (shouldEscape .host c = true ∧ escapeOk .host (c.toNat / 16) (c.toNat % 16) = true)) (by decide +kernel) c (h c hc)

/-- printable and neither `#` nor `?` -/
def plain (c : UInt8) : Bool := 32 ≤ c.toNat && c ≠ 127 && c ≠ 35 && c ≠ 63

theorem escape_plain_path (s : Str) : ∀ x ∈ escape .path s, plain x = true := escape_mem (by decide +kernel) s
theorem escape_plain_host (s : Str) : ∀ x ∈ escape .host s, plain x = true ∧ x ≠ 47 ∧ x ≠ 64 := escape_mem (by decide +kernel) s
theorem escape_plain_user (s : Str) : ∀ x ∈ escape .userPassword s, plain x = true ∧ x ≠ 47 ∧ x ≠ 64 ∧ x ≠ 58 ∧
    (isAlnum x || (b! "-._:~!$&'()*+,;=%@").contains x) = true := escape_mem (by decide +kernel) s

/-- everything that comes out of `escape` is ASCII -/
theorem escape_ascii (m : Mode) (s : Str) : (escape m s).all (fun b => b.toNat < 0x80) = true := by
  rw [List.all_eq_true]
  cases m
  · exact escape_mem (Q := fun x => decide (x.toNat < 0x80) = true) (by decide +kernel) s
  · exact escape_mem (Q := fun x => decide (x.toNat < 0x80) = true) (by decide +kernel) s
  · exact escape_mem (Q := fun x => decide (x.toNat < 0x80) = true) (by decide +kernel) s
  · exact escape_mem (Q := fun x => decide (x.toNat < 0x80) = true) (by decide +kernel) s
  · exact escape_mem (Q := fun x => decide (x.toNat < 0x80) = true) (by decide +kernel) s

end Verif.Url
