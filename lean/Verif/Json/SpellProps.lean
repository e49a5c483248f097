import Verif.Json.ReadProps
import Verif.Go.UrlLemmas
/-!
# C11: other ways to write the same text

`encoding/json` reads what any writer of JSON wrote. A character may stand for itself, be written with one of the short escapes or
with `\u` and four digits, or, beyond the first 65536, with two of these.
-/
namespace Verif.Json
open Verif

/-- one item of a JSON string, by whichever writer: a character that stands for itself, a short escape and its meaning, or `\u`
with the four digits that follow -/
inductive Item where
  | raw (r : Nat)
  | short (e : UInt8) (r : Nat)
  | uni (u : Nat) (x y z w : UInt8)

/-- what is written -/
def Item.text : Item → Str
  | .raw r => encodeRune r
  | .short e _ => [92, e]
  | .uni _ x y z w => [92, 117, x, y, z, w]

/-- items that may be written (RFC 8259, section 7) -/
def Item.Ok : Item → Prop
  | .raw r => Scalar r ∧ 0x20 ≤ r ∧ r ≠ 34 ∧ r ≠ 92
  | .short e r => (e, r) ∈ [((34 : UInt8), 34), (92, 92), (47, 47), (98, 8), (102, 12), (110, 10), (114, 13), (116, 9)]
  | .uni u x y z w => ∃ a b c d, hexVal x = some a ∧ hexVal y = some b ∧ hexVal z = some c ∧ hexVal w = some d ∧
      u = ((a * 16 + b) * 16 + c) * 16 + d

/-- the characters that items mean: two halves of a pair are one character, any other half is the replacement character -/
def meant : List Item → List Nat
  | [] => []
  | .raw r :: l => r :: meant l
  | .short _ r :: l => r :: meant l
  | .uni u _ _ _ _ :: .uni v x y z w :: l =>
    if u < 0xD800 ∨ 0xE000 ≤ u then u :: meant (.uni v x y z w :: l)
    else if u < 0xDC00 ∧ 0xDC00 ≤ v ∧ v < 0xE000 then (0x10000 + (u - 0xD800) * 0x400 + (v - 0xDC00)) :: meant l
    else 0xFFFD :: meant (.uni v x y z w :: l)
  | .uni u _ _ _ _ :: l => (if u < 0xD800 ∨ 0xE000 ≤ u then u else 0xFFFD) :: meant l

def Item.units : Item → List Unit1
  | .raw r => (encodeRune r).map .byte
  | .short _ r => (encodeRune r).map .byte
  | .uni u _ _ _ _ => [.esc u]

theorem hexVal_lt {c : UInt8} {a : Nat} (h : hexVal c = some a) : a < 16 := by
  have := Url.byteInd (p := fun c => (hexVal c).all (fun a => decide (a < 16)) = true) (by decide +kernel) c
  simpa [h] using this

theorem Item.Ok.small {u : Nat} {x y z w : UInt8} (h : (Item.uni u x y z w).Ok) : u < 0x10000 := by
  obtain ⟨a, b, c, d, ha, hb, hc, hd, rfl⟩ := h
  have := hexVal_lt ha; have := hexVal_lt hb; have := hexVal_lt hc; have := hexVal_lt hd
  omega

theorem scanStr_item {i : Item} (h : i.Ok) (rest : Str) : scanStr (i.text ++ rest) = before i.units (scanStr rest) := by
  cases i with
  | raw r =>
    obtain ⟨hs, h1, h2, h3⟩ := h
    show scanStr (encodeRune r ++ rest) = before ((encodeRune r).map .byte) (scanStr rest)
    by_cases hr : r < 0x80
    · have : encodeRune r = [UInt8.ofNat r] := by simp [encodeRune, hr]
      rw [this]
      have hn : (UInt8.ofNat r).toNat = r := toNat_ofNat_lt (by omega)
      have := scanStr_plain (c := UInt8.ofNat r) (fun e => h2 (by rw [e] at hn; exact hn.symm)) (fun e => h3 (by rw [e] at hn; exact hn.symm))
        (by omega) rest
      rw [List.map_cons, List.map_nil, before_single]
      exact this
    · exact scanStr_bytes _ (encodeRune_high hs (by omega)) rest
  | short e r =>
    simp only [Item.Ok, List.mem_cons, List.not_mem_nil, or_false, Prod.mk.injEq] at h
    have hb : ∃ b, e ≠ 117 ∧ shortEsc e = some b ∧ (encodeRune r).map Unit1.byte = [.byte b] := by
      rcases h with ⟨rfl, rfl⟩ | ⟨rfl, rfl⟩ | ⟨rfl, rfl⟩ | ⟨rfl, rfl⟩ | ⟨rfl, rfl⟩ | ⟨rfl, rfl⟩ | ⟨rfl, rfl⟩ | ⟨rfl, rfl⟩ <;>
        exact ⟨_, by decide, rfl, rfl⟩
    obtain ⟨b, h1, h2, h3⟩ := hb
    show scanStr (92 :: e :: rest) = before ((encodeRune r).map .byte) (scanStr rest)
    rw [h3, before_single]
    exact scanStr_short h1 h2 rest
  | uni u x y z w =>
    obtain ⟨a, b, c, d, ha, hb, hc, hd, rfl⟩ := h
    show scanStr (92 :: 117 :: x :: y :: z :: w :: rest) = before [.esc _] (scanStr rest)
    rw [before_single]
    refine scanStr_u ?_ rest
    simp only [hex4, ha, hb, hc, hd, Option.some.injEq]
    omega

theorem scanStr_items : ∀ (l : List Item), (∀ i ∈ l, i.Ok) → ∀ rest : Str,
    scanStr (l.flatMap Item.text ++ 34 :: rest) = some (l.flatMap Item.units, rest)
  | [], _, rest => by rw [List.flatMap_nil, List.nil_append, scanStr.eq_def]; rfl
  | i :: l, h, rest => by
    rw [List.flatMap_cons, List.append_assoc, scanStr_item (h i (List.mem_cons_self ..)),
      scanStr_items l (fun j hj => h j (List.mem_cons_of_mem _ hj)) rest]
    rfl

theorem surrogate_iff (u : Nat) : isSurrogate u = true ↔ ¬ (u < 0xD800 ∨ 0xE000 ≤ u) := by
  simp [isSurrogate]

theorem pair_iff (u v : Nat) : isPair u v = true ↔ u < 0xDC00 ∧ 0xDC00 ≤ v ∧ v < 0xE000 := by
  simp [isPair, and_assoc]

theorem unitBytes_lone {u : Nat} {l : List Unit1} (h : ∀ v l', l ≠ .esc v :: l') :
    unitBytes (.esc u :: l) = encodeRune (if u < 0xD800 ∨ 0xE000 ≤ u then u else 0xFFFD) ++ unitBytes l := by
  have hs := surrogate_iff u
  have : (if isSurrogate u then runeError else u) = if u < 0xD800 ∨ 0xE000 ≤ u then u else 0xFFFD := by
    by_cases hc : u < 0xD800 ∨ 0xE000 ≤ u
    · rw [if_pos hc, if_neg (fun he => hs.1 he hc)]
    · rw [if_neg hc, if_pos (hs.2 hc)]; rfl
  rw [← this]
  cases l with
  | nil => rfl
  | cons x l =>
    cases x with
    | byte b => rfl
    | esc v => exact absurd rfl (h v l)

theorem units_head (l : List Item) (h : ∀ i ∈ l, i.Ok) (hl : ∀ u x y z w l', l ≠ .uni u x y z w :: l') :
    ∀ v l', l.flatMap Item.units ≠ .esc v :: l' := by
  intro v l' he
  have key : ∀ (r : Nat) (m : List Unit1), Scalar r → (encodeRune r).map Unit1.byte ++ m ≠ .esc v :: l' := by
    intro r m hs e
    cases hc : encodeRune r with
    | nil => exact encodeRune_ne_nil hs hc
    | cons a b => rw [hc] at e; simp at e
  cases l with
  | nil => cases he
  | cons i l =>
    have hi := h i (List.mem_cons_self ..)
    cases i with
    | raw r => exact key r _ hi.1 he
    | short e r =>
      refine key r _ ?_ he
      simp only [Item.Ok, List.mem_cons, List.not_mem_nil, or_false, Prod.mk.injEq] at hi
      rcases hi with ⟨-, rfl⟩ | ⟨-, rfl⟩ | ⟨-, rfl⟩ | ⟨-, rfl⟩ | ⟨-, rfl⟩ | ⟨-, rfl⟩ | ⟨-, rfl⟩ | ⟨-, rfl⟩ <;> decide
    | uni u x y z w => exact hl u x y z w l rfl

theorem short_scalar {e : UInt8} {r : Nat} (h : (Item.short e r).Ok) : Scalar r := by
  simp only [Item.Ok, List.mem_cons, List.not_mem_nil, or_false, Prod.mk.injEq] at h
  rcases h with ⟨-, rfl⟩ | ⟨-, rfl⟩ | ⟨-, rfl⟩ | ⟨-, rfl⟩ | ⟨-, rfl⟩ | ⟨-, rfl⟩ | ⟨-, rfl⟩ | ⟨-, rfl⟩ <;> decide

theorem encodeRunes_cons (r : Nat) (rs : List Nat) : encodeRunes (r :: rs) = encodeRune r ++ encodeRunes rs := rfl

theorem unitBytes_items (l : List Item) : (∀ i ∈ l, i.Ok) →
    unitBytes (l.flatMap Item.units) = encodeRunes (meant l) ∧ ∀ r ∈ meant l, Scalar r := by
  fun_induction meant l with
  | case1 => intro _; exact ⟨rfl, by simp⟩
  | case2 r l ih =>
    intro h
    obtain ⟨h1, h2⟩ := ih (fun j hj => h j (List.mem_cons_of_mem _ hj))
    refine ⟨?_, ?_⟩
    · rw [List.flatMap_cons]
      show unitBytes ((encodeRune r).map .byte ++ _) = _
      rw [unitBytes_bytes, h1]; rfl
    · intro s hs
      rcases List.mem_cons.1 hs with rfl | hs
      · exact (h _ (List.mem_cons_self ..) : (Item.raw s).Ok).1
      · exact h2 s hs
  | case3 e r l ih =>
    intro h
    obtain ⟨h1, h2⟩ := ih (fun j hj => h j (List.mem_cons_of_mem _ hj))
    refine ⟨?_, ?_⟩
    · rw [List.flatMap_cons]
      show unitBytes ((encodeRune r).map .byte ++ _) = _
      rw [unitBytes_bytes, h1]; rfl
    · intro s hs
      rcases List.mem_cons.1 hs with rfl | hs
      · exact short_scalar (h _ (List.mem_cons_self ..))
      · exact h2 s hs
  | case4 u a b c d v x y z w l hu ih =>
    intro h
    obtain ⟨h1, h2⟩ := ih (fun j hj => h j (List.mem_cons_of_mem _ hj))
    have hsm := (h _ (List.mem_cons_self ..) : (Item.uni u a b c d).Ok).small
    have hns : isSurrogate u = false := by
      cases hb : isSurrogate u with
      | false => rfl
      | true => exact absurd hu ((surrogate_iff u).1 hb)
    refine ⟨?_, ?_⟩
    · rw [List.flatMap_cons]
      show unitBytes (.esc u :: List.flatMap Item.units (Item.uni v x y z w :: l)) = _
      rw [unitBytes_esc hns, h1]; rfl
    · intro s hs
      rcases List.mem_cons.1 hs with rfl | hs
      · unfold Scalar; omega
      · exact h2 s hs
  | case5 u a b c d v x y z w l hu hp ih =>
    intro h
    obtain ⟨h1, h2⟩ := ih (fun j hj => h j (List.mem_cons_of_mem _ (List.mem_cons_of_mem _ hj)))
    refine ⟨?_, ?_⟩
    · rw [List.flatMap_cons, List.flatMap_cons]
      show unitBytes (.esc u :: .esc v :: List.flatMap Item.units l) = _
      rw [unitBytes, if_pos ((surrogate_iff u).2 hu), if_pos ((pair_iff u v).2 hp), h1, encodeRunes_cons]
      rw [show (u - 0xD800) * 1024 + (v - 0xDC00) + 0x10000 = 0x10000 + (u - 0xD800) * 0x400 + (v - 0xDC00) by omega]
    · intro s hs
      rcases List.mem_cons.1 hs with hs | hs
      · unfold Scalar; omega
      · exact h2 s hs
  | case6 u a b c d v x y z w l hu hp ih =>
    intro h
    obtain ⟨h1, h2⟩ := ih (fun j hj => h j (List.mem_cons_of_mem _ hj))
    refine ⟨?_, ?_⟩
    · rw [List.flatMap_cons]
      show unitBytes (.esc u :: .esc v :: List.flatMap Item.units l) = _
      rw [unitBytes, if_pos ((surrogate_iff u).2 hu), if_neg (fun e => hp ((pair_iff u v).1 e))]
      rw [List.flatMap_cons] at h1
      have h1' : unitBytes (.esc v :: l.flatMap Item.units) = encodeRunes (meant (.uni v x y z w :: l)) := h1
      rw [h1']; rfl
    · intro s hs
      rcases List.mem_cons.1 hs with rfl | hs
      · decide
      · exact h2 s hs
  | case7 u a b c d l hl ih =>
    intro h
    have hrest := fun j hj => h j (List.mem_cons_of_mem _ hj)
    obtain ⟨h1, h2⟩ := ih hrest
    have hsm := (h _ (List.mem_cons_self ..) : (Item.uni u a b c d).Ok).small
    refine ⟨?_, ?_⟩
    · rw [List.flatMap_cons]
      show unitBytes (.esc u :: List.flatMap Item.units l) = _
      rw [unitBytes_lone (units_head l hrest (fun u x y z w l' e => hl u x y z w l' e)), h1]; rfl
    · intro s hs
      rcases List.mem_cons.1 hs with rfl | hs
      · split
        · unfold Scalar; omega
        · decide
      · exact h2 s hs

/-- However the characters of a string were written, they are read as what they mean; half a pair is read as one replacement
character and does not swallow what follows. -/
theorem C11_spelling (l : List Item) (h : ∀ i ∈ l, i.Ok) (rest : Str) :
    parseStr (l.flatMap Item.text ++ 34 :: rest) = some (encodeRunes (meant l), rest) := by
  obtain ⟨h1, h2⟩ := unitBytes_items l h
  unfold parseStr
  rw [scanStr_items l h rest]
  simp only [h1]
  rw [sanitize_valid ⟨_, h2, rfl⟩]

/-- not vacuous: half a pair at the end; a pair; a slash written with an escape -/
example : parseStr (b! "a\\/\\uD83D\\ude00\\uD83D\" x") = some (encodeRunes [97, 47, 0x1F600, 0xFFFD], b! " x") :=
  C11_spelling [.raw 97, .short 47 47, .uni 0xD83D 68 56 51 68, .uni 0xDE00 100 101 48 48, .uni 0xD83D 68 56 51 68]
    (by
      intro i hi
      simp only [List.mem_cons, List.not_mem_nil, or_false] at hi
      rcases hi with rfl | rfl | rfl | rfl | rfl
      · exact ⟨by decide, by decide, by decide, by decide⟩
      · simp [Item.Ok]
      · exact ⟨13, 8, 3, 13, by decide, by decide, by decide, by decide, by decide⟩
      · exact ⟨13, 14, 0, 0, by decide, by decide, by decide, by decide, by decide⟩
      · exact ⟨13, 8, 3, 13, by decide, by decide, by decide, by decide, by decide⟩) (b! " x")

end Verif.Json
