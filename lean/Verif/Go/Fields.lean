import Verif.Go.Strings
/-!
# `strings.Fields` and `strings.TrimSpace`, on runes as in Go
-/
namespace Verif

/-- `unicode.IsSpace`. -/
def isSpaceRune (r : Nat) : Bool :=
  (9 ≤ r && r ≤ 13) || r = 32 || r = 0x85 || r = 0xA0 || r = 0x1680 || (0x2000 ≤ r && r ≤ 0x200A) ||
    r = 0x2028 || r = 0x2029 || r = 0x202F || r = 0x205F || r = 0x3000

/-- the runes of a string, each with its bytes -/
def piecesAux : Nat → Str → List (Nat × Str)
  | 0, _ => []
  | _ + 1, [] => []
  | fuel + 1, s => ((decodeRune s).1, s.take (decodeRune s).2) :: piecesAux fuel (s.drop (decodeRune s).2)

def pieces (s : Str) : List (Nat × Str) := piecesAux s.length s

/-- the loop of `strings.Fields` (`FieldsFunc`); `cur` is the field being collected. -/
def fieldsAux : List (Nat × Str) → Str → List Str
  | [], cur => if cur = [] then [] else [cur]
  | (r, b) :: rest, cur =>
    if isSpaceRune r then (if cur = [] then fieldsAux rest [] else cur :: fieldsAux rest [])
    else fieldsAux rest (cur ++ b)

/-- `strings.Fields` -/
def fields (s : Str) : List Str := fieldsAux (pieces s) []

/-- `strings.TrimSpace` -/
def trimSpace (s : Str) : Str :=
  let ps := (pieces s).dropWhile (fun p => isSpaceRune p.1)
  ((ps.reverse.dropWhile (fun p => isSpaceRune p.1)).reverse.map Prod.snd).flatten

/-- no white space anywhere in the string -/
def NoSpace (s : Str) : Prop := ∀ p ∈ pieces s, isSpaceRune p.1 = false

instance (s : Str) : Decidable (NoSpace s) := by unfold NoSpace; infer_instance

/-! ## Facts -/

theorem decodeRune_width (s : Str) (h : s ≠ []) : 1 ≤ (decodeRune s).2 ∧ (decodeRune s).2 ≤ s.length := by
  cases s with
  | nil => exact absurd rfl h
  | cons b s =>
    unfold decodeRune
    simp only
    repeat' split
    all_goals simp

theorem decodeRune_append_ascii (s : Str) (h : s ≠ []) (a : UInt8) (ha : a.toNat < 0x80) (rest : Str) :
    decodeRune (s ++ a :: rest) = decodeRune s := by
  have hc : isCont a = false := by simp [isCont]; omega
  have hlo : ∀ n : Nat, ¬ ((if n = 0xE0 then 0xA0 else 0x80) ≤ a.toNat) := by intro n; split <;> omega
  have hlo' : ∀ n : Nat, ¬ ((if n = 0xF0 then 0x90 else 0x80) ≤ a.toNat) := by intro n; split <;> omega
  match s, h with
  | [b0], _ =>
    simp only [List.cons_append, List.nil_append, decodeRune]
    repeat' split
    all_goals simp_all
    all_goals omega
  | [b0, b1], _ =>
    simp only [List.cons_append, List.nil_append, decodeRune]
    repeat' split
    all_goals simp_all
    all_goals omega
  | [b0, b1, b2], _ =>
    simp only [List.cons_append, List.nil_append, decodeRune]
    repeat' split
    all_goals simp_all
    all_goals omega
  | b0 :: b1 :: b2 :: b3 :: s, _ =>
    simp only [List.cons_append, decodeRune]

theorem piecesAux_fuel (fuel fuel' : Nat) (s : Str) (h : s.length ≤ fuel) (h' : s.length ≤ fuel') :
    piecesAux fuel s = piecesAux fuel' s := by
  induction fuel generalizing fuel' s with
  | zero =>
    have : s = [] := List.length_eq_zero_iff.1 (by omega)
    subst this; cases fuel' <;> rfl
  | succ n ih =>
    cases s with
    | nil => cases fuel' <;> rfl
    | cons b s =>
      cases fuel' with
      | zero => simp at h'
      | succ m =>
        have hw := decodeRune_width (b :: s) (by simp)
        simp only [piecesAux]
        rw [ih m]
        · simp only [List.length_drop, List.length_cons] at *; omega
        · simp only [List.length_drop, List.length_cons] at *; omega

theorem pieces_cons (s : Str) (h : s ≠ []) :
    pieces s = ((decodeRune s).1, s.take (decodeRune s).2) :: pieces (s.drop (decodeRune s).2) := by
  have hw := decodeRune_width s h
  cases s with
  | nil => exact absurd rfl h
  | cons b s =>
    unfold pieces
    simp only [List.length_cons, piecesAux]
    rw [piecesAux_fuel s.length ((b :: s).drop (decodeRune (b :: s)).2).length]
    · simp only [List.length_drop, List.length_cons]; omega
    · exact Nat.le_refl _

@[simp] theorem pieces_nil : pieces [] = [] := rfl

theorem pieces_ascii_cons (a : UInt8) (ha : a.toNat < 0x80) (s : Str) :
    pieces (a :: s) = (a.toNat, [a]) :: pieces s := by
  rw [pieces_cons _ (by simp)]
  have : decodeRune (a :: s) = (a.toNat, 1) := by simp [decodeRune, ha]
  simp [this]

theorem pieces_append_ascii (s : Str) (a : UInt8) (ha : a.toNat < 0x80) (rest : Str) :
    pieces (s ++ a :: rest) = pieces s ++ (a.toNat, [a]) :: pieces rest := by
  generalize hn : s.length = n
  induction n using Nat.strongRecOn generalizing s with
  | _ n ih =>
    by_cases hs : s = []
    · subst hs; simpa using pieces_ascii_cons a ha rest
    · have hw := decodeRune_width s hs
      rw [pieces_cons (s ++ a :: rest) (by simp), pieces_cons s hs, decodeRune_append_ascii s hs a ha]
      rw [List.take_append_of_le_length hw.2, List.drop_append_of_le_length hw.2]
      rw [ih (s.drop (decodeRune s).2).length (by simp only [List.length_drop]; omega) _ rfl]
      simp

theorem pieces_flatten (s : Str) : ((pieces s).map Prod.snd).flatten = s := by
  generalize hn : s.length = n
  induction n using Nat.strongRecOn generalizing s with
  | _ n ih =>
    by_cases hs : s = []
    · subst hs; rfl
    · have hw := decodeRune_width s hs
      rw [pieces_cons s hs]
      simp only [List.map_cons, List.flatten_cons]
      rw [ih (s.drop (decodeRune s).2).length (by simp only [List.length_drop]; omega) _ rfl]
      exact List.take_append_drop _ _

theorem pieces_ne_nil (s : Str) : ∀ p ∈ pieces s, p.2 ≠ [] := by
  generalize hn : s.length = n
  induction n using Nat.strongRecOn generalizing s with
  | _ n ih =>
    by_cases hs : s = []
    · subst hs; simp
    · have hw := decodeRune_width s hs
      rw [pieces_cons s hs]
      intro p hp
      rcases List.mem_cons.1 hp with rfl | hp
      · simp only
        intro h
        have := congrArg List.length h
        simp only [List.length_take, List.length_nil] at this
        omega
      · exact ih (s.drop (decodeRune s).2).length (by simp only [List.length_drop]; omega) _ rfl p hp

theorem fieldsAux_noSpace (ps : List (Nat × Str)) (h : ∀ p ∈ ps, isSpaceRune p.1 = false)
    (rest : List (Nat × Str)) (cur : Str) :
    fieldsAux (ps ++ rest) cur = fieldsAux rest (cur ++ (ps.map Prod.snd).flatten) := by
  induction ps generalizing cur with
  | nil => simp
  | cons p ps ih =>
    obtain ⟨r, b⟩ := p
    have hr : isSpaceRune r = false := h (r, b) (by simp)
    simp only [List.cons_append, fieldsAux, hr, Bool.false_eq_true, if_false]
    rw [ih (fun p hp => h p (by simp [hp]))]
    simp

/-- a word followed by an ASCII white space byte is the first field -/
theorem fields_word (s : Str) (hs : s ≠ []) (h : NoSpace s) (a : UInt8) (ha : a.toNat < 0x80)
    (hsp : isSpaceRune a.toNat = true) (rest : Str) : fields (s ++ a :: rest) = s :: fields rest := by
  unfold fields
  rw [pieces_append_ascii s a ha, fieldsAux_noSpace _ h]
  rw [pieces_flatten]
  simp [fieldsAux, hsp, hs]

theorem fields_single (s : Str) (hs : s ≠ []) (h : NoSpace s) : fields s = [s] := by
  have := fieldsAux_noSpace (pieces s) h [] []
  simp only [List.append_nil, List.nil_append, pieces_flatten] at this
  simp [fields, this, fieldsAux, hs]

@[simp] theorem fields_nil : fields [] = [] := by simp [fields, fieldsAux]

/-- ASCII bytes without white space -/
theorem noSpace_ascii (s : Str) (h : ∀ b ∈ s, b.toNat < 0x80 ∧ isSpaceRune b.toNat = false) : NoSpace s := by
  induction s with
  | nil => intro p hp; simp at hp
  | cons b s ih =>
    have hb := h b (by simp)
    unfold NoSpace
    rw [pieces_ascii_cons b hb.1]
    intro p hp
    rcases List.mem_cons.1 hp with rfl | hp
    · exact hb.2
    · exact ih (fun x hx => h x (by simp [hx])) p hp

theorem noSpace_notMem {s : Str} (h : NoSpace s) (a : UInt8) (ha : a.toNat < 0x80)
    (hsp : isSpaceRune a.toNat = true) : a ∉ s := by
  intro hm
  obtain ⟨x, y, rfl⟩ := List.append_of_mem hm
  have := h (a.toNat, [a]) (by rw [pieces_append_ascii x a ha]; simp)
  rw [hsp] at this; cases this

/-- no field contains white space bytes or is empty -/
theorem fieldsAux_nonempty (ps : List (Nat × Str)) (cur : Str) : ∀ f ∈ fieldsAux ps cur, f ≠ [] := by
  induction ps generalizing cur with
  | nil => intro f hf; unfold fieldsAux at hf; split at hf <;> simp_all
  | cons p ps ih =>
    obtain ⟨r, b⟩ := p
    intro f hf
    unfold fieldsAux at hf
    split at hf
    · split at hf
      · exact ih _ f hf
      · rcases List.mem_cons.1 hf with rfl | hf
        · assumption
        · exact ih _ f hf
    · exact ih _ f hf

theorem fields_nonempty (s : Str) : ∀ f ∈ fields s, f ≠ [] := fieldsAux_nonempty _ _

example : fields (b! " set  a b c \n") = [b! "set", b! "a", b! "b", b! "c"] := by decide
example : trimSpace (b! " a b\t") = b! "a b" := by decide

end Verif
