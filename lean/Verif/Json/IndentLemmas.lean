import Verif.Json.Indent
import Verif.Json.DecodeLemmas
/-!
# Helper lemmas: an indented text is read like the text
-/
namespace Verif.Json
open Verif Verif.Txlogs Verif.Json.Spec

/-! ## String literals are copied -/

theorem indent_esc2 (need : Bool) (d : Nat) (e : UInt8) (r : Str) :
    indent .str need d (92 :: e :: r) = 92 :: e :: indent .str need d r := by
  simp [indent]

theorem indent_plain {c : UInt8} (h1 : c ≠ 34) (h2 : c ≠ 92) (need : Bool) (d : Nat) (r : Str) :
    indent .str need d (c :: r) = c :: indent .str need d r := by
  simp [indent, h1, h2]

theorem indent_bytes (bs : Str) (h : ∀ b ∈ bs, b ≠ 34 ∧ b ≠ 92) (need : Bool) (d : Nat) (r : Str) :
    indent .str need d (bs ++ r) = bs ++ indent .str need d r := by
  induction bs with
  | nil => rfl
  | cons b bs ih =>
    rw [List.cons_append, indent_plain (h b (by simp)).1 (h b (by simp)).2, ih (fun x hx => h x (by simp [hx]))]
    rfl

/-- an escape: a backslash, any byte, and bytes that stand for themselves -/
theorem indent_escape {e : UInt8} (bs : Str) (h : ∀ b ∈ bs, b ≠ 34 ∧ b ≠ 92) (need : Bool) (d : Nat) (r : Str) :
    indent .str need d (92 :: e :: bs ++ r) = 92 :: e :: bs ++ indent .str need d r := by
  simp only [List.cons_append, indent_esc2, indent_bytes bs h]

theorem high_plain {b : UInt8} (h : 0x80 ≤ b.toNat) : b ≠ 34 ∧ b ≠ 92 := by
  constructor <;> · rintro rfl; revert h; decide

theorem escAscii_form : ∀ r : Fin 128, (∃ b, escAscii (UInt8.ofNat r.val) = [b] ∧ b ≠ 34 ∧ b ≠ 92) ∨
    (∃ e bs, escAscii (UInt8.ofNat r.val) = 92 :: e :: bs ∧ ∀ b ∈ bs, b ≠ 34 ∧ b ≠ 92) := by
  intro r
  have h : ∀ r : Fin 128, (match escAscii (UInt8.ofNat r.val) with
    | [b] => decide (b ≠ 34 ∧ b ≠ 92)
    | c :: _ :: bs => decide (c = 92) && bs.all fun b => b ≠ 34 ∧ b ≠ 92
    | [] => false) = true := by decide +kernel
  have h := h r
  generalize escAscii (UInt8.ofNat r.val) = x at h
  match x, h with
  | [b], h => exact .inl ⟨b, rfl, by simpa using h⟩
  | c :: e :: bs, h =>
    simp only [Bool.and_eq_true, decide_eq_true_eq, List.all_eq_true] at h
    obtain ⟨rfl, h⟩ := h
    exact .inr ⟨e, bs, rfl, h⟩

theorem indent_piece {p : Nat × Str} (h : PieceOk p) (need : Bool) (d : Nat) (r : Str) :
    indent .str need d (escPiece p ++ r) = escPiece p ++ indent .str need d r := by
  unfold escPiece
  split
  · rename_i h1
    rcases escAscii_form ⟨p.1, h1⟩ with ⟨b, hb, h2, h3⟩ | ⟨e, bs, hb, h2⟩
    · simp only at hb
      rw [hb]; exact indent_plain h2 h3 _ _ _
    · simp only at hb
      rw [hb]; exact indent_escape bs h2 _ _ _
  · rename_i h1
    split
    · exact indent_escape (e := 117) (b! "fffd") (by decide) _ _ _
    · rename_i h2
      split
      · exact indent_escape (e := 117) (b! "2028") (by decide) _ _ _
      · split
        · exact indent_escape (e := 117) (b! "2029") (by decide) _ _ _
        · rcases h with ⟨h3, h4⟩ | h3
          · rw [h4]
            exact indent_bytes _ (fun b hb => high_plain (encodeRune_high h3 (by omega) b hb)) _ _ _
          · exact absurd h3 h2

theorem indent_pieces (ps : List (Nat × Str)) (h : ∀ p ∈ ps, PieceOk p) (need : Bool) (d : Nat) (r : Str) :
    indent .str need d (ps.flatMap escPiece ++ r) = ps.flatMap escPiece ++ indent .str need d r := by
  induction ps with
  | nil => rfl
  | cons p ps ih =>
    rw [List.flatMap_cons, List.append_assoc, indent_piece (h p (by simp)), ih (fun x hx => h x (by simp [hx])), List.append_assoc]

theorem indent_quote (s : Str) (d : Nat) (r : Str) : indent .out false d (quote s ++ r) = quote s ++ indent .out false d r := by
  have h : quote s ++ r = 34 :: (escape s ++ 34 :: r) := by simp [quote]
  rw [h]
  simp only [indent, show isWs 34 = false from by decide, indentByte]
  simp
  rw [escape, indent_pieces _ (pieces_ok s)]
  simp [indent, quote, escape]

/-! ## White space between values -/

theorem skipWs_newline (d : Nat) (r : Str) : skipWs (newline d ++ r) = skipWs r := by
  have h : ∀ n, (List.replicate n (32 : UInt8) ++ r).dropWhile isWs = r.dropWhile isWs := by
    intro n
    induction n with
    | zero => rfl
    | succ n ih => rw [List.replicate_succ, List.cons_append, List.dropWhile_cons_of_pos (by decide), ih]
  unfold skipWs newline
  rw [List.cons_append, List.dropWhile_cons_of_pos (by decide), h]

theorem parseVal_ws {s s' : Str} (h : skipWs s = skipWs s') (f : Nat) : parseVal f s = parseVal f s' := by
  cases f with
  | zero => rfl
  | succ f => rw [parseVal, parseVal, h]

theorem parseElems_ws {s s' : Str} (h : skipWs s = skipWs s') (f : Nat) : parseElems f s = parseElems f s' := by
  cases f with
  | zero => rfl
  | succ f => rw [parseElems, parseElems, parseVal_ws h]

theorem parseMembers_ws {s s' : Str} (h : skipWs s = skipWs s') (f : Nat) : parseMembers f s = parseMembers f s' := by
  cases f with
  | zero => rfl
  | succ f => rw [parseMembers, parseMembers, h]

theorem delim_newline (d : Nat) (r : Str) : Delim (newline d ++ r) := .inr ⟨10, _, rfl, .inr (.inr (.inr rfl))⟩

/-! ## Values -/

/-- The text, indented at whatever depth, is read as the value `v` with `n` nested calls. -/
structure Pretty (n : Nat) (text : Str) (v : JVal) : Prop where
  head : ∃ c t, text = c :: t ∧ isWs c = false ∧ c ≠ 93 ∧ c ≠ 125
  form : ∀ d, ∃ p, Reads n p v ∧ text.length ≤ p.length ∧
    ∀ rest, indent .out false d (text ++ rest) = p ++ indent .out false d rest

theorem Pretty.mono {n m : Nat} {text : Str} {v : JVal} (h : Pretty n text v) (hm : n ≤ m) : Pretty m text v :=
  ⟨h.head, fun d => by
    obtain ⟨p, h1, h2, h3⟩ := h.form d
    exact ⟨p, h1.mono hm, h2, h3⟩⟩

theorem pretty_quote (s : Str) : Pretty 1 (quote s) (.str (sanitize s)) :=
  ⟨⟨34, _, rfl, by decide, by decide, by decide⟩, fun d => ⟨quote s, reads_quote s, Nat.le_refl _, fun rest => indent_quote s d rest⟩⟩

/-- bytes of numbers -/
def NumByte (c : UInt8) : Prop := isDigit c = true ∨ c = 45

theorem numByte_facts {c : UInt8} (h : NumByte c) : isWs c = false ∧ ∀ d, indentByte false d c = ([c], .out, false, d) := by
  rcases h with h | rfl
  · have h1 : 48 ≤ c.toNat ∧ c.toNat ≤ 57 := by simpa [isDigit, UInt8.le_iff_toNat_le] using h
    have hne : ∀ b : UInt8, b.toNat < 48 ∨ 57 < b.toNat → c ≠ b := by
      rintro b hb rfl; omega
    have := hne 123 (by decide); have := hne 91 (by decide); have := hne 44 (by decide); have := hne 58 (by decide)
    have := hne 125 (by decide); have := hne 93 (by decide); have := hne 34 (by decide)
    have := hne 32 (by decide); have := hne 9 (by decide); have := hne 10 (by decide); have := hne 13 (by decide)
    exact ⟨by simp [isWs, *], fun d => by simp [indentByte, *]⟩
  · exact ⟨by decide, fun d => by simp [indentByte]⟩

theorem indent_num (l : Str) (h : ∀ c ∈ l, NumByte c) (d : Nat) (r : Str) :
    indent .out false d (l ++ r) = l ++ indent .out false d r := by
  induction l with
  | nil => rfl
  | cons c l ih =>
    obtain ⟨h1, h2⟩ := numByte_facts (h c (by simp))
    rw [List.cons_append, indent, h1]
    simp only [h2]
    simp [ih (fun x hx => h x (by simp [hx]))]

theorem fmtNat_num (n : Nat) : ∀ c ∈ fmtNat n, NumByte c := by
  intro c hc
  exact .inl (List.all_eq_true.1 (fmtNat_facts n).2.1 c hc)

theorem pretty_fmtInt (i : Int) : Pretty 1 (fmtInt i) (.num (fmtInt i)) := by
  have hn : ∀ c ∈ fmtInt i, NumByte c := by
    intro c hc
    unfold fmtInt at hc
    split at hc
    · rcases List.mem_cons.1 hc with rfl | hc
      · exact .inr rfl
      · exact fmtNat_num _ c hc
    · exact fmtNat_num _ c hc
  obtain ⟨c, t, h1, h2, h3⟩ := (reads_fmtInt i).head
  refine ⟨⟨c, t, h1, h2, h3, ?_⟩, fun d => ⟨fmtInt i, reads_fmtInt i, Nat.le_refl _, fun rest => indent_num _ hn d rest⟩⟩
  rintro rfl
  rcases hn 125 (by rw [h1]; simp) with h | h
  · revert h; decide
  · revert h; decide

theorem pretty_fmtNat (n : Nat) : Pretty 1 (fmtNat n) (.num (fmtNat n)) := by
  rw [fmtNat_eq]; exact pretty_fmtInt _

/-- after an opening bracket -/
theorem indent_need {c : UInt8} (hw : isWs c = false) (h1 : c ≠ 93) (h2 : c ≠ 125) (d : Nat) (t : Str) :
    indent .out true d (c :: t) = newline (d + 1) ++ indent .out false (d + 1) (c :: t) := by
  rw [indent, indent, hw]
  simp [h1, h2]

theorem indent_close {c : UInt8} (h : c = 125 ∨ c = 93) (d : Nat) (t : Str) :
    indent .out false (d + 1) (c :: t) = newline d ++ c :: indent .out false d t := by
  rcases h with rfl | rfl <;> simp [indent, isWs, indentByte]

theorem indent_comma (d : Nat) (t : Str) : indent .out false d (44 :: t) = 44 :: newline d ++ indent .out false d t := by
  simp [indent, isWs, indentByte]

theorem indent_colon (d : Nat) (t : Str) : indent .out false d (58 :: t) = 58 :: 32 :: indent .out false d t := by
  simp [indent, isWs, indentByte]

theorem indent_open {c : UInt8} (h : c = 123 ∨ c = 91) (d : Nat) (t : Str) :
    indent .out false d (c :: t) = c :: indent .out true d t := by
  rcases h with rfl | rfl <;> simp [indent, isWs, indentByte]

theorem elems_pretty {n : Nat} (l : List (Str × JVal)) (hne : l ≠ []) (h : ∀ p ∈ l, Pretty n p.1 p.2) (d : Nat) :
    ∃ q, (join 44 (l.map Prod.fst)).length ≤ q.length ∧
      (∀ rest, indent .out false (d + 1) (join 44 (l.map Prod.fst) ++ 93 :: rest) = q ++ 93 :: indent .out false d rest) ∧
      ∀ f, n + l.length ≤ f → ∀ rest, parseElems f (q ++ 93 :: rest) = some (l.map Prod.snd, rest) := by
  induction l with
  | nil => exact absurd rfl hne
  | cons p l ih =>
    obtain ⟨x, h1, h2, h3⟩ := (h p (by simp)).form (d + 1)
    cases l with
    | nil =>
      refine ⟨x ++ newline d, ?_, ?_, ?_⟩
      · simp only [List.map_cons, List.map_nil, join, List.length_append]; omega
      · intro rest
        simp only [List.map_cons, List.map_nil, join, h3, indent_close (.inr rfl), List.append_assoc]
      · intro f hf rest
        simp only [List.length_cons] at hf
        obtain ⟨f, rfl⟩ : ∃ k, f = k + 1 := ⟨f - 1, by omega⟩
        rw [List.append_assoc, parseElems, h1.read f _ (by omega) (delim_newline _ _)]
        simp only [skipWs_newline, skipWs_cons (show isWs 93 = false by decide), if_true, List.map_cons, List.map_nil]
    | cons y l =>
      obtain ⟨q, g1, g2, g3⟩ := ih (by simp) (fun z hz => h z (by simp [hz]))
      refine ⟨x ++ 44 :: newline (d + 1) ++ q, ?_, ?_, ?_⟩
      · simp only [List.map_cons, join, List.length_append, List.length_cons] at g1 ⊢; omega
      · intro rest
        have := g2 rest
        simp only [List.map_cons] at this
        simp only [List.map_cons, join, List.append_assoc, List.cons_append, h3, indent_comma, this]
      · intro f hf rest
        simp only [List.length_cons] at hf
        obtain ⟨f, rfl⟩ : ∃ k, f = k + 1 := ⟨f - 1, by omega⟩
        have := g3 f (by simp only [List.length_cons]; omega) rest
        simp only [List.append_assoc, List.cons_append]
        rw [parseElems, h1.read f _ (by omega) (delim_comma _)]
        simp only [skipWs_cons (show isWs 44 = false by decide), if_true, parseElems_ws (skipWs_newline _ _), this]
        rfl

theorem pretty_array {n : Nat} (l : List (Str × JVal)) (h : ∀ p ∈ l, Pretty n p.1 p.2) :
    Pretty (n + l.length + 1) (array (l.map Prod.fst)) (.arr (l.map Prod.snd)) := by
  refine ⟨⟨91, _, rfl, by decide, by decide, by decide⟩, fun d => ?_⟩
  cases l with
  | nil =>
    refine ⟨array [], (reads_array (n := 0) [] (by simp)).mono (by simp), by simp, fun rest => ?_⟩
    simp [array, join, indent, isWs, indentByte]
  | cons p l =>
    obtain ⟨q, g1, g2, g3⟩ := elems_pretty (p :: l) (by simp) h d
    obtain ⟨c, t, hc, hw, h93, h125⟩ := (h p (by simp)).head
    have hj : ∃ u, join 44 ((p :: l).map Prod.fst) = c :: u := by
      cases l with
      | nil => exact ⟨_, by simp only [List.map_cons, List.map_nil, join, hc]; rfl⟩
      | cons q l => exact ⟨_, by simp only [List.map_cons, join, hc]; rfl⟩
    obtain ⟨u, hu⟩ := hj
    refine ⟨91 :: newline (d + 1) ++ q ++ [93], ⟨⟨91, _, rfl, by decide, by decide⟩, ?_⟩, ?_, ?_⟩
    · intro f rest hf _
      obtain ⟨f, rfl⟩ : ∃ k, f = k + 1 := ⟨f - 1, by omega⟩
      have g4 := g3 f (by omega) rest
      -- the text begins with something that is no bracket
      have hq : ∃ c' u', skipWs (q ++ 93 :: rest) = c' :: u' ∧ c' ≠ 93 := by
        cases hs : skipWs (q ++ 93 :: rest) with
        | nil =>
          have := parseElems_ws (s' := []) (s := q ++ 93 :: rest) (by rw [hs]; rfl) f
          rw [g4] at this
          obtain ⟨f, rfl⟩ : ∃ k, f = k + 1 := ⟨f - 1, by simp only [List.length_cons] at hf; omega⟩
          rw [parseElems] at this
          cases f <;> simp [parseVal, skipWs] at this
        | cons c' u' =>
          refine ⟨c', u', rfl, ?_⟩
          rintro rfl
          have := parseElems_ws (s' := 93 :: u') (s := q ++ 93 :: rest) (by rw [hs, skipWs_cons (by decide)]) f
          rw [g4] at this
          obtain ⟨f, rfl⟩ : ∃ k, f = k + 1 := ⟨f - 1, by simp only [List.length_cons] at hf; omega⟩
          rw [parseElems] at this
          cases f with
          | zero => simp [parseVal] at this
          | succ f =>
            rw [parseVal, skipWs_cons (by decide)] at this
            simp [number, unsigned, digits, show isDigit 93 = false from by decide] at this
      obtain ⟨c', u', hs, hc'⟩ := hq
      simp only [List.append_assoc, List.cons_append, List.nil_append]
      rw [parseVal, skipWs_cons (by decide)]
      simp only [show ((91 : UInt8) = 34) = False from by simp, if_false, if_true, skipWs_newline, hs, hc',
        parseElems_ws (skipWs_newline _ _), g4]
    · simp only [array, List.length_append, List.length_cons] at g1 ⊢; omega
    · intro rest
      have := g2 rest
      simp only [array, List.append_assoc, List.cons_append, List.nil_append]
      rw [indent_open (.inr rfl)]
      rw [hu, List.cons_append] at this ⊢
      rw [indent_need hw h93 h125, this]

theorem members_pretty {n : Nat} (l : List (Str × Str × JVal)) (hne : l ≠ []) (h : ∀ p ∈ l, Pretty n p.2.1 p.2.2) (d : Nat) :
    ∃ q, (join 44 (l.map fun p => member p.1 p.2.1)).length ≤ q.length ∧ (∃ u, q = 34 :: u) ∧
      (∀ rest, indent .out false (d + 1) (join 44 (l.map fun p => member p.1 p.2.1) ++ 125 :: rest) =
        q ++ 125 :: indent .out false d rest) ∧
      ∀ f, n + l.length ≤ f → ∀ rest, parseMembers f (q ++ 125 :: rest) =
        some (l.map (fun p => (sanitize p.1, p.2.2)), rest) := by
  induction l with
  | nil => exact absurd rfl hne
  | cons p l ih =>
    obtain ⟨x, h1, h2, h3⟩ := (h p (by simp)).form (d + 1)
    have hi : ∀ r, indent .out false (d + 1) (member p.1 p.2.1 ++ r) = quote p.1 ++ 58 :: 32 :: (x ++ indent .out false (d + 1) r) := by
      intro r
      simp only [member, List.append_assoc, List.cons_append, indent_quote, indent_colon, h3]
    have hq : ∀ r, quote p.1 ++ r = 34 :: (escape p.1 ++ 34 :: r) := by intro r; simp [quote]
    have hv : ∀ f r, n ≤ f → Delim r → parseVal f (32 :: (x ++ r)) = some (p.2.2, r) := by
      intro f r hf hd
      rw [parseVal_ws (s' := x ++ r) (by simp [skipWs, isWs])]
      exact h1.read f r hf hd
    cases l with
    | nil =>
      refine ⟨quote p.1 ++ 58 :: 32 :: (x ++ newline d), ?_, ⟨_, hq _⟩, ?_, ?_⟩
      · simp only [List.map_cons, List.map_nil, join, member, List.length_append, List.length_cons]; omega
      · intro rest
        simp only [List.map_cons, List.map_nil, join, hi, indent_close (.inl rfl), List.append_assoc, List.cons_append]
      · intro f hf rest
        simp only [List.length_cons] at hf
        obtain ⟨f, rfl⟩ : ∃ k, f = k + 1 := ⟨f - 1, by omega⟩
        rw [List.append_assoc, hq, parseMembers, skipWs_cons (by decide)]
        simp only [if_true, parseStr_escape, List.cons_append, List.append_assoc, skipWs_cons (show isWs 58 = false by decide),
          hv f _ (show n ≤ f by omega) (delim_newline d _), skipWs_newline, skipWs_cons (show isWs 125 = false by decide),
          List.map_cons, List.map_nil]
    | cons y l =>
      obtain ⟨q, g1, g0, g2, g3⟩ := ih (by simp) (fun z hz => h z (by simp [hz]))
      refine ⟨quote p.1 ++ 58 :: 32 :: (x ++ 44 :: (newline (d + 1) ++ q)), ?_, ⟨_, hq _⟩, ?_, ?_⟩
      · simp only [List.map_cons, join, member, List.length_append, List.length_cons] at g1 ⊢; omega
      · intro rest
        have := g2 rest
        simp only [List.map_cons] at this
        simp only [List.map_cons, join, List.append_assoc, List.cons_append, hi, indent_comma, this]
      · intro f hf rest
        simp only [List.length_cons] at hf
        obtain ⟨f, rfl⟩ : ∃ k, f = k + 1 := ⟨f - 1, by omega⟩
        have := g3 f (by simp only [List.length_cons]; omega) rest
        rw [List.append_assoc, hq, parseMembers, skipWs_cons (by decide)]
        simp only [if_true, parseStr_escape, List.cons_append, List.append_assoc, skipWs_cons (show isWs 58 = false by decide),
          hv f _ (show n ≤ f by omega) (delim_comma _), skipWs_cons (show isWs 44 = false by decide),
          show ((44 : UInt8) = 125) = False from by simp, if_false, parseMembers_ws (skipWs_newline _ _), this]
        rfl

theorem pretty_object {n : Nat} (l : List (Str × Str × JVal)) (h : ∀ p ∈ l, Pretty n p.2.1 p.2.2) :
    Pretty (n + l.length + 1) (object (l.map fun p => member p.1 p.2.1)) (.obj (l.map fun p => (sanitize p.1, p.2.2))) := by
  refine ⟨⟨123, _, rfl, by decide, by decide, by decide⟩, fun d => ?_⟩
  cases l with
  | nil =>
    refine ⟨object [], (reads_object (n := 0) [] (by simp)).mono (by simp), by simp, fun rest => ?_⟩
    simp [object, join, indent, isWs, indentByte]
  | cons p l =>
    obtain ⟨q, g1, ⟨u, g0⟩, g2, g3⟩ := members_pretty (p :: l) (by simp) h d
    have hj : ∃ u, join 44 ((p :: l).map fun p => member p.1 p.2.1) = 34 :: u := by
      cases l with
      | nil => exact ⟨_, by simp only [List.map_cons, List.map_nil, join, member, quote]; rfl⟩
      | cons q l => exact ⟨_, by simp only [List.map_cons, join, member, quote]; rfl⟩
    obtain ⟨u', hu⟩ := hj
    refine ⟨123 :: newline (d + 1) ++ q ++ [125], ⟨⟨123, _, rfl, by decide, by decide⟩, ?_⟩, ?_, ?_⟩
    · intro f rest hf _
      obtain ⟨f, rfl⟩ : ∃ k, f = k + 1 := ⟨f - 1, by omega⟩
      have g4 := g3 f (by omega) rest
      have hs : skipWs (q ++ 125 :: rest) = 34 :: (u ++ 125 :: rest) := by rw [g0]; exact skipWs_cons (by decide) _
      simp only [List.append_assoc, List.cons_append, List.nil_append]
      rw [parseVal, skipWs_cons (by decide)]
      simp only [show ((123 : UInt8) = 34) = False from by simp, show ((123 : UInt8) = 91) = False from by simp, if_false, if_true,
        skipWs_newline, hs, show ((34 : UInt8) = 125) = False from by simp, parseMembers_ws (skipWs_newline _ _), g4]
    · simp only [object, List.length_append, List.length_cons] at g1 ⊢; omega
    · intro rest
      have := g2 rest
      simp only [object, List.append_assoc, List.cons_append, List.nil_append]
      rw [indent_open (.inl rfl)]
      rw [hu, List.cons_append] at this ⊢
      rw [indent_need (by decide) (by decide) (by decide), this]

/-! ## The store -/

abbrev PText (text : Str) (v : JVal) : Prop := Pretty (2 * text.length) text v

theorem ptext_array (l : List (Str × JVal)) (h : ∀ p ∈ l, PText p.1 p.2) :
    PText (array (l.map Prod.fst)) (.arr (l.map Prod.snd)) := by
  have hj : l.length - 1 ≤ (join 44 (l.map Prod.fst)).length := by
    cases l with
    | nil => simp
    | cons p l =>
      have := length_le_join ((p :: l).map Prod.fst) p.1 (by simp)
      simp only [List.length_map] at this
      omega
  have := pretty_array (n := 2 * ((join 44 (l.map Prod.fst)).length - (l.length - 1))) l (fun p hp => by
    refine (h p hp).mono ?_
    have := length_le_join (l.map Prod.fst) p.1 (List.mem_map_of_mem hp)
    simp only [List.length_map] at this
    omega)
  refine this.mono ?_
  simp only [array, List.length_cons, List.length_append, List.length_nil]
  omega

theorem ptext_object (l : List (Str × Str × JVal)) (h : ∀ p ∈ l, PText p.2.1 p.2.2) :
    PText (object (l.map fun p => member p.1 p.2.1)) (.obj (l.map fun p => (sanitize p.1, p.2.2))) := by
  have hm : ∀ p : Str × Str × JVal, p.2.1.length ≤ (member p.1 p.2.1).length := by
    intro p; simp only [member, quote, List.length_cons, List.length_append]; omega
  have hj : l.length - 1 ≤ (join 44 (l.map fun p => member p.1 p.2.1)).length := by
    cases l with
    | nil => simp
    | cons p l =>
      have := length_le_join ((p :: l).map fun p => member p.1 p.2.1) (member p.1 p.2.1) (by simp)
      simp only [List.length_map] at this
      omega
  have := pretty_object (n := 2 * ((join 44 (l.map fun p => member p.1 p.2.1)).length - (l.length - 1))) l (fun p hp => by
    refine (h p hp).mono ?_
    have h1 := length_le_join (l.map fun p => member p.1 p.2.1) (member p.1 p.2.1) (List.mem_map.2 ⟨p, hp, rfl⟩)
    have h2 := hm p
    simp only [List.length_map] at h1
    omega)
  refine this.mono ?_
  simp only [object, List.length_cons, List.length_append, List.length_nil]
  omega

theorem ptext_quote (s : Str) : PText (quote s) (.str (sanitize s)) := (pretty_quote s).mono (by simp [quote]; omega)

theorem ptext_fmtInt (i : Int) : PText (fmtInt i) (.num (fmtInt i)) := (pretty_fmtInt i).mono (by have := fmtInt_length i; omega)

theorem ptext_strItem (name v : Str) : ∀ p ∈ strItem name v, PText p.2.1 p.2.2 := by
  intro p hp
  unfold strItem at hp
  split at hp
  · cases hp
  · rw [List.mem_singleton.1 hp]; exact ptext_quote _

theorem ptext_tx (t : Tx) : PText (marshalTx t) (txVal t) := by
  rw [marshalTx_items]
  refine ptext_object _ ?_
  intro p hp
  simp only [txItems, List.mem_append] at hp
  rcases hp with (((hp | hp) | hp) | hp) | hp
  · split at hp
    · cases hp
    · rw [List.mem_singleton.1 hp]; exact ptext_fmtInt _
  all_goals exact ptext_strItem _ _ p hp

theorem ptext_map {ν : Type} (enc : ν → Str) (jv : ν → JVal) (dflt : ν) (h : ∀ x, PText (enc x) (jv x))
    (m : GoMap Str ν) : PText (marshalMap enc dflt m) (mapVal enc jv dflt m) := by
  have : marshalMap enc dflt m = object ((mapItems enc jv dflt m).map fun p => member p.1 p.2.1) := by
    unfold marshalMap mapItems
    rw [List.map_map]
    rfl
  rw [this]
  refine ptext_object _ ?_
  intro p hp
  obtain ⟨k, _, rfl⟩ := List.mem_map.1 hp
  exact h _

theorem ptext_log (l : List Tx) : PText (array (l.map marshalTx)) (.arr (l.map txVal)) := by
  have := ptext_array (l.map fun t => (marshalTx t, txVal t)) (by
    intro p hp
    obtain ⟨t, _, rfl⟩ := List.mem_map.1 hp
    exact ptext_tx t)
  simpa [List.map_map, Function.comp_def] using this

theorem ptext_db (s : DB) : PText (marshal s) (.obj ((dbItems s).map fun p => (sanitize p.1, p.2.2))) := by
  rw [marshal_items]
  refine ptext_object _ ?_
  intro p hp
  simp only [dbItems, List.mem_append] at hp
  rcases hp with (hp | hp) | hp <;> split at hp
  · cases hp
  · rw [List.mem_singleton.1 hp, fmtNat_eq]; exact ptext_fmtInt (s.version : Int)
  · cases hp
  · rw [List.mem_singleton.1 hp]; exact ptext_map _ _ _ (ptext_map _ _ _ ptext_quote) _
  · cases hp
  · rw [List.mem_singleton.1 hp]; exact ptext_log _

theorem parse_indent (s : DB) (tail : Str) (ht : skipWs tail = []) (hd : Delim tail) :
    parse (marshalIndent s ++ tail) = parse (marshal s) := by
  obtain ⟨p, h1, h2, h3⟩ := (ptext_db s).form 0
  have h4 : marshalIndent s = p := by
    have := h3 []
    rw [List.append_nil, show indent .out false 0 [] = [] from rfl, List.append_nil] at this
    exact this
  rw [parse_marshal, h4]
  unfold parse
  rw [h1.read _ tail (by simp only [List.length_append]; omega) hd]
  simp only [ht, if_true]

end Verif.Json
