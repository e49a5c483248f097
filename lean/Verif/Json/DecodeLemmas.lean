import Verif.Json.ParseLemmas
import Verif.Json.Spec
/-!
# Helper lemmas: from values back to a store
-/
namespace Verif.Json
open Verif Verif.Txlogs Verif.Json.Spec

/-! ## Texts with a bound by their length -/

/-- the text is read as `v`, with as many nested calls as twice its length -/
abbrev Text (text : Str) (v : JVal) : Prop := Reads (2 * text.length) text v

theorem text_quote (s : Str) : Text (quote s) (.str (sanitize s)) :=
  (reads_quote s).mono (by simp [quote]; omega)

theorem fmtInt_length (i : Int) : 1 ≤ (fmtInt i).length := by
  unfold fmtInt
  have := (fmtNat_facts i.natAbs).1
  have : 1 ≤ (fmtNat i.natAbs).length := by
    cases h : fmtNat i.natAbs with
    | nil => exact absurd h this
    | cons _ _ => simp
  split <;> simp <;> omega

theorem text_fmtInt (i : Int) : Text (fmtInt i) (.num (fmtInt i)) :=
  (reads_fmtInt i).mono (by have := fmtInt_length i; omega)

theorem text_fmtNat (n : Nat) : Text (fmtNat n) (.num (fmtNat n)) := by
  rw [fmtNat_eq]; exact text_fmtInt _

theorem length_le_join (l : List Str) (x : Str) (hx : x ∈ l) : x.length + (l.length - 1) ≤ (join 44 l).length := by
  induction l with
  | nil => cases hx
  | cons y l ih =>
    cases l with
    | nil =>
      rcases List.mem_cons.1 hx with rfl | hx
      · simp [join]
      · cases hx
    | cons z l =>
      simp only [join, List.length_cons, List.length_append] at *
      rcases List.mem_cons.1 hx with rfl | hx
      · have := ih' l z
        omega
      · have := ih hx
        omega
where
  ih' (l : List Str) (z : Str) : l.length ≤ (join 44 (z :: l)).length := by
    induction l generalizing z with
    | nil => simp
    | cons w l ih =>
      have := ih w
      simp only [join, List.length_cons, List.length_append] at *
      omega

theorem text_array (l : List (Str × JVal)) (h : ∀ p ∈ l, Text p.1 p.2) :
    Text (array (l.map Prod.fst)) (.arr (l.map Prod.snd)) := by
  have hj : l.length - 1 ≤ (join 44 (l.map Prod.fst)).length := by
    cases l with
    | nil => simp
    | cons p l =>
      have := length_le_join ((p :: l).map Prod.fst) p.1 (by simp)
      simp only [List.length_map] at this
      omega
  have := reads_array (n := 2 * ((join 44 (l.map Prod.fst)).length - (l.length - 1))) l (fun p hp => by
    refine (h p hp).mono ?_
    have := length_le_join (l.map Prod.fst) p.1 (List.mem_map_of_mem hp)
    simp only [List.length_map] at this
    omega)
  refine this.mono ?_
  simp only [array, List.length_cons, List.length_append, List.length_nil]
  omega

theorem text_object (l : List (Str × Str × JVal)) (h : ∀ p ∈ l, Text p.2.1 p.2.2) :
    Text (object (l.map fun p => member p.1 p.2.1)) (.obj (l.map fun p => (sanitize p.1, p.2.2))) := by
  have hm : ∀ p : Str × Str × JVal, p.2.1.length ≤ (member p.1 p.2.1).length := by
    intro p; simp only [member, quote, List.length_cons, List.length_append]; omega
  have hj : l.length - 1 ≤ (join 44 (l.map fun p => member p.1 p.2.1)).length := by
    cases l with
    | nil => simp
    | cons p l =>
      have := length_le_join ((p :: l).map fun p => member p.1 p.2.1) (member p.1 p.2.1) (by simp)
      simp only [List.length_map] at this
      omega
  have := reads_object (n := 2 * ((join 44 (l.map fun p => member p.1 p.2.1)).length - (l.length - 1))) l (fun p hp => by
    refine (h p hp).mono ?_
    have h1 := length_le_join (l.map fun p => member p.1 p.2.1) (member p.1 p.2.1) (List.mem_map.2 ⟨p, hp, rfl⟩)
    have h2 := hm p
    simp only [List.length_map] at h1
    omega)
  refine this.mono ?_
  simp only [object, List.length_cons, List.length_append, List.length_nil]
  omega

/-! ## Operations -/

theorem steps_append {α β : Type} (f : α → β → Option α) (a : α) (l l' : List β) :
    steps f a (l ++ l') = match steps f a l with
      | some a => steps f a l'
      | none => none := by
  induction l generalizing a with
  | nil => rfl
  | cons b l ih =>
    simp only [List.cons_append, steps]
    cases f a b with
    | none => rfl
    | some a => exact ih a

@[simp] theorem sanitize_nil : sanitize [] = [] := rfl

/-- the members of a written string field, with what is read -/
def strItem (name v : Str) : List (Str × Str × JVal) :=
  if v = [] then [] else [(name, quote v, .str (sanitize v))]

def txItems (t : Tx) : List (Str × Str × JVal) :=
  (if t.time = 0 then [] else [(b! "time", fmtInt t.time, .num (fmtInt t.time))])
    ++ strItem (b! "kind") (kindStr t.kind) ++ strItem (b! "uuid") t.uuid
    ++ strItem (b! "key") t.key ++ strItem (b! "value") t.value

theorem strItem_text (name v : Str) : (strItem name v).map (fun p => member p.1 p.2.1) = strField name v := by
  unfold strItem strField
  split <;> rfl

theorem marshalTx_items (t : Tx) : marshalTx t = object ((txItems t).map fun p => member p.1 p.2.1) := by
  unfold marshalTx txItems
  simp only [List.map_append, strItem_text]
  congr 5
  split <;> rfl

theorem strItem_ok (name v : Str) : ∀ p ∈ strItem name v, Text p.2.1 p.2.2 := by
  intro p hp
  unfold strItem at hp
  split at hp
  · cases hp
  · rw [List.mem_singleton.1 hp]; exact text_quote v

theorem txItems_ok (t : Tx) : ∀ p ∈ txItems t, Text p.2.1 p.2.2 := by
  intro p hp
  simp only [txItems, List.mem_append] at hp
  rcases hp with (((hp | hp) | hp) | hp) | hp
  · split at hp
    · cases hp
    · rw [List.mem_singleton.1 hp]; exact text_fmtInt _
  all_goals exact strItem_ok _ _ p hp

/-- the value a written operation is read as -/
def txVal (t : Tx) : JVal := .obj ((txItems t).map fun p => (sanitize p.1, p.2.2))

theorem text_tx (t : Tx) : Text (marshalTx t) (txVal t) := by
  rw [marshalTx_items]
  exact text_object _ (txItems_ok t)

theorem txMember_time (t : Tx) (i : Int) (h : -9223372036854775808 ≤ i ∧ i ≤ 9223372036854775807) :
    txMember t (sanitize (b! "time"), .num (fmtInt i)) = some { t with time := i } := by
  have : sanitize (b! "time") = b! "time" := by decide
  rw [this]
  unfold txMember
  rw [show fieldOf txFields (b! "time") = some (b! "time") from by decide]
  simp only [if_true, decInt, atoi_fmtInt i h, Option.map_some]

theorem txMember_kind (t : Tx) (v : Str) :
    txMember t (sanitize (b! "kind"), .str v) = some { t with kind := kindOf v } := by
  have : sanitize (b! "kind") = b! "kind" := by decide
  rw [this]
  rfl

theorem txMember_uuid (t : Tx) (v : Str) :
    txMember t (sanitize (b! "uuid"), .str v) = some { t with uuid := v } := by
  have : sanitize (b! "uuid") = b! "uuid" := by decide
  rw [this]
  rfl

theorem txMember_key (t : Tx) (v : Str) :
    txMember t (sanitize (b! "key"), .str v) = some { t with key := v } := by
  have : sanitize (b! "key") = b! "key" := by decide
  rw [this]
  rfl

theorem txMember_value (t : Tx) (v : Str) :
    txMember t (sanitize (b! "value"), .str v) = some { t with value := v } := by
  have : sanitize (b! "value") = b! "value" := by decide
  rw [this]
  rfl

theorem decTx_txVal (t : Tx) (h : -9223372036854775808 ≤ t.time ∧ t.time ≤ 9223372036854775807) :
    decTx zeroTx (txVal t) = some (cleaned t) := by
  unfold txVal decTx txItems
  have h1 : steps txMember zeroTx ((if t.time = 0 then [] else
      [(b! "time", fmtInt t.time, JVal.num (fmtInt t.time))]).map fun p => (sanitize p.1, p.2.2)) =
      some { zeroTx with time := t.time } := by
    split
    · rename_i h0
      rw [h0]
      rfl
    · simp only [List.map_cons, List.map_nil, steps, txMember_time _ _ h]
  have hitem : ∀ (name v : Str) (a : Tx) (upd : Tx → Str → Tx),
      (∀ a x, txMember a (sanitize name, .str x) = some (upd a x)) → upd a [] = a →
      steps txMember a ((strItem name v).map fun p => (sanitize p.1, p.2.2)) = some (upd a (sanitize v)) := by
    intro name v a upd h1 h2
    unfold strItem
    split
    · rename_i hv
      rw [hv, sanitize_nil, h2]
      rfl
    · simp only [List.map_cons, List.map_nil, steps, h1]
  simp only [List.map_append, steps_append]
  rw [h1]
  simp only
  rw [hitem (b! "kind") _ _ (fun a x => { a with kind := kindOf x }) txMember_kind rfl]
  simp only
  rw [hitem (b! "uuid") _ _ (fun a x => { a with uuid := x }) txMember_uuid rfl]
  simp only
  rw [hitem (b! "key") _ _ (fun a x => { a with key := x }) txMember_key rfl]
  simp only
  rw [hitem (b! "value") _ _ (fun a x => { a with value := x }) txMember_value rfl]
  rfl

theorem decLog_vals (l : List Tx) (h : ∀ t ∈ l, -9223372036854775808 ≤ t.time ∧ t.time ≤ 9223372036854775807) :
    decLog [] (l.map txVal) = some (l.map cleaned) := by
  induction l with
  | nil => rfl
  | cons t l ih =>
    simp only [List.map_cons, decLog, List.headD_nil, decTx_txVal t (h t (by simp)), List.tail_nil,
      ih (fun x hx => h x (by simp [hx]))]

/-! ## Maps -/

theorem set_new {ν : Type} (m : GoMap Str ν) (k : Str) (v : ν) (h : k ∉ m.map Prod.fst) : m.set k v = m ++ [(k, v)] := by
  induction m with
  | nil => rfl
  | cons p m ih =>
    obtain ⟨a, b⟩ := p
    simp only [List.map_cons, List.mem_cons, not_or] at h
    simp only [GoMap.set, Ne.symm h.1, if_false, ih h.2, List.cons_append]

/-- reading members into a map succeeds if every value can be read -/
theorem steps_map_ok {ν : Type} (dec : JVal → Option ν) (l : List (Str × JVal)) (h : ∀ p ∈ l, ∃ x, dec p.2 = some x)
    (m : GoMap Str ν) (hm : m.NodupKeys) : ∃ m', steps (mapMember dec) m l = some m' ∧ m'.NodupKeys := by
  induction l generalizing m with
  | nil => exact ⟨m, rfl, hm⟩
  | cons p l ih =>
    obtain ⟨x, hx⟩ := h p (by simp)
    obtain ⟨m', h1, h2⟩ := ih (fun q hq => h q (by simp [hq])) (m.set p.1 x) (GoMap.nodupKeys_set hm p.1 x)
    refine ⟨m', ?_, h2⟩
    simp only [steps, mapMember, hx, Option.map_some]
    exact h1

/-- distinct keys are listed in the order of the text -/
theorem steps_map {ν : Type} (dec : JVal → Option ν) (x : Str → ν) (jv : Str → JVal) (ks : List Str)
    (h : ∀ k ∈ ks, dec (jv k) = some (x k)) (hn : ks.Nodup) (m : GoMap Str ν) (hm : ∀ k ∈ ks, k ∉ m.map Prod.fst) :
    steps (mapMember dec) m (ks.map fun k => (k, jv k)) = some (m ++ ks.map fun k => (k, x k)) := by
  induction ks generalizing m with
  | nil => simp [steps]
  | cons k ks ih =>
    rw [List.nodup_cons] at hn
    simp only [List.map_cons, steps, mapMember, h k (by simp), Option.map_some]
    rw [set_new _ _ _ (hm k (by simp)), ih (fun q hq => h q (by simp [hq])) hn.2]
    · simp
    · intro q hq hmem
      simp only [List.map_append, List.map_cons, List.map_nil, List.mem_append, List.mem_singleton] at hmem
      rcases hmem with hmem | rfl
      · exact hm q (by simp [hq]) hmem
      · exact hn.1 hq

theorem get?_listed {ν : Type} (m : GoMap Str ν) (x : Str → ν) (ks : List Str) (hk : ∀ k, k ∈ ks ↔ k ∈ m.map Prod.fst)
    (hx : ∀ k v, m.get? k = some v → x k = v) (k : Str) :
    GoMap.get? (ks.map fun k => (k, x k)) k = m.get? k := by
  have aux : ∀ l : List Str, GoMap.get? (l.map fun k => (k, x k)) k = if k ∈ l then some (x k) else none := by
    intro l
    induction l with
    | nil => rfl
    | cons a l ih =>
      rw [List.map_cons, GoMap.get?_cons, ih]
      by_cases h : a = k
      · subst h; simp
      · simp [h, Ne.symm h]
  rw [aux]
  cases hg : m.get? k with
  | none =>
    rw [if_neg]
    rw [hk]
    exact GoMap.get?_eq_none_iff.1 hg
  | some v =>
    rw [if_pos, hx k v hg]
    rw [hk]
    exact List.mem_map.2 ⟨(k, v), GoMap.mem_of_get? hg, rfl⟩

/-- the members of a written map -/
def mapItems {ν : Type} (enc : ν → Str) (jv : ν → JVal) (dflt : ν) (m : GoMap Str ν) : List (Str × Str × JVal) :=
  (sortStr (m.map Prod.fst)).map fun k => (k, enc ((m.get? k).getD dflt), jv ((m.get? k).getD dflt))

def mapVal {ν : Type} (enc : ν → Str) (jv : ν → JVal) (dflt : ν) (m : GoMap Str ν) : JVal :=
  .obj ((mapItems enc jv dflt m).map fun p => (sanitize p.1, p.2.2))

theorem text_map {ν : Type} (enc : ν → Str) (jv : ν → JVal) (dflt : ν) (h : ∀ x, Text (enc x) (jv x))
    (m : GoMap Str ν) : Text (marshalMap enc dflt m) (mapVal enc jv dflt m) := by
  have : marshalMap enc dflt m = object ((mapItems enc jv dflt m).map fun p => member p.1 p.2.1) := by
    unfold marshalMap mapItems
    rw [List.map_map]
    rfl
  rw [this]
  refine text_object _ ?_
  intro p hp
  obtain ⟨k, _, rfl⟩ := List.mem_map.1 hp
  exact h _

theorem decMap_ok {ν : Type} (enc : ν → Str) (jv : ν → JVal) (dflt : ν) (dec : JVal → Option ν)
    (h : ∀ x, ∃ y, dec (jv x) = some y) (m : GoMap Str ν) :
    ∃ m', decMap dec [] (mapVal enc jv dflt m) = some m' ∧ m'.NodupKeys := by
  refine steps_map_ok dec _ ?_ [] GoMap.nodupKeys_nil
  intro p hp
  simp only [mapItems, List.map_map, List.mem_map] at hp
  obtain ⟨k, _, rfl⟩ := hp
  exact h _

theorem decMap_clean {ν : Type} (enc : ν → Str) (jv : ν → JVal) (dflt : ν) (dec : JVal → Option ν) (g : ν → ν)
    (m : GoMap Str ν) (hm : CleanMap m) (h : ∀ p ∈ m, dec (jv p.2) = some (g p.2)) :
    ∃ m', decMap dec [] (mapVal enc jv dflt m) = some m' ∧ m'.NodupKeys ∧
      ∀ k, m'.get? k = (m.get? k).map g := by
  have hget : ∀ k ∈ sortStr (m.map Prod.fst), ∃ v, m.get? k = some v ∧ (k, v) ∈ m := by
    intro k hk
    rw [mem_sortStr] at hk
    obtain ⟨⟨a, v⟩, hp, rfl⟩ := List.mem_map.1 hk
    exact ⟨v, GoMap.get?_of_mem hm.nodup hp, hp⟩
  have hval : (mapItems enc jv dflt m).map (fun p => (sanitize p.1, p.2.2)) =
      (sortStr (m.map Prod.fst)).map fun k => (k, jv ((m.get? k).getD dflt)) := by
    unfold mapItems
    rw [List.map_map]
    apply List.map_congr_left
    intro k hk
    obtain ⟨v, _, hp⟩ := hget k hk
    simp only [Function.comp]
    rw [sanitize_valid (hm.keys _ hp)]
  have hnd : (sortStr (m.map Prod.fst)).Nodup := nodup_sortStr.2 hm.nodup
  refine ⟨(sortStr (m.map Prod.fst)).map fun k => (k, g ((m.get? k).getD dflt)), ?_, ?_, ?_⟩
  · unfold mapVal decMap
    simp only
    rw [hval]
    have := steps_map dec (fun k => g ((m.get? k).getD dflt)) (fun k => jv ((m.get? k).getD dflt)) _ (by
      intro k hk
      obtain ⟨v, hv, hp⟩ := hget k hk
      simp only [hv, Option.getD_some]
      exact h _ hp) hnd [] (by simp)
    simpa using this
  · unfold GoMap.NodupKeys
    rw [List.map_map]
    have : (sortStr (m.map Prod.fst)).map (Prod.fst ∘ fun k => (k, g ((m.get? k).getD dflt))) =
        sortStr (m.map Prod.fst) := by
      conv => rhs; rw [← List.map_id (sortStr (m.map Prod.fst))]
      rfl
    rw [this]
    exact hnd
  · intro k
    have hm2 : ∀ k, (m.get? k).map g = GoMap.get? (m.map fun p => (p.1, g p.2)) k := by
      intro k
      induction m with
      | nil => rfl
      | cons p m _ =>
        clear hget hval hnd hm h
        induction (p :: m) with
        | nil => rfl
        | cons q l ih =>
          rw [List.map_cons, GoMap.get?_cons, GoMap.get?_cons]
          split <;> simp [ih]
    rw [hm2]
    refine get?_listed (m.map fun p => (p.1, g p.2)) (fun k => g ((m.get? k).getD dflt)) _ ?_ ?_ k
    · intro k
      rw [mem_sortStr, List.map_map]
      rfl
    · intro k v hv
      rw [← hm2] at hv
      cases hg : m.get? k with
      | none => rw [hg] at hv; cases hv
      | some w =>
        rw [hg] at hv
        simp only [Option.map_some, Option.some.injEq] at hv
        simpa using hv

/-! ## The store -/

def entryVal (e : Entry) : JVal := mapVal quote (fun s => .str (sanitize s)) [] e

theorem text_entry (e : Entry) : Text (marshalEntry e) (entryVal e) := text_map _ _ _ text_quote e

def snapVal (s : Snapshot) : JVal := mapVal marshalEntry entryVal [] s

def dbItems (s : DB) : List (Str × Str × JVal) :=
  (if s.version = 0 then [] else [(b! "version", fmtNat s.version, .num (fmtNat s.version))])
    ++ (if s.snapshot = [] then [] else
      [(b! "snapshot", marshalMap marshalEntry [] s.snapshot, snapVal s.snapshot)])
    ++ (if s.log = [] then [] else [(b! "log", array (s.log.map marshalTx), .arr (s.log.map txVal))])

theorem marshal_items (s : DB) : marshal s = object ((dbItems s).map fun p => member p.1 p.2.1) := by
  unfold marshal dbItems
  simp only [List.map_append]
  congr 3 <;> split <;> rfl

theorem text_log (l : List Tx) : Text (array (l.map marshalTx)) (.arr (l.map txVal)) := by
  have := text_array (l.map fun t => (marshalTx t, txVal t)) (by
    intro p hp
    obtain ⟨t, _, rfl⟩ := List.mem_map.1 hp
    exact text_tx t)
  simpa [List.map_map, Function.comp_def] using this

theorem text_db (s : DB) : Text (marshal s) (.obj ((dbItems s).map fun p => (sanitize p.1, p.2.2))) := by
  rw [marshal_items]
  refine text_object _ ?_
  intro p hp
  simp only [dbItems, List.mem_append] at hp
  rcases hp with (hp | hp) | hp <;> split at hp
  · cases hp
  · rw [List.mem_singleton.1 hp]; exact text_fmtNat _
  · cases hp
  · rw [List.mem_singleton.1 hp]; exact text_map _ _ _ text_entry _
  · cases hp
  · rw [List.mem_singleton.1 hp]; exact text_log _

theorem parse_marshal (s : DB) :
    parse (marshal s) = some (.obj ((dbItems s).map fun p => (sanitize p.1, p.2.2))) :=
  parse_of_reads (text_db s) (by omega)

theorem sanitize_version : sanitize (b! "version") = b! "version" := by decide
theorem sanitize_snapshot : sanitize (b! "snapshot") = b! "snapshot" := by decide
theorem sanitize_log : sanitize (b! "log") = b! "log" := by decide

/-- what the members of a written store are read as, given what its snapshot is read as -/
theorem steps_db {s : DB} (hr : InRange s) {snap : Snapshot}
    (hs : s.snapshot ≠ [] → decMap (decMap (decStr []) []) [] (snapVal s.snapshot) = some snap)
    (hs' : s.snapshot = [] → snap = []) :
    steps dbMember DB.new ((dbItems s).map fun p => (sanitize p.1, p.2.2)) =
      some { version := s.version, snapshot := snap, log := s.log.map cleaned } := by
  unfold dbItems
  simp only [List.map_append, steps_append]
  have h1 : steps dbMember DB.new ((if s.version = 0 then [] else
      [(b! "version", fmtNat s.version, JVal.num (fmtNat s.version))]).map fun p => (sanitize p.1, p.2.2)) =
      some { version := s.version } := by
    split
    · rename_i h0; rw [h0]; rfl
    · simp only [List.map_cons, List.map_nil, steps, sanitize_version]
      have : dbMember DB.new (b! "version", JVal.num (fmtNat s.version)) = some { version := s.version } := by
        unfold dbMember
        rw [show fieldOf dbFields (b! "version") = some (b! "version") from by decide]
        simp only [if_true, decUint, parseDigits_fmtNat, hr.version, Option.map_some]
        rfl
      rw [this]
  rw [h1]
  simp only
  have h2 : steps dbMember { version := s.version } ((if s.snapshot = [] then [] else
      [(b! "snapshot", marshalMap marshalEntry [] s.snapshot, snapVal s.snapshot)]).map
        fun p => (sanitize p.1, p.2.2)) = some { version := s.version, snapshot := snap } := by
    split
    · rename_i h0
      rw [hs' h0]
      rfl
    · rename_i h0
      simp only [List.map_cons, List.map_nil, steps, sanitize_snapshot]
      have : dbMember { version := s.version } (b! "snapshot", snapVal s.snapshot) =
          some { version := s.version, snapshot := snap } := by
        unfold dbMember
        rw [show fieldOf dbFields (b! "snapshot") = some (b! "snapshot") from by decide]
        simp only [show ((b! "snapshot") = (b! "version")) = False from by decide, if_false, if_true, hs h0,
          Option.map_some]
      rw [this]
  rw [h2]
  simp only
  split
  · rename_i h0; rw [h0]; rfl
  · simp only [List.map_cons, List.map_nil, steps, sanitize_log]
    have : dbMember { version := s.version, snapshot := snap } (b! "log", JVal.arr (s.log.map txVal)) =
        some { version := s.version, snapshot := snap, log := s.log.map cleaned } := by
      unfold dbMember
      rw [show fieldOf dbFields (b! "log") = some (b! "log") from by decide]
      simp only [show ((b! "log") = (b! "version")) = False from by decide,
        show ((b! "log") = (b! "snapshot")) = False from by decide, if_false, decSlice, decLog_vals _ hr.time,
        Option.map_some]
    rw [this]

theorem loadLog_marshal {s : DB} (hr : InRange s) : loadLog (marshal s) = .ok (s.log.map cleaned) := by
  unfold loadLog
  rw [parse_marshal]
  simp only
  have key : steps logMember [] ((dbItems s).map fun p => (sanitize p.1, p.2.2)) = some (s.log.map cleaned) := by
    unfold dbItems
    simp only [List.map_append, steps_append]
    have h1 : steps logMember [] ((if s.version = 0 then [] else
        [(b! "version", fmtNat s.version, JVal.num (fmtNat s.version))]).map fun p => (sanitize p.1, p.2.2)) =
        some [] := by
      split
      · rfl
      · simp only [List.map_cons, List.map_nil, steps, sanitize_version, logMember,
          show fieldOf [b! "log"] (b! "version") = none from by decide]
    have h2 : steps logMember [] ((if s.snapshot = [] then [] else
        [(b! "snapshot", marshalMap marshalEntry [] s.snapshot, snapVal s.snapshot)]).map
          fun p => (sanitize p.1, p.2.2)) = some [] := by
      split
      · rfl
      · simp only [List.map_cons, List.map_nil, steps, sanitize_snapshot, logMember,
          show fieldOf [b! "log"] (b! "snapshot") = none from by decide]
    rw [h1]
    simp only
    rw [h2]
    simp only
    split
    · rename_i h0; rw [h0]; rfl
    · simp only [List.map_cons, List.map_nil, steps, sanitize_log, logMember,
        show fieldOf [b! "log"] (b! "log") = some (b! "log") from by decide, decSlice, decLog_vals _ hr.time]
  rw [key]

end Verif.Json
