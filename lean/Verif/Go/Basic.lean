/-!
# Go base layer

Byte strings, maps and outcomes shared by all layers of the model.

* Go `string` and `[]byte` are byte sequences: `Str = List UInt8`.
* A Go map is an association list (`GoMap`). Go's `range` over a map visits the entries in an unspecified
  order; model functions that range over a map take the visiting order as an argument, and theorems
  quantify over every order, i.e. every list that is a permutation of the map (`IterOrder`).
* A run-time panic is the outcome `Res.panic`.
-/
namespace Verif

/-- A Go `string` / `[]byte`. -/
abbrev Str := List UInt8

/-- `b! "text"` is the UTF-8 byte list of a literal. -/
macro "b!" s:str : term => do
  let cs := s.getString.toUTF8.toList
  let elems ← cs.toArray.mapM fun b => `(($(Lean.quote b.toNat) : UInt8))
  `(([$elems,*] : List UInt8))

/-- Outcome of a Go call: normal return, error return, or run-time panic. -/
inductive Res (ε α : Type) where
  | ok (a : α)
  | err (e : ε)
  | panic
  deriving Repr, DecidableEq

namespace Res
/-- sequencing: errors and panics propagate (`if err != nil { return err }`). -/
def bind {ε α β : Type} (x : Res ε α) (f : α → Res ε β) : Res ε β :=
  match x with
  | .ok a => f a
  | .err e => .err e
  | .panic => .panic

instance {ε : Type} : Monad (Res ε) where
  pure := .ok
  bind := bind

@[simp] theorem bind_ok {ε α β : Type} (a : α) (f : α → Res ε β) : (Res.ok a >>= f) = f a := rfl
@[simp] theorem bind_err {ε α β : Type} (e : ε) (f : α → Res ε β) :
    ((Res.err e : Res ε α) >>= f) = Res.err e := rfl
@[simp] theorem bind_panic {ε α β : Type} (f : α → Res ε β) :
    ((Res.panic : Res ε α) >>= f) = Res.panic := rfl
@[simp] theorem pure_eq {ε α : Type} (a : α) : (pure a : Res ε α) = Res.ok a := rfl

theorem bind_eq_ok {ε α β : Type} {x : Res ε α} {f : α → Res ε β} {b : β} :
    (x >>= f) = .ok b ↔ ∃ a, x = .ok a ∧ f a = .ok b := by
  cases x <;> simp
end Res

/-! ## Maps -/

/-- A Go `map[K]V` as an association list. -/
abbrev GoMap (κ ν : Type) := List (κ × ν)

namespace GoMap
variable {κ ν : Type} [DecidableEq κ]

/-- `v, ok := m[k]` -/
def get? (m : GoMap κ ν) (k : κ) : Option ν :=
  match m with
  | [] => none
  | (k', v) :: m => if k' = k then some v else get? m k

/-- `m[k] = v` -/
def set (m : GoMap κ ν) (k : κ) (v : ν) : GoMap κ ν :=
  match m with
  | [] => [(k, v)]
  | (k', v') :: m => if k' = k then (k, v) :: m else (k', v') :: set m k v

/-- `delete(m, k)` -/
def del (m : GoMap κ ν) (k : κ) : GoMap κ ν := m.filter (fun p => p.1 ≠ k)

/-- no key occurs twice (every Go map satisfies this) -/
def NodupKeys (m : GoMap κ ν) : Prop := (m.map Prod.fst).Nodup

@[simp] theorem get?_nil (k : κ) : get? ([] : GoMap κ ν) k = none := rfl

theorem get?_cons (p : κ × ν) (m : GoMap κ ν) (k : κ) :
    get? (p :: m) k = if p.1 = k then some p.2 else get? m k := by
  cases p; rfl

theorem get?_set (m : GoMap κ ν) (k k' : κ) (v : ν) :
    get? (set m k v) k' = if k' = k then some v else get? m k' := by
  induction m with
  | nil => simp [set, get?, eq_comm]
  | cons p m ih =>
    obtain ⟨a, b⟩ := p
    by_cases h : a = k
    · subst h
      simp only [set, if_true, get?_cons]
      by_cases h' : a = k'
      · simp [h']
      · simp [h', Ne.symm h']
    · simp only [set, h, if_false, get?_cons, ih]
      by_cases h' : a = k'
      · subst h'; simp [h]
      · simp [h']

@[simp] theorem get?_set_self (m : GoMap κ ν) (k : κ) (v : ν) : get? (set m k v) k = some v := by
  simp [get?_set]

theorem get?_set_ne (m : GoMap κ ν) {k k' : κ} (h : k' ≠ k) (v : ν) :
    get? (set m k v) k' = get? m k' := by
  simp [get?_set, h]

theorem get?_del (m : GoMap κ ν) (k k' : κ) :
    get? (del m k) k' = if k' = k then none else get? m k' := by
  induction m with
  | nil => simp [del]
  | cons p m ih =>
    obtain ⟨a, b⟩ := p
    unfold del at ih ⊢
    by_cases h : a = k
    · subst h
      simp only [List.filter_cons, ne_eq, not_true_eq_false, decide_false, Bool.false_eq_true,
        if_false, ih, get?_cons]
      by_cases h' : k' = a
      · simp [h']
      · simp [h', Ne.symm h']
    · simp only [List.filter_cons, ne_eq, h, not_false_eq_true, decide_true, if_true, get?_cons, ih]
      by_cases h' : a = k'
      · subst h'; simp [h]
      · simp [h']

@[simp] theorem get?_del_self (m : GoMap κ ν) (k : κ) : get? (del m k) k = none := by
  simp [get?_del]

theorem get?_del_ne (m : GoMap κ ν) {k k' : κ} (h : k' ≠ k) :
    get? (del m k) k' = get? m k' := by
  simp [get?_del, h]

theorem mem_of_get? {m : GoMap κ ν} {k : κ} {v : ν} (h : get? m k = some v) : (k, v) ∈ m := by
  induction m with
  | nil => simp at h
  | cons p m ih =>
    obtain ⟨a, b⟩ := p
    simp only [get?_cons] at h
    split at h
    · rename_i h'
      simp at h; subst h h'; simp
    · exact List.mem_cons_of_mem _ (ih h)

theorem get?_eq_none_iff {m : GoMap κ ν} {k : κ} : get? m k = none ↔ k ∉ m.map Prod.fst := by
  induction m with
  | nil => simp
  | cons p m ih =>
    obtain ⟨a, b⟩ := p
    simp only [get?_cons, List.map_cons, List.mem_cons, not_or]
    by_cases h : a = k
    · simp [h]
    · simp [h, ih, Ne.symm h]

theorem get?_of_mem {m : GoMap κ ν} (hn : NodupKeys m) {k : κ} {v : ν} (h : (k, v) ∈ m) :
    get? m k = some v := by
  induction m with
  | nil => simp at h
  | cons p m ih =>
    obtain ⟨a, b⟩ := p
    simp only [NodupKeys, List.map_cons, List.nodup_cons] at hn
    simp only [get?_cons]
    rcases List.mem_cons.1 h with h | h
    · cases h; simp
    · have : a ≠ k := by
        rintro rfl
        exact hn.1 (List.mem_map.2 ⟨_, h, rfl⟩)
      simp [this, ih hn.2 h]

theorem mem_iff_get? {m : GoMap κ ν} (hn : NodupKeys m) {k : κ} {v : ν} :
    (k, v) ∈ m ↔ get? m k = some v := ⟨get?_of_mem hn, mem_of_get?⟩

theorem map_fst_set_subset (m : GoMap κ ν) (k : κ) (v : ν) :
    ∀ x, x ∈ (set m k v).map Prod.fst ↔ x = k ∨ x ∈ m.map Prod.fst := by
  intro x
  have h1 : (x ∈ (set m k v).map Prod.fst) ↔ ¬ get? (set m k v) x = none := by
    rw [get?_eq_none_iff]; simp
  have h2 : (x ∈ m.map Prod.fst) ↔ ¬ get? m x = none := by
    rw [get?_eq_none_iff]; simp
  rw [h1, h2, get?_set]
  by_cases h : x = k <;> simp [h]

omit [DecidableEq κ] in
theorem nodupKeys_nil : NodupKeys ([] : GoMap κ ν) := by simp [NodupKeys]

theorem nodupKeys_set {m : GoMap κ ν} (hn : NodupKeys m) (k : κ) (v : ν) :
    NodupKeys (set m k v) := by
  induction m with
  | nil => simp [NodupKeys, set]
  | cons p m ih =>
    obtain ⟨a, b⟩ := p
    have hn' := hn
    simp only [NodupKeys, List.map_cons, List.nodup_cons] at hn'
    by_cases h : a = k
    · subst h
      simp only [set, if_true]
      simpa [NodupKeys] using hn'
    · simp only [set, h, if_false]
      simp only [NodupKeys, List.map_cons, List.nodup_cons]
      refine ⟨?_, ih hn'.2⟩
      rw [map_fst_set_subset]
      simp [h]
      simpa using hn'.1

theorem nodupKeys_del {m : GoMap κ ν} (hn : NodupKeys m) (k : κ) : NodupKeys (del m k) := by
  unfold NodupKeys del at *
  exact List.Nodup.sublist (List.Sublist.map _ List.filter_sublist) hn

end GoMap

/-- `ord` is a possible visiting order of Go's `range m`. -/
def IterOrder {κ ν : Type} (ord m : GoMap κ ν) : Prop := ord.Perm m

end Verif
