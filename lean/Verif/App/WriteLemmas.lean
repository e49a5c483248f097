import Verif.App.EffectLemmas
import Verif.App.InputProps
/-!
# Which operations the commands write

Every command other than `sync` only appends operations to the log. The lemmas here say which: given a predicate on operations
that holds for everything the commands make of the store, the line and what the environment supplies (`Rules`), all operations
appended satisfy it.
-/
set_option linter.unusedSimpArgs false
namespace Verif.App
open Verif Verif.Txlogs Verif.Blob Verif.Crypt Verif.App.Spec

/-- an operation that shows in the date of the entry: it adds the entry, or writes or removes a key, except that the date itself, the
records of users, and the removal of all labels do not; `F` is an entry that is being made -/
def ShowsDate (F : Str) (t : Tx) : Prop :=
  t.kind = .add ∨ ((t.kind = .setk ∨ t.kind = .delk) ∧ t.uuid ≠ F ∧ t.key ∉ [keyUpdated, keySalt, keyIV, keyMKey] ∧
    ¬ (t.kind = .delk ∧ t.key = keyLabels))

/-- Operations that show in the date come with an operation that writes it. -/
def Marks (F : Str) (l : List Tx) : Prop :=
  ∀ t ∈ l, ShowsDate F t → ∃ t' ∈ l, t'.kind = .setk ∧ t'.uuid = t.uuid ∧ t'.key = keyUpdated

theorem Marks.append {F : Str} {l m : List Tx} (h : Marks F l) (h' : Marks F m) : Marks F (l ++ m) := by
  intro t ht hs
  rcases List.mem_append.1 ht with ht | ht
  · obtain ⟨t', h1, h2⟩ := h t ht hs
    exact ⟨t', by simp [h1], h2⟩
  · obtain ⟨t', h1, h2⟩ := h' t ht hs
    exact ⟨t', by simp [h1], h2⟩

/-- `s'` is `s` with operations satisfying `Q` appended to the log, and what shows in the date of an entry other than `F` is dated. -/
def Adds (Q : Tx → Prop) (F : Str) (s s' : DB) : Prop := ∃ l, s'.log = s.log ++ l ∧ (∀ tx ∈ l, Q tx) ∧ Marks F l

theorem Adds.refl {Q : Tx → Prop} {F : Str} (s : DB) : Adds Q F s s := ⟨[], by simp, by simp, by simp [Marks]⟩

theorem Adds.trans {Q : Tx → Prop} {F : Str} {a b c : DB} (h : Adds Q F a b) (h' : Adds Q F b c) : Adds Q F a c := by
  obtain ⟨l, h1, h2, h5⟩ := h
  obtain ⟨m, h3, h4, h6⟩ := h'
  exact ⟨l ++ m, by rw [h3, h1, List.append_assoc], fun tx htx => (List.mem_append.1 htx).elim (h2 tx) (h4 tx), h5.append h6⟩

theorem adds_log {Q : Tx → Prop} {F : Str} {s s' : DB} (h : s'.log = s.log) : Adds Q F s s' := ⟨[], by simp [h], by simp, by simp [Marks]⟩

theorem adds_put {Q : Tx → Prop} {F : Str} (s : DB) {t : Int} {w k x : Str} (h : Q ⟨t, .setk, w, k, x⟩)
    (hm : w = F ∨ k ∈ [keyUpdated, keySalt, keyIV, keyMKey]) : Adds Q F s (s.setKey t w k x) :=
  ⟨[_], rfl, by simpa using h, by
    intro y hy hs
    simp only [List.mem_cons, List.not_mem_nil, or_false] at hy
    subst hy
    rcases hs with h1 | ⟨-, h1, h2, -⟩
    · cases h1
    · exact hm.elim (fun h => absurd h h1) (fun h => absurd h h2)⟩

/-- the date and a key -/
theorem adds_pair {Q : Tx → Prop} {F : Str} (s : DB) {t t' : Int} {w k x d : Str} (h : Q ⟨t, .setk, w, keyUpdated, d⟩)
    (h' : Q ⟨t', .setk, w, k, x⟩) : Adds Q F s ((s.setKey t w keyUpdated d).setKey t' w k x) :=
  ⟨[⟨t, .setk, w, keyUpdated, d⟩, ⟨t', .setk, w, k, x⟩], by simp [DB.setKey, DB.appendLog], by
    intro y hy
    simp only [List.mem_cons, List.not_mem_nil, or_false] at hy
    rcases hy with rfl | rfl
    · exact h
    · exact h', by
    intro y hy _
    refine ⟨_, List.mem_cons_self, rfl, ?_, rfl⟩
    simp only [List.mem_cons, List.not_mem_nil, or_false] at hy
    rcases hy with rfl | rfl <;> rfl⟩

theorem adds_pairCut {Q : Tx → Prop} {F : Str} (s : DB) {t t' : Int} {w k d : Str} (h : Q ⟨t, .setk, w, keyUpdated, d⟩)
    (h' : Q ⟨t', .delk, w, k, []⟩) : Adds Q F s ((s.setKey t w keyUpdated d).deleteKey t' w k) :=
  ⟨[⟨t, .setk, w, keyUpdated, d⟩, ⟨t', .delk, w, k, []⟩], by simp [DB.setKey, DB.deleteKey, DB.appendLog], by
    intro y hy
    simp only [List.mem_cons, List.not_mem_nil, or_false] at hy
    rcases hy with rfl | rfl
    · exact h
    · exact h', by
    intro y hy _
    refine ⟨_, List.mem_cons_self, rfl, ?_, rfl⟩
    simp only [List.mem_cons, List.not_mem_nil, or_false] at hy
    rcases hy with rfl | rfl <;> rfl⟩

/-- removing all labels -/
theorem adds_cut {Q : Tx → Prop} {F : Str} (s : DB) {t : Int} {w : Str} (h : Q ⟨t, .delk, w, keyLabels, []⟩) :
    Adds Q F s (s.deleteKey t w keyLabels) :=
  ⟨[_], rfl, by simpa using h, by
    intro y hy hs
    simp only [List.mem_cons, List.not_mem_nil, or_false] at hy
    subst hy
    rcases hs with h1 | ⟨-, -, -, h2⟩
    · cases h1
    · exact absurd ⟨rfl, rfl⟩ h2⟩

theorem adds_del {Q : Tx → Prop} {F : Str} (s : DB) {t : Int} {w : Str} (h : Q ⟨t, .del, w, [], []⟩) : Adds Q F s (s.delete t w) :=
  ⟨[_], rfl, by simpa using h, by
    intro y hy hs
    simp only [List.mem_cons, List.not_mem_nil, or_false] at hy
    subst hy
    rcases hs with h1 | ⟨h1 | h1, -⟩ <;> cases h1⟩

/-- a new entry with its date and a key -/
theorem adds_add {Q : Tx → Prop} {F : Str} (s : DB) {t t' t'' : Int} {w d k x : Str} (h : Q ⟨t, .add, w, [], []⟩)
    (h' : Q ⟨t', .setk, w, keyUpdated, d⟩) (h'' : Q ⟨t'', .setk, w, k, x⟩) :
    Adds Q F s (((s.add t w).setKey t' w keyUpdated d).setKey t'' w k x) :=
  ⟨[⟨t, .add, w, [], []⟩, ⟨t', .setk, w, keyUpdated, d⟩, ⟨t'', .setk, w, k, x⟩], by simp [DB.add, DB.setKey, DB.appendLog], by
    intro y hy
    simp only [List.mem_cons, List.not_mem_nil, or_false] at hy
    rcases hy with rfl | rfl | rfl
    · exact h
    · exact h'
    · exact h'', by
    intro y hy _
    refine ⟨_, List.mem_cons_of_mem _ List.mem_cons_self, rfl, ?_, rfl⟩
    simp only [List.mem_cons, List.not_mem_nil, or_false] at hy
    rcases hy with rfl | rfl | rfl <;> rfl⟩

theorem adds_set {Q : Tx → Prop} (s : DB) {now : Nat → Int} {w k x : Str} (h : Q ⟨now 1, .setk, w, keyUpdated, fmtInt (now 0)⟩)
    (h' : protectedKeys.any (fun p => equalFold k p) = false → Q ⟨now 2, .setk, w, k, x⟩) :
    Adds Q F s (Blob.set now s w k x).1 := by
  unfold Blob.set
  split
  · exact Adds.refl _
  · rename_i hp
    exact adds_pair s h (h' (by simpa using hp))

theorem adds_deleteKey {Q : Tx → Prop} (s : DB) {now : Nat → Int} {w k : Str}
    (h : Q ⟨now 1, .setk, w, keyUpdated, fmtInt (now 0)⟩)
    (h' : k ≠ keyName → k ≠ keyUpdated → Q ⟨now 2, .delk, w, k, []⟩) :
    Adds Q F s (Blob.deleteKey now s w k).1 := by
  unfold Blob.deleteKey
  split
  · exact Adds.refl _
  · rename_i hp
    rw [not_or] at hp
    exact adds_pairCut s h (h' hp.1 hp.2)

theorem adds_lift_ {Q : Tx → Prop} {u : Session} {o : Out Unit} (h : Adds Q F u.store o.1) :
    Adds Q F u.store (lift_ u o).1.store := by
  obtain ⟨s, r⟩ := o
  cases r <;> exact h

/-- What the operations of a turn in store `s` are made of satisfies `V` (values) and `K` (keys), and then they satisfy `Q`. -/
structure Rules (v : Env) (s : DB) (V K : Str → Prop) (Q : Tx → Prop) : Prop where
  put : ∀ i w k x, (Blob.Exists s w ∨ w = v.d.uuid) → K k → V x → Q ⟨v.d.now i, .setk, w, k, x⟩
  cut : ∀ i w k, Blob.Exists s w → K k → Q ⟨v.d.now i, .delk, w, k, []⟩
  add : ∀ i, Q ⟨v.d.now i, .add, v.d.uuid, [], []⟩
  touch : ∀ j w, j < 12 → (Blob.Exists s w ∨ w = v.d.uuid) → Q ⟨v.d.now (j + 1), .setk, w, keyUpdated, fmtInt (v.d.now j)⟩
  keys : ∀ k ∈ [keyTwoFactor, keyUser, keyEmail, keyPass, keyLabels, keySync, keyURL, keyPriv, keyPub], K k
  ascii : ∀ x : Str, x.all (fun b => b.toNat < 0x80) = true → V x
  inp : ∀ x, some x ∈ v.d.inp → V x
  join : ∀ (c : UInt8) l, c.toNat < 0x80 → (∀ x ∈ l, V x) → V (join c l)
  split : ∀ x, V x → ∀ y ∈ split comma x, V y
  old : ∀ w e k x, Blob.Spec.Visible s w e → e k = some x → V x
  otp : ∀ w x, Blob.Exists s w → V x → V (v.otpUri w x)
  editor : ∀ x y, V x → v.editor x = some (some y) → V y
  fileUrl : ∀ x y, V x → v.fileUrl x = some y → V y
  scpUrl : ∀ a b c d p, V a → V b → V c → V d → (∀ x, p = some x → V x) → V (v.scpUrl a b c d p)
  keypair : ∀ a b, v.keys = some (a, b) → V a ∧ V b

theorem fmtNat_ascii (n : Nat) : (fmtNat n).all (fun b => b.toNat < 0x80) = true := by
  rw [List.all_eq_true]
  intro b hb
  have := List.all_eq_true.1 (fmtNat_facts n).2.1 b hb
  simp only [isDigit, Bool.and_eq_true, decide_eq_true_eq] at this ⊢
  omega

theorem fmtInt_ascii (i : Int) : (fmtInt i).all (fun b => b.toNat < 0x80) = true := by
  unfold fmtInt
  split
  · rw [List.all_cons, fmtNat_ascii]; decide
  · exact fmtNat_ascii _

theorem gen_ascii {c : Classes} {length : Int} {pw : Str} (h : Meets length c pw) : pw.all (fun b => b.toNat < 0x80) = true := by
  rw [List.all_eq_true]
  intro b hb
  obtain ⟨p, hp, -, h2⟩ := h.only b hb
  have key : ∀ l ∈ [alphabetUppercase, alphabetLowercase, alphabetNumbers, alphabetBasicSymbols, alphabetExtraSymbols],
      ∀ b ∈ l, b.toNat < 0x80 := by decide
  simp only [decide_eq_true_eq]
  simp only [Classes.all, List.mem_cons, List.not_mem_nil, or_false] at hp
  rcases hp with rfl | rfl | rfl | rfl | rfl <;> exact key _ (by simp) b h2

theorem Rules.password {v : Env} {s : DB} {V K : Str → Prop} {Q : Tx → Prop} (R : Rules v s V K Q) {ent : Nat → Nat → UInt8}
    {inp : Input} (hi : inp <:+ v.d.inp) {pw : Str} (h : getPassword ent inp = .ok pw) : V pw := by
  rcases C63_returned ent inp pw h with ⟨a, b, rfl⟩ | ⟨-, length, classes, i, ⟨-, h⟩ | ⟨rfl, -⟩⟩
  · refine R.inp pw (hi.subset ?_)
    simp
  · exact R.ascii _ (gen_ascii h)
  · exact R.ascii _ rfl

theorem multiline_mem {V : Str → Prop} (hnil : V []) (hj : ∀ (c : UInt8) l, c.toNat < 0x80 → (∀ x ∈ l, V x) → V (join c l))
    (ctrlC : Bool) (inp : Input) (hi : ∀ x, some x ∈ inp → V x) (ls : List Str) (hl : ∀ x ∈ ls, V x) (blank : Bool) {t : Str}
    {rest : Input} (h : promptMultiline ctrlC inp ls blank = (some t, rest)) : V t := by
  induction inp generalizing ls blank with
  | nil =>
    unfold promptMultiline at h
    split at h <;> cases h
    exact hj _ _ (by decide) hl
  | cons a inp ih =>
    cases a with
    | none =>
      unfold promptMultiline at h
      split at h <;> cases h
      exact hj _ _ (by decide) hl
    | some line =>
      have hi' : ∀ x, some x ∈ inp → V x := fun x hx => hi x (List.mem_cons_of_mem _ hx)
      unfold promptMultiline at h
      split at h
      · cases h; exact hj _ _ (by decide) hl
      · split at h
        · split at h
          · cases h; exact hj _ _ (by decide) hl
          · exact ih hi' ls hl true h
        · refine ih hi' _ ?_ false h
          intro x hx
          rw [List.mem_append, List.mem_singleton] at hx
          rcases hx with hx | rfl
          · split at hx
            · rw [List.mem_append, List.mem_singleton] at hx
              rcases hx with hx | rfl
              · exact hl x hx
              · exact hnil
            · exact hl x hx
          · exact hi x (by simp)

theorem Rules.multiline {v : Env} {s : DB} {V K : Str → Prop} {Q : Tx → Prop} (R : Rules v s V K Q) {t : Str} {rest : Input}
    (h : promptMultiline v.ctrlC v.d.inp [] false = (some t, rest)) : V t :=
  multiline_mem (R.ascii _ rfl) R.join _ _ R.inp [] (by simp) _ h

theorem labelLoop_mem {V : Str → Prop} (v : Env) (inp : Input) (hi : ∀ x, some x ∈ inp → V x) (ls : List Str)
    (hl : ∀ x ∈ ls, V x) (c : Bool) {ls' : List Str} {c' : Bool} (h : labelLoop v inp ls c = some (ls', c')) :
    ∀ x ∈ ls', V x := by
  induction inp generalizing ls c with
  | nil =>
    unfold labelLoop at h
    split at h <;> cases h
    exact hl
  | cons a inp ih =>
    cases a with
    | none =>
      unfold labelLoop at h
      split at h <;> cases h
      exact hl
    | some line =>
      have hi' : ∀ x, some x ∈ inp → V x := fun x hx => hi x (List.mem_cons_of_mem _ hx)
      unfold labelLoop at h
      split at h
      · cases h; exact hl
      · split at h
        · refine ih hi' _ ?_ _ h
          intro x hx
          rw [List.mem_append, List.mem_singleton] at hx
          rcases hx with hx | rfl
          · exact hl x hx
          · exact hi x (by simp)
        · exact ih hi' _ hl _ h

/-! ## Commands -/

section
variable {v : Env} {u : Session} {V K : Str → Prop} {Q : Tx → Prop}

theorem adds_one {α : Type} (hv : EnvOk v u.store) (h : WellFormed u.store) (q : Str) (d : α)
    (k : Session → Str → Session × Res AppErr α)
    (hk : ∀ u' uuid, u'.store.log = u.store.log → WellFormed u'.store → Fresh u'.store → Blob.Exists u.store uuid →
      Adds Q F u'.store (k u' uuid).1.store) : Adds Q F u.store (one v u q d k).1.store := by
  obtain ⟨id, h1, h2⟩ := wf_findOne v.lower hv.ord hv.ord' h q
  obtain ⟨-, hf, hg, hlog⟩ := good_withSnapshot h.good (fun s => ((s, .panic) : Out Str))
  unfold one
  rw [h1]
  simp only [lift]
  split
  · exact adds_log hlog
  · rename_i hid
    obtain ⟨n, hn⟩ := h2 hid
    exact (adds_log hlog).trans (hk { u with store := u.store.updateSnapshot.1 } id hlog (wf_update h) hf (exists_of_named hn))

theorem adds_oneEntry {α : Type} (hv : EnvOk v u.store) (h : WellFormed u.store) (q : Str) (d : α)
    (k : Session → Str → Entry → Session × Res AppErr α)
    (hk : ∀ u' uuid e, u'.store.log = u.store.log → WellFormed u'.store → Fresh u'.store →
      Blob.Spec.Visible u.store uuid (fun k => e.get? k) → Adds Q F u'.store (k u' uuid e).1.store) :
    Adds Q F u.store (oneEntry v u q d k).1.store := by
  unfold oneEntry
  refine adds_one hv h q d _ ?_
  rintro u' uuid hl hw hf ⟨e, he⟩
  obtain ⟨en, h1, rfl, -, -⟩ := mustFind_visible hw.good.ok uuid e ((visible_log hl _ _).2 he)
  rw [update_fresh hf] at h1
  rw [h1]
  exact hk u' uuid en hl hw hf he

theorem adds_setCmd (hv : EnvOk v u.store) (h : WellFormed u.store) (R : Rules v u.store V K Q) (q key value : Str)
    (hx : V value) (hk : protectedKeys.any (fun p => equalFold key p) = false → K key) :
    Adds Q F u.store (setCmd v u q key value).1.store := by
  unfold setCmd
  refine adds_one hv h q _ _ ?_
  intro u' uuid hl hw hf he
  have hset : ∀ x, V x → Adds Q F u'.store (lift_ u' (Blob.set v.d.now u'.store uuid key x)).1.store := fun x h1 =>
    adds_lift_ (adds_set _ (R.touch 0 _ (by decide) (.inl he)) (fun hp => R.put _ _ _ _ (.inl he) (hk hp) h1))
  have h2 : Adds Q F u'.store (lift_ u' (setTwofactor v.otpUri v.otpOk v.d.now u'.store uuid value)).1.store := by
    refine adds_lift_ ?_
    unfold setTwofactor
    dsimp only
    generalize hg : (if hasPrefix value (b! "otpauth://") = true then value else v.otpUri uuid value) = g
    have hV : V g := by
      subst hg
      split
      · exact hx
      · exact R.otp _ _ he hx
    split
    · exact adds_pair _ (R.touch 0 _ (by decide) (.inl he)) (R.put _ _ keyTwoFactor _ (.inl he) (R.keys _ (by simp)) hV)
    · exact Adds.refl _
  split
  · split
    · split
      · exact Adds.refl _
      · exact Adds.refl _
      · rename_i hpw; exact hset _ (R.password (List.suffix_refl _) hpw)
    · exact hset _ hx
  · split
    · exact h2
    · split
      · split
        · exact hset _ hx
        · exact Adds.refl _
      · split
        · split
          · exact Adds.refl _
          · rename_i hm; exact hset _ (R.multiline hm)
        · exact hset _ hx

theorem Rules.val {s : DB} (R : Rules v s V K Q) {w : Str} {en : Entry} (h : Blob.Spec.Visible s w (fun k => en.get? k)) (k : Str) :
    V (Blob.val en k) := by
  unfold Blob.val
  cases hx : en.get? k with
  | none => exact R.ascii _ rfl
  | some x => exact R.old _ _ _ _ h hx

theorem adds_edit (hv : EnvOk v u.store) (h : WellFormed u.store) (R : Rules v u.store V K Q) (q key : Str)
    (hk : protectedKeys.any (fun p => equalFold key p) = false → K key) (hd : key ≠ keyName → key ≠ keyUpdated → K key) :
    Adds Q F u.store (edit v u q key).1.store := by
  unfold edit
  refine adds_one hv h q _ _ ?_
  rintro u' uuid hl hw hf ⟨e, he⟩
  have hex : Blob.Exists u.store uuid := ⟨_, he⟩
  obtain ⟨en, h1, rfl, -, -⟩ := mustFind_visible hw.good.ok uuid e ((visible_log hl _ _).2 he)
  rw [update_fresh hf] at h1
  rw [h1]
  simp only [lift]
  split
  · exact Adds.refl _
  · exact Adds.refl _
  · rename_i y hy
    split
    · exact adds_lift_ (adds_deleteKey _ (R.touch 0 _ (by decide) (.inl hex)) (fun a b => R.cut _ _ _ hex (hd a b)))
    · exact adds_lift_ (adds_set _ (R.touch 0 _ (by decide) (.inl hex)) (fun hp => R.put _ _ _ _ (.inl hex) (hk hp)
        (R.editor _ _ (R.val he key) hy)))

theorem adds_deleteKeyCmd (hv : EnvOk v u.store) (h : WellFormed u.store) (R : Rules v u.store V K Q) (q key : Str)
    (hd : key ≠ keyName → key ≠ keyUpdated → K key) : Adds Q F u.store (deleteKeyCmd v u q key).1.store := by
  unfold deleteKeyCmd
  refine adds_oneEntry hv h q _ _ ?_
  intro u' uuid e hl hw hf he
  have hex : Blob.Exists u.store uuid := ⟨_, he⟩
  split
  · exact adds_lift_ (adds_deleteKey _ (R.touch 0 _ (by decide) (.inl hex)) (fun a b => R.cut _ _ _ hex (hd a b)))
  · exact Adds.refl _

theorem adds_addLabels (hv : EnvOk v u.store) (h : WellFormed u.store) (R : Rules v u.store V K Q) (q : Str) :
    Adds Q F u.store (addLabels v u q).1.store := by
  unfold addLabels
  refine adds_oneEntry hv h q _ _ ?_
  intro u' uuid e hl hw hf he
  have hex : Blob.Exists u.store uuid := ⟨_, he⟩
  split
  · exact Adds.refl _
  · exact Adds.refl _
  · rename_i ls hls
    have hold : ∀ x ∈ labels e, V x := by
      intro x hx
      unfold labels at hx
      dsimp only at hx
      split at hx
      · simp at hx
      · exact R.split _ (R.val he _) x hx
    have h2 : Adds Q F u'.store (lift_ u' (Blob.set v.d.now u'.store uuid keyLabels (join comma ls))).1.store :=
      adds_lift_ (adds_set _ (R.touch 0 _ (by decide) (.inl hex)) (fun _ => R.put _ _ _ _ (.inl hex) (R.keys _ (by simp))
        (R.join _ _ (by decide) (labelLoop_mem v _ R.inp _ hold _ hls))))
    split
    · rename_i h'
      rw [h'] at h2
      split <;> exact h2
    · exact h2

theorem mem_eraseIdx_drop {ls : List Str} {i : Nat} {x : Str}
    (h : x ∈ (ls.eraseIdx i ++ ls.drop (ls.length - 1)).drop ((ls.eraseIdx i ++ ls.drop (ls.length - 1)).length - 1)) : x ∈ ls := by
  have := List.mem_of_mem_drop h
  rw [List.mem_append] at this
  exact this.elim (fun h => List.mem_of_mem_eraseIdx h) List.mem_of_mem_drop

theorem adds_deleteLabel (hv : EnvOk v u.store) (h : WellFormed u.store) (R : Rules v u.store V K Q) (q l : Str) :
    Adds Q F u.store (deleteLabel v u q l).1.store := by
  unfold deleteLabel
  refine adds_oneEntry hv h q _ _ ?_
  intro u' uuid e hl hw hf he
  have hex : Blob.Exists u.store uuid := ⟨_, he⟩
  split
  · exact Adds.refl _
  · rename_i i hi
    have h2 : Adds Q F u'.store (removeLabel v.d.now u'.store uuid i).1 := by
      obtain ⟨en, h1, he', -, -⟩ := mustFind_visible hw.good.ok uuid _ ((visible_log hl _ _).2 he)
      rw [update_fresh hf] at h1
      have he2 : Blob.Spec.Visible u.store uuid (fun k => en.get? k) := by rw [← he']; exact he
      unfold removeLabel
      rw [h1]
      dsimp only
      split
      · exact Adds.refl _
      · split
        · exact adds_cut _ (R.cut _ _ _ hex (R.keys _ (by simp)))
        · split
          · exact Adds.refl _
          · refine adds_pair _ (R.touch 0 _ (by decide) (.inl hex)) (R.put _ _ _ _ (.inl hex) (R.keys _ (by simp))
              (R.join _ _ (by decide) ?_))
            intro x hx
            exact R.split _ (R.val he2 _) x (mem_eraseIdx_drop hx)
    cases hr : removeLabel v.d.now u'.store uuid i with
    | mk s o =>
      rw [hr] at h2
      cases o with
      | panic => exact h2
      | err e => exact h2
      | ok a =>
        simp only [lift]
        split <;> exact h2

theorem adds_new {ord : Order} {s : DB} {now : Nat → Int} {uuid nm : Str} (h1 : Q ⟨now 0, .add, uuid, [], []⟩)
    (h2 : Q ⟨now 2, .setk, uuid, keyUpdated, fmtInt (now 1)⟩) (h3 : Q ⟨now 3, .setk, uuid, keyName, nm⟩) :
    Adds Q F s (new ord now uuid s nm).1 := by
  unfold new withSnapshot
  have hl := updateSnapshot_log s
  cases hu : s.updateSnapshot with
  | mk s' o =>
    rw [hu] at hl
    cases o with
    | some e => exact adds_log hl
    | none =>
      simp only
      split
      · exact adds_log hl
      · exact adds_log hl
      · exact (adds_log hl).trans (adds_add _ h1 h2 h3)

theorem adds_begin {s s' : DB} (h : Adds Q F s.begin s') : Adds Q F s s' := h

theorem adds_setNonEmpty (s : DB) {t : Int} {w k x : Str} (h : x ≠ [] → Q ⟨t, .setk, w, k, x⟩) : Adds Q w s (setNonEmpty s t w k x) := by
  unfold setNonEmpty
  split
  · exact Adds.refl _
  · rename_i hx; exact adds_put _ (h hx) (.inl rfl)

theorem adds_doCmd {f : Session → Session × Res AppErr Unit} (h0 : u.store.txPoint = 0) (h : WellFormed u.store)
    (hb : Body False u (f { u with store := u.store.begin }))
    (hf : (f { u with store := u.store.begin }).2 = .ok () → Adds Q F u.store (f { u with store := u.store.begin }).1.store)
    (hn : (doCmd u f).2 ≠ .panic) : Adds Q F u.store (doCmd u f).1.store := by
  obtain ⟨-, h1, h2⟩ := doCmd_spec (L := fun _ => False) h0 h hb
  cases hr : (doCmd u f).2 with
  | panic => exact absurd hr hn
  | err e => exact adds_log (h1 e hr).log
  | ok a =>
    obtain ⟨h3, h4⟩ := h2 hr
    rw [h4]
    exact hf h3

theorem prompt_mem {inp : Input} {x : Str} {rest : Input} (h : prompt inp = (some x, rest)) : some x ∈ inp ∧ rest <:+ inp := by
  have h2 := prompt_suffix inp
  rw [h] at h2
  refine ⟨?_, h2⟩
  cases inp with
  | nil => cases h
  | cons a l =>
    cases a with
    | none => cases h
    | some y => cases h; simp

theorem adds_addNew (h0 : u.store.txPoint = 0) (hv : EnvOk v u.store) (h : WellFormed u.store) (R : Rules v u.store V K Q)
    (nm : Str) (hn : ValidUtf8 nm) (hq : ∀ i, Q ⟨v.d.now i, .setk, v.d.uuid, keyName, nm⟩) (hp : (addNew v u nm).2 ≠ .panic) :
    Adds Q v.d.uuid u.store (addNew v u nm).1.store := by
  rw [addNew_eq] at hp ⊢
  refine adds_doCmd h0 h (body_add hv h nm hn (fun k => k.elim)) (fun hr => ?_) hp
  have h1 := adds_new (Q := Q) (F := v.d.uuid) (ord := v.ord) (s := u.store.begin) (now := v.d.now) (R.add 0) (R.touch 1 _ (by decide) (.inr rfl)) (hq 3)
  have hw : ∀ k x i s, k ∈ [keyUser, keyEmail, keyPass] → V x → Adds Q v.d.uuid s (setNonEmpty s (v.d.now i) v.d.uuid k x) :=
    fun k x i s hk hx => adds_setNonEmpty _ (fun _ => R.put _ _ _ _ (.inr rfl) (R.keys _ (by
      simp only [List.mem_cons, List.not_mem_nil, or_false] at hk ⊢
      rcases hk with rfl | rfl | rfl <;> simp)) hx)
  have hf : ¬ Blob.Exists u.store.begin v.d.uuid := hv.fresh
  unfold addBody at hr ⊢
  rcases wf_new hv.ord v.d.now (wf_begin h) hf hv.uuid_ne hn with g | ⟨s', g, -⟩
  · simp only [g] at hr ⊢
    exact adds_log (updateSnapshot_log _)
  · rw [g] at h1
    simp only [g] at hr ⊢
    cases hp1 : prompt v.d.inp with
    | mk a i1 =>
    rw [hp1] at hr
    cases a with
    | none => cases hr
    | some email =>
    obtain ⟨m1, s1⟩ := prompt_mem hp1
    simp only at hr ⊢
    cases hp2 : prompt i1 with
    | mk a i2 =>
    rw [hp2] at hr
    cases a with
    | none => cases hr
    | some user =>
    obtain ⟨m2, s2⟩ := prompt_mem hp2
    simp only at hr ⊢
    cases hp3 : getPassword v.d.ent i2 with
    | panic => rw [hp3] at hr; cases hr
    | err e => rw [hp3] at hr; cases hr
    | ok pass =>
      simp only
      exact h1.trans (((hw _ _ _ _ (by simp) (R.inp _ (s1.subset m2))).trans (hw _ _ _ _ (by simp) (R.inp _ m1))).trans
        (hw _ _ _ _ (by simp) (R.password (s2.trans s1) hp3)))

end

end Verif.App
