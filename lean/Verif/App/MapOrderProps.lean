import Verif.App.SoundProps
import Verif.App.ShowProps
import Verif.App.CompleteProps
import Verif.App.AccountsDemo
/-!
# C128 The order in which maps are visited

Go visits the entries of a map in an order that differs from run to run. In a file in order it does not show in any command, but
in `rekeyall` and in the order of the accounts in a saved file.
-/
namespace Verif.App
open Verif Verif.Txlogs Verif.Blob Verif.Crypt Spec

/-- The same turn with maps visited in other orders. -/
def Spec.revisit (v : Env) (o : Order) (o' : Results → Results) : Env := { v with ord := o, ord' := o' }

/-- The turns with maps visited in the orders given with each. -/
def Spec.revisited (turns : List (Turn × Order × (Results → Results))) : List Turn :=
  turns.map fun t => (t.1.1, revisit t.1.2 t.2.1 t.2.2)

/-- At most one account. -/
def Spec.AtMostOne (s : DB) : Prop :=
  ∀ w w' n n', Blob.Spec.Named s w n → Blob.Spec.Named s w' n' → hasPrefix n userPrefix = true → hasPrefix n' userPrefix = true → w = w'

/-- A turn that may be met with maps visited in other orders: `rekeyall` is typed with at most one account only. -/
structure Spec.SteadyTurn (v : Env) (line : Str) (r : Repl) : Prop where
  legal : LegalTurn v line r
  one : ∀ args, parseLine line = some (b! "rekeyall", args) → AtMostOne r.u.store

namespace MapOrder

theorem nodup_of_keys {m : Results} (h : GoMap.NodupKeys m) : m.Nodup := (List.pairwise_map.1 h).imp fun hn he => hn (congrArg Prod.fst he)

theorem nameTaken_order {s : DB} (h : Good s) (hf : Fresh s) {l l' : Snapshot} (hl : l.Perm s.snapshot) (hl' : l'.Perm s.snapshot)
    (nm : Str) : nameTaken nm l = nameTaken nm l' := by
  obtain ⟨b, hb⟩ := good_nameTaken h hf hl nm
  obtain ⟨b', hb'⟩ := good_nameTaken h hf hl' nm
  rw [hb, hb']
  cases b <;> cases b'
  · rfl
  · exfalso
    obtain ⟨p, hp, hn⟩ := (nameTaken_spec nm l').2.1 hb'
    obtain ⟨n, a, b⟩ := (nameTaken_spec nm l).1 hb p (hl.mem_iff.2 (hl'.mem_iff.1 hp))
    rw [a] at hn; cases hn; exact b rfl
  · exfalso
    obtain ⟨p, hp, hn⟩ := (nameTaken_spec nm l).2.1 hb
    obtain ⟨n, a, b⟩ := (nameTaken_spec nm l').1 hb' p (hl'.mem_iff.2 (hl.mem_iff.1 hp))
    rw [a] at hn; cases hn; exact b rfl
  · rfl

section
variable {ord o : Order} (hord : ∀ m, (ord m).Perm m) (ho : ∀ m, (o m).Perm m)
include hord ho

theorem new_order {s : DB} (h : Good s) (now : Nat → Int) (uuid nm : Str) :
    Blob.new ord now uuid s nm = Blob.new o now uuid s nm := by
  obtain ⟨-, hf, hg, -⟩ := good_withSnapshot h (fun s => ((s, .panic) : Out Str))
  unfold Blob.new
  rw [(good_withSnapshot h _).1, (good_withSnapshot h _).1, nameTaken_order hg hf (hord _) (ho _)]

theorem rename_order {s : DB} (h : Good s) (now : Nat → Int) (uuid nm : Str) :
    Blob.rename ord now s uuid nm = Blob.rename o now s uuid nm := by
  obtain ⟨-, hf, hg, -⟩ := good_withSnapshot h (fun s => ((s, .panic) : Out Str))
  unfold Blob.rename
  rw [(good_withSnapshot h _).1, (good_withSnapshot h _).1, nameTaken_order hg hf (hord _) (ho _)]

omit hord ho in
theorem new_taken {s s' : DB} (h : Good s) {now : Nat → Int} {uuid nm : Str} (hx : Blob.new ord now uuid s nm = (s', .err .nameNotUnique)) :
    s' = s.updateSnapshot.1 := by
  unfold Blob.new at hx
  rw [(good_withSnapshot h _).1] at hx
  split at hx
  · cases hx
  · cases hx; rfl
  · cases hx

theorem newSyncLoop_order (now : Nat → Int) (uuid : Str) (fuel : Nat) : ∀ {s : DB} (_ : Good s) (nm : Str),
    newSyncLoop ord now uuid fuel s nm = newSyncLoop o now uuid fuel s nm := by
  induction fuel with
  | zero => intro s h nm; rfl
  | succ fuel ih =>
    intro s h nm
    unfold newSyncLoop
    rw [← new_order hord ho h]
    split
    · rename_i s' hx
      have := new_taken h hx
      subst this
      exact ih (good_update h) _
    · rfl

theorem findByName_order {s : DB} (h : WellFormed s) (nm : Str) : findByName ord s nm = findByName o s nm := by
  obtain ⟨-, hf, hg, hl⟩ := good_withSnapshot h.good (fun s => ((s, .panic) : Out Str))
  unfold findByName
  rw [(good_withSnapshot h.good _).1, (good_withSnapshot h.good _).1]
  have named : ∀ {u e n}, (u, e) ∈ s.updateSnapshot.1.snapshot → name e = some n → Blob.Spec.Named s u n := by
    intro u e n hm hn
    exact (named_log hl _ _).1 ((named_fresh hf u n).2 ⟨e, (GoMap.mem_iff_get? hf.nodup).1 hm, hn⟩)
  have key : findNameLoop nm (ord s.updateSnapshot.1.snapshot) = findNameLoop nm (o s.updateSnapshot.1.snapshot) := by
    rcases findNameLoop_spec nm _ (good_names hg hf (hord s.updateSnapshot.1.snapshot)) with ⟨u, e, a, b, c⟩ | ⟨a, b⟩ <;>
    rcases findNameLoop_spec nm _ (good_names hg hf (ho s.updateSnapshot.1.snapshot)) with ⟨u', e', a', b', c'⟩ | ⟨a', b'⟩
    · have b := (hord _).mem_iff.1 b
      have b' := (ho _).mem_iff.1 b'
      have hu := h.unique _ _ _ (named b c) (named b' c')
      subst hu
      have := (GoMap.mem_iff_get? hf.nodup).1 b
      rw [(GoMap.mem_iff_get? hf.nodup).1 b'] at this
      cases this
      rw [a, a']
    · exact absurd c (b' _ ((ho _).mem_iff.2 ((hord _).mem_iff.1 b)))
    · exact absurd c' (b _ ((hord _).mem_iff.2 ((ho _).mem_iff.1 b')))
    · rw [a, a']
  rw [key]

theorem findOne_order {s : DB} (h : WellFormed s) (lower : Nat → Nat) {ord' o' : Results → Results} (hord' : ∀ m, (ord' m).Perm m)
    (ho' : ∀ m, (o' m).Perm m) (q : Str) : findOne lower ord ord' s q = findOne lower o o' s q := by
  obtain ⟨i, hi, -⟩ := wf_findOne lower hord hord' h q
  obtain ⟨j, hj, -⟩ := wf_findOne lower ho ho' h q
  obtain ⟨-, a1, a2, a3⟩ := C39_selects lower ord hord ord' hord' h.good.ok q i h.uuids hi
  obtain ⟨-, b1, b2, b3⟩ := C39_selects lower o ho o' ho' h.good.ok q j h.uuids hj
  have key : ∀ {i j : Str}, (i ≠ [] → ∃ n, Blob.Spec.Named s i n ∧ Blob.Spec.Selects lower q n ∧
      (n = q ∨ ∀ v m, Blob.Spec.Named s v m → Blob.Spec.Selects lower q m → v = i)) →
      ((∃ u, Blob.Spec.Named s u q) → Blob.Spec.Named s j q) →
      (j ≠ [] → ∃ n, Blob.Spec.Named s j n ∧ Blob.Spec.Selects lower q n ∧
        (n = q ∨ ∀ v m, Blob.Spec.Named s v m → Blob.Spec.Selects lower q m → v = j)) →
      (j = [] → (∀ u, ¬ Blob.Spec.Named s u q) ∧
      ((∀ u n, Blob.Spec.Named s u n → ¬ Blob.Spec.Selects lower q n) ∨
        ∃ u v n m, u ≠ v ∧ Blob.Spec.Named s u n ∧ Blob.Spec.Named s v m ∧ Blob.Spec.Selects lower q n ∧ Blob.Spec.Selects lower q m)) →
      i ≠ [] → i = j := by
    intro i j a1 b2 b1 b3 hi
    obtain ⟨n, c1, c2, rfl | c3⟩ := a1 hi
    · exact h.unique _ _ _ c1 (b2 ⟨_, c1⟩)
    · by_cases hj : j = []
      · obtain ⟨-, d | ⟨u, v, n, m, d1, d2, d3, d4, d5⟩⟩ := b3 hj
        · exact absurd c2 (d _ _ c1)
        · exact absurd ((c3 _ _ d2 d4).trans (c3 _ _ d3 d5).symm) d1
      · obtain ⟨m, e1, e2, -⟩ := b1 hj
        exact (c3 _ _ e1 e2).symm
  rw [hi, hj]
  by_cases hi0 : i = []
  · by_cases hj0 : j = []
    · rw [hi0, hj0]
    · rw [key b1 a2 a1 a3 hj0]
  · rw [key a1 b2 b1 b3 hi0]

/-- the accounts found are the same, in some order -/
theorem users_order {s : DB} (h : Good s) : ∃ us us', users ord s = (s.updateSnapshot.1, .ok us) ∧
    users o s = (s.updateSnapshot.1, .ok us') ∧ us.Perm us' ∧ GoMap.NodupKeys us ∧
    ∀ w n, us.get? w = some n ↔ Blob.Spec.Named s w n ∧ hasPrefix n userPrefix = true := by
  obtain ⟨us, h1, -, -, n1, g1⟩ := users_spec hord h
  obtain ⟨us', h2, -, -, n2, g2⟩ := users_spec ho h
  refine ⟨us, us', h1, h2, (List.perm_ext_iff_of_nodup (nodup_of_keys n1) (nodup_of_keys n2)).2 ?_, n1, g1⟩
  rintro ⟨w, n⟩
  rw [GoMap.mem_iff_get? n1, GoMap.mem_iff_get? n2, g1, g2]

theorem deleteEntry_order {u : Session} (h : WellFormed u.store) (now : Int) (inp : Input) (nm : Str) :
    deleteEntry ord now inp u nm = deleteEntry o now inp u nm := by
  obtain ⟨us, us', h1, h2, hp, -⟩ := users_order hord ho (good_update h.good)
  unfold deleteEntry
  rw [← findByName_order hord ho h]
  rcases findByName_spec hord h.good nm with ⟨w, e, a, -⟩ | ⟨a, -⟩
  · rw [a]
    dsimp only
    rw [h1, h2]
    dsimp only
    rw [hp.length_eq]
  · rw [a]

theorem storeUser_order {u : Session} (h : WellFormed u.store) (P : Prims) (d : Draw) (user key salt : Str) :
    storeUser P ord d u user key salt = storeUser P o d u user key salt := by
  unfold storeUser mustFindUser findUser
  rw [findByName_order hord ho h]

theorem passwd_order {u : Session} (h : WellFormed u.store) (P : Prims) (d : Draw) (user : Str) :
    passwd P ord d u user = passwd P o d u user := by
  unfold passwd
  rcases getPassword d.ent d.inp with pass | _ | _
  · dsimp only
    rcases deriveKey P 1 pass d.salt with ⟨key, salt⟩ | _ | _
    · dsimp only
      rw [storeUser_order hord ho (u := if u.creds.user = [] ∨ u.creds.user = user then
          { u with creds := { u.creds with pass := pass, key := key, salt := salt } } else u) (by split <;> exact h)]
    · rfl
    · rfl
  · rfl
  · rfl

theorem rekey_order {u : Session} (h : WellFormed u.store) (P : Prims) (d : Draw) (user : Str) :
    rekey P ord d u user = rekey P o d u user := by
  unfold rekey
  dsimp only
  generalize (if user = [] then Res.ok u.creds.pass else getPassword d.ent d.inp) = x
  rcases x with pass | _ | _
  · dsimp only
    rcases deriveKey P 1 pass d.salt with ⟨key, salt⟩ | _ | _
    · dsimp only
      rw [storeUser_order hord ho (u := if user = [] then
          { u with creds := { u.creds with pass := pass, key := key, salt := salt } } else u) (by split <;> exact h)]
    · rfl
    · rfl
  · rfl
  · rfl

theorem adduser_order {u : Session} (h : WellFormed u.store) (P : Prims) (d : Draw) (user : Str) :
    adduser P ord d u user = adduser P o d u user := by
  unfold adduser newUser
  rw [new_order hord ho h.good]

/-- with one account there is but one order -/
theorem users_one {s : DB} (h : Good s) (h1 : AtMostOne s) {ord' o' : Results → Results} (hord' : ∀ m, (ord' m).Perm m)
    (ho' : ∀ m, (o' m).Perm m) : ∃ us us', users ord s = (s.updateSnapshot.1, .ok us) ∧
    users o s = (s.updateSnapshot.1, .ok us') ∧ ord' us = o' us' := by
  obtain ⟨us, us', h2, h3, hp, hn, hg⟩ := users_order hord ho h
  refine ⟨us, us', h2, h3, ?_⟩
  have hq : (ord' us).Perm (o' us') := (hord' us).trans (hp.trans (ho' us').symm)
  have hl : us.length ≤ 1 := by
    match us, hn, hg with
    | [], _, _ => exact Nat.zero_le _
    | [_], _, _ => exact Nat.le_refl _
    | (w, n) :: (w', n') :: rest, hn, hg =>
      exfalso
      have a := (hg w n).1 ((GoMap.mem_iff_get? hn).1 (by simp))
      have b := (hg w' n').1 ((GoMap.mem_iff_get? hn).1 (by simp))
      have hw := h1 _ _ _ _ a.1 b.1 a.2 b.2
      subst hw
      have := (List.nodup_cons.1 hn).1
      exact this (by simp)
  have hl' : (ord' us).length ≤ 1 := by rw [(hord' us).length_eq]; exact hl
  match hx : ord' us, hl' with
  | [], _ => rw [hx] at hq; exact hq.symm.eq_nil.symm
  | [a], _ => rw [hx] at hq; exact (List.perm_singleton.1 hq.symm).symm

theorem rekeyAll_order {u : Session} (h : WellFormed u.store) (h1 : AtMostOne u.store) {ord' o' : Results → Results}
    (hord' : ∀ m, (ord' m).Perm m) (ho' : ∀ m, (o' m).Perm m) (P : Prims) (d : Draw) (ds : Nat → Draw) :
    rekeyAll P ord ord' d ds u = rekeyAll P o o' d ds u := by
  obtain ⟨us, us', h2, h3, he⟩ := users_one hord ho h.good h1 hord' ho'
  unfold rekeyAll
  rw [h2, h3]
  dsimp only
  rw [he]

theorem saveBlob_order {u : Session} (h : WellFormed u.store) (h1 : AtMostOne u.store) {ord' o' : Results → Results}
    (hord' : ∀ m, (ord' m).Perm m) (ho' : ∀ m, (o' m).Perm m) (P : Prims) (C : Codec) (iv : Str) :
    saveBlob P C ord ord' iv u = saveBlob P C o o' iv u := by
  obtain ⟨us, us', h2, h3, he⟩ := users_one hord ho h.good h1 hord' ho'
  unfold saveBlob sealFile makeParams
  rw [h2, h3]
  dsimp only
  rw [he]

end

section
variable {v : Env} {o : Order} {o' : Results → Results} {u : Session} (hv : ∀ m, (v.ord m).Perm m) (hv' : ∀ m, (v.ord' m).Perm m)
  (ho : ∀ m, (o m).Perm m) (ho' : ∀ m, (o' m).Perm m) (h : WellFormed u.store)
include hv hv' ho ho' h

theorem one_order {α : Type} (q : Str) (d : α) (k : Session → Str → Session × Res AppErr α) :
    one v u q d k = one (revisit v o o') u q d k := by
  unfold one
  rw [findOne_order hv ho h v.lower hv' ho' q]
  rfl

theorem oneEntry_order {α : Type} (q : Str) (d : α) (k : Session → Str → Entry → Session × Res AppErr α) :
    oneEntry v u q d k = oneEntry (revisit v o o') u q d k := one_order hv hv' ho ho' h q d _

theorem openurl_order (q : Str) : openurl v u q = openurl (revisit v o o') u q := by
  unfold openurl
  rw [findOne_order hv ho h v.lower hv' ho' q]
  rfl

omit hv' ho' in
theorem list_order (q : Str) : ∃ r r', list v u q = ({ u with store := u.store.updateSnapshot.1 }, .ok r) ∧
    list (revisit v o o') u q = ({ u with store := u.store.updateSnapshot.1 }, .ok r') ∧ r.Perm r' := by
  obtain ⟨r, h1, -⟩ := wf_search v.lower hv h q
  obtain ⟨r', h2, -⟩ := wf_search v.lower ho h q
  refine ⟨r, r', by unfold list; rw [h1]; rfl, by unfold list; exact congrArg (lift u) h2, ?_⟩
  have a := (C33_search_exact v.lower v.ord hv h.good.ok q r h1).2
  have b := (C33_search_exact v.lower o ho h.good.ok q r' h2).2
  have n1 := results_nodup (h1 : withSnapshot _ _ = _)
  have n2 := results_nodup (h2 : withSnapshot _ _ = _)
  refine (List.perm_ext_iff_of_nodup (nodup_of_keys n1) (nodup_of_keys n2)).2 ?_
  rintro ⟨w, n⟩
  rw [GoMap.mem_iff_get? n1, GoMap.mem_iff_get? n2, a, b]

omit hv' ho' in
theorem labels_order (ls : List Str) : ∃ r r', listByLabels v u ls = ({ u with store := u.store.updateSnapshot.1 }, .ok r) ∧
    listByLabels (revisit v o o') u ls = ({ u with store := u.store.updateSnapshot.1 }, .ok r') ∧ r.Perm r' := by
  obtain ⟨r, h1⟩ := wf_searchLabels hv h ls
  obtain ⟨r', h2⟩ := wf_searchLabels ho h ls
  refine ⟨r, r', by unfold listByLabels; rw [h1]; rfl, by unfold listByLabels; exact congrArg (lift u) h2, ?_⟩
  have n1 := results_nodup (h1 : withSnapshot _ _ = _)
  have n2 := results_nodup (h2 : withSnapshot _ _ = _)
  obtain ⟨-, hf, -, -⟩ := good_withSnapshot h.good (fun s => ((s, .panic) : Out Str))
  refine (List.perm_ext_iff_of_nodup (nodup_of_keys n1) (nodup_of_keys n2)).2 ?_
  rintro ⟨w, n⟩
  rw [GoMap.mem_iff_get? n1, GoMap.mem_iff_get? n2]
  unfold searchLabels at h1 h2
  rw [(good_withSnapshot h.good _).1] at h1 h2
  split at h1
  · rename_i he
    rw [if_pos he] at h2
    cases h1; cases h2; rfl
  · rename_i he
    rw [if_neg he] at h2
    dsimp only at h1 h2
    split at h1
    · cases h1
    · rename_i c1
      cases h1
      split at h2
      · cases h2
      · rename_i c2
        cases h2
        rw [collect_spec _ _ _ (order_nodup hf.nodup (hv _)) c1, collect_spec _ _ _ (order_nodup hf.nodup (ho _)) c2]
        constructor
        · rintro ⟨e, a, b⟩
          exact ⟨e, (ho _).mem_iff.2 ((hv _).mem_iff.1 a), b⟩
        · rintro ⟨e, a, b⟩
          exact ⟨e, (hv _).mem_iff.2 ((ho _).mem_iff.1 a), b⟩

omit hv' ho' in
theorem renameCmd_order (src dst : Str) : renameCmd v u src dst = renameCmd (revisit v o o') u src dst := by
  unfold renameCmd
  have e : findByName (revisit v o o').ord u.store src = findByName v.ord u.store src := (findByName_order hv ho h src).symm
  rw [e]
  rcases findByName_spec hv h.good src with ⟨w, x, a, -⟩ | ⟨a, -⟩
  · rw [a]
    dsimp only [lift]
    rw [rename_order hv ho (good_update h.good)]
    rfl
  · rw [a]
    rfl

omit hv' ho' in
theorem addNew_order (nm : Str) : addNew v u nm = addNew (revisit v o o') u nm := by
  unfold addNew doCmd
  dsimp only
  rw [new_order hv ho (wf_begin h).good]
  rfl

omit hv' ho' in
theorem addSync_order (kind : Str) : addSync v u kind = addSync (revisit v o o') u kind := by
  unfold addSync doCmd newSync
  dsimp only
  rw [newSyncLoop_order hv ho _ _ _ (wf_begin h).good]
  rfl

end

theorem execRead_order {v : Env} {o : Order} {o' : Results → Results} (hv : ∀ m, (v.ord m).Perm m) (hv' : ∀ m, (v.ord' m).Perm m)
    (ho : ∀ m, (o m).Perm m) (ho' : ∀ m, (o' m).Perm m) (cmd : Str) (args : List Str) (r : Repl) (h : WellFormed r.u.store) :
    execRead v cmd args r = execRead (revisit v o o') cmd args r := by
  have e1 : ∀ {α : Type} (q : Str) (d : α) k, oneEntry v r.u q d k = oneEntry (revisit v o o') r.u q d k :=
    fun q d k => oneEntry_order hv hv' ho ho' h q d k
  have g1 : ∀ q k, getCmd v r.u q k = getCmd (revisit v o o') r.u q k := fun q k => e1 q _ _
  have g2 : ∀ q k, showCmd v r.u q k = showCmd (revisit v o o') r.u q k := fun q k => e1 q _ _
  have g3 : ∀ q, dump v r.u q = dump (revisit v o o') r.u q := fun q => e1 q _ _
  have g4 : ∀ q, openurl v r.u q = openurl (revisit v o o') r.u q := fun q => openurl_order hv hv' ho ho' h q
  have g5 : ∀ q, entryName v r.u q = entryName (revisit v o o') r.u q := fun q => e1 q _ _
  have g6 : ∀ q, back_ r (list v r.u q) = back_ r (list (revisit v o o') r.u q) := by
    intro q
    obtain ⟨a, b, c, d, -⟩ := list_order (o' := o') hv ho h q
    rw [c, d]; rfl
  have g7 : ∀ q, back_ r (listByLabels v r.u q) = back_ r (listByLabels (revisit v o o') r.u q) := by
    intro q
    obtain ⟨a, b, c, d, -⟩ := labels_order (o' := o') hv ho h q
    rw [c, d]; rfl
  have g8 : cd v r args = cd (revisit v o o') r args := by
    unfold cd
    simp only [g5]
  unfold execRead
  simp only [g1, g2, g3, g4, g6, g7, g8]

theorem execWrite_order {v : Env} {o : Order} {o' : Results → Results} (hv : ∀ m, (v.ord m).Perm m) (hv' : ∀ m, (v.ord' m).Perm m)
    (ho : ∀ m, (o m).Perm m) (ho' : ∀ m, (o' m).Perm m) (P : Prims) (C : Codec) (cmd : Str) (args : List Str) (r : Repl)
    (h : WellFormed r.u.store) (h1 : cmd = b! "rekeyall" → AtMostOne r.u.store) :
    execWrite P C v cmd args r = execWrite P C (revisit v o o') cmd args r := by
  have e0 : ∀ {α : Type} (q : Str) (d : α) k, one v r.u q d k = one (revisit v o o') r.u q d k :=
    fun q d k => one_order hv hv' ho ho' h q d k
  have e1 : ∀ {α : Type} (q : Str) (d : α) k, oneEntry v r.u q d k = oneEntry (revisit v o o') r.u q d k :=
    fun q d k => oneEntry_order hv hv' ho ho' h q d k
  have g1 : ∀ q, passwd P v.ord v.d r.u q = passwd P (revisit v o o').ord (revisit v o o').d r.u q := fun q => passwd_order hv ho h P v.d q
  have g2 : ∀ q, adduser P v.ord v.d r.u q = adduser P (revisit v o o').ord (revisit v o o').d r.u q := fun q => adduser_order hv ho h P v.d q
  have g3 : ∀ q, rekey P v.ord v.d r.u q = rekey P (revisit v o o').ord (revisit v o o').d r.u q := fun q => rekey_order hv ho h P v.d q
  have g5 : ∀ q, addNew v r.u q = addNew (revisit v o o') r.u q := addNew_order hv ho h
  have g6 : ∀ a b, renameCmd v r.u a b = renameCmd (revisit v o o') r.u a b := renameCmd_order hv ho h
  have g7 : ∀ a, deleteEntry v.ord (v.d.now 0) v.d.inp r.u a =
      deleteEntry (revisit v o o').ord ((revisit v o o').d.now 0) (revisit v o o').d.inp r.u a := fun a => deleteEntry_order hv ho h _ _ a
  have g8 : ∀ q k, deleteKeyCmd v r.u q k = deleteKeyCmd (revisit v o o') r.u q k := fun q k => e1 q _ _
  have g9 : ∀ q, login v r.u q = login (revisit v o o') r.u q := fun q => e0 q _ _
  have g10 : ∀ q k x, setCmd v r.u q k x = setCmd (revisit v o o') r.u q k x := fun q k x => e0 q _ _
  have g11 : ∀ q k, edit v r.u q k = edit (revisit v o o') r.u q k := fun q k => e0 q _ _
  have g12 : ∀ q, addLabels v r.u q = addLabels (revisit v o o') r.u q := fun q => by
    have hl : ∀ inp ls c, labelLoop (revisit v o o') inp ls c = labelLoop v inp ls c := by
      intro inp
      induction inp with
      | nil => intro ls c; rfl
      | cons x rest ih =>
        intro ls c
        cases x with
        | none => rfl
        | some l => unfold labelLoop; simp only [ih]; rfl
    unfold addLabels
    simp only [hl]
    exact e1 q _ _
  have g13 : ∀ q k, deleteLabel v r.u q k = deleteLabel (revisit v o o') r.u q k := fun q k => e1 q _ _
  have g14 : ∀ k, addSync v r.u k = addSync (revisit v o o') r.u k := addSync_order hv ho h
  have gi : interruptible v = interruptible (revisit v o o') := rfl
  by_cases hc : cmd = b! "rekeyall"
  · subst hc
    have g4 := rekeyAll_order hv ho h (h1 rfl) hv' ho' P v.d v.ds
    unfold execWrite
    rw [if_neg (by decide), if_neg (by decide), if_neg (by decide), if_pos rfl, if_neg (by decide), if_neg (by decide),
      if_neg (by decide), if_pos rfl, g4]
    rfl
  · unfold execWrite
    simp only [g1, g2, g3, g5, g6, g7, g8, g9, g10, g11, g12, g13, g14, gi, if_neg hc]
    rfl

end MapOrder

open MapOrder

/-- A line gives the same result, whatever the order in which maps are visited: the same outcome, file, keys, current entry and
values printed or copied. This holds for all commands in a file in order, `rekeyall` only with at most one account. -/
theorem C128_line_partial (P : Prims) (C : Codec) (v : Env) (o : Order) (o' : Results → Results) (line : Str) (r : Repl)
    (h : WellFormed r.u.store) (hl : LegalTurn v line r) (ho : ∀ m, (o m).Perm m) (ho' : ∀ m, (o' m).Perm m)
    (h1 : ∀ args, parseLine line = some (b! "rekeyall", args) → AtMostOne r.u.store) :
    runLine P C (revisit v o o') line r = runLine P C v line r := by
  unfold runLine
  rcases hp : parseLine line with _ | ⟨cmd, args⟩
  · rfl
  · dsimp only
    rw [← execRead_order hl.env.ord hl.env.ord' ho ho' cmd args r h,
      ← execWrite_order hl.env.ord hl.env.ord' ho ho' P C cmd args r h (fun hc => h1 args (by rw [hp, hc]))]

/-- Any number of lines gives the same result, whatever the orders in which maps are visited at each of them. -/
theorem C128_session_partial (P : Prims) (C : Codec) (turns : List (Turn × Order × (Results → Results)))
    (ho : ∀ t ∈ turns, (∀ m, (t.2.1 m).Perm m) ∧ ∀ m, (t.2.2 m).Perm m) (r : Repl) (h0 : r.u.store.txPoint = 0)
    (h : WellFormed r.u.store) (hl : Along P C SteadyTurn (turns.map Prod.fst) r) :
    runRepl P C (revisited turns) r = runRepl P C (turns.map Prod.fst) r := by
  induction turns generalizing r with
  | nil => rfl
  | cons t rest ih =>
    obtain ⟨⟨l, v⟩, o, o'⟩ := t
    cases l with
    | none => rfl
    | some line =>
      obtain ⟨h1, h2⟩ := hl
      obtain ⟨p, p'⟩ := ho _ List.mem_cons_self
      have e := C128_line_partial P C v o o' line r h h1.legal p p' h1.one
      have w := C67_line_partial P C v line r h0 h h1.legal
      have ih := ih (fun t ht => ho t (List.mem_cons_of_mem _ ht))
      show runRepl P C ((some line, revisit v o o') :: revisited rest) r = runRepl P C ((some line, v) :: rest.map Prod.fst) r
      unfold runRepl
      rw [e]
      change Along P C SteadyTurn (rest.map Prod.fst) (runLine P C v line r).1 at h2
      generalize runLine P C v line r = x at w h2
      obtain ⟨x, (_ | _) | e | _⟩ := x
      · exact ih x (w (by simp)).2 (w (by simp)).1 h2
      · rfl
      · rfl
      · rfl

/-- What `ls` and `labels` print, and what TAB offers, is the same whatever the orders in which maps are visited. -/
theorem C128_printed (v : Env) (o : Order) (o' : Results → Results) (u : Session) (h : WellFormed u.store) (hv : EnvOk v u.store)
    (ho : ∀ m, (o m).Perm m) (ho' : ∀ m, (o' m).Perm m) :
    (∀ q, ∃ u' r r', list v u q = (u', .ok r) ∧ list (revisit v o o') u q = (u', .ok r') ∧ lsLines o' r' = lsLines v.ord' r) ∧
    (∀ ls, ∃ u' r r', listByLabels v u ls = (u', .ok r) ∧ listByLabels (revisit v o o') u ls = (u', .ok r') ∧
      lsLines o' r' = lsLines v.ord' r) ∧
    complete (revisit v o o') u = complete v u := by
  have key : ∀ {r r' : Results}, r.Perm r' → sortStr ((o' r').map Prod.snd) = sortStr ((v.ord' r).map Prod.snd) ∧
      lsLines o' r' = lsLines v.ord' r := by
    intro r r' hp
    have e : sortStr ((o' r').map Prod.snd) = sortStr ((v.ord' r).map Prod.snd) :=
      sortStr_congr (((ho' r').trans (hp.symm.trans (hv.ord' r).symm)).map _)
    refine ⟨e, ?_⟩
    unfold lsLines
    rw [e]
    by_cases hr : r = []
    · subst hr
      rw [if_pos rfl, if_pos hp.symm.eq_nil]
    · rw [if_neg hr, if_neg (fun hr' => hr (by subst hr'; exact hp.eq_nil))]
  refine ⟨fun q => ?_, fun ls => ?_, ?_⟩
  · obtain ⟨r, r', a, b, c⟩ := list_order (o' := o') hv.ord ho h q
    exact ⟨_, r, r', a, b, (key c).2⟩
  · obtain ⟨r, r', a, b, c⟩ := labels_order (o' := o') hv.ord ho h ls
    exact ⟨_, r, r', a, b, (key c).2⟩
  · obtain ⟨r, r', a, b, c⟩ := list_order (o' := o') hv.ord ho h []
    unfold list at a b
    unfold complete
    rw [a, b]
    dsimp only
    rw [show (revisit v o o').ord' = o' from rfl, (key c).1]

/-- The file written at the end is the same, byte for byte, when there is at most one account. -/
theorem C128_save_partial (P : Prims) (C : Codec) (ord o : Order) (ord' o' : Results → Results) (iv : Str) (u : Session)
    (h : WellFormed u.store) (h1 : AtMostOne u.store) (hord : ∀ m, (ord m).Perm m) (hord' : ∀ m, (ord' m).Perm m)
    (ho : ∀ m, (o m).Perm m) (ho' : ∀ m, (o' m).Perm m) : saveBlob P C o o' iv u = saveBlob P C ord ord' iv u :=
  saveBlob_order ho hord h h1 ho' hord' P C iv

namespace MapOrderDemo
open Verif.Crypt.Spec (toy)
open Demo (u2 dAll perm_id perm_id' fresh_concrete parse_ne)

theorem rev {α : Type} (m : List α) : m.reverse.Perm m := m.reverse_perm

theorem u2_sound : WellFormed u2.store ∧ ∀ w n, Blob.Spec.Named u2.store w n ↔ (w, n) ∈ [([9], b! "user/a"), ([8], b! "user/b")] := by
  refine wf_check Demo.u2_multi.1.good.ok [([9], b! "user/a"), ([8], b! "user/b")] (by decide +kernel) (by decide +kernel) ?_ ?_ <;> decide

def v : Env := { d := { dAll with uuid := [6] }, ds := fun _ => dAll }

theorem env : EnvOk v u2.store := ⟨perm_id, perm_id', by decide, fresh_concrete Demo.u2_multi.1.good (by decide +kernel)⟩

theorem legal (line : Str) (x : Str × List Str) (ha : line.all (fun b => b.toNat < 0x80) = true) (hp : parseLine line = some x)
    (hx : x.1 ≠ b! "sync") (r : Repl) (hr : r.u.store.log = u2.store.log) : LegalTurn v line r :=
  ⟨valid_ascii _ ha, ⟨perm_id, perm_id', by decide, fun ⟨e, he⟩ => env.fresh ⟨e, (visible_log hr _ _).1 he⟩⟩, parse_ne hp hx⟩

theorem not_one : ¬ AtMostOne u2.store := by
  intro h
  have := h [9] [8] (b! "user/a") (b! "user/b") ((u2_sound.2 _ _).2 (by simp)) ((u2_sound.2 _ _).2 (by simp)) (by decide) (by decide)
  exact absurd this (by decide)

/-- where the last record is written -/
theorem last_id : (runLine toy Json.Spec.codec v (b! "rekeyall") { u := u2 }).1.u.store.log.getLast?.map (·.uuid) = some [8] := by
  decide +kernel

theorem last_rev : (runLine toy Json.Spec.codec (revisit v id List.reverse) (b! "rekeyall") { u := u2 }).1.u.store.log.getLast?.map
    (·.uuid) = some [9] := by
  decide +kernel

def saved (o' : Results → Results) : Res AppErr (Option Str) := saveBlob toy Json.Spec.codec id o' (List.replicate 40 4) u2

theorem saved_differ : saved id ≠ saved List.reverse := by decide +kernel

/-- maps visited backwards do not matter to "rm user/b" -/
example : runLine toy Json.Spec.codec (revisit v List.reverse List.reverse) (b! "rm user/b") { u := u2 } =
    runLine toy Json.Spec.codec v (b! "rm user/b") { u := u2 } :=
  C128_line_partial toy Json.Spec.codec v List.reverse List.reverse (b! "rm user/b") { u := u2 } u2_sound.1
    (legal _ (b! "rm", [b! "user/b"]) (by decide) (by decide +kernel) (by decide) _ rfl) rev rev
    (fun args h => by
      have hp : parseLine (b! "rm user/b") = some (b! "rm", [b! "user/b"]) := by decide +kernel
      rw [hp] at h
      exact absurd (congrArg Prod.fst (Option.some.inj h)) (show ¬ (b! "rm" = b! "rekeyall") by decide))

def turns : List (Turn × Order × (Results → Results)) :=
  [((some (b! "ls"), v), List.reverse, List.reverse), ((some (b! "get user/b name"), v), List.reverse, id)]

theorem turns_out : (runRepl toy Json.Spec.codec (turns.map Prod.fst) { u := u2 }).1.out = [b! "user/b"] := by decide +kernel

theorem turns_steady : Along toy Json.Spec.codec SteadyTurn (turns.map Prod.fst) { u := u2 } := by
  have p1 : parseLine (b! "ls") = some (b! "ls", []) := by decide +kernel
  have p2 : parseLine (b! "get user/b name") = some (b! "get", [b! "user/b", b! "name"]) := by decide +kernel
  refine ⟨⟨legal _ _ (by decide) p1 (by decide) _ rfl, ?_⟩, ⟨legal _ _ (by decide) p2 (by decide) _ (by decide +kernel), ?_⟩, trivial⟩
  · intro args h
    rw [p1] at h
    exact absurd (congrArg Prod.fst (Option.some.inj h)) (show ¬ (b! "ls" = b! "rekeyall") by decide)
  · intro args h
    rw [p2] at h
    exact absurd (congrArg Prod.fst (Option.some.inj h)) (show ¬ (b! "get" = b! "rekeyall") by decide)

/-- two lines, with maps visited backwards -/
example : (runRepl toy Json.Spec.codec (revisited turns) { u := u2 }).1.out = [b! "user/b"] := by
  rw [C128_session_partial toy Json.Spec.codec turns (by
    intro t ht
    simp only [turns, List.mem_cons, List.not_mem_nil, or_false] at ht
    rcases ht with rfl | rfl
    · exact ⟨rev, rev⟩
    · exact ⟨rev, perm_id'⟩) { u := u2 } (by decide +kernel) u2_sound.1 turns_steady]
  exact turns_out

/-- what TAB offers, with maps visited backwards -/
example : (complete (revisit v List.reverse List.reverse) u2).2 = .ok [b! "user/a", b! "user/b"] := by
  rw [(C128_printed v List.reverse List.reverse u2 u2_sound.1 env rev rev).2.2]
  have h : (match (complete v u2).2 with | .ok l => l | _ => []) = [b! "user/a", b! "user/b"] := by decide +kernel
  obtain ⟨r, -, hr⟩ := Tab.complete_run v u2 env u2_sound.1
  rw [hr] at h ⊢
  exact congrArg Res.ok h

theorem u1_sound : WellFormed Demo.u1.store ∧ ∀ w n, Blob.Spec.Named Demo.u1.store w n ↔ (w, n) ∈ [([9], b! "user/a")] := by
  refine wf_check Demo.u1_multi.1.good.ok [([9], b! "user/a")] (by decide +kernel) (by decide +kernel) ?_ ?_ <;> decide

/-- a file with one account is saved as the same file -/
example : saveBlob toy Json.Spec.codec List.reverse List.reverse (List.replicate 40 4) Demo.u1 =
    saveBlob toy Json.Spec.codec id id (List.replicate 40 4) Demo.u1 :=
  C128_save_partial toy Json.Spec.codec id List.reverse id List.reverse _ _ u1_sound.1 (fun w w' n n' h h' _ _ => by
    have a := (u1_sound.2 _ _).1 h
    have b := (u1_sound.2 _ _).1 h'
    simp only [List.mem_cons, Prod.mk.injEq, List.not_mem_nil, or_false] at a b
    rw [a.1, b.1]) perm_id perm_id' rev rev

end MapOrderDemo

open MapOrderDemo Demo Verif.Crypt.Spec in
/-- C128 is false of `rekeyall` with several accounts: the order of the records in the log is that in which the map of the accounts
was visited. -/
theorem C128_rekeyall_false : ¬ ∀ (P : Prims) (C : Codec) (v : Env) (o : Order) (o' : Results → Results) (line : Str) (r : Repl),
    WellFormed r.u.store → LegalTurn v line r → (∀ m, (o m).Perm m) → (∀ m, (o' m).Perm m) →
    runLine P C (revisit v o o') line r = runLine P C v line r := by
  intro h
  have e := h toy Json.Spec.codec v id List.reverse (b! "rekeyall") { u := Demo.u2 } u2_sound.1
    (legal _ (b! "rekeyall", []) (by decide) (by decide +kernel) (by decide) _ rfl) perm_id rev
  have a := last_rev
  rw [e, last_id] at a
  exact absurd a (by decide)

open MapOrderDemo Demo Verif.Crypt.Spec in
/-- C128 is false of the saved file with several accounts: nothing has changed, and the same session is saved as two different
files. -/
theorem C128_save_false : ¬ ∀ (P : Prims) (C : Codec) (ord o : Order) (ord' o' : Results → Results) (iv : Str) (u : Session),
    WellFormed u.store → (∀ m, (ord m).Perm m) → (∀ m, (ord' m).Perm m) → (∀ m, (o m).Perm m) → (∀ m, (o' m).Perm m) →
    saveBlob P C o o' iv u = saveBlob P C ord ord' iv u := by
  intro h
  exact saved_differ (h toy Json.Spec.codec id id List.reverse id (List.replicate 40 4) Demo.u2 u2_sound.1 perm_id rev perm_id perm_id')

end Verif.App
