import Verif.App.EditSpec
import Verif.App.EffectProps
/-!
# C79: each editing command does what it says
-/
namespace Verif.App
open Verif Verif.Txlogs Verif.Blob Verif.Crypt Verif.App.Spec
open Verif.Crypt.Spec (toy toy_lawful)

theorem one_picks {α : Type} {v : Env} {u : Session} {q uuid : Str} (hv : EnvOk v u.store) (h : WellFormed u.store)
    (hp : Picks v u.store q uuid) (d : α) (k : Session → Str → Session × Res AppErr α) :
    one v u q d k = k { u with store := u.store.updateSnapshot.1 } uuid := by
  obtain ⟨hid, s', hf⟩ := hp
  obtain ⟨id, h1, -⟩ := wf_findOne v.lower hv.ord hv.ord' h q
  rw [h1] at hf
  obtain ⟨rfl, hf⟩ := Prod.mk.inj hf
  cases hf
  unfold one
  rw [h1]
  simp only [lift, hid, if_false]

theorem oneEntry_picks {α : Type} {v : Env} {u : Session} {q uuid : Str} {e : Str → Option Str} (hv : EnvOk v u.store)
    (h : WellFormed u.store) (hp : Picks v u.store q uuid) (he : Blob.Spec.Visible u.store uuid e) (d : α)
    (k : Session → Str → Entry → Session × Res AppErr α) :
    ∃ en : Entry, (e = fun x => en.get? x) ∧ (∃ n, en.get? keyName = some n) ∧
      lift { u with store := u.store.updateSnapshot.1 } (mustFind u.store.updateSnapshot.1 uuid) =
        ({ u with store := u.store.updateSnapshot.1 }, .ok en) ∧
      oneEntry v u q d k = k { u with store := u.store.updateSnapshot.1 } uuid en := by
  obtain ⟨-, hfr, hg, hlog⟩ := good_withSnapshot h.good (fun s => ((s, .panic) : Out Str))
  have hw := wf_update h
  have he' := (visible_log hlog _ _).2 he
  obtain ⟨en, h3, rfl, -, -⟩ := mustFind_visible hw.good.ok uuid e he'
  have hm : lift { u with store := u.store.updateSnapshot.1 } (mustFind u.store.updateSnapshot.1 uuid) =
        ({ u with store := u.store.updateSnapshot.1 }, .ok en) := by
    rw [h3, update_fresh hfr]; rfl
  refine ⟨en, rfl, name_of_visible hw he', hm, ?_⟩
  unfold oneEntry
  rw [one_picks hv h hp, hm]

theorem same_update (u : Session) : Same u { u with store := u.store.updateSnapshot.1 } :=
  ⟨updateSnapshot_log _, upd_tx _, rfl, rfl, rfl⟩

theorem not_refused {key : Str} (h : ¬ Refused key) : protectedKeys.any (fun p => equalFold key p) = false := by
  cases ha : protectedKeys.any (fun p => equalFold key p) with
  | false => rfl
  | true => exact absurd (List.any_eq_true.1 ha) h

theorem set_now {u : Session} {uuid key : Str} {e : Str → Option Str} (now : Nat → Int) (he : Blob.Spec.Visible u.store uuid e)
    (hk : ¬ Refused key) (x : Str) :
    let r := lift_ { u with store := u.store.updateSnapshot.1 } (Blob.set now u.store.updateSnapshot.1 uuid key x)
    r.2 = .ok () ∧ KeyNow uuid key (some x) (now 0) e u r.1 := by
  intro r
  have hs : Blob.set now u.store.updateSnapshot.1 uuid key x =
      ((touchUpdated u.store.updateSnapshot.1 now uuid).setKey (now 2) uuid key x, .ok ()) := by
    simp only [Blob.set, not_refused hk, Bool.false_eq_true, if_false]
  have hl := updateSnapshot_log u.store
  obtain ⟨-, h1, h2⟩ := C32_set_effect now _ _ uuid key x e ((visible_log hl _ _).2 he) hs
  have hr : r = ({ u with store := (touchUpdated u.store.updateSnapshot.1 now uuid).setKey (now 2) uuid key x }, .ok ()) := by
    show lift_ _ _ = _
    rw [hs]; rfl
  rw [hr]
  exact ⟨rfl, h1, fun w f hw => (h2 w f hw).trans (visible_log hl w f), rfl⟩

theorem set_not {u : Session} {uuid key : Str} (now : Nat → Int) (hk : Refused key) (x : Str) :
    let r := lift_ { u with store := u.store.updateSnapshot.1 } (Blob.set now u.store.updateSnapshot.1 uuid key x)
    r.2 = .ok () ∧ Same u r.1 := by
  intro r
  have hr : r = ({ u with store := u.store.updateSnapshot.1 }, .ok ()) := by
    show lift_ _ _ = _
    have : protectedKeys.any (fun p => equalFold key p) = true := List.any_eq_true.2 hk
    simp only [Blob.set, this, if_true, lift_]
  rw [hr]
  exact ⟨rfl, same_update u⟩

theorem delete_now {u : Session} {uuid key : Str} {e : Str → Option Str} (now : Nat → Int)
    (he : Blob.Spec.Visible u.store uuid e) (hk : key ≠ keyName ∧ key ≠ keyUpdated) :
    let r := lift_ { u with store := u.store.updateSnapshot.1 } (Blob.deleteKey now u.store.updateSnapshot.1 uuid key)
    r.2 = .ok () ∧ KeyNow uuid key none (now 0) e u r.1 := by
  intro r
  have hs : Blob.deleteKey now u.store.updateSnapshot.1 uuid key =
      ((touchUpdated u.store.updateSnapshot.1 now uuid).deleteKey (now 2) uuid key, .ok ()) := by
    simp only [Blob.deleteKey, hk, or_self, if_false]
  have hl := updateSnapshot_log u.store
  obtain ⟨h1, h2, -⟩ := C32_delete_effect_partial now _ _ uuid key e ((visible_log hl _ _).2 he) hs
  have hr : r = ({ u with store := (touchUpdated u.store.updateSnapshot.1 now uuid).deleteKey (now 2) uuid key }, .ok ()) := by
    show lift_ _ _ = _
    rw [hs]; rfl
  rw [hr]
  exact ⟨rfl, h1, fun w f hw => (h2 w f hw).trans (visible_log hl w f), rfl⟩

theorem delete_not {u : Session} {uuid key : Str} (now : Nat → Int) (hk : key = keyName ∨ key = keyUpdated) :
    let r := lift_ { u with store := u.store.updateSnapshot.1 } (Blob.deleteKey now u.store.updateSnapshot.1 uuid key)
    r.2 = .ok () ∧ Same u r.1 := by
  intro r
  have hr : r = ({ u with store := u.store.updateSnapshot.1 }, .ok ()) := by
    show lift_ _ _ = _
    simp only [Blob.deleteKey, hk, if_true, lift_]
  rw [hr]
  exact ⟨rfl, same_update u⟩

/-! ## C79 -/

/-- `rmk` removes exactly that key of exactly that entry when the entry has it and it is neither `name` nor `updated`, and does
nothing otherwise. -/
theorem C79_rmk (v : Env) (u : Session) (q key uuid : Str) (e : Str → Option Str) (hv : EnvOk v u.store)
    (h : WellFormed u.store) (hp : Picks v u.store q uuid) (he : Blob.Spec.Visible u.store uuid e) :
    (deleteKeyCmd v u q key).2 = .ok () ∧
    (e key ≠ none → key ≠ keyName → key ≠ keyUpdated →
      KeyNow uuid key none (v.d.now 0) e u (deleteKeyCmd v u q key).1) ∧
    (e key = none ∨ key = keyName ∨ key = keyUpdated → Same u (deleteKeyCmd v u q key).1) := by
  obtain ⟨en, rfl, -, -, h1⟩ := oneEntry_picks hv h hp he () fun u uuid e =>
    if (e.get? key).isSome then lift_ u (Blob.deleteKey v.d.now u.store uuid key) else (u, .ok ())
  unfold deleteKeyCmd
  rw [h1]
  by_cases hg : (en.get? key).isSome
  · rw [if_pos hg]
    by_cases hk : key = keyName ∨ key = keyUpdated
    · obtain ⟨h2, h3⟩ := delete_not (u := u) (uuid := uuid) v.d.now hk
      exact ⟨h2, fun _ a b => absurd hk (by simp [a, b]), fun _ => h3⟩
    · simp only [not_or] at hk
      obtain ⟨h2, h3⟩ := delete_now v.d.now he hk
      refine ⟨h2, fun _ _ _ => h3, ?_⟩
      rintro (h4 | h4 | h4)
      · simp only at h4; rw [h4] at hg; cases hg
      · exact absurd h4 hk.1
      · exact absurd h4 hk.2
  · rw [if_neg hg]
    exact ⟨rfl, fun h4 => absurd (Option.isSome_iff_ne_none.2 h4) hg, fun _ => same_update u⟩

/-- `set` with a value stores exactly that value under exactly that key of exactly that entry. -/
theorem C79_set (v : Env) (u : Session) (q key value uuid : Str) (e : Str → Option Str) (hv : EnvOk v u.store)
    (h : WellFormed u.store) (hp : Picks v u.store q uuid) (he : Blob.Spec.Visible u.store uuid e) (hval : value ≠ [])
    (hk : ¬ Refused key) (hurl : key = keyURL → v.urlOk value = true) :
    (setCmd v u q key value).2 = .ok () ∧ KeyNow uuid key (some value) (v.d.now 0) e u (setCmd v u q key value).1 := by
  have hs := set_now v.d.now he hk value
  unfold setCmd
  rw [one_picks hv h hp]
  dsimp only
  by_cases h1 : key = keyPass
  · rw [if_pos h1, if_neg hval]; exact hs
  by_cases h2 : key = keyTwoFactor
  · exact absurd ⟨keyTwoFactor, by decide, by rw [h2]; decide⟩ hk
  by_cases h3 : key = keyURL
  · rw [if_neg h1, if_neg h2, if_pos h3, if_pos (hurl h3)]; exact hs
  · rw [if_neg h1, if_neg h2, if_neg h3, if_neg hval]; exact hs

/-- `set url` stores nothing when the value is not an address, and `set` of a key the program keeps for itself stores nothing. -/
theorem C79_set_refused (v : Env) (u : Session) (q key value uuid : Str) (hv : EnvOk v u.store)
    (h : WellFormed u.store) (hp : Picks v u.store q uuid)
    (hk : key = keyURL ∧ v.urlOk value = false ∨ Refused key ∧ key ≠ keyTwoFactor ∧ value ≠ []) :
    (setCmd v u q key value).2 = .ok () ∧ Same u (setCmd v u q key value).1 := by
  unfold setCmd
  rw [one_picks hv h hp]
  dsimp only
  rcases hk with ⟨rfl, hk⟩ | ⟨hk, h2, hval⟩
  · rw [if_neg (by decide), if_neg (by decide), if_pos rfl, hk]
    exact ⟨rfl, same_update u⟩
  · have hs := set_not (u := u) (uuid := uuid) v.d.now hk value
    have hd : ¬ Refused keyPass ∧ ¬ Refused keyURL := by unfold Refused; decide
    have h1 : key ≠ keyPass := by rintro rfl; exact hd.1 hk
    have h3 : key ≠ keyURL := by rintro rfl; exact hd.2 hk
    rw [if_neg h1, if_neg h2, if_neg h3, if_neg hval]; exact hs

/-- `set pass` without a value stores the password typed or generated; when none comes out nothing changes. -/
theorem C79_set_pass (v : Env) (u : Session) (q uuid : Str) (e : Str → Option Str) (hv : EnvOk v u.store)
    (h : WellFormed u.store) (hp : Picks v u.store q uuid) (he : Blob.Spec.Visible u.store uuid e) :
    (∀ pw, getPassword v.d.ent v.d.inp = .ok pw → (setCmd v u q keyPass []).2 = .ok () ∧
      KeyNow uuid keyPass (some pw) (v.d.now 0) e u (setCmd v u q keyPass []).1) ∧
    (∀ x, getPassword v.d.ent v.d.inp = .err x → (setCmd v u q keyPass []).2 = .err .aborted ∧
      Same u (setCmd v u q keyPass []).1) := by
  have hd : ¬ Refused keyPass := by unfold Refused; decide
  unfold setCmd
  rw [one_picks hv h hp]
  dsimp only
  rw [if_pos rfl, if_pos rfl]
  refine ⟨fun pw hpw => ?_, fun x hx => ?_⟩
  · rw [hpw]; exact set_now v.d.now he hd pw
  · rw [hx]; exact ⟨rfl, same_update u⟩

/-- `set` without a value, of a key that is not special, stores the lines typed (as `C78_multiline` says); an interrupt changes
nothing. -/
theorem C79_set_lines (v : Env) (u : Session) (q key uuid : Str) (e : Str → Option Str) (hv : EnvOk v u.store)
    (h : WellFormed u.store) (hp : Picks v u.store q uuid) (he : Blob.Spec.Visible u.store uuid e) (hk : ¬ Refused key)
    (h1 : key ≠ keyPass) (h3 : key ≠ keyURL) :
    (∀ text rest, promptMultiline v.ctrlC v.d.inp [] false = (some text, rest) → (setCmd v u q key []).2 = .ok () ∧
      KeyNow uuid key (some text) (v.d.now 0) e u (setCmd v u q key []).1) ∧
    (∀ rest, promptMultiline v.ctrlC v.d.inp [] false = (none, rest) → (setCmd v u q key []).2 = .err .aborted ∧
      Same u (setCmd v u q key []).1) := by
  have h2 : key ≠ keyTwoFactor := by
    rintro rfl
    exact hk ⟨keyTwoFactor, by decide, by decide⟩
  unfold setCmd
  rw [one_picks hv h hp]
  dsimp only
  rw [if_neg h1, if_neg h2, if_neg h3, if_pos rfl]
  refine ⟨fun text rest ht => ?_, fun rest ht => ?_⟩
  · rw [ht]; exact set_now v.d.now he hk text
  · rw [ht]; exact ⟨rfl, same_update u⟩

/-- `edit` gives the editor the value the entry has (nothing if it does not have the key) and stores what comes back: text
under that key, an empty result by removing the key. When the user gives up nothing changes. -/
theorem C79_edit (v : Env) (u : Session) (q key uuid : Str) (e : Str → Option Str) (hv : EnvOk v u.store)
    (h : WellFormed u.store) (hp : Picks v u.store q uuid) (he : Blob.Spec.Visible u.store uuid e) :
    (∀ x, v.editor ((e key).getD []) = some (some x) → x ≠ [] → ¬ Refused key →
      (edit v u q key).2 = .ok () ∧ KeyNow uuid key (some x) (v.d.now 0) e u (edit v u q key).1) ∧
    (∀ x, v.editor ((e key).getD []) = some (some x) → x ≠ [] → Refused key →
      (edit v u q key).2 = .ok () ∧ Same u (edit v u q key).1) ∧
    (v.editor ((e key).getD []) = some (some []) → key ≠ keyName ∧ key ≠ keyUpdated →
      (edit v u q key).2 = .ok () ∧ KeyNow uuid key none (v.d.now 0) e u (edit v u q key).1) ∧
    (v.editor ((e key).getD []) = some (some []) → key = keyName ∨ key = keyUpdated →
      (edit v u q key).2 = .ok () ∧ Same u (edit v u q key).1) ∧
    (v.editor ((e key).getD []) = some none → (edit v u q key).2 = .ok () ∧ Same u (edit v u q key).1) := by
  obtain ⟨en, rfl, -, h1, -⟩ := oneEntry_picks hv h hp he () fun u _ _ => (u, .ok ())
  unfold edit
  rw [one_picks hv h hp, h1]
  dsimp only
  have hval : val en key = (en.get? key).getD [] := rfl
  simp only [hval]
  refine ⟨fun x hx h2 h3 => ?_, fun x hx h2 h3 => ?_, fun hx h3 => ?_, fun hx h3 => ?_, fun hx => ?_⟩
  · rw [hx]; dsimp only; rw [if_neg h2]; exact set_now v.d.now he h3 x
  · rw [hx]; dsimp only; rw [if_neg h2]; exact set_not v.d.now h3 x
  · rw [hx]; dsimp only; rw [if_pos rfl]; exact delete_now v.d.now he h3
  · rw [hx]; dsimp only; rw [if_pos rfl]; exact delete_not v.d.now h3
  · rw [hx]; exact ⟨rfl, same_update u⟩

theorem validateLabel_iff (isUpper : Nat → Bool) (ls : List Str) (l : Str) :
    validateLabel isUpper ls l = true ↔ Proper isUpper l ∧ l ∉ ls := by
  unfold validateLabel Proper
  simp

theorem labelLoop_spec (v : Env) (inp : Input) (before : List Str) (b : Bool) :
    (Interrupted v.ctrlC inp → labelLoop v inp before b = none) ∧
    (¬ Interrupted v.ctrlC inp → ∃ added, Added v.isUpper before (typedLabels inp) added ∧
      labelLoop v inp before b = some (before ++ added, b || !added.isEmpty)) := by
  have hend : ∀ (x : Input), x.takeWhile goesOn = [] → x.dropWhile goesOn = x → ∀ before : List Str,
      Added v.isUpper before (typedLabels x) [] := by
    intro x hx _ before
    unfold typedLabels
    rw [hx]
    exact ⟨by simp, by simp, by simp⟩
  induction inp generalizing before b with
  | nil =>
    cases hc : v.ctrlC with
    | true => exact ⟨fun _ => by simp [labelLoop, hc], fun h => absurd ⟨rfl, .inl rfl⟩ h⟩
    | false =>
      exact ⟨fun h => (Bool.false_ne_true h.1).elim, fun _ => ⟨[], hend [] rfl rfl before, by simp [labelLoop, hc]⟩⟩
  | cons x rest ih =>
    cases x with
    | none =>
      cases hc : v.ctrlC with
      | true => exact ⟨fun _ => by simp [labelLoop, hc], fun h => absurd ⟨rfl, .inr rfl⟩ h⟩
      | false =>
        exact ⟨fun h => (Bool.false_ne_true h.1).elim, fun _ => ⟨[], hend _ rfl rfl before, by simp [labelLoop, hc]⟩⟩
    | some line =>
      by_cases hl : line = [] ∨ line = b! "."
      · have hg : goesOn (some line) = false := by
          unfold goesOn
          rcases hl with rfl | rfl <;> decide
        have ht : (some line :: rest).takeWhile goesOn = [] := by simp [List.takeWhile, hg]
        have hd : (some line :: rest).dropWhile goesOn = some line :: rest := by simp [List.dropWhile, hg]
        refine ⟨fun h => ?_, fun _ => ⟨[], hend _ ht hd before, by simp [labelLoop, hl]⟩⟩
        have := h.2
        rw [hd] at this
        simp at this
      · have hg : goesOn (some line) = true := by
          unfold goesOn
          simp only [not_or] at hl
          simp [hl]
        have ht : typedLabels (some line :: rest) = line :: typedLabels rest := by
          simp [typedLabels, List.takeWhile, hg]
        have hi : Interrupted v.ctrlC (some line :: rest) ↔ Interrupted v.ctrlC rest := by
          simp [Interrupted, List.dropWhile, hg]
        rw [hi, ht]
        unfold labelLoop
        rw [if_neg hl]
        by_cases hval : validateLabel v.isUpper before line = true
        · rw [if_pos hval]
          obtain ⟨i1, i2⟩ := ih (before ++ [line]) true
          refine ⟨i1, fun hn => ?_⟩
          obtain ⟨added, ha, hr⟩ := i2 hn
          rw [validateLabel_iff] at hval
          refine ⟨line :: added, ⟨?_, ?_, ?_⟩, by rw [hr]; simp⟩
          · exact ha.order.cons_cons line
          · refine List.nodup_cons.2 ⟨fun hm => ?_, ha.once⟩
            exact ((ha.mem line).1 hm).2.2 (by simp)
          · intro l
            simp only [List.mem_cons, ha.mem, List.mem_append, not_or, List.not_mem_nil, not_false_eq_true, and_true]
            constructor
            · rintro (rfl | ⟨a, b, c, d⟩)
              · exact ⟨.inl rfl, hval⟩
              · exact ⟨.inr a, b, c⟩
            · rintro ⟨rfl | a, b, c⟩
              · exact .inl rfl
              · by_cases hll : l = line
                · exact .inl hll
                · exact .inr ⟨a, b, c, by simp [hll]⟩
        · rw [if_neg hval]
          obtain ⟨i1, i2⟩ := ih before b
          refine ⟨i1, fun hn => ?_⟩
          obtain ⟨added, ha, hr⟩ := i2 hn
          rw [validateLabel_iff] at hval
          refine ⟨added, ⟨ha.order.trans (List.sublist_cons_self _ _), ha.once, fun l => ?_⟩, hr⟩
          rw [ha.mem, List.mem_cons]
          constructor
          · rintro ⟨a, b, c⟩; exact ⟨.inr a, b, c⟩
          · rintro ⟨rfl | a, b, c⟩
            · exact absurd ⟨b, c⟩ hval
            · exact ⟨a, b, c⟩

/-- `label` adds the labels typed that are proper and new, each once and in the order typed, after those the entry has. When
there are none, or the typing is interrupted, nothing changes. -/
theorem C79_label (v : Env) (u : Session) (q uuid : Str) (e : Str → Option Str) (hv : EnvOk v u.store)
    (h : WellFormed u.store) (hp : Picks v u.store q uuid) (he : Blob.Spec.Visible u.store uuid e) :
    (Interrupted v.ctrlC v.d.inp → (addLabels v u q).2 = .err .aborted ∧ Same u (addLabels v u q).1) ∧
    (¬ Interrupted v.ctrlC v.d.inp → ∃ added, Added v.isUpper (Blob.Spec.labelsOf e) (typedLabels v.d.inp) added ∧
      (addLabels v u q).2 = .ok () ∧
      (added = [] → Same u (addLabels v u q).1) ∧
      (added ≠ [] → KeyNow uuid keyLabels (some (join comma (Blob.Spec.labelsOf e ++ added))) (v.d.now 0) e u
        (addLabels v u q).1)) := by
  obtain ⟨en, rfl, ⟨n, hn⟩, -, h1⟩ := oneEntry_picks hv h hp he () fun u uuid e =>
    match labelLoop v v.d.inp (labels e) false with
    | none => (u, .err .aborted)
    | some (_, false) => (u, .ok ())
    | some (ls, true) =>
      match lift_ u (Blob.set v.d.now u.store uuid keyLabels (join comma ls)) with
      | (u, .ok ()) => if name e = none then (u, .panic) else (u, .ok ())
      | r => r
  have h1 : addLabels v u q = _ := h1
  rw [h1]
  dsimp only
  rw [← C36_labels]
  obtain ⟨l1, l2⟩ := labelLoop_spec v v.d.inp (labels en) false
  refine ⟨fun hi => ?_, fun hi => ?_⟩
  · rw [l1 hi]; exact ⟨rfl, same_update u⟩
  · obtain ⟨added, ha, hr⟩ := l2 hi
    refine ⟨added, ha, ?_⟩
    rw [hr]
    cases added with
    | nil => exact ⟨rfl, fun _ => same_update u, fun hc => absurd rfl hc⟩
    | cons a l =>
      have hd : ¬ Refused keyLabels := by unfold Refused; decide
      obtain ⟨s1, s2⟩ := set_now v.d.now he hd (join comma (labels en ++ a :: l))
      simp only [List.isEmpty_cons, Bool.not_false, Bool.or_true]
      have hnm : name en = some n := hn
      generalize lift_ { u with store := u.store.updateSnapshot.1 }
        (Blob.set v.d.now u.store.updateSnapshot.1 uuid keyLabels (join comma (labels en ++ a :: l))) = r at s1 s2
      obtain ⟨u', o⟩ := r
      simp only at s1 s2
      subst s1
      simp only [hnm, reduceCtorEq, if_false]
      exact ⟨trivial, fun hc => hc.elim, fun _ => s2⟩

theorem labelsOf_notMem (e : Str → Option Str) : ∀ l ∈ Blob.Spec.labelsOf e, comma ∉ l := by
  intro l hl
  unfold Blob.Spec.labelsOf at hl
  cases hx : e keyLabels with
  | none => rw [hx] at hl; simp at hl
  | some x =>
    rw [hx] at hl
    dsimp only at hl
    split at hl
    · simp at hl
    · exact split_notMem comma x l hl

theorem labelsOf_some {f : Str → Option Str} {x : Str} (h : f keyLabels = some x) (hx : x ≠ []) :
    Blob.Spec.labelsOf f = split comma x := by
  simp [Blob.Spec.labelsOf, h, hx]

theorem join_ne (c : UInt8) (l : List Str) (h : ∃ x ∈ l, x ≠ []) : join c l ≠ [] := by
  obtain ⟨x, hx, hne⟩ := h
  match l, hx with
  | [a], hx =>
    simp only [List.mem_singleton] at hx
    subst hx
    simpa [join] using hne
  | a :: b :: l, _ => simp [join]

/-- When no label typed has a comma in it the entry afterwards has the labels it had followed by the new ones, so no label twice
that was not there twice before. -/
theorem C79_label_read_partial (v : Env) (u : Session) (q uuid : Str) (e : Str → Option Str) (hv : EnvOk v u.store)
    (h : WellFormed u.store) (hp : Picks v u.store q uuid) (he : Blob.Spec.Visible u.store uuid e)
    (hi : ¬ Interrupted v.ctrlC v.d.inp) (hc : ∀ l ∈ typedLabels v.d.inp, comma ∉ l) :
    ∃ added e', Added v.isUpper (Blob.Spec.labelsOf e) (typedLabels v.d.inp) added ∧
      Blob.Spec.Visible (addLabels v u q).1.store uuid e' ∧ Blob.Spec.labelsOf e' = Blob.Spec.labelsOf e ++ added := by
  obtain ⟨added, ha, -, h1, h2⟩ := (C79_label v u q uuid e hv h hp he).2 hi
  by_cases hne : added = []
  · exact ⟨added, e, ha, (visible_log (h1 hne).log _ _).2 he, by simp [hne]⟩
  · refine ⟨added, _, ha, (h2 hne).entry, ?_⟩
    have hj : join comma (Blob.Spec.labelsOf e ++ added) ≠ [] := by
      refine join_ne _ _ ?_
      obtain ⟨a, l, rfl⟩ := List.exists_cons_of_ne_nil hne
      refine ⟨a, by simp, ?_⟩
      have := ((ha.mem a).1 (by simp)).1
      unfold typedLabels at this
      obtain ⟨x, hx, hxa⟩ := List.mem_filterMap.1 this
      simp only [id_eq] at hxa
      subst hxa
      have := List.all_eq_true.1 (List.all_takeWhile (p := goesOn) (l := v.d.inp)) _ hx
      simp only [goesOn, ne_eq, decide_not, Bool.decide_and, Bool.and_eq_true, Bool.not_eq_true', decide_eq_false_iff_not] at this
      exact this.1
    have hs : split comma (join comma (Blob.Spec.labelsOf e ++ added)) = Blob.Spec.labelsOf e ++ added := by
      refine split_join _ _ (by simp [hne]) fun x hx => ?_
      rcases List.mem_append.1 hx with hx | hx
      · exact labelsOf_notMem e x hx
      · exact hc x ((ha.mem x).1 hx).1
    rw [labelsOf_some (x := join comma (Blob.Spec.labelsOf e ++ added)) (by simp [Txlogs.Spec.upd]) hj, hs]

/-- `rmlabel` of a label the entry does not have changes nothing; of its only label it removes it. -/
theorem C79_rmlabel_partial (v : Env) (u : Session) (q l uuid : Str) (e : Str → Option Str) (hv : EnvOk v u.store)
    (h : WellFormed u.store) (hp : Picks v u.store q uuid) (he : Blob.Spec.Visible u.store uuid e) :
    (l ∉ Blob.Spec.labelsOf e → (deleteLabel v u q l).2 = .ok () ∧ Same u (deleteLabel v u q l).1) ∧
    (Blob.Spec.labelsOf e = [l] → (deleteLabel v u q l).2 = .ok () ∧
      ∃ e', Blob.Spec.Visible (deleteLabel v u q l).1.store uuid e' ∧ Blob.Spec.labelsOf e' = [] ∧
        (∀ k, k ≠ keyLabels → e' k = e k) ∧
        ∀ w f, w ≠ uuid → (Blob.Spec.Visible (deleteLabel v u q l).1.store w f ↔ Blob.Spec.Visible u.store w f)) ∧
    (∀ ls last, Blob.Spec.labelsOf e = ls ++ [last] → ls ≠ [] → l ∈ Blob.Spec.labelsOf e → (deleteLabel v u q l).2 = .ok () ∧
      ∃ e', Blob.Spec.Visible (deleteLabel v u q l).1.store uuid e' ∧ e' keyLabels = some last ∧
        (∀ k, k ≠ keyLabels → k ≠ keyUpdated → e' k = e k) ∧
        ∀ w f, w ≠ uuid → (Blob.Spec.Visible (deleteLabel v u q l).1.store w f ↔ Blob.Spec.Visible u.store w f)) := by
  obtain ⟨en, rfl, ⟨n, hn⟩, -, h1⟩ := oneEntry_picks hv h hp he () fun u uuid e =>
    match (labels e).findIdx? (· = l) with
    | none => (u, .ok ())
    | some i =>
      match lift u (removeLabel v.d.now u.store uuid i) with
      | (u, .ok ()) => if name e = none then (u, .panic) else (u, .ok ())
      | r => r
  have h1 : deleteLabel v u q l = _ := h1
  have hnm : name en = some n := hn
  have hl := updateSnapshot_log u.store
  have he' := (visible_log hl _ _).2 he
  have hok := (wf_update h).good.ok
  rw [h1]
  dsimp only
  rw [← C36_labels]
  refine ⟨fun hm => ?_, fun hm => ?_, fun ls last hls hne hm => ?_⟩
  · have : (labels en).findIdx? (fun x => decide (x = l)) = none := by
      rw [List.findIdx?_eq_none_iff]
      intro x hx
      simp only [decide_eq_false_iff_not]
      rintro rfl
      exact hm hx
    rw [this]
    exact ⟨rfl, same_update u⟩
  · obtain ⟨s', e', a1, a2, a3, a4, a5⟩ := C36_remove_only_partial v.d.now hok uuid l _ he' (by rw [← C36_labels, hm])
    rw [hm]
    have : [l].findIdx? (fun x => decide (x = l)) = some 0 := by simp [List.findIdx?_cons]
    rw [this]
    have a1 : removeLabel v.d.now u.store.updateSnapshot.1 uuid ((0 : Nat) : Int) = (s', .ok ()) := a1
    simp only [a1, lift, hnm, reduceCtorEq, if_false]
    exact ⟨trivial, e', a2, a3, a4, fun w f hw => (a5 w f hw).trans (visible_log hl w f)⟩
  · cases hi : (labels en).findIdx? (fun x => decide (x = l)) with
    | none =>
      rw [List.findIdx?_eq_none_iff] at hi
      have := hi l hm
      simp at this
    | some i =>
      have hlt : i < (labels en).length := by
        have := (List.findIdx?_eq_some_iff_getElem.1 hi)
        exact this.1
      have hle : i ≤ ls.length := by rw [hls] at hlt; simp at hlt; omega
      obtain ⟨s', e', a1, a2, a3, a4, a5⟩ := C36_remove_actual v.d.now hok uuid i ls last _ he' (by rw [← C36_labels, hls]) hne hle
      simp only [a1, lift, hnm, reduceCtorEq, if_false]
      exact ⟨trivial, e', a2, a3, a4, fun w f hw => (a5 w f hw).trans (visible_log hl w f)⟩

/-- `mv` gives the entry the new name when no entry has it, and changes nothing otherwise. -/
theorem C79_mv (v : Env) (u : Session) (src dst uuid : Str) (e : Str → Option Str) (hv : EnvOk v u.store)
    (h : WellFormed u.store) (he : Blob.Spec.Visible u.store uuid e) (hn : e keyName = some src) :
    (renameCmd v u src dst).2 = .ok () ∧
    ((∀ w, ¬ Blob.Spec.Named u.store w dst) → KeyNow uuid keyName (some dst) (v.d.now 0) e u (renameCmd v u src dst).1) ∧
    ((∃ w, Blob.Spec.Named u.store w dst) → Same u (renameCmd v u src dst).1) := by
  obtain ⟨-, hfr, hg, hlog⟩ := good_withSnapshot h.good (fun s => ((s, .panic) : Out Str))
  unfold renameCmd
  rcases findByName_spec hv.ord h.good src with ⟨x, en, a, b, c⟩ | ⟨a, b⟩
  · have hx : x = uuid := h.unique x uuid src ⟨_, b, c⟩ ⟨e, he, hn⟩
    subst hx
    have hid : x ≠ [] := h.uuids x src ⟨e, he, hn⟩
    rw [a]
    simp only [lift, hid, if_false]
    unfold Blob.rename
    have hws : ∀ k : DB → Out Unit, withSnapshot u.store.updateSnapshot.1 k = k u.store.updateSnapshot.1 := fun k => by
      rw [(good_withSnapshot hg k).1, update_fresh hfr]
    rw [hws]
    have hnamed : ∀ w, Blob.Spec.Named u.store w dst ↔
        ∃ e, u.store.updateSnapshot.1.snapshot.get? w = some e ∧ name e = some dst := by
      intro w
      rw [← named_log hlog]
      constructor
      · rintro ⟨f, hf, hfn⟩
        obtain ⟨en', g1, rfl⟩ := (visible_fresh hfr w f).1 hf
        exact ⟨en', g1, hfn⟩
      · rintro ⟨en', g1, g2⟩
        exact ⟨_, (visible_fresh hfr w _).2 ⟨en', g1, rfl⟩, g2⟩
    have hall := good_names hg hfr (hv.ord u.store.updateSnapshot.1.snapshot)
    have hnd := hg.ok.nodup
    by_cases htk : ∃ w, Blob.Spec.Named u.store w dst
    · obtain ⟨w, hw⟩ := htk
      obtain ⟨ew, g1, g2⟩ := (hnamed w).1 hw
      have hmem : (w, ew) ∈ v.ord u.store.updateSnapshot.1.snapshot :=
        ((hv.ord _).mem_iff).2 ((GoMap.mem_iff_get? hnd).2 g1)
      rw [nameTaken_true_of dst _ _ hmem g2 hall]
      exact ⟨rfl, fun hno => absurd hw (hno w), fun _ => same_update u⟩
    · obtain ⟨bb, hb⟩ := (nameTaken_spec dst (v.ord u.store.updateSnapshot.1.snapshot)).2.2 hall
      cases bb with
      | true =>
        obtain ⟨p, p1, p2⟩ := (nameTaken_spec dst _).2.1 hb
        exact absurd ⟨p.1, (hnamed p.1).2 ⟨p.2, (GoMap.mem_iff_get? hnd).1 (((hv.ord _).mem_iff).1 p1), p2⟩⟩ htk
      | false =>
        obtain ⟨en', g1, -⟩ := (visible_fresh hfr x e).1 ((visible_log hlog _ _).2 he)
        rw [hb, g1]
        obtain ⟨v1, v2⟩ := visible_setKey (v.d.now 1) x keyUpdated (fmtInt (v.d.now 0)) e ((visible_log hlog _ _).2 he)
        obtain ⟨v3, v4⟩ := visible_setKey (s := touchUpdated u.store.updateSnapshot.1 v.d.now x) (v.d.now 2) x keyName dst _ v1
        exact ⟨rfl, fun _ => ⟨v3, fun w f hw => ((v4 w f hw).trans (v2 w f hw)).trans (visible_log hlog w f), rfl⟩,
          fun hno => absurd hno htk⟩
  · exact absurd ⟨e, he, hn⟩ (b uuid)

/-- `rm` of an entry that does not count as the session's own user entry asks for the name once more. If exactly it is typed the
entry is gone, and every other entry and the credentials are as before; otherwise nothing changes. -/
theorem C79_rm (v : Env) (u : Session) (nm uuid : Str) (t : Int) (hv : EnvOk v u.store)
    (h : WellFormed u.store) (hn : Blob.Spec.Named u.store uuid nm)
    (hme : splitUsername nm = [] ∨ splitUsername nm ≠ u.creds.user) :
    (deleteEntry v.ord t v.d.inp u nm).2 = .ok () ∧
    (deleteEntry v.ord t v.d.inp u nm).1.creds = u.creds ∧
    (v.d.inp.head? = some (some nm) →
      ¬ Blob.Exists (deleteEntry v.ord t v.d.inp u nm).1.store uuid ∧
      ∀ w f, w ≠ uuid → (Blob.Spec.Visible (deleteEntry v.ord t v.d.inp u nm).1.store w f ↔ Blob.Spec.Visible u.store w f)) ∧
    (nm ≠ [] → v.d.inp.head? ≠ some (some nm) → Same u (deleteEntry v.ord t v.d.inp u nm).1) := by
  have hid : uuid ≠ [] := h.uuids uuid nm hn
  have hl := updateSnapshot_log u.store
  have hds : ¬ (splitUsername nm ≠ [] ∧ splitUsername nm = u.creds.user) := by
    rintro ⟨a, b⟩; rcases hme with c | c
    · exact a c
    · exact c b
  have hd : deleteEntry v.ord t v.d.inp u nm =
      if ((prompt v.d.inp).1.getD []) ≠ nm then ({ u with store := u.store.updateSnapshot.1 }, .ok ())
      else ({ u with store := u.store.updateSnapshot.1.delete t uuid }, .ok ()) := by
    unfold deleteEntry
    rcases findByName_spec hv.ord h.good nm with ⟨x, en, a, b, c⟩ | ⟨a, b⟩
    · have hx : x = uuid := h.unique x uuid nm ⟨_, b, c⟩ hn
      subst hx
      rw [a]
      simp only [hid, if_false, hds, decide_false, Bool.false_eq_true]
    · exact absurd hn (b uuid)
  have hp : (prompt v.d.inp).1 = v.d.inp.head?.join := by
    cases hi : v.d.inp with
    | nil => rfl
    | cons a l => cases a <;> rfl
  rw [hd, hp]
  obtain ⟨e, he, -⟩ := hn
  obtain ⟨-, d2, d3⟩ := delete_spec (good_update h.good) t ((visible_log hl uuid e).2 he)
  split
  · rename_i hc
    refine ⟨rfl, rfl, fun hi => ?_, fun _ _ => same_update u⟩
    rw [hi] at hc
    simp at hc
  · rename_i hc
    refine ⟨rfl, rfl, fun _ => ⟨fun hx => d2 _ hx.choose_spec, fun w f hw => (d3 w f hw).trans (visible_log hl w f)⟩,
      fun hne hi => ?_⟩
    exfalso
    simp only [ne_eq, Decidable.not_not] at hc
    cases hh : v.d.inp.head? with
    | none => rw [hh] at hc; simp at hc; exact hne hc
    | some o =>
      rw [hh] at hc hi
      cases o with
      | none => simp at hc; exact hne hc
      | some x => simp at hc; subst hc; exact hi rfl

/-- At the prompt: the lines that edit have these effects. -/
theorem C79_line (P : Prims) (C : Codec) (v : Env) (r : Repl) (line cmd q uuid : Str) (args : List Str)
    (e : Str → Option Str) (hv : EnvOk v r.u.store) (h : WellFormed r.u.store) (hro : r.u.readOnly = false)
    (hp : parseLine line = some (cmd, args)) (he : Blob.Spec.Visible r.u.store uuid e) (hn : e keyName = some q) :
    (∀ k value, cmd = b! "set" → setArgs r.ctx args = some (q, k, value) → value ≠ [] → ¬ Refused k →
      (k = keyURL → v.urlOk value = true) →
      ∃ r', runLine P C v line r = (r', .ok false) ∧ KeyNow uuid k (some value) (v.d.now 0) e r.u r'.u ∧ r'.ctx = r.ctx) ∧
    (∀ k rest, cmd = b! "rmk" → queryArgs r.ctx args = some (q, k, rest) → e k ≠ none → k ≠ keyName → k ≠ keyUpdated →
      ∃ r', runLine P C v line r = (r', .ok false) ∧ KeyNow uuid k none (v.d.now 0) e r.u r'.u ∧ r'.ctx = r.ctx) ∧
    (∀ k rest x, cmd = b! "edit" → queryArgs r.ctx args = some (q, k, rest) → v.editor ((e k).getD []) = some (some x) →
      x ≠ [] → ¬ Refused k →
      ∃ r', runLine P C v line r = (r', .ok false) ∧ KeyNow uuid k (some x) (v.d.now 0) e r.u r'.u ∧ r'.ctx = r.ctx) ∧
    (∀ added, cmd = b! "label" → queryArg r.ctx args = some q → ¬ Interrupted v.ctrlC v.d.inp →
      Added v.isUpper (Blob.Spec.labelsOf e) (typedLabels v.d.inp) added → added ≠ [] →
      ∃ r' ls, runLine P C v line r = (r', .ok false) ∧ (∀ l, l ∈ ls ↔ l ∈ added) ∧
        KeyNow uuid keyLabels (some (join comma (Blob.Spec.labelsOf e ++ ls))) (v.d.now 0) e r.u r'.u ∧ r'.ctx = r.ctx) ∧
    (∀ dst rest, cmd = b! "mv" → args = q :: dst :: rest → (∀ w, ¬ Blob.Spec.Named r.u.store w dst) →
      ∃ r', runLine P C v line r = (r', .ok false) ∧ KeyNow uuid keyName (some dst) (v.d.now 0) e r.u r'.u ∧ r'.ctx = r.ctx) := by
  have hpk := picks_named hv h ⟨e, he, hn⟩
  have hback : ∀ (x : Session × Res AppErr Unit), x.2 = .ok () → back r x = ({ r with u := x.1 }, .ok false) := by
    rintro ⟨a, b⟩ hb
    simp only at hb
    subst hb
    rfl
  have hrun : readOnlyFlag cmd = some false → runLine P C v line r = execWrite P C v cmd args r := by
    intro hf
    unfold runLine
    simp only [hp, hf, hro, Bool.false_eq_true, if_false]
  refine ⟨fun k value hc ha hval hk hurl => ?_, fun k rest hc ha h1 h2 h3 => ?_, fun k rest x hc ha h1 h2 h3 => ?_,
    fun added hc ha hi hadd hne => ?_, fun dst rest hc ha hno => ?_⟩
  · subst hc
    have hx : execWrite P C v (b! "set") args r = match setArgs r.ctx args with
      | none => (r, .ok false)
      | some (q, k, value) => back r (setCmd v r.u q k value) := rfl
    obtain ⟨s1, s2⟩ := C79_set v r.u q k value uuid e hv h hpk he hval hk hurl
    rw [hrun (by decide), hx, ha]
    dsimp only
    rw [hback _ s1]
    exact ⟨_, rfl, s2, rfl⟩
  · subst hc
    have hx : execWrite P C v (b! "rmk") args r = match queryArgs r.ctx args with
      | none => (r, .ok false)
      | some (q, k, _) => back r (deleteKeyCmd v r.u q k) := rfl
    obtain ⟨s1, s2, -⟩ := C79_rmk v r.u q k uuid e hv h hpk he
    rw [hrun (by decide), hx, ha]
    dsimp only
    rw [hback _ s1]
    exact ⟨_, rfl, s2 h1 h2 h3, rfl⟩
  · subst hc
    have hx : execWrite P C v (b! "edit") args r = match queryArgs r.ctx args with
      | none => (r, .ok false)
      | some (q, k, _) => back r (edit v r.u q k) := rfl
    obtain ⟨s1, s2⟩ := (C79_edit v r.u q k uuid e hv h hpk he).1 x h1 h2 h3
    rw [hrun (by decide), hx, ha]
    dsimp only
    rw [hback _ s1]
    exact ⟨_, rfl, s2, rfl⟩
  · subst hc
    have hx : execWrite P C v (b! "label") args r = match queryArg r.ctx args with
      | none => (r, .ok false)
      | some q => back r (addLabels v r.u q) := rfl
    obtain ⟨ls, l1, s1, -, s2⟩ := (C79_label v r.u q uuid e hv h hpk he).2 hi
    have hmem : ∀ l, l ∈ ls ↔ l ∈ added := fun l => by rw [l1.mem, hadd.mem]
    rw [hrun (by decide), hx, ha]
    dsimp only
    rw [hback _ s1]
    refine ⟨_, ls, rfl, hmem, s2 ?_, rfl⟩
    rintro rfl
    obtain ⟨a, l, rfl⟩ := List.exists_cons_of_ne_nil hne
    have := (hmem a).2 (by simp)
    simp at this
  · subst hc ha
    have hx : execWrite P C v (b! "mv") (q :: dst :: rest) r = back r (renameCmd v r.u q dst) := rfl
    obtain ⟨s1, s2, -⟩ := C79_mv v r.u q dst uuid e hv h he hn
    rw [hrun (by decide), hx, hback _ s1]
    exact ⟨_, rfl, s2 hno, rfl⟩

/-! ### Not vacuous, and what goes wrong with labels -/

namespace Demo

/-- a file with the entry "bank", which has a password and three labels -/
def uE : Session := { store := opened [⟨0, .add, [1], [], []⟩, ⟨0, .setk, [1], keyName, b! "bank"⟩,
  ⟨0, .setk, [1], keyPass, b! "p"⟩, ⟨0, .setk, [1], keyLabels, b! "a,b,c"⟩] }

theorem uE_wf : WellFormed uE.store ∧ ∀ w n, Blob.Spec.Named uE.store w n ↔ (w, n) ∈ [(([1] : Str), b! "bank")] :=
  wf_check (ok_opened _) _ (by decide +kernel) (by decide +kernel) (by decide) (by decide)

def eE : Str → Option Str := Txlogs.Spec.upd (Txlogs.Spec.upd (Txlogs.Spec.upd (fun _ => none) keyName (some (b! "bank"))) keyPass
  (some (b! "p"))) keyLabels (some (b! "a,b,c"))

theorem uE_entry : Blob.Spec.Visible uE.store [1] eE := ⟨_, rfl, rfl⟩

theorem uE_env (v : Env) (hv : v.ord = id) (hv' : v.ord' = id) (hu : v.d.uuid = [6]) : EnvOk v uE.store := by
  refine ⟨by rw [hv]; exact perm_id, by rw [hv']; exact perm_id', by rw [hu]; decide, ?_⟩
  rw [hu]
  exact fresh_concrete uE_wf.1.good (by decide +kernel)

theorem uE_picks (v : Env) (hv : v.ord = id) (hv' : v.ord' = id) (hu : v.d.uuid = [6]) : Picks v uE.store (b! "bank") [1] :=
  picks_named (uE_env v hv hv' hu) uE_wf.1 ((uE_wf.2 _ _).2 (by simp))

/-- labels typed -/
def vL (l : Input) : Env := { d := { d0 with uuid := [6], inp := l } }

end Demo

/-- Not vacuous: `rmk bank pass` removes the password, `rmk bank url` and `rmk bank name` do nothing. -/
example : KeyNow [1] keyPass none (Demo.vV.d.now 0) Demo.eE Demo.uE (deleteKeyCmd Demo.vV Demo.uE (b! "bank") keyPass).1 ∧
    Same Demo.uE (deleteKeyCmd Demo.vV Demo.uE (b! "bank") keyURL).1 ∧
    Same Demo.uE (deleteKeyCmd Demo.vV Demo.uE (b! "bank") keyName).1 :=
  have h := fun k => C79_rmk Demo.vV Demo.uE (b! "bank") k [1] Demo.eE (Demo.uE_env _ rfl rfl rfl) Demo.uE_wf.1
    (Demo.uE_picks _ rfl rfl rfl) Demo.uE_entry
  ⟨(h keyPass).2.1 (by decide) (by decide) (by decide), (h keyURL).2.2 (.inl (by decide)), (h keyName).2.2 (.inr (.inl rfl))⟩

/-- Not vacuous: `set bank note x` stores the value; `set bank url x` does not when `x` is no address, nor does
`set bank salt x`. -/
example : KeyNow [1] (b! "note") (some (b! "x")) (Demo.vV.d.now 0) Demo.eE Demo.uE
      (setCmd Demo.vV Demo.uE (b! "bank") (b! "note") (b! "x")).1 ∧
    Same Demo.uE (setCmd { Demo.vV with urlOk := fun _ => false } Demo.uE (b! "bank") keyURL (b! "x")).1 ∧
    Same Demo.uE (setCmd Demo.vV Demo.uE (b! "bank") (b! "salt") (b! "x")).1 :=
  ⟨(C79_set Demo.vV Demo.uE (b! "bank") (b! "note") (b! "x") [1] Demo.eE (Demo.uE_env _ rfl rfl rfl) Demo.uE_wf.1
    (Demo.uE_picks _ rfl rfl rfl) Demo.uE_entry (by decide) (by unfold Refused; decide) (by decide)).2,
   (C79_set_refused { Demo.vV with urlOk := fun _ => false } Demo.uE (b! "bank") keyURL (b! "x") [1] (Demo.uE_env _ rfl rfl rfl)
    Demo.uE_wf.1 (Demo.uE_picks _ rfl rfl rfl) (.inl ⟨rfl, rfl⟩)).2,
   (C79_set_refused Demo.vV Demo.uE (b! "bank") (b! "salt") (b! "x") [1] (Demo.uE_env _ rfl rfl rfl)
    Demo.uE_wf.1 (Demo.uE_picks _ rfl rfl rfl) (.inr ⟨by unfold Refused; decide, by decide, by decide⟩)).2⟩

/-- Not vacuous: typing a password at `set bank pass`, and two lines at `set bank note`. -/
example : (∃ pw, getPassword Demo.vV.d.ent [some (b! "m"), some (b! "new"), some (b! "new")] = .ok pw ∧ pw = b! "new" ∧
      KeyNow [1] keyPass (some pw) 0 Demo.eE Demo.uE
        (setCmd (Demo.vL [some (b! "m"), some (b! "new"), some (b! "new")]) Demo.uE (b! "bank") keyPass []).1) ∧
    KeyNow [1] (b! "note") (some (b! "l1\nl2")) 0 Demo.eE Demo.uE
      (setCmd (Demo.vL [some (b! "l1"), some (b! "l2"), some (b! ".")]) Demo.uE (b! "bank") (b! "note") []).1 := by
  refine ⟨⟨b! "new", by decide +kernel, rfl, ?_⟩, ?_⟩
  · exact ((C79_set_pass (Demo.vL [some (b! "m"), some (b! "new"), some (b! "new")]) Demo.uE (b! "bank") [1] Demo.eE
      (Demo.uE_env _ rfl rfl rfl) Demo.uE_wf.1 (Demo.uE_picks _ rfl rfl rfl) Demo.uE_entry).1 (b! "new") (by decide +kernel)).2
  · exact ((C79_set_lines (Demo.vL [some (b! "l1"), some (b! "l2"), some (b! ".")]) Demo.uE (b! "bank") (b! "note") [1] Demo.eE
      (Demo.uE_env _ rfl rfl rfl) Demo.uE_wf.1 (Demo.uE_picks _ rfl rfl rfl) Demo.uE_entry (by unfold Refused; decide)
      (by decide) (by decide)).1 _ [] (by decide +kernel)).2

/-- Not vacuous: an editor that appends a letter, one that empties the file, and one that fails. -/
example : KeyNow [1] keyPass (some (b! "px")) 0 Demo.eE Demo.uE
      (edit { Demo.vV with editor := fun s => some (some (s ++ b! "x")) } Demo.uE (b! "bank") keyPass).1 ∧
    KeyNow [1] keyPass none 0 Demo.eE Demo.uE
      (edit { Demo.vV with editor := fun _ => some (some []) } Demo.uE (b! "bank") keyPass).1 ∧
    Same Demo.uE (edit { Demo.vV with editor := fun _ => some none } Demo.uE (b! "bank") keyPass).1 :=
  have h := fun f => C79_edit { Demo.vV with editor := f } Demo.uE (b! "bank") keyPass [1] Demo.eE (Demo.uE_env _ rfl rfl rfl)
    Demo.uE_wf.1 (Demo.uE_picks _ rfl rfl rfl) Demo.uE_entry
  ⟨((h fun s => some (some (s ++ b! "x"))).1 (b! "px") (by decide) (by decide) (by unfold Refused; decide)).2,
   ((h fun _ => some (some [])).2.2.1 rfl (by decide)).2, ((h fun _ => some none).2.2.2.2 rfl).2⟩

/-- Not vacuous: of the labels "d", "a", "X", "d" and "e" typed, "d" and "e" are added. -/
example : ∃ e', Blob.Spec.Visible (addLabels (Demo.vL [some (b! "d"), some (b! "a"), some (b! "X"), some (b! "d"), some (b! "e"),
      some []]) Demo.uE (b! "bank")).1.store [1] e' ∧
    Blob.Spec.labelsOf e' = [b! "a", b! "b", b! "c", b! "d", b! "e"] ∧
    ¬ Interrupted false [some (b! "d"), some (b! "a"), some (b! "X"), some (b! "d"), some (b! "e"), some []] := by
  refine ⟨Txlogs.Spec.upd (Txlogs.Spec.upd Demo.eE keyUpdated (some (fmtInt 0))) keyLabels (some (b! "a,b,c,d,e")),
    ⟨_, rfl, rfl⟩, by decide +kernel, by unfold Interrupted; decide⟩

/-- A label with a comma is accepted, and makes several labels: typing "b,c" for an entry labelled a, b, c gives it the labels
a, b, c, b, c. So the check that a label is new does not keep labels from occurring twice. -/
theorem C79_label_false : ∃ v u q uuid e e', EnvOk v u.store ∧ WellFormed u.store ∧ Picks v u.store q uuid ∧
    Blob.Spec.Visible u.store uuid e ∧ (Blob.Spec.labelsOf e).Nodup ∧
    Blob.Spec.Visible (addLabels v u q).1.store uuid e' ∧ ¬ (Blob.Spec.labelsOf e').Nodup :=
  ⟨Demo.vL [some (b! "b,c"), some []], Demo.uE, b! "bank", [1], Demo.eE,
    Txlogs.Spec.upd (Txlogs.Spec.upd Demo.eE keyUpdated (some (fmtInt 0))) keyLabels (some (b! "a,b,c,b,c")),
    Demo.uE_env _ rfl rfl rfl, Demo.uE_wf.1, Demo.uE_picks _ rfl rfl rfl, Demo.uE_entry, by decide +kernel, ⟨_, rfl, rfl⟩,
    by decide +kernel⟩

/-- Not vacuous: `rmlabel` of an absent label, and of one of several. -/
example : Same Demo.uE (deleteLabel Demo.vV Demo.uE (b! "bank") (b! "z")).1 ∧
    ∃ e', Blob.Spec.Visible (deleteLabel Demo.vV Demo.uE (b! "bank") (b! "a")).1.store [1] e' ∧
      e' keyLabels = some (b! "c") := by
  have h := fun l => C79_rmlabel_partial Demo.vV Demo.uE (b! "bank") l [1] Demo.eE (Demo.uE_env _ rfl rfl rfl) Demo.uE_wf.1
    (Demo.uE_picks _ rfl rfl rfl) Demo.uE_entry
  obtain ⟨-, e', h1, h2, -⟩ := (h (b! "a")).2.2 [b! "a", b! "b"] (b! "c") (by decide +kernel) (by decide) (by decide +kernel)
  exact ⟨((h (b! "z")).1 (by decide +kernel)).2, e', h1, h2⟩

/-- `rmlabel` does not remove only the label named: `rmlabel bank a` of an entry labelled a, b, c leaves just c (the removal in
blobs.go is wrong, see C36). -/
theorem C79_rmlabel_false : ∃ v u q uuid e l m, EnvOk v u.store ∧ WellFormed u.store ∧ Picks v u.store q uuid ∧
    Blob.Spec.Visible u.store uuid e ∧ m ∈ Blob.Spec.labelsOf e ∧ m ≠ l ∧
    ∃ e', Blob.Spec.Visible (deleteLabel v u q l).1.store uuid e' ∧ m ∉ Blob.Spec.labelsOf e' := by
  obtain ⟨-, e', h1, h2, -⟩ := (C79_rmlabel_partial Demo.vV Demo.uE (b! "bank") (b! "a") [1] Demo.eE (Demo.uE_env _ rfl rfl rfl)
    Demo.uE_wf.1 (Demo.uE_picks _ rfl rfl rfl) Demo.uE_entry).2.2 [b! "a", b! "b"] (b! "c") (by decide +kernel) (by decide)
    (by decide +kernel)
  refine ⟨Demo.vV, Demo.uE, b! "bank", [1], Demo.eE, b! "a", b! "b", Demo.uE_env _ rfl rfl rfl, Demo.uE_wf.1,
    Demo.uE_picks _ rfl rfl rfl, Demo.uE_entry, by decide +kernel, by decide, e', h1, ?_⟩
  rw [labelsOf_some h2 (by decide)]
  decide

/-- Not vacuous: `mv bank old`, and `mv bank bank` which is refused. -/
example : KeyNow [1] keyName (some (b! "old")) 0 Demo.eE Demo.uE (renameCmd Demo.vV Demo.uE (b! "bank") (b! "old")).1 ∧
    Same Demo.uE (renameCmd Demo.vV Demo.uE (b! "bank") (b! "bank")).1 := by
  have h := fun d => C79_mv Demo.vV Demo.uE (b! "bank") d [1] Demo.eE (Demo.uE_env _ rfl rfl rfl) Demo.uE_wf.1 Demo.uE_entry
    (by decide)
  refine ⟨(h (b! "old")).2.1 fun w hw => ?_, (h (b! "bank")).2.2 ⟨[1], (Demo.uE_wf.2 _ _).2 (by simp)⟩⟩
  have := (Demo.uE_wf.2 _ _).1 hw
  simp at this

/-- Not vacuous: `rm bank` confirmed with "bank", and not confirmed with "y". -/
example : ¬ Blob.Exists (deleteEntry id 0 [some (b! "bank")] Demo.uE (b! "bank")).1.store [1] ∧
    Same Demo.uE (deleteEntry id 0 [some (b! "y")] Demo.uE (b! "bank")).1 :=
  have h := fun l => C79_rm (Demo.vL l) Demo.uE (b! "bank") [1] 0 (Demo.uE_env _ rfl rfl rfl) Demo.uE_wf.1
    ((Demo.uE_wf.2 _ _).2 (by simp)) (.inl (by decide))
  ⟨((h [some (b! "bank")]).2.2.1 rfl).1, (h [some (b! "y")]).2.2.2 (by decide) (by decide)⟩

/-- Not vacuous: the line `set bank note some text`. -/
example : ∃ r', runLine toy SyncDemo.C Demo.vV (b! "set bank note some text") { u := Demo.uE } = (r', .ok false) ∧
    KeyNow [1] (b! "note") (some (b! "some text")) 0 Demo.eE Demo.uE r'.u ∧ r'.ctx = [] :=
  (C79_line toy SyncDemo.C Demo.vV { u := Demo.uE } (b! "set bank note some text") (b! "set") (b! "bank") [1]
    [b! "bank", b! "note", b! "some", b! "text"] Demo.eE (Demo.uE_env _ rfl rfl rfl) Demo.uE_wf.1 rfl (by decide +kernel)
    Demo.uE_entry (by decide)).1 (b! "note") (b! "some text") rfl (by decide) (by decide) (by unfold Refused; decide) (by decide)

end Verif.App
