import Verif.App.EffectSpec
import Verif.App.SoundLemmas2
/-!
# The effect of single commands
-/
set_option linter.unusedSimpArgs false
namespace Verif.App
open Verif Verif.Txlogs Verif.Blob Verif.Crypt Verif.App.Spec

theorem Spec.OnlyEntry.refl (id : Str) (s : DB) : OnlyEntry id s s := ⟨fun _ _ _ => Iff.rfl, fun _ _ => Iff.rfl⟩

theorem Spec.OnlyEntry.trans {id : Str} {a b c : DB} (h : OnlyEntry id a b) (h' : OnlyEntry id b c) : OnlyEntry id a c :=
  ⟨fun w f hw => (h'.others w f hw).trans (h.others w f hw), fun w n => (h'.names w n).trans (h.names w n)⟩

theorem only_log {id : Str} {s s' : DB} (h : s'.log = s.log) : OnlyEntry id s s' :=
  ⟨fun w f _ => visible_log h w f, fun w n => named_log h w n⟩

theorem Kept.only {id : Str} {s s' : DB} (h : Kept id s s') : OnlyEntry id s s' := ⟨h.others, h.named⟩

theorem only_lift_ {u : Session} {id : Str} {o : Out Unit} (h : Kept id u.store o.1) : OnlyEntry id u.store (lift_ u o).1.store := by
  obtain ⟨s, r⟩ := o
  cases r <;> exact h.only

/-- the start of most commands -/
theorem only_one {α : Type} {v : Env} {u : Session} (hv : EnvOk v u.store) (h : WellFormed u.store) (q : Str) (d : α)
    (k : Session → Str → Session × Res AppErr α)
    (hk : ∀ u' uuid, WellFormed u'.store → Fresh u'.store → uuid ≠ [] → Blob.Exists u'.store uuid →
      OnlyEntry uuid u'.store (k u' uuid).1.store) :
    ∃ id, (findOne v.lower v.ord v.ord' u.store q).2 = .ok id ∧
      (id = [] → (one v u q d k).1.store.log = u.store.log ∧ (one v u q d k).2 = .ok d) ∧
      (id ≠ [] → OnlyEntry id u.store (one v u q d k).1.store) := by
  obtain ⟨id, h1, h2⟩ := wf_findOne v.lower hv.ord hv.ord' h q
  obtain ⟨-, hf, hg, hlog⟩ := good_withSnapshot h.good (fun s => ((s, .panic) : Out Str))
  have hw := wf_update h
  refine ⟨id, by rw [h1], fun hid => ?_, fun hid => ?_⟩
  · unfold one
    rw [h1]
    simp only [lift, hid, if_true]
    exact ⟨hlog, trivial⟩
  · unfold one
    rw [h1]
    simp only [lift, hid, if_false]
    obtain ⟨n, hn⟩ := h2 hid
    exact (only_log hlog).trans (hk { u with store := u.store.updateSnapshot.1 } id hw hf hid
      (exists_of_named ((named_log hlog _ _).2 hn)))

theorem only_edit {v : Env} {u : Session} (hv : EnvOk v u.store) (h : WellFormed u.store) (q : Str) (e : Edit) :
    ∃ id, (findOne v.lower v.ord v.ord' u.store q).2 = .ok id ∧
      (id = [] → (e.run v u q).1.store.log = u.store.log ∧ (e.run v u q).2 = .ok ()) ∧
      (id ≠ [] → OnlyEntry id u.store (e.run v u q).1.store) := by
  have mf : ∀ (s : DB) (uuid : Str), WellFormed s → Fresh s → Blob.Exists s uuid → ∃ en, mustFind s uuid = (s, .ok en) := by
    rintro s uuid hw hf ⟨e, he⟩
    obtain ⟨en, h1, -, -, -⟩ := mustFind_visible hw.good.ok uuid e he
    rw [update_fresh hf] at h1
    exact ⟨en, h1⟩
  cases e with
  | set key value =>
    refine only_one hv h q () _ ?_
    intro u' uuid hw hf hne he
    have hset : ∀ x, OnlyEntry uuid u'.store (lift_ u' (Blob.set v.d.now u'.store uuid key x)).1.store :=
      fun x => only_lift_ (kept_set _ _ _ _ hw he).1
    have h2 := only_lift_ (kept_setTwofactor v.otpUri v.otpOk v.d.now uuid value hw he).1
    repeat' split
    all_goals first | exact hset _ | exact OnlyEntry.refl _ _ | exact h2
  | edit key =>
    refine only_one hv h q () _ ?_
    intro u' uuid hw hf hne he
    obtain ⟨en, h1⟩ := mf _ _ hw hf he
    rw [h1]
    simp only [lift]
    repeat' split
    all_goals first
      | exact OnlyEntry.refl _ _
      | exact only_lift_ (kept_deleteKeyOp _ _ _ hw he).1
      | exact only_lift_ (kept_set _ _ _ _ hw he).1
  | rmk key =>
    refine only_one hv h q () _ ?_
    intro u' uuid hw hf hne he
    obtain ⟨en, h1⟩ := mf _ _ hw hf he
    rw [h1]
    simp only [lift]
    split
    · exact only_lift_ (kept_deleteKeyOp _ _ _ hw he).1
    · exact OnlyEntry.refl _ _
  | label =>
    refine only_one hv h q () _ ?_
    intro u' uuid hw hf hne he
    obtain ⟨en, h1⟩ := mf _ _ hw hf he
    rw [h1]
    simp only [lift]
    split
    · exact OnlyEntry.refl _ _
    · exact OnlyEntry.refl _ _
    · rename_i ls _
      have h2 := only_lift_ (u := u') (kept_set v.d.now uuid keyLabels (join comma ls) hw he).1
      split
      · rename_i h'
        rw [h'] at h2
        split <;> exact h2
      · exact h2
  | rmlabel l =>
    refine only_one hv h q () _ ?_
    intro u' uuid hw hf hne he
    obtain ⟨en, h1⟩ := mf _ _ hw hf he
    rw [h1]
    simp only [lift]
    split
    · exact OnlyEntry.refl _ _
    · rename_i i hi
      have k1 := (kept_removeLabel v.d.now uuid i hw hf he).1.only
      cases hr : removeLabel v.d.now u'.store uuid i with
      | mk s o =>
        rw [hr] at k1
        cases o with
        | panic => exact k1
        | err e => exact k1
        | ok a =>
          simp only
          split <;> exact k1

theorem new_visible {s s' : DB} {ord : Order} {now : Nat → Int} {u nm : Str} (h : Good s) (hfresh : ¬ Blob.Exists s u)
    (hr : new ord now u s nm = (s', .ok u)) :
    Blob.Spec.Visible s' u
      (Txlogs.Spec.upd (Txlogs.Spec.upd (fun _ => none) keyUpdated (some (fmtInt (now 1)))) keyName (some nm)) := by
  obtain ⟨-, hf, hg, hlog⟩ := good_withSnapshot h (fun s => ((s, .panic) : Out Str))
  unfold new at hr
  rw [(good_withSnapshot h _).1] at hr
  generalize s.updateSnapshot.1 = s1 at hf hg hlog hr
  split at hr
  · cases hr
  · cases hr
  · simp only [Prod.mk.injEq, and_true] at hr
    subst hr
    refine (visible_setKey _ u keyName nm _ (visible_setKey _ u keyUpdated _ (fun _ => none) ?_).1).1
    obtain ⟨st, m1, -⟩ := h.named
    have hnone : st u = none := by
      cases hu : st u with
      | none => rfl
      | some e => exact absurd ⟨e, st, m1, hu⟩ hfresh
    refine ⟨Txlogs.Spec.upd st u (some (fun _ => none)), ?_, by simp [Txlogs.Spec.upd]⟩
    simp only [DB.add, DB.appendLog, meaning_snoc, hlog, m1, Option.bind_some, Txlogs.Spec.apply, hnone]

theorem visible_setNonEmpty {s : DB} (t : Int) (u k x : Str) {e : Str → Option Str} (h : Blob.Spec.Visible s u e)
    (hk : e k = none) : Blob.Spec.Visible (setNonEmpty s t u k x) u (Txlogs.Spec.upd e k (typed x)) := by
  unfold setNonEmpty typed
  split
  · have : Txlogs.Spec.upd e k none = e := by
      funext j; unfold Txlogs.Spec.upd; split
      · rename_i hj; rw [hj, hk]
      · rfl
    rw [this]; exact h
  · exact (visible_setKey t u k x e h).1

/-- the outcome of `add` when it succeeds -/
theorem addBody_ok {v : Env} {u : Session} (hv : EnvOk v u.store) (h : WellFormed u.store) (nm : Str) (hn : ValidUtf8 nm)
    (hr : (addBody v nm { u with store := u.store.begin }).2 = .ok ()) :
    ((∃ w, Blob.Spec.Named u.store w nm) ∧ (addBody v nm { u with store := u.store.begin }).1.store.log = u.store.log) ∨
    ((∀ w, ¬ Blob.Spec.Named u.store w nm) ∧ ∃ email user pass rest, v.d.inp = some email :: some user :: rest ∧
      getPassword v.d.ent rest = .ok pass ∧
      Blob.Spec.Visible (addBody v nm { u with store := u.store.begin }).1.store v.d.uuid
        (Txlogs.Spec.upd (Txlogs.Spec.upd (Txlogs.Spec.upd (Txlogs.Spec.upd (Txlogs.Spec.upd (fun _ => none)
          keyUpdated (some (fmtInt (v.d.now 1)))) keyName (some nm)) keyUser (typed user)) keyEmail (typed email))
          keyPass (typed pass)) ∧
      ∀ w f, w ≠ v.d.uuid → (Blob.Spec.Visible (addBody v nm { u with store := u.store.begin }).1.store w f ↔
        Blob.Spec.Visible u.store w f)) := by
  have hb := wf_begin h
  have hfr : ¬ Blob.Exists u.store.begin v.d.uuid := hv.fresh
  unfold addBody at hr ⊢
  rcases wf_new hv.ord v.d.now hb hfr hv.uuid_ne hn with h1 | ⟨s', h1, h2, h3, h4, h5, ⟨l, h6⟩, h6a, h7, h8⟩
  · left
    rcases good_newOp v.ord hv.ord v.d.now v.d.uuid nm hb.good hfr with ⟨s2, a, -, -, b⟩ | ⟨s2, a, -⟩
    · simp only [h1]
      exact ⟨b, updateSnapshot_log _⟩
    · rw [h1] at a; cases a
  · right
    simp only [h1] at hr ⊢
    refine ⟨h8, ?_⟩
    have hvis := new_visible hb.good hfr h1
    cases hi : v.d.inp with
    | nil => rw [hi] at hr; simp [prompt] at hr
    | cons a inp1 =>
      rw [hi] at hr
      cases a with
      | none => simp [prompt] at hr
      | some email =>
        simp only [prompt] at hr ⊢
        cases inp1 with
        | nil => simp [prompt] at hr
        | cons b inp2 =>
          cases b with
          | none => simp [prompt] at hr
          | some user =>
            simp only [prompt] at hr ⊢
            cases hp : getPassword v.d.ent inp2 with
            | panic => rw [hp] at hr; simp at hr
            | err e => rw [hp] at hr; simp at hr
            | ok pass =>
              have k1 := kept_setNonEmpty (v.d.now 4) v.d.uuid keyUser user (by decide) h2 h3
              have k2 := kept_setNonEmpty (v.d.now 5) v.d.uuid keyEmail email (by decide) k1.wf k1.ex
              have k3 := kept_setNonEmpty (v.d.now 6) v.d.uuid keyPass pass (by decide) k2.wf k2.ex
              have v1 := visible_setNonEmpty (v.d.now 4) v.d.uuid keyUser user hvis (by simp (decide := true) [Txlogs.Spec.upd])
              have v2 := visible_setNonEmpty (v.d.now 5) v.d.uuid keyEmail email v1 (by simp (decide := true) [Txlogs.Spec.upd])
              have v3 := visible_setNonEmpty (v.d.now 6) v.d.uuid keyPass pass v2 (by simp (decide := true) [Txlogs.Spec.upd])
              refine ⟨email, user, pass, inp2, rfl, hp, v3, ?_⟩
              intro w f hw
              exact (((k1.trans k2).trans k3).others w f hw).trans (h6a w f hw)

end Verif.App
