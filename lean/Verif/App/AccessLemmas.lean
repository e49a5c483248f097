import Verif.App.WriteLemmas2
import Verif.App.AccessSpec
import Verif.Json.Props
/-!
# Text stays text; credentials are only changed by the account commands
-/
set_option linter.unusedSimpArgs false
namespace Verif.App
open Verif Verif.Txlogs Verif.Blob Verif.Crypt Verif.App.Spec

/-! ## Clean logs -/

theorem hex_ascii (s : Str) : (hexEncode s).all (fun b => b.toNat < 0x80) = true := by
  rw [List.all_eq_true]
  intro b hb
  have := hexEncode_range s b hb
  simp only [decide_eq_true_eq]
  omega

theorem valid_join (c : UInt8) (l : List Str) (hc : c.toNat < 0x80) (h : ∀ x ∈ l, ValidUtf8 x) : ValidUtf8 (join c l) := by
  induction l with
  | nil => exact valid_nil
  | cons x l ih =>
    cases l with
    | nil => exact h x (by simp)
    | cons y l =>
      have h1 := ih (fun z hz => h z (by simp at hz ⊢; exact .inr hz))
      have h2 : ValidUtf8 [c] := valid_ascii _ (by simp [hc])
      have : join c (x :: y :: l) = x ++ ([c] ++ join c (y :: l)) := rfl
      rw [this]
      exact valid_append (h x (by simp)) (valid_append h2 h1)

theorem kind_ok (k : TxKind) (hk : k = .add ∨ k = .del ∨ k = .setk ∨ k = .delk) :
    Json.kindOf (Json.kindStr k) = k ∧ (Json.kindStr k).all (fun b => b.toNat < 0x80) = true := by
  rcases hk with rfl | rfl | rfl | rfl <;> decide

theorem cleanTx_mk {t : Int} {k : TxKind} {w key x : Str} (hk : k = .add ∨ k = .del ∨ k = .setk ∨ k = .delk) (hw : ValidUtf8 w)
    (hkey : ValidUtf8 key) (hx : ValidUtf8 x) : Json.Spec.CleanTx ⟨t, k, w, key, x⟩ := by
  exact ⟨(kind_ok k hk).1, valid_ascii _ (kind_ok k hk).2, hw, hkey, hx⟩

/-- all strings in a state are well-formed -/
def CleanState (st : Txlogs.Spec.State) : Prop :=
  ∀ w e, st w = some e → ValidUtf8 w ∧ ∀ k x, e k = some x → ValidUtf8 k ∧ ValidUtf8 x

theorem clean_apply {st0 st : Txlogs.Spec.State} {tx : Tx} (ih : CleanState st0) (ht : Json.Spec.CleanTx tx)
    (hm : Txlogs.Spec.apply st0 tx = some st) : CleanState st := by
  unfold Txlogs.Spec.apply at hm
  intro w e he
  split at hm <;> cases hm
  · simp only [Txlogs.Spec.upd] at he
    split at he
    · rename_i hw; cases he; subst hw; exact ⟨ht.uuid, by simp⟩
    · exact ih w e he
  · simp only [Txlogs.Spec.upd] at he
    split at he
    · cases he
    · exact ih w e he
  · rename_i e0 _ h2
    simp only [Txlogs.Spec.upd] at he
    split at he
    · rename_i hw
      cases he; subst hw
      refine ⟨ht.uuid, fun k x hx => ?_⟩
      unfold Txlogs.Spec.upd at hx
      split at hx
      · rename_i hk; cases hx; subst hk; exact ⟨ht.key, ht.value⟩
      · exact (ih _ _ h2).2 k x hx
    · exact ih w e he
  · rename_i e0 _ h2
    simp only [Txlogs.Spec.upd] at he
    split at he
    · rename_i hw
      cases he; subst hw
      refine ⟨ht.uuid, fun k x hx => ?_⟩
      unfold Txlogs.Spec.upd at hx
      split at hx
      · cases hx
      · exact (ih _ _ h2).2 k x hx
    · exact ih w e he
  · exact ih w e he

theorem clean_state' {log : List Tx} {st0 st : Txlogs.Spec.State} (h0 : CleanState st0) (h : ∀ t ∈ log, Json.Spec.CleanTx t)
    (hm : Txlogs.Spec.meaning st0 log = some st) : CleanState st := by
  induction log generalizing st0 with
  | nil => cases hm; exact h0
  | cons tx log ih =>
    simp only [Txlogs.Spec.meaning] at hm
    cases h1 : Txlogs.Spec.apply st0 tx with
    | none => rw [h1] at hm; cases hm
    | some st1 =>
      rw [h1] at hm
      exact ih (clean_apply h0 (h tx (by simp)) h1) (fun t ht => h t (by simp [ht])) hm

/-- all strings visible in the state a clean log describes are well-formed -/
theorem clean_state {log : List Tx} {st : Txlogs.Spec.State} (h : ∀ t ∈ log, Json.Spec.CleanTx t)
    (hm : Txlogs.Spec.meaning Txlogs.Spec.empty log = some st) :
    ∀ w e, st w = some e → ValidUtf8 w ∧ ∀ k x, e k = some x → ValidUtf8 k ∧ ValidUtf8 x :=
  clean_state' (by intro w e he; simp [Txlogs.Spec.empty] at he) h hm

theorem clean_visible {s : DB} (h : ∀ t ∈ s.log, Json.Spec.CleanTx t) {w : Str} {e : Str → Option Str} (hv : Blob.Spec.Visible s w e) :
    ValidUtf8 w ∧ ∀ k x, e k = some x → ValidUtf8 k ∧ ValidUtf8 x := by
  obtain ⟨st, h1, h2⟩ := hv
  exact clean_state h h1 w e h2

/-- a store in order with a clean log survives the JSON text -/
theorem clean_of_log {s : DB} (ho : Ok s) (h : CleanLog s) (hc : Counted s) : Json.Spec.Clean s := by
  have hv : ∀ w en, s.snapshot.get? w = some en → ValidUtf8 w ∧ ∀ k x, en.get? k = some x → ValidUtf8 k ∧ ValidUtf8 x := by
    intro w en hw
    have := clean_state (log := s.log.take s.version) (fun t ht => (h t (List.mem_of_mem_take ht)).1) ho.coh.2 w
      (fun k => en.get? k) (by simp [Txlogs.Spec.view, hw])
    exact this
  have hle := ho.coh.1
  refine ⟨⟨?_, fun t ht => (h t ht).2⟩, fun t ht => (h t ht).1, ⟨ho.nodup, ?_⟩, ?_⟩
  · unfold Counted at hc; omega
  · rintro ⟨w, en⟩ hp
    exact (hv w en (GoMap.get?_of_mem ho.nodup hp)).1
  · rintro ⟨w, en⟩ hp
    have hg := GoMap.get?_of_mem ho.nodup hp
    have hn := ho.inner w en hg
    refine ⟨⟨hn, ?_⟩, ?_⟩
    · rintro ⟨k, x⟩ hq
      exact ((hv w en hg).2 k x (GoMap.get?_of_mem hn hq)).1
    · rintro ⟨k, x⟩ hq
      exact ((hv w en hg).2 k x (GoMap.get?_of_mem hn hq)).2

/-- an operation that may be added to a log of well-formed text, when the clock only shows times in `T` -/
def CleanOp (T : Int → Prop) (t : Tx) : Prop := Json.Spec.CleanTx t ∧ T t.time

theorem cleanLog_adds {T : Int → Prop} {F : Str} {s s' : DB} (h : ∀ t ∈ s.log, CleanOp T t) (ha : Adds (CleanOp T) F s s') :
    ∀ t ∈ s'.log, CleanOp T t := by
  obtain ⟨l, h1, h2, -⟩ := ha
  intro t ht
  rw [h1, List.mem_append] at ht
  exact ht.elim (h t) (h2 t)

theorem clean_rules {T : Int → Prop} {v : Env} {s : DB} (hv : TextEnv v) (hnow : ∀ i, T (v.d.now i))
    (h : ∀ t ∈ s.log, Json.Spec.CleanTx t) : Rules v s ValidUtf8 ValidUtf8 (CleanOp T) := by
  have hex : ∀ w, Blob.Exists s w → ValidUtf8 w := fun w ⟨e, he⟩ => (clean_visible h he).1
  have hw : ∀ w, (Blob.Exists s w ∨ w = v.d.uuid) → ValidUtf8 w := fun w hw => hw.elim (hex w) (fun e => e ▸ hv.uuid)
  refine
    { put := fun i w k x h1 h2 h3 => ⟨cleanTx_mk (by simp) (hw w h1) h2 h3, hnow i⟩
      cut := fun i w k h1 h2 => ⟨cleanTx_mk (by simp) (hex w h1) h2 valid_nil, hnow i⟩
      add := fun i => ⟨cleanTx_mk (by simp) hv.uuid valid_nil valid_nil, hnow i⟩
      touch := fun i w _ h1 => ⟨cleanTx_mk (by simp) (hw w h1) (valid_ascii _ (by decide)) (valid_ascii _ (fmtInt_ascii _)), hnow _⟩
      keys := ?_
      ascii := valid_ascii
      inp := hv.typed
      join := valid_join
      split := fun x hx => split_valid _ (by decide) x hx
      old := fun w e k x h1 h2 => ((clean_visible h h1).2 k x h2).2
      otp := fun w x h1 h2 => hv.otp _ _ (hex w h1) h2
      editor := hv.editor
      fileUrl := hv.fileUrl
      scpUrl := hv.scpUrl
      keypair := hv.keypair }
  intro k hk
  simp only [List.mem_cons, List.not_mem_nil, or_false] at hk
  rcases hk with rfl | rfl | rfl | rfl | rfl | rfl | rfl | rfl | rfl | rfl <;> exact valid_ascii _ (by decide)

/-- every argument of a line of well-formed text is well-formed -/
theorem parseLine_clean {line cmd : Str} {args : List Str} (hl : ValidUtf8 line) (h : parseLine line = some (cmd, args)) :
    ∀ a ∈ args, ValidUtf8 a := by
  intro a ha
  have ht := valid_trimSpace hl
  have hf := valid_fields ht
  unfold parseLine at h
  dsimp only at h
  cases hfs : fields (trimSpace line) with
  | nil => rw [hfs] at h; cases h
  | cons c as =>
    rw [hfs] at h hf
    simp only at h
    split at h
    · obtain ⟨-, rfl⟩ := Prod.mk.inj (Option.some.inj h)
      exact split_valid _ (by decide) _ ht a (List.mem_of_mem_drop ha)
    · obtain ⟨-, rfl⟩ := Prod.mk.inj (Option.some.inj h)
      exact hf a (by simp [ha])

theorem queryArgs_mem {ctx q k : Str} {args rest : List Str} (h : queryArgs ctx args = some (q, k, rest)) :
    k ∈ args ∧ ∀ x ∈ rest, x ∈ args := by
  unfold queryArgs at h
  split at h
  · split at h
    · cases h; exact ⟨by simp, fun x hx => by simp [hx]⟩
    · cases h
  · split at h
    · cases h; exact ⟨by simp, fun x hx => by simp [hx]⟩
    · cases h

theorem setArgs_mem {ctx q k x : Str} {args : List Str} (h : setArgs ctx args = some (q, k, x)) :
    k ∈ args ∧ ∃ rest, (∀ y ∈ rest, y ∈ args) ∧ x = join 32 rest := by
  unfold setArgs at h
  split at h
  · cases h
  · rename_i hq
    split at h
    · cases h
    · cases h
      obtain ⟨h1, h2⟩ := queryArgs_mem hq
      exact ⟨h1, _, h2, rfl⟩

theorem clean_lineRules {T : Int → Prop} {v : Env} {r : Repl} (hv : TextEnv v) (hnow : ∀ i, T (v.d.now i))
    (hnows : ∀ j i, T ((v.ds j).now i)) (h : ∀ t ∈ r.u.store.log, Json.Spec.CleanTx t) {cmd : Str} {args : List Str}
    (ha : ∀ a ∈ args, ValidUtf8 a) : LineRules v r cmd args ValidUtf8 ValidUtf8 (CleanOp T) := by
  have hex : ∀ w, Blob.Exists r.u.store w → ValidUtf8 w := fun w ⟨e, he⟩ => (clean_visible h he).1
  have hrec : ∀ (now : Nat → Int) uuid, ValidUtf8 uuid → (∀ i, T (now i)) → RecordRules r.u.store uuid now (CleanOp T) := by
    intro now uuid hu hn i w k x hw hk
    refine ⟨cleanTx_mk (by simp) (hw.elim (hex w) (fun e => e ▸ hu)) ?_ (valid_ascii _ (hex_ascii _)), hn i⟩
    simp only [List.mem_cons, List.not_mem_nil, or_false] at hk
    rcases hk with rfl | rfl | rfl <;> exact valid_ascii _ (by decide)
  have hname : ValidUtf8 keyName := valid_ascii _ (by decide)
  exact
    { rules := clean_rules hv hnow h
      value := by
        intro _ q k x hx
        obtain ⟨-, rest, h1, rfl⟩ := setArgs_mem hx
        exact valid_join _ _ (by decide) (fun y hy => ha y (h1 y hy))
      setKey := fun _ q k x hx _ => ha k (setArgs_mem hx).1
      editKey := fun _ q k l hx _ => ha k (queryArgs_mem hx).1
      cutKey := fun _ q k l hx _ _ => ha k (queryArgs_mem hx).1
      addName := fun _ nm l hx i => ⟨cleanTx_mk (by simp) hv.uuid hname (ha nm (by simp [hx])), hnow i⟩
      syncName := fun _ kind l hx _ j => ⟨cleanTx_mk (by simp) hv.uuid hname
        (valid_append (valid_append (valid_ascii _ (by decide)) (ha kind (by simp [hx])))
          (valid_ascii _ (by simp [List.all_replicate]))), hnow _⟩
      mvName := fun _ src dst l hx w hw => ⟨cleanTx_mk (by simp) (hex w (exists_of_named hw)) hname (ha dst (by simp [hx])), hnow _⟩
      del := fun _ nm l hx w hw => ⟨cleanTx_mk (by simp) (hex w (exists_of_named hw)) valid_nil valid_nil, hnow _⟩
      record := fun _ => hrec _ _ hv.uuid hnow
      userName := fun _ nm l hx => ⟨cleanTx_mk (by simp) hv.uuid hname
        (valid_append (valid_ascii _ (by decide)) (ha nm (by simp [hx]))), hnow _⟩
      records := fun _ j => hrec _ _ valid_nil (hnows j) }

/-- a line of well-formed text adds operations of well-formed text, with times the clock showed -/
theorem text_line {T : Int → Prop} {P : Prims} {C : Codec} {v : Env} {line : Str} {r : Repl} (h0 : r.u.store.txPoint = 0)
    (h : WellFormed r.u.store) (hc : ∀ t ∈ r.u.store.log, CleanOp T t) (hl : TextTurn v line r)
    (hnow : ∀ i, T (v.d.now i)) (hnows : ∀ j i, T ((v.ds j).now i))
    (hn : (runLine P C v line r).2 ≠ .panic) : ∀ t ∈ (runLine P C v line r).1.u.store.log, CleanOp T t :=
  cleanLog_adds hc (addsR_line h0 hl.legal.env h line hl.legal.utf8 hl.legal.noSync
    (fun _ _ _ hpl _ => clean_lineRules hl.text hnow hnows (fun t ht => (hc t ht).1) (parseLine_clean hl.legal.utf8 hpl)) hn)

theorem clean_line {P : Prims} {C : Codec} {v : Env} {line : Str} {r : Repl} (h0 : r.u.store.txPoint = 0)
    (h : WellFormed r.u.store) (hc : CleanLog r.u.store) (hl : CleanTurn v line r)
    (hn : (runLine P C v line r).2 ≠ .panic) : CleanLog (runLine P C v line r).1.u.store :=
  text_line (T := FitsInt64) h0 h hc ⟨hl.legal, hl.clean.toTextEnv⟩ hl.clean.now hl.clean.nows hn

end Verif.App
