import Verif.App.WordSpec
import Verif.App.AccessLemmas
import Verif.App.CrashNetLemmas
import Verif.App.SyncTextLemmas
import Verif.App.SharedLemmas
/-!
# Words of a line, and the names that lines write
-/
set_option linter.unusedSimpArgs false
namespace Verif.App
open Verif Verif.Txlogs Verif.Blob Verif.Crypt Verif.App.Spec

/-! ## Lines made of words -/

theorem trim_of {s : Str} (h1 : ∀ p, (pieces s).head? = some p → isSpaceRune p.1 = false)
    (h2 : ∀ p, (pieces s).getLast? = some p → isSpaceRune p.1 = false) : trimSpace s = s := by
  have key : ∀ l : List (Nat × Str), (∀ p, l.head? = some p → isSpaceRune p.1 = false) →
      l.dropWhile (fun p => isSpaceRune p.1) = l := by
    intro l hl
    cases l with
    | nil => rfl
    | cons p l => rw [List.dropWhile_cons, if_neg (by rw [hl p rfl]; simp)]
  unfold trimSpace
  simp only
  rw [key _ h1, key _ (by intro p hp; exact h2 p (by rw [List.head?_reverse] at hp; exact hp)), List.reverse_reverse, pieces_flatten]

theorem pieces_ne {s : Str} (h : s ≠ []) : pieces s ≠ [] := by
  intro hp
  have := pieces_flatten s
  rw [hp] at this
  exact h this.symm

theorem join_last (w : Str) (ws : List Str) (h : ∀ x ∈ w :: ws, Word x) : ∀ p, (pieces (join 32 (w :: ws))).getLast? = some p →
    isSpaceRune p.1 = false := by
  induction ws generalizing w with
  | nil =>
    intro p hp
    exact (h w (by simp)).2 p (List.mem_of_getLast? hp)
  | cons x ws ih =>
    intro p hp
    rw [join_cons_ne 32 w (by simp), pieces_append_ascii _ _ (by decide)] at hp
    have hne : pieces (join 32 (x :: ws)) ≠ [] := by
      apply pieces_ne
      cases ws with
      | nil => exact (h x (by simp)).1
      | cons y l => rw [join_cons_ne 32 x (by simp)]; simp
    obtain ⟨q, l, hq⟩ := List.exists_cons_of_ne_nil hne
    rw [hq, List.getLast?_append, List.getLast?_cons_cons, ← hq] at hp
    obtain ⟨z, hz⟩ : ∃ z, (pieces (join 32 (x :: ws))).getLast? = some z := by rw [hq]; exact ⟨_, List.getLast?_cons⟩
    rw [hz, Option.some_or] at hp
    rw [← hz] at hp
    exact ih x (fun y hy => h y (by simp at hy ⊢; exact .inr hy)) p hp

theorem join_head (w : Str) (ws : List Str) (h : Word w) : ∀ p, (pieces (join 32 (w :: ws))).head? = some p → isSpaceRune p.1 = false := by
  intro p hp
  cases ws with
  | nil => exact h.2 p (List.mem_of_head? hp)
  | cons x ws =>
    rw [join_cons_ne 32 w (by simp), pieces_append_ascii _ _ (by decide)] at hp
    have hne := pieces_ne h.1
    cases hw : pieces w with
    | nil => exact absurd hw hne
    | cons q l =>
      rw [hw] at hp
      simp only [List.cons_append, List.head?_cons, Option.some.injEq] at hp
      subst hp
      exact h.2 q (by rw [hw]; simp)

theorem fields_join (ws : List Str) (h : ∀ x ∈ ws, Word x) : fields (join 32 ws) = ws := by
  induction ws with
  | nil => rfl
  | cons w ws ih =>
    cases ws with
    | nil => exact fields_single w (h w (by simp)).1 (h w (by simp)).2
    | cons x ws =>
      rw [join_cons_ne 32 w (by simp), fields_word w (h w (by simp)).1 (h w (by simp)).2 32 (by decide) (by decide),
        ih (fun y hy => h y (by simp at hy ⊢; exact .inr hy))]

theorem word_blank {n : Str} (h : Word n) : (32 : UInt8) ∉ n := noSpace_notMem h.2 32 (by decide) (by decide)

/-! ## What is typed as an argument is a word -/

theorem noSpace_encode {rs : List Nat} (h : ∀ r ∈ rs, Scalar r) (h' : ∀ r ∈ rs, isSpaceRune r = false) : NoSpace (encodeRunes rs) := by
  unfold NoSpace
  rw [Json.pieces_encode rs h]
  intro p hp
  obtain ⟨r, hr, rfl⟩ := List.mem_map.1 hp
  exact h' r hr

theorem words_fieldsAux (rs cur : List Nat) (hr : ∀ r ∈ rs, Scalar r) (hc : ∀ r ∈ cur, Scalar r) (hc' : ∀ r ∈ cur, isSpaceRune r = false) :
    ∀ f ∈ fieldsAux (rs.map fun r => (r, encodeRune r)) (encodeRunes cur), Word f := by
  induction rs generalizing cur with
  | nil =>
    intro f hf
    simp only [List.map_nil, fieldsAux] at hf
    split at hf
    · simp at hf
    · rename_i hne
      rw [List.mem_singleton.1 hf]
      exact ⟨hne, noSpace_encode hc hc'⟩
  | cons r rs ih =>
    intro f hf
    have hr' : ∀ r ∈ rs, Scalar r := fun x hx => hr x (by simp [hx])
    simp only [List.map_cons, fieldsAux] at hf
    split at hf
    · split at hf
      · exact ih [] hr' (by simp) (by simp) f hf
      · rename_i hne
        rcases List.mem_cons.1 hf with rfl | hf
        · exact ⟨hne, noSpace_encode hc hc'⟩
        · exact ih [] hr' (by simp) (by simp) f hf
    · rename_i hsp
      have : encodeRunes cur ++ encodeRune r = encodeRunes (cur ++ [r]) := by simp [encodeRunes]
      rw [this] at hf
      refine ih (cur ++ [r]) hr' ?_ ?_ f hf
      · intro x hx
        rcases List.mem_append.1 hx with hx | hx
        · exact hc x hx
        · rw [List.mem_singleton.1 hx]; exact hr r (by simp)
      · intro x hx
        rcases List.mem_append.1 hx with hx | hx
        · exact hc' x hx
        · rw [List.mem_singleton.1 hx]; simpa using hsp

theorem words_fields {s : Str} (h : ValidUtf8 s) : ∀ f ∈ fields s, Word f := by
  obtain ⟨rs, h1, rfl⟩ := h
  unfold fields
  rw [Json.pieces_encode rs h1]
  exact words_fieldsAux rs [] h1 (by simp) (by simp)

/-- the arguments of every command but `set` are words -/
theorem parseLine_words {line cmd : Str} {args : List Str} (hl : ValidUtf8 line) (h : parseLine line = some (cmd, args))
    (hc : cmd ≠ b! "set") : ∀ a ∈ args, Word a := by
  intro a ha
  unfold parseLine at h
  dsimp only at h
  cases hfs : fields (trimSpace line) with
  | nil => rw [hfs] at h; cases h
  | cons c as =>
    rw [hfs] at h
    simp only at h
    split at h
    · rename_i he
      obtain ⟨h1, -⟩ := Prod.mk.inj (Option.some.inj h)
      exact absurd (h1.symm.trans he) hc
    · obtain ⟨-, rfl⟩ := Prod.mk.inj (Option.some.inj h)
      exact words_fields (valid_trimSpace hl) a (by rw [hfs]; simp [ha])

/-! ## Names that lines write -/

/-- an operation that gives no other name than a word -/
def WordOp (t : Tx) : Prop := t.kind = .setk → t.key = keyName → Word t.value

theorem notName_of_free {k : Str} (h : protectedKeys.any (fun p => equalFold k p) = false) : k ≠ keyName := by
  rintro rfl
  revert h
  decide

theorem word_append {a b : Str} (ha : a.all (fun c => c.toNat < 0x80 ∧ isSpaceRune c.toNat = false) = true) (hb : Word b) : Word (a ++ b) := by
  refine ⟨fun h => hb.1 (List.append_eq_nil_iff.1 h).2, ?_⟩
  induction a with
  | nil => exact hb.2
  | cons c a ih =>
    simp only [List.all_cons, Bool.and_eq_true, decide_eq_true_eq] at ha
    unfold NoSpace
    rw [List.cons_append, pieces_ascii_cons c ha.1.1]
    intro p hp
    rcases List.mem_cons.1 hp with rfl | hp
    · exact ha.1.2
    · exact ih ha.2 p hp

theorem word_syncName {kind : Str} (hk : kind = syncSCP ∨ kind = syncFile) (j : Nat) : Word (syncPrefix ++ kind ++ List.replicate j 49) := by
  have : ∀ b ∈ syncPrefix ++ kind ++ List.replicate j 49, b.toNat < 0x80 ∧ isSpaceRune b.toNat = false := by
    intro b hb
    rcases List.mem_append.1 hb with hb | hb
    · rcases hk with rfl | rfl
      · exact (by decide : ∀ b ∈ syncPrefix ++ syncSCP, b.toNat < 0x80 ∧ isSpaceRune b.toNat = false) b hb
      · exact (by decide : ∀ b ∈ syncPrefix ++ syncFile, b.toNat < 0x80 ∧ isSpaceRune b.toNat = false) b hb
    · rw [(List.mem_replicate.1 hb).2]; decide
  refine ⟨?_, noSpace_ascii _ this⟩
  rcases hk with rfl | rfl <;> simp [syncPrefix]

theorem word_rules {v : Env} {r : Repl} {cmd : Str} {args : List Str} (ha : cmd ≠ b! "set" → ∀ a ∈ args, Word a) :
    LineRules v r cmd args (fun _ => True) (· ≠ keyName) WordOp := by
  have hrec : ∀ (s : DB) (now : Nat → Int) uuid, RecordRules s uuid now WordOp := by
    intro s now uuid i w k x hw hk _ hkn
    simp only at hkn
    subst hkn
    exact absurd hk (by decide)
  exact
    { rules :=
        { put := fun i w k x _ h _ _ hk => absurd hk h
          cut := fun i w k _ h hk => by cases hk
          add := fun i hk => by cases hk
          touch := fun i w _ _ _ hk => absurd hk (show keyUpdated ≠ keyName by decide)
          keys := by decide
          ascii := fun _ _ => trivial
          inp := fun _ _ => trivial
          join := fun _ _ _ _ => trivial
          split := fun _ _ _ _ => trivial
          old := fun _ _ _ _ _ _ => trivial
          otp := fun _ _ _ _ => trivial
          editor := fun _ _ _ _ => trivial
          fileUrl := fun _ _ _ _ => trivial
          scpUrl := fun _ _ _ _ _ _ _ _ _ _ => trivial
          keypair := fun _ _ _ => ⟨trivial, trivial⟩ }
      value := fun _ _ _ _ _ => trivial
      setKey := fun _ q k x hx h => notName_of_free h
      editKey := fun _ q k l hx h => notName_of_free h
      cutKey := fun _ q k l hx h _ => h
      addName := fun hc nm l hx i _ _ => ha (by rw [hc]; decide) nm (by simp [hx])
      syncName := fun hc kind l hx hk j _ _ => word_syncName hk j
      mvName := fun hc src dst l hx w hw _ _ => ha (by rw [hc]; decide) dst (by simp [hx])
      del := fun _ nm l hx w hw hk => by cases hk
      record := fun _ => hrec _ _ _
      userName := fun hc nm l hx _ _ => word_append (by decide) (ha (by rw [hc]; decide) nm (by simp [hx]))
      records := fun _ j => hrec _ _ _ }

/-! ## Where the operations come from that are in the file after `sync` -/

theorem saveHosts_from {now : Nat → Int} {s : DB} {hs : List (Str × Str)} : ∀ t ∈ (saveHosts now s hs).1.log, t ∈ s.log ∨ HostOp t := by
  obtain ⟨-, -, txs, h, -, h'⟩ := saveHostsLoop_ops hs now s
  unfold saveHosts
  rw [updateSnapshot_log, h]
  exact fun t ht => (List.mem_append.1 ht).imp id (h' t)

theorem pushBack_from {P : Prims} {C : Codec} {w : World} {v : SyncEnv} {push : Bool} {hosts : Results} {ts : List Str} {u : Session}
    {inp : Input} : ∀ t ∈ (pushBack P C w v push hosts ts u inp).session.store.log, t ∈ u.store.log ∨ HostOp t := by
  have h1 := saveHosts_from (now := v.now) (s := u.store) (hs := v.ordH hosts)
  unfold pushBack
  cases hx : saveHosts v.now u.store (v.ordH hosts) with
  | mk s e =>
    rw [hx] at h1
    cases e with
    | some e => exact h1
    | none =>
      simp only at h1 ⊢
      split
      · exact h1
      · have h2 := sealFile_log P C v.ord v.ord' v.iv u.creds s
        cases hy : sealFile P C v.ord v.ord' v.iv u.creds s with
        | mk s2 o =>
          rw [hy] at h2
          simp only at h2
          rw [← h2] at h1
          cases o with
          | panic => exact h1
          | err e => exact h1
          | ok ct =>
            simp only
            rcases pushAll w s2 ct ts [] inp with ⟨done, b, hosts2, i2⟩
            cases b with
            | true => exact h1
            | false =>
              have h3 := saveHosts_from (now := v.now') (s := s2) (hs := v.ordH hosts2)
              cases hz : saveHosts v.now' s2 (v.ordH hosts2) with
              | mk s3 e =>
                rw [hz] at h3
                have h4 : ∀ t ∈ s3.log, t ∈ u.store.log ∨ HostOp t := fun t ht => (h3 t ht).elim (h1 t) .inr
                simp only [hz]
                cases e <;> exact h4

/-- Every operation after a `sync`, however it ends, was there before, was pulled, or notes a host key. -/
theorem sync_from {P : Prims} {C : Codec} {w : World} {v : SyncEnv} {nm : Str} {push : Bool} {u : Session} {inp : Input} :
    ∀ t ∈ (sync P C w v nm push u inp).session.store.log, t ∈ u.store.log ∨ HostOp t ∨
      ∃ syncs l rest, Selected w v u nm syncs ∧
        pullAll P C w { u with store := u.store.updateSnapshot.1 } syncs inp = (some l, rest) ∧
        ∃ q ∈ remotes l, t ∈ q.log := by
  intro t ht
  rcases sync_cases P C w v nm push u inp with h | ⟨syncs, h0, hs1, hs2, h⟩
  · rw [h.2.1] at ht; exact .inl ht
  · rw [h] at ht
    have hlog := updateSnapshot_log u.store
    rcases syncWith_cases P C w v push { u with store := u.store.updateSnapshot.1 } syncs inp with ⟨h, -⟩ | ⟨l, i1, m, i2, a, b, c⟩
    · rw [h] at ht
      simp only [hlog] at ht
      exact .inl ht
    · have key : ∀ t ∈ m.log, t ∈ u.store.log ∨ HostOp t ∨
          ∃ syncs l rest, Selected w v u nm syncs ∧
        pullAll P C w { u with store := u.store.updateSnapshot.1 } syncs inp = (some l, rest) ∧
            ∃ q ∈ remotes l, t ∈ q.log := by
        intro t ht
        rcases mergeRemotes_from _ _ _ _ _ _ _ b t ht with h | h
        · simp only [hlog] at h
          exact .inl h
        · exact .inr (.inr ⟨syncs, l, i1, ⟨hs1, hs2⟩, a, h⟩)
      rcases c with ⟨s, e, hs, h⟩ | ⟨s, hs, h⟩
      · rw [h] at ht
        have := updateSnapshot_log ({ u.store.updateSnapshot.1.resetSnapshot with log := m.log } : DB)
        rw [hs] at this
        simp only at this ht
        exact key t (this ▸ ht)
      · rw [h] at ht
        have := updateSnapshot_log ({ u.store.updateSnapshot.1.resetSnapshot with log := m.log } : DB)
        rw [hs] at this
        simp only at this
        rcases pushBack_from t ht with h | h
        · exact key t (this ▸ h)
        · exact .inr (.inl h)

theorem words_sync {P : Prims} {C : Codec} {w : World} {v : SyncEnv} {nm : Str} {push : Bool} {u : Session} {inp : Input}
    (hw : Words u.store.log) (hp : PulledWords P C w v nm u inp) : Words (sync P C w v nm push u inp).session.store.log := by
  intro t ht hk hn
  rcases sync_from t ht with h | h | ⟨syncs, l, rest, h0, h1, q, hq, h2⟩
  · exact hw t h hk hn
  · rw [h.2] at hn
    exact absurd hn (by decide)
  · exact hp syncs l rest h0 h1 q hq t h2 hk hn

theorem selects_empty {lower : Nat → Nat} {q : Str} (hq : q ≠ []) : ¬ Blob.Spec.Selects lower q [] := by
  rintro (h | ⟨-, -, h⟩ | ⟨h, ks, rest, h1, h2, -⟩)
  · exact hq h
  · unfold Fuzzy.fuzzyMatch at h
    have hlt : q.length > ([] : Str).length := List.length_pos_iff.2 hq
    rw [if_pos hlt] at h
    cases h
  · rw [split_length] at h2
    have := List.count_pos_iff.2 h
    have h3 : ks.length + rest.length = 1 := by rw [← List.length_append, ← h1]; rfl
    omega

theorem word_ones {n : Str} (h : Word n) (k : Nat) : Word (n ++ List.replicate k 49) := by
  refine ⟨fun hn => h.1 (List.append_eq_nil_iff.1 hn).1, ?_⟩
  cases k with
  | zero => simpa using h.2
  | succ k =>
    unfold NoSpace
    rw [List.replicate_succ, pieces_append_ascii _ _ (by decide)]
    intro p hp
    rcases List.mem_append.1 hp with hp | hp
    · exact h.2 p hp
    · rcases List.mem_cons.1 hp with rfl | hp
      · decide
      · exact noSpace_ascii _ (fun b hb => by rw [(List.mem_replicate.1 hb).2]; decide) p hp

end Verif.App
