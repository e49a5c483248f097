import Verif.App.SyncTextSpec
import Verif.App.AccessLemmas
import Verif.App.HistoryLemmas3
import Verif.Json.ReadProps
/-!
# Lemmas for C77 with `sync`
-/
namespace Verif.App
open Verif Verif.Txlogs Verif.Blob Verif.Crypt Verif.App.Spec

/-! ## Merging brings nothing new -/


end Verif.App
namespace Verif.Txlogs
theorem checkConflict_from {R : List Conflict} {st st' : MState} (h : checkConflict R st = some st') : ∀ t ∈ st'.c, t ∈ st.c := by
  unfold checkConflict at h
  split at h
  · cases h
  · split at h
    · split at h
      · cases h; exact fun t ht => ht
      · split at h
        · cases h; exact fun t ht => (List.dropLast_sublist _).subset ht
        · cases h; exact fun t ht => ht
    · split at h
      · cases h
      · split at h
        · split at h
          · cases h
          · cases h; exact fun t ht => (List.dropLast_sublist _).subset ht
        · split at h
          · cases h; exact fun t ht => ht
          · cases h; exact fun t ht => ht

theorem procStep_from {R : List Conflict} {st st' : MState} {p : Tx × Option Nat} (h : procStep R st p = some st') :
    ∀ t ∈ st'.c, t ∈ st.c ∨ t = p.1 := by
  unfold procStep at h
  split at h
  · cases h
    intro t ht
    simpa using ht
  · intro t ht
    have := checkConflict_from h t ht
    simpa [MState.push] using this

theorem proc_from {R : List Conflict} : ∀ (L : List (Tx × Option Nat)) (st st' : MState), proc R L st = some st' →
    ∀ t ∈ st'.c, t ∈ st.c ∨ t ∈ L.map Prod.fst := by
  intro L
  induction L with
  | nil => intro st st' h; cases h; exact fun t ht => .inl ht
  | cons p L ih =>
    intro st st' h t ht
    simp only [proc] at h
    split at h
    · cases h
    · rename_i st1 h1
      rcases ih st1 st' h t ht with h2 | h2
      · rcases procStep_from h1 t h2 with h3 | h3
        · exact .inl h3
        · exact .inr (by simp [h3])
      · exact .inr (by simp at h2 ⊢; exact .inr h2)

/-- Every operation of a merged log is from one of the two logs. -/
theorem merge_from {a b c : List Tx} {R : List Conflict} (h : merge a b R = .log c) : ∀ t ∈ c, t ∈ a ∨ t ∈ b := by
  unfold merge at h
  split at h
  · cases h
  · split at h
    · cases h
    · cases h; exact fun t ht => .inl ht
    · split at h
      · cases h
      · rename_i st hst
        split at h
        · cases h
          rw [mergeLoop_eq] at hst
          intro t ht
          rcases proc_from _ _ _ hst t ht with h1 | h1
          · cases h1
          · obtain ⟨p, hp, rfl⟩ := List.mem_map.1 h1
            exact mt_mem 0 a b p hp
        · cases h

end Verif.Txlogs
namespace Verif.App
open Verif Verif.Txlogs Verif.Blob Verif.Crypt Verif.App.Spec

theorem mergeRounds_from (a b : List Tx) (cs : List Txlogs.Conflict) (inp : Input) :
    ∀ c rest, mergeRounds a b cs inp = (.ok c, rest) → ∀ t ∈ c, t ∈ a ∨ t ∈ b := by
  fun_induction mergeRounds a b cs inp with
  | case1 => intro c rest h; cases h
  | case2 cs inp c hm => intro c' rest h; cases h; exact merge_from hm
  | case3 => intro c rest h; cases h; simp
  | case4 cs inp c cs' hm cs2 rest hr _ ih => exact ih
  | case5 => intro c rest h; cases h
  | case6 => intro c rest h; cases h

theorem mergeLogs_from {a b c : List Tx} {inp rest : Input} (h : mergeLogs a b inp = (.ok c, rest)) : ∀ t ∈ c, t ∈ a ∨ t ∈ b := by
  unfold mergeLogs at h
  split at h
  · cases h; exact fun t ht => .inl ht
  · exact mergeRounds_from a b [] inp c rest h

theorem mergeRemotes_from (ord : Order) (u : Creds) : ∀ (rs : List Remote) (m m' : Merged) (inp rest : Input),
    mergeRemotes ord u rs m inp = (.ok m', rest) → ∀ t ∈ m'.log, t ∈ m.log ∨ ∃ q ∈ rs, t ∈ q.log := by
  intro rs
  induction rs with
  | nil => intro m m' inp rest h; cases h; exact fun t ht => .inl ht
  | cons r rs ih =>
    intro m m' inp rest h t ht
    simp only [mergeRemotes] at h
    split at h
    · cases h
    · cases h
    · rename_i merged i1 h1
      split at h
      · cases h
      · cases h
      · rcases ih _ _ _ _ h t ht with h2 | ⟨q, hq, h2⟩
        · rcases mergeLogs_from h1 t h2 with h3 | h3
          · exact .inl h3
          · exact .inr ⟨r, by simp, h3⟩
        · exact .inr ⟨q, by simp [hq], h2⟩

/-! ## Text -/

/-- a store in order whose operations are made of text -/
structure TextStore (T : Int → Prop) (s : DB) : Prop where
  ok : Ok s
  ops : ∀ t ∈ s.log, CleanOp T t

theorem TextStore.snap {T : Int → Prop} {s : DB} (h : TextStore T s) {w : Str} {en : Entry} (hw : s.snapshot.get? w = some en) :
    ValidUtf8 w ∧ TextEntry en := by
  have := clean_state (log := s.log.take s.version) (fun t ht => (h.ops t (List.mem_of_mem_take ht)).1) h.ok.coh.2 w
    (fun k => en.get? k) (by simp [Txlogs.Spec.view, hw])
  exact ⟨this.1, fun k x hx => (this.2 k x hx).2⟩

theorem TextStore.entry {T : Int → Prop} {s : DB} (h : TextStore T s) (w : Str) : TextEntry ((s.snapshot.get? w).getD []) := by
  cases hw : s.snapshot.get? w with
  | none => intro k x hx; cases hx
  | some en => exact (h.snap hw).2

theorem TextStore.update {T : Int → Prop} {s : DB} (h : TextStore T s) : TextStore T s.updateSnapshot.1 :=
  ⟨ok_update h.ok, by rw [updateSnapshot_log]; exact h.ops⟩

theorem text_val {e : Entry} (h : TextEntry e) (k : Str) : ValidUtf8 (val e k) := by
  unfold val
  cases hk : e.get? k with
  | none => exact valid_nil
  | some x => exact h k x hk

theorem text_appendHost {a h : Str} (ha : ValidUtf8 a) (hh : ValidUtf8 h) : ValidUtf8 (appendHost a h) := by
  unfold appendHost
  split
  · exact hh
  · refine valid_join newline _ (by decide) fun x hx => ?_
    rcases List.mem_append.1 hx with hx | hx
    · exact split_valid newline (by decide) a ha x hx
    · rw [List.mem_singleton.1 hx]; exact hh

theorem text_saveHostsLoop {T : Int → Prop} : ∀ (hs : List (Str × Str)) (now : Nat → Int) (s : DB), TextStore T s → (∀ i, T (now i)) →
    (∀ p ∈ hs, ValidUtf8 p.1 ∧ ValidUtf8 p.2) → TextStore T (saveHostsLoop now s hs) := by
  intro hs
  induction hs with
  | nil => intro now s h _ _; exact h
  | cons p hs ih =>
    intro now s h hn hp
    obtain ⟨x, y⟩ := p
    simp only [saveHostsLoop]
    refine ih _ _ ?_ (fun i => hn (i + 1)) fun q hq => hp q (by simp [hq])
    obtain ⟨h1, h2⟩ := hp (x, y) (by simp)
    refine ⟨ok_append (txs := [⟨now 0, .setk, x, keyKnownHosts, _⟩]) h.ok rfl rfl rfl, fun t ht => ?_⟩
    rcases List.mem_append.1 ht with ht | ht
    · exact h.ops t ht
    · rw [List.mem_singleton.1 ht]
      exact ⟨⟨rfl, valid_ascii (Json.kindStr .setk) (by decide), h1, valid_ascii keyKnownHosts (by decide), text_appendHost (text_val (h.entry x) _) h2⟩, hn 0⟩

theorem text_saveHosts {T : Int → Prop} {hs : List (Str × Str)} {now : Nat → Int} {s : DB} (h : TextStore T s) (hn : ∀ i, T (now i))
    (hp : ∀ p ∈ hs, ValidUtf8 p.1 ∧ ValidUtf8 p.2) : TextStore T (saveHosts now s hs).1 :=
  (text_saveHostsLoop hs now s h hn hp).update

theorem newHosts_text : ∀ (l : List (Str × Fate × Str)) (m : Results), (∀ p ∈ m, ValidUtf8 p.1 ∧ ValidUtf8 p.2) →
    (∀ p ∈ l, ValidUtf8 p.1 ∧ ValidUtf8 p.2.2) → ∀ p ∈ newHosts l m, ValidUtf8 p.1 ∧ ValidUtf8 p.2 := by
  intro l
  induction l with
  | nil => intro m hm _; exact hm
  | cons p l ih =>
    obtain ⟨x, f, h⟩ := p
    intro m hm hl
    simp only [newHosts]
    refine ih _ ?_ fun q hq => hl q (by simp [hq])
    split
    · exact hm
    · intro q hq
      rcases Json.mem_set hq with rfl | hq
      · exact hl (x, f, h) (by simp)
      · exact hm q hq

theorem pushAll_text {T : Int → Prop} {w : World} (hw : TextWorld w) {s : DB} (hs : TextStore T s) (ct : Str) : ∀ (ts : List Str) (m : Results) (inp : Input),
    (∀ x ∈ ts, ValidUtf8 x) → (∀ p ∈ m, ValidUtf8 p.1 ∧ ValidUtf8 p.2) →
    ∀ p ∈ (pushAll w s ct ts m inp).2.2.1, ValidUtf8 p.1 ∧ ValidUtf8 p.2 := by
  intro ts
  induction ts with
  | nil => intro m inp _ hm; exact hm
  | cons x ts ih =>
    intro m inp ht hm
    simp only [pushAll]
    split
    · exact hm
    · rename_i ok h i1 h1
      refine ih _ _ (fun y hy => ht y (by simp [hy])) ?_
      split
      · exact hm
      · rename_i hne
        intro q hq
        rcases Json.mem_set hq with rfl | hq
        · refine ⟨ht x (by simp), ?_⟩
          unfold pushBlob at h1
          split at h1
          · cases h1
          · split at h1
            · exact hw.push _ _ _ _ _ _ _ (hs.entry x) h1
            · split at h1
              · cases h1; exact absurd rfl hne
              · cases h1; exact absurd rfl hne
        · exact hm q hq

theorem text_pushBack {T : Int → Prop} {P : Prims} {C : Codec} {w : World} (hw : TextWorld w) {v : SyncEnv} (hv : SyncChoices T v) {push : Bool} {hosts : Results}
    {ts : List Str} {u : Session} {inp : Input} (h : TextStore T u.store) (hh : ∀ p ∈ hosts, ValidUtf8 p.1 ∧ ValidUtf8 p.2) (ht : ∀ x ∈ ts, ValidUtf8 x) :
    TextStore T (pushBack P C w v push hosts ts u inp).session.store := by
  have hh' : ∀ p ∈ v.ordH hosts, ValidUtf8 p.1 ∧ ValidUtf8 p.2 := fun p hp => hh p ((hv.ordH _).mem_iff.1 hp)
  have h1 := text_saveHosts h hv.now hh'
  simp only [pushBack]
  cases hs : saveHosts v.now u.store (v.ordH hosts) with
  | mk s e =>
    rw [hs] at h1
    cases e with
    | some e => exact h1
    | none =>
      simp only
      by_cases hp : push = false
      · rw [if_pos hp]; exact h1
      · rw [if_neg hp]
        have hst := sealFile_store P C v.ord v.ord' v.iv u.creds (s := s) (update_again hs)
        cases hf : sealFile P C v.ord v.ord' v.iv u.creds s with
        | mk s2 r =>
          rw [hf] at hst
          simp only at hst
          subst hst
          cases r with
          | panic => exact h1
          | err e => exact h1
          | ok ct =>
            simp only
            have h2 := pushAll_text hw h1 ct ts [] inp ht (by simp)
            cases ha : pushAll w s2 ct ts [] inp with
            | mk done x =>
              obtain ⟨crash, hosts', i3⟩ := x
              rw [ha] at h2
              cases crash with
              | true => exact h1
              | false =>
                simp only
                have h3 := text_saveHosts h1 hv.now' (fun p hp => h2 p ((hv.ordH hosts').mem_iff.1 hp))
                cases hs' : saveHosts v.now' s2 (v.ordH hosts') with
                | mk s3 e =>
                  rw [hs'] at h3
                  cases e with
                  | some e => exact h3
                  | none => exact h3

theorem pullBlob_text {w : World} (hw : TextWorld w) {x : Str} {e : Entry} (he : TextEntry e) {inp rest : Input} {p : Pulled} {h : Str}
    (hp : pullBlob w x e inp = (some (p, h), rest)) : ValidUtf8 h := by
  unfold pullBlob at hp
  split at hp
  · cases hp
  · split at hp
    · exact hw.pull _ _ _ _ _ _ he hp
    · split at hp
      · cases hp; exact valid_nil
      · cases hp; exact valid_nil

theorem pullOne_text {P : Prims} {C : Codec} {w : World} (hw : TextWorld w) {u : Session} {x : Str}
    (he : TextEntry ((u.store.snapshot.get? x).getD [])) {inp rest : Input} {f : Fate} {h : Str}
    (hp : pullOne P C w u x inp = (some (f, h), rest)) : ValidUtf8 h := by
  unfold pullOne at hp
  simp only at hp
  split at hp
  · cases hp
  · rename_i h1; cases hp; exact pullBlob_text hw he h1
  · rename_i h1; cases hp; exact pullBlob_text hw he h1
  · rename_i h1
    have := pullBlob_text hw he h1
    split at hp
    · cases hp
    · cases hp; exact this
    · cases hp; exact this
    · split at hp
      · cases hp; exact this
      · split at hp
        · cases hp
        · cases hp; exact this
        · split at hp
          · cases hp
          · cases hp; exact this
          · split at hp
            · cases hp; exact this
            · cases hp

theorem targets_mem {l : List (Str × Fate × Str)} {x : Str} (h : x ∈ targets l) : ∃ p ∈ l, p.1 = x := by
  obtain ⟨-, f, y, h2, -⟩ := (mem_targets l x).1 h
  exact ⟨_, h2, rfl⟩

theorem text_syncWith {T : Int → Prop} (hT : ∀ n, FitsInt64 n → T n) {P : Prims} {w : World} (hw : TextWorld w) {v : SyncEnv} (hv : SyncChoices T v) {push : Bool}
    {u : Session} {syncs : List Str} {inp : Input} (h : TextStore T u.store) (hs : ∀ x ∈ syncs, ValidUtf8 x) :
    TextStore T (syncWith P Json.Spec.codec w v push u syncs inp).session.store := by
  simp only [syncWith]
  cases hl : pullAll P Json.Spec.codec w u syncs inp with
  | mk o i1 =>
    cases o with
    | none => exact h
    | some l =>
      simp only
      obtain ⟨l1, l2⟩ := pullAll_spec _ _ _ _ _ _ _ _ hl
      have hx : ∀ p ∈ l, ValidUtf8 p.1 := fun p hp => hs p.1 (l1 ▸ List.mem_map.2 ⟨p, hp, rfl⟩)
      cases hm : mergeBlobs v.ord u.creds u.store.log (remotes l) i1 with
      | mk o i2 =>
        cases o with
        | panic => exact h
        | err e => exact h
        | ok m =>
          simp only
          have hops : ∀ t ∈ m.log, CleanOp T t := by
            intro t ht
            rcases mergeRemotes_from _ _ _ _ _ _ _ hm t ht with h1 | ⟨q, hq, h1⟩
            · exact h.ops t h1
            · obtain ⟨x, y, hp⟩ := (mem_remotes l q).1 hq
              obtain ⟨i, i', hone⟩ := l2 _ hp
              rcases pullOne_fate hone (by simp) with ⟨h2, -⟩ | ⟨ct, r, h2, -, -, -, pt, -, -, h3⟩
              · cases h2
              · cases h2
                obtain ⟨a, b⟩ := Json.C11_read_log pt _ h3 t h1
                exact ⟨a, hT _ b⟩
          have hts : TextStore T ({ u.store.resetSnapshot with log := m.log } : DB) :=
            ⟨⟨coherent_reset _ _, GoMap.nodupKeys_nil, inner_nil⟩, hops⟩
          have hts := hts.update
          cases hs : ({ u.store.resetSnapshot with log := m.log } : DB).updateSnapshot with
          | mk s e =>
            rw [hs] at hts
            cases e with
            | some e => exact hts
            | none =>
              refine text_pushBack hw hv (u := { u with creds := m.creds, store := s }) hts ?_ ?_
              · refine newHosts_text l [] (by simp) fun p hp => ⟨hx p hp, ?_⟩
                obtain ⟨i, i', hone⟩ := l2 p hp
                exact pullOne_text hw (h.entry _) hone
              · intro x hxt
                obtain ⟨p, hp, rfl⟩ := targets_mem hxt
                exact hx p hp

theorem findNameLoop_mem {nm : Str} : ∀ (l : List (Str × Entry)) (p : Str × Entry), findNameLoop nm l = some (some p) → p ∈ l := by
  intro l
  induction l with
  | nil => intro p h; cases h
  | cons q l ih =>
    obtain ⟨x, e⟩ := q
    intro p h
    simp only [findNameLoop] at h
    split at h
    · cases h
    · split at h
      · cases h; exact List.mem_cons_self
      · exact List.mem_cons_of_mem _ (ih p h)

theorem text_sync {T : Int → Prop} (hT : ∀ n, FitsInt64 n → T n) {P : Prims} {w : World} (hw : TextWorld w) {v : SyncEnv} (hv : SyncChoices T v) {nm : Str} {push : Bool}
    {u : Session} {inp : Input} (h : TextStore T u.store) : TextStore T (sync P Json.Spec.codec w v nm push u inp).session.store := by
  have hup := h.update
  have hkey : ∀ p ∈ u.store.updateSnapshot.1.snapshot, ValidUtf8 p.1 := fun p hp =>
    (hup.snap (GoMap.get?_of_mem hup.ok.nodup hp)).1
  cases hs : u.store.updateSnapshot with
  | mk s e =>
    rw [hs] at hup hkey
    simp only at hup hkey
    cases e with
    | some e => simp only [sync, hs]; exact hup
    | none =>
      by_cases hn : nm = []
      · simp only [sync, hs, hn, ne_eq, not_true, if_false]
        refine text_syncWith hT hw hv hup ?_
        intro x hx
        obtain ⟨p, hp, rfl⟩ := List.mem_map.1 hx
        exact hkey p ((hv.ord _).mem_iff.1 (List.mem_filter.1 hp).1)
      · have hst := findByName_store (ord := v.ord) (update_again hs) nm
        cases hf : findByName v.ord s nm with
        | mk s1 r =>
          rw [hf] at hst
          simp only at hst
          subst hst
          simp only [sync, hs, ne_eq, hn, not_false_eq_true, if_true, hf]
          rcases r with (_ | ⟨uuid, e⟩) | _ | _
          · exact hup
          · simp only
            by_cases hu : uuid = []
            · rw [if_pos hu]; exact hup
            · rw [if_neg hu]
              refine text_syncWith hT hw hv hup ?_
              intro x hx
              rw [List.mem_singleton.1 hx]
              unfold findByName withSnapshot at hf
              rw [update_again hs] at hf
              simp only at hf
              split at hf
              · cases hf
              · rename_i r hr
                cases hf
                exact hkey (uuid, e) ((hv.ord _).mem_iff.1 (findNameLoop_mem _ _ hr))
          · exact hup
          · exact hup

/-! ## ssh -/

theorem hostLine_text {sha : Str → Str} {k : HostKey} (h1 : ValidUtf8 k.hostname) (h2 : ValidUtf8 k.addr) (h3 : ValidUtf8 k.keyType) :
    ValidUtf8 (hostLine sha k) := by
  refine valid_join space _ (by decide) fun x hx => ?_
  simp only [List.mem_cons, List.not_mem_nil, or_false] at hx
  rcases hx with rfl | rfl | rfl | rfl
  · exact h1
  · exact h2
  · exact h3
  · refine valid_ascii _ (List.all_eq_true.2 fun c hc => ?_)
    have := hexEncode_range _ c hc
    simp only [decide_eq_true_eq]
    omega

theorem callback_text {sha : Str → Str} {known : Str} {k : HostKey} {inp rest : Input} {h : Str}
    (h1 : ValidUtf8 k.hostname) (h2 : ValidUtf8 k.addr) (h3 : ValidUtf8 k.keyType)
    (hc : callback sha known k inp = (.ok (some h), rest)) : ValidUtf8 h := by
  unfold callback at hc
  split at hc
  · cases hc
  · cases hc
  · cases hc
  · split at hc
    · cases hc
    · split at hc
      · cases hc; exact hostLine_text h1 h2 h3
      · cases hc


theorem dial_text {o : Outside} (ho : TextOutside o) (c : SshConfig) (known : Str) (inp : Input) : ValidUtf8 (dial o c known inp).host := by
  unfold dial
  split
  · exact valid_nil
  · rename_i s hs
    obtain ⟨h1, h2⟩ := ho _ _ hs
    split
    · exact valid_nil
    · rename_i hk
      have h3 : ValidUtf8 s.keyType := by
        by_cases h : s.keyType = b! "ssh-ed25519"
        · rw [h]; exact valid_ascii _ (by decide)
        · by_cases h' : s.keyType = b! "ssh-rsa"
          · rw [h']; exact valid_ascii _ (by decide)
          · exact absurd ⟨h, h'⟩ hk
      split
      · exact valid_nil
      · exact valid_nil
      · rename_i h rest hc
        cases h with
        | none => exact valid_nil
        | some h => exact callback_text (k := hostKey c.address s) h1 h2 h3 hc

theorem netWorld_text {o : Outside} (ho : TextOutside o) : TextWorld (netWorld o) := by
  constructor
  · intro x e inp p h rest _ hp
    simp only [netWorld, Prod.mk.injEq, Option.map_eq_some_iff] at hp
    obtain ⟨⟨p', hp, hx⟩, -⟩ := hp
    have hh : (sshPull o e inp).host = h := hx.2
    rw [← hh]
    unfold sshPull
    clear hp hx hh
    split
    · exact valid_nil
    · exact valid_nil
    · simp only
      split <;> exact dial_text ho _ _ _
  · intro x e ct inp p h rest _ hp
    simp only [netWorld, Prod.mk.injEq, Option.map_eq_some_iff] at hp
    obtain ⟨⟨p', hp, hx⟩, -⟩ := hp
    have hh : (sshPush o e ct inp).host = h := hx.2
    rw [← hh]
    unfold sshPush
    clear hp hx hh
    split
    · exact valid_nil
    · exact valid_nil
    · simp only
      split
      · exact valid_nil
      · exact valid_nil
      · simp only
        split
        · exact dial_text ho _ _ _
        · exact valid_nil

end Verif.App
