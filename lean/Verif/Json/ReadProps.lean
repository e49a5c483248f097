import Verif.Json.Props
/-!
# What is read from a file is text: C11
-/
namespace Verif.Json
open Verif Verif.Txlogs Verif.Json.Spec Verif.App.Spec

/-- all strings in a value are well-formed -/
inductive Wellf : JVal → Prop
  | null : Wellf .null
  | bool (b : Bool) : Wellf (.bool b)
  | num (l : Str) : Wellf (.num l)
  | str (s : Str) (h : ValidUtf8 s) : Wellf (.str s)
  | arr (vs : List JVal) (h : ∀ v ∈ vs, Wellf v) : Wellf (.arr vs)
  | obj (ms : List (Str × JVal)) (h : ∀ p ∈ ms, ValidUtf8 p.1) (h' : ∀ p ∈ ms, Wellf p.2) : Wellf (.obj ms)

theorem parseStr_text {s t r : Str} (h : parseStr s = some (t, r)) : ValidUtf8 t := by
  unfold parseStr at h
  split at h
  · cases h; exact valid_sanitize _
  · cases h

theorem keyword_text {w s r : Str} {v x : JVal} (hv : Wellf v) (h : keyword w v s = some (x, r)) : Wellf x := by
  unfold keyword at h
  split at h
  · cases h; exact hv
  · cases h

theorem parse_text_aux : ∀ f : Nat, (∀ s v r, parseVal f s = some (v, r) → Wellf v) ∧
    (∀ s vs r, parseElems f s = some (vs, r) → ∀ v ∈ vs, Wellf v) ∧
    (∀ s ms r, parseMembers f s = some (ms, r) → ∀ p ∈ ms, ValidUtf8 p.1 ∧ Wellf p.2) := by
  intro f
  induction f with
  | zero => refine ⟨?_, ?_, ?_⟩ <;> intro s v r h <;> simp [parseVal, parseElems, parseMembers] at h
  | succ f ih =>
    obtain ⟨ih1, ih2, ih3⟩ := ih
    refine ⟨?_, ?_, ?_⟩
    · intro s v r h
      rw [parseVal] at h
      split at h
      · cases h
      · split at h
        · split at h
          · rename_i h1; cases h; exact .str _ (parseStr_text h1)
          · cases h
        · split at h
          · split at h
            · cases h
            · split at h
              · cases h; exact .arr _ (by simp)
              · split at h
                · rename_i h1; cases h; exact .arr _ (ih2 _ _ _ h1)
                · cases h
          · split at h
            · split at h
              · cases h
              · split at h
                · cases h; exact .obj _ (by simp) (by simp)
                · split at h
                  · rename_i h1; cases h
                    exact .obj _ (fun p hp => (ih3 _ _ _ h1 p hp).1) (fun p hp => (ih3 _ _ _ h1 p hp).2)
                  · cases h
            · split at h
              · exact keyword_text (.bool _) h
              · split at h
                · exact keyword_text (.bool _) h
                · split at h
                  · exact keyword_text .null h
                  · split at h
                    · cases h; exact .num _
                    · cases h
    · intro s vs r h
      rw [parseElems] at h
      split at h
      · cases h
      · rename_i v r1 h1
        split at h
        · cases h
        · split at h
          · cases h
            intro x hx
            rw [List.mem_singleton.1 hx]
            exact ih1 _ _ _ h1
          · split at h
            · split at h
              · rename_i h2
                cases h
                intro x hx
                rcases List.mem_cons.1 hx with rfl | hx
                · exact ih1 _ _ _ h1
                · exact ih2 _ _ _ h2 x hx
              · cases h
            · cases h
    · intro s ms r h
      rw [parseMembers] at h
      split at h
      · cases h
      · split at h
        · split at h
          · cases h
          · rename_i k r1 h0
            split at h
            · cases h
            · split at h
              · split at h
                · cases h
                · rename_i v r2 h1
                  split at h
                  · cases h
                  · split at h
                    · cases h
                      intro x hx
                      rw [List.mem_singleton.1 hx]
                      exact ⟨parseStr_text h0, ih1 _ _ _ h1⟩
                    · split at h
                      · split at h
                        · rename_i h2
                          cases h
                          intro x hx
                          rcases List.mem_cons.1 hx with rfl | hx
                          · exact ⟨parseStr_text h0, ih1 _ _ _ h1⟩
                          · exact ih3 _ _ _ h2 x hx
                        · cases h
                      · cases h
              · cases h
        · cases h

theorem parse_text {s : Str} {v : JVal} (h : parse s = some v) : Wellf v := by
  unfold parse at h
  split at h
  · rename_i h1
    split at h
    · cases h; exact (parse_text_aux _).1 _ _ _ h1
    · cases h
  · cases h

theorem steps_keeps {α β : Type} {f : α → β → Option α} {I : α → Prop} {J : β → Prop} (h : ∀ a b a', I a → J b → f a b = some a' → I a') :
    ∀ (l : List β) (a a' : α), I a → (∀ b ∈ l, J b) → steps f a l = some a' → I a' := by
  intro l
  induction l with
  | nil => intro a a' hi _ hs; cases hs; exact hi
  | cons b l ih =>
    intro a a' hi hj hs
    simp only [steps] at hs
    split at hs
    · rename_i a1 h1
      exact ih a1 a' (h a b a1 hi (hj b (by simp)) h1) (fun b hb => hj b (by simp [hb])) hs
    · cases hs

/-- an operation of well-formed strings whose time fits -/
def Read (t : Tx) : Prop := CleanTx t ∧ -9223372036854775808 ≤ t.time ∧ t.time ≤ 9223372036854775807

theorem atoi_range {l : Str} {n : Int} (h : atoi l = some n) : -9223372036854775808 ≤ n ∧ n ≤ 9223372036854775807 := by
  unfold atoi at h
  split at h
  · split at h
    · cases h; assumption
    · cases h
  · cases h

theorem read_zero : Read zeroTx :=
  ⟨⟨by unfold KindOk; decide, ⟨[], by simp, rfl⟩, ⟨[], by simp, rfl⟩, ⟨[], by simp, rfl⟩, ⟨[], by simp, rfl⟩⟩, by decide, by decide⟩

theorem kindOk_kindOf (s : Str) : KindOk (kindOf s) ∧ (ValidUtf8 s → ValidUtf8 (kindStr (kindOf s))) := by
  have : kindStr (kindOf s) = s := by
    unfold kindOf
    split
    · rename_i h; exact h.symm
    · split
      · rename_i h; exact h.symm
      · split
        · rename_i h; exact h.symm
        · split
          · rename_i h; exact h.symm
          · rfl
  unfold KindOk
  rw [this]
  exact ⟨rfl, id⟩

theorem decStr_text {old x : Str} {v : JVal} (ho : ValidUtf8 old) (hv : Wellf v) (h : decStr old v = some x) : ValidUtf8 x := by
  cases hv <;> simp only [decStr, Option.some.injEq, reduceCtorEq] at h
  · exact h ▸ ho
  · rename_i hs; exact h ▸ hs

theorem read_member {t t' : Tx} {m : Str × JVal} (ht : Read t) (hm : Wellf m.2) (h : txMember t m = some t') : Read t' := by
  obtain ⟨hc, hr⟩ := ht
  unfold txMember at h
  split at h
  · cases h; exact ⟨hc, hr⟩
  · split at h
    · simp only [Option.map_eq_some_iff] at h
      obtain ⟨x, h1, rfl⟩ := h
      refine ⟨⟨hc.kindOk, hc.kind, hc.uuid, hc.key, hc.value⟩, ?_⟩
      unfold decInt at h1
      split at h1
      · cases h1; exact hr
      · exact atoi_range h1
      · cases h1
    · split at h
      · simp only [Option.map_eq_some_iff] at h
        obtain ⟨x, h1, rfl⟩ := h
        have := decStr_text hc.kind hm h1
        exact ⟨⟨(kindOk_kindOf x).1, (kindOk_kindOf x).2 this, hc.uuid, hc.key, hc.value⟩, hr⟩
      · split at h
        · simp only [Option.map_eq_some_iff] at h
          obtain ⟨x, h1, rfl⟩ := h
          exact ⟨⟨hc.kindOk, hc.kind, decStr_text hc.uuid hm h1, hc.key, hc.value⟩, hr⟩
        · split at h
          · simp only [Option.map_eq_some_iff] at h
            obtain ⟨x, h1, rfl⟩ := h
            exact ⟨⟨hc.kindOk, hc.kind, hc.uuid, decStr_text hc.key hm h1, hc.value⟩, hr⟩
          · simp only [Option.map_eq_some_iff] at h
            obtain ⟨x, h1, rfl⟩ := h
            exact ⟨⟨hc.kindOk, hc.kind, hc.uuid, hc.key, decStr_text hc.value hm h1⟩, hr⟩

theorem read_decTx {t t' : Tx} {v : JVal} (ht : Read t) (hv : Wellf v) (h : decTx t v = some t') : Read t' := by
  cases hv <;> simp only [decTx, Option.some.injEq, reduceCtorEq] at h
  · exact h ▸ ht
  · rename_i ms h1 h2
    exact steps_keeps (I := Read) (J := fun m => Wellf m.2) (fun a b a' => read_member) ms t t' ht h2 h

theorem read_decLog : ∀ (vs : List JVal) (old l : List Tx), (∀ t ∈ old, Read t) → (∀ v ∈ vs, Wellf v) → decLog old vs = some l →
    ∀ t ∈ l, Read t := by
  intro vs
  induction vs with
  | nil => intro old l _ _ h; cases h; simp
  | cons v vs ih =>
    intro old l ho hv h
    simp only [decLog] at h
    split at h
    · cases h
    · rename_i t h1
      split at h
      · rename_i l' h2
        cases h
        intro x hx
        rcases List.mem_cons.1 hx with rfl | hx
        · refine read_decTx ?_ (hv v (by simp)) h1
          cases old with
          | nil => exact read_zero
          | cons y old => exact ho y (by simp)
        · exact ih old.tail l' (fun t ht => ho t (List.mem_of_mem_tail ht)) (fun v hv' => hv v (by simp [hv'])) h2 x hx
      · cases h

theorem read_decSlice {old l : List Tx} {v : JVal} (ho : ∀ t ∈ old, Read t) (hv : Wellf v) (h : decSlice old v = some l) :
    ∀ t ∈ l, Read t := by
  cases hv <;> simp only [decSlice, Option.some.injEq, reduceCtorEq] at h
  · subst h; simp
  · rename_i vs h1
    exact read_decLog vs old l ho h1 h

theorem mem_set {ν : Type} {k : Str} {y : ν} {p : Str × ν} : ∀ {a : GoMap Str ν}, p ∈ a.set k y → p = (k, y) ∨ p ∈ a := by
  intro a
  induction a with
  | nil => intro h; exact .inl (List.mem_singleton.1 h)
  | cons q a ih =>
    intro h
    obtain ⟨k', v'⟩ := q
    simp only [GoMap.set] at h
    split at h
    · rcases List.mem_cons.1 h with h | h
      · exact .inl h
      · exact .inr (List.mem_cons_of_mem _ h)
    · rcases List.mem_cons.1 h with h | h
      · exact .inr (h ▸ List.mem_cons_self)
      · rcases ih h with h | h
        · exact .inl h
        · exact .inr (List.mem_cons_of_mem _ h)

theorem read_decMap {ν : Type} {dec : JVal → Option ν} {I : ν → Prop} (hd : ∀ v x, Wellf v → dec v = some x → I x) {old m : GoMap Str ν}
    {v : JVal} (ho : CleanMap old ∧ ∀ p ∈ old, I p.2) (hv : Wellf v) (h : decMap dec old v = some m) : CleanMap m ∧ ∀ p ∈ m, I p.2 := by
  cases hv <;> simp only [decMap, Option.some.injEq, reduceCtorEq] at h
  · subst h; exact ⟨⟨GoMap.nodupKeys_nil, by simp⟩, by simp⟩
  · rename_i ms h1 h2
    refine steps_keeps (I := fun m => CleanMap m ∧ ∀ p ∈ m, I p.2) (J := fun m => ValidUtf8 m.1 ∧ Wellf m.2) ?_ ms old m ho
      (fun b hb => ⟨h1 b hb, h2 b hb⟩) h
    rintro a ⟨k, x⟩ a' ⟨hc, ha⟩ ⟨hk, hx⟩ hm
    simp only [mapMember, Option.map_eq_some_iff] at hm
    obtain ⟨y, hy, rfl⟩ := hm
    have hn := GoMap.nodupKeys_set hc.nodup k y
    have hmem : ∀ p ∈ a.set k y, p = (k, y) ∨ p ∈ a := fun p hp => mem_set hp
    refine ⟨⟨hn, ?_⟩, ?_⟩
    · intro p hp
      rcases hmem p hp with rfl | hp
      · exact hk
      · exact hc.keys p hp
    · intro p hp
      rcases hmem p hp with rfl | hp
      · exact hd _ _ hx hy
      · exact ha p hp

/-- Whatever text a log is read from, its strings are well-formed and its times fit. -/
theorem C11_read_log (text : Str) (l : List Tx) (h : loadLog text = .ok l) :
    ∀ t ∈ l, CleanTx t ∧ -9223372036854775808 ≤ t.time ∧ t.time ≤ 9223372036854775807 := by
  unfold loadLog at h
  split at h
  · cases h
  · cases h
  · rename_i ms hp
    split at h
    · rename_i l' hs
      cases h
      cases parse_text hp with
      | obj _ h1 h2 =>
        refine steps_keeps (I := fun l => ∀ t ∈ l, Read t) (J := fun m => Wellf m.2) ?_ ms [] l (by simp) h2 hs
        intro a b a' ha hb hm
        unfold logMember at hm
        split at hm
        · cases hm; exact ha
        · exact read_decSlice ha hb hm
    · cases h
  · cases h

/-- A store that was read from a file, whatever the text, is one whose strings are well-formed. -/
theorem read_clean (text : Str) (s : DB) (h : load text = .ok (some s)) : Clean s ∧ s.txPoint = 0 := by
  unfold load at h
  split at h
  · cases h
  · cases h
  · rename_i ms hp
    split at h
    · rename_i s' hs
      cases h
      cases parse_text hp with
      | obj _ h1 h2 =>
        refine steps_keeps (I := fun s => Clean s ∧ s.txPoint = 0) (J := fun m => Wellf m.2) ?_ ms DB.new s ?_ h2 hs
        · rintro a b a' ⟨hc, h0⟩ hb hm
          unfold dbMember at hm
          split at hm
          · cases hm; exact ⟨hc, h0⟩
          · split at hm
            · simp only [Option.map_eq_some_iff] at hm
              obtain ⟨x, hx, rfl⟩ := hm
              refine ⟨⟨⟨?_, hc.time⟩, hc.log, hc.snapshot, hc.entries⟩, h0⟩
              unfold decUint at hx
              split at hx
              · cases hx; exact hc.version
              · split at hx
                · split at hx
                  · cases hx; assumption
                  · cases hx
                · cases hx
              · cases hx
            · split at hm
              · simp only [Option.map_eq_some_iff] at hm
                obtain ⟨x, hx, rfl⟩ := hm
                have hin : ∀ (v : JVal) (e : Entry), Wellf v → decMap (decStr []) [] v = some e →
                    CleanMap e ∧ ∀ q ∈ e, ValidUtf8 q.2 := fun v e hv he =>
                  read_decMap (I := ValidUtf8) (fun v x hv hx => decStr_text ⟨[], by simp, rfl⟩ hv hx)
                    ⟨⟨GoMap.nodupKeys_nil, by simp⟩, by simp⟩ hv he
                have := read_decMap (I := fun e : Entry => CleanMap e ∧ ∀ q ∈ e, ValidUtf8 q.2) hin ⟨hc.snapshot, hc.entries⟩ hb hx
                exact ⟨⟨⟨hc.version, hc.time⟩, hc.log, this.1, this.2⟩, h0⟩
              · simp only [Option.map_eq_some_iff] at hm
                obtain ⟨x, hx, rfl⟩ := hm
                have := read_decSlice (fun t ht => ⟨hc.log t ht, hc.time t ht⟩) hb hx
                exact ⟨⟨⟨hc.version, fun t ht => (this t ht).2⟩, fun t ht => (this t ht).1, hc.snapshot, hc.entries⟩, h0⟩
        · exact ⟨⟨⟨by decide, by simp [DB.new]⟩, by simp [DB.new], ⟨GoMap.nodupKeys_nil, by simp [DB.new]⟩, by simp [DB.new]⟩, rfl⟩
    · cases h
  · cases h

/-- A file that was read is written so that it reads back the same, whoever wrote it and whatever was in it. -/
theorem C11_read (text : Str) (s : DB) (h : load text = .ok (some s)) : Faithful codec s := C11_partial s (read_clean text s h).1

/-- not vacuous: a file with broken bytes, a wrong kind and a key twice is read, and what was read is not what the bytes said -/
example : ∃ s, load (b! "{\"version\":3,\"log\":[{\"time\":-5,\"tx\":\"odd\",\"uuid\":\"\\ud800\"},{}],\"snapshot\":{\"a\":{\"k\":\"v\"},\"a\":{}}}")
      = .ok (some s) ∧ s.log.length = 2 ∧ s.version = 3 := by
  have h : (match load (b! "{\"version\":3,\"log\":[{\"time\":-5,\"tx\":\"odd\",\"uuid\":\"\\ud800\"},{}],\"snapshot\":{\"a\":{\"k\":\"v\"},\"a\":{}}}") with
      | .ok (some s) => decide (s.log.length = 2 ∧ s.version = 3)
      | _ => false) = true := by decide +kernel
  split at h
  · rename_i s hs
    exact ⟨s, hs, of_decide_eq_true h⟩
  · cases h

/-- not vacuous for a log -/
example : (match loadLog (b! "{\"log\":[{\"time\":-5,\"tx\":\"odd\",\"uuid\":\"\\ud800\"},{}]}") with
    | .ok l => decide (l.length = 2)
    | _ => false) = true := by decide +kernel

end Verif.Json
