import Verif.App.ClipSpec
import Verif.App.EffectProps
import Verif.App.ShowProps
/-!
# Lemmas about the clipboard
-/
set_option linter.unusedSimpArgs false
namespace Verif.App
open Verif Verif.Txlogs Verif.Blob Verif.Crypt Verif.App.Spec

/-- one round of `getPassword`, after the password was made -/
def afterGen (ent : Nat → Nat → UInt8) (i : Nat) (regen : Bool) (st : PwState) : Option (PwState × Nat) :=
  if regen then
    match genPassword (ent i) st.length st.classes with
    | .panic => none
    | .err _ => some ({ st with password := [], shown := false }, i + 1)
    | .ok pw => some ({ st with password := pw, shown := true }, i + 1)
  else some (st, i)

theorem pwLoop_round (ent : Nat → Nat → UInt8) (fuel i : Nat) (regen : Bool) (st : PwState) (inp : Input) :
    pwLoop ent (fuel + 1) i regen st inp = match afterGen ent i regen st with
      | none => .panic
      | some (st, i) =>
        match choose st inp with
        | .ret pw => .ok pw
        | .fail => .err ()
        | .crash => .panic
        | .again regen st rest => pwLoop ent fuel i regen st rest := by
  unfold afterGen
  rw [pwLoop]
  cases regen with
  | false => rfl
  | true =>
    simp only [if_true]
    cases genPassword (ent i) st.length st.classes <;> rfl

theorem pwCopies_round (ent : Nat → Nat → UInt8) (fuel i : Nat) (regen : Bool) (st : PwState) (inp : Input) :
    pwCopies ent (fuel + 1) i regen st inp = match afterGen ent i regen st with
      | none => []
      | some (st, i) =>
        (if copyChoice inp then [st.password] else []) ++
          match choose st inp with
          | .again regen st rest => pwCopies ent fuel i regen st rest
          | _ => [] := by
  unfold afterGen
  rw [pwCopies]
  cases regen with
  | false => rfl
  | true =>
    simp only [if_true]
    cases genPassword (ent i) st.length st.classes <;> rfl

/-- the password in the state was generated -/
def Made (ent : Nat → Nat → UInt8) (x : Str) : Prop := x = [] ∨ ∃ j len cl, genPassword (ent j) len cl = .ok x

theorem afterGen_made {ent : Nat → Nat → UInt8} {i i' : Nat} {regen : Bool} {st st' : PwState} (h : Made ent st.password)
    (hg : afterGen ent i regen st = some (st', i')) : Made ent st'.password := by
  unfold afterGen at hg
  split at hg
  · split at hg
    · cases hg
    · cases hg; exact .inl rfl
    · rename_i pw k
      cases hg
      exact .inr ⟨_, _, _, k⟩
  · cases hg; exact h

theorem choose_password {st st' : PwState} {inp rest : Input} {regen : Bool} (h : choose st inp = .again regen st' rest) :
    st'.password = st.password := by
  match inp with
  | [] => cases h
  | none :: _ => cases h
  | some choice :: rest0 =>
    simp only [choose] at h
    repeat' split at h
    all_goals first
      | (cases h; done)
      | (cases h; rfl)

theorem pwCopies_made (ent : Nat → Nat → UInt8) (fuel : Nat) : ∀ (i : Nat) (regen : Bool) (st : PwState) (inp : Input),
    Made ent st.password → ∀ x ∈ pwCopies ent fuel i regen st inp, Made ent x := by
  induction fuel with
  | zero => intro i regen st inp _ x hx; simp [pwCopies] at hx
  | succ fuel ih =>
    intro i regen st inp h x hx
    rw [pwCopies_round] at hx
    cases hg : afterGen ent i regen st with
    | none => rw [hg] at hx; simp at hx
    | some p =>
      obtain ⟨st', i'⟩ := p
      have hm := afterGen_made h hg
      rw [hg] at hx
      simp only [List.mem_append] at hx
      rcases hx with hx | hx
      · split at hx
        · simp at hx; subst hx; exact hm
        · simp at hx
      · cases hc : choose st' inp with
        | again regen' st'' rest =>
          rw [hc] at hx
          exact ih _ _ _ _ (by rw [choose_password hc]; exact hm) x hx
        | _ => rw [hc] at hx; simp at hx

/-- an answer other than `y` and `m` leads to another round, or crashes -/
theorem choose_asks {st : PwState} {x : Option Str} {rest : Input} (h : Asks x) :
    choose st (x :: rest) = .crash ∨ ∃ regen st', choose st (x :: rest) = .again regen st' rest := by
  obtain ⟨s, rfl, h1, h2⟩ := h
  unfold choose
  simp only [h1, h2, if_false]
  repeat' split
  all_goals first
    | exact .inl rfl
    | exact .inr ⟨_, _, rfl⟩

theorem choose_copy {st : PwState} {c : Str} {rest : Input} (hc : (fields c).head? = some (b! "c")) :
    choose st (some c :: rest) = .again false st rest := by
  have h0 : c ≠ [] := by rintro rfl; exact absurd hc (by decide)
  have h1 : c ≠ b! "y" := by rintro rfl; exact absurd hc (by decide +kernel)
  have h2 : c ≠ b! "m" := by rintro rfl; exact absurd hc (by decide +kernel)
  have h3 : c ≠ b! "?" := by rintro rfl; exact absurd hc (by decide +kernel)
  unfold choose
  simp only [h0, h1, h2, h3, if_false]
  split
  · rename_i k; rw [k] at hc; cases hc
  · rename_i s t k
    rw [k] at hc
    simp only [List.head?_cons, Option.some.injEq] at hc
    simp [hc]

theorem choose_yes {st : PwState} {rest : Input} : choose st (some (b! "y") :: rest) = .ret st.password := by
  unfold choose
  rfl

theorem pw_accepted (ent : Nat → Nat → UInt8) {c pw : Str} {rest : Input} (hc : (fields c).head? = some (b! "c")) (pre : Input) :
    ∀ (fuel i : Nat) (regen : Bool) (st : PwState), (∀ x ∈ pre, Asks x) →
    pwLoop ent fuel i regen st (pre ++ some c :: some (b! "y") :: rest) = .ok pw →
    (pwCopies ent fuel i regen st (pre ++ some c :: some (b! "y") :: rest)).getLast? = some pw := by
  induction pre with
  | nil =>
    intro fuel i regen st _ h
    cases fuel with
    | zero => simp [pwLoop] at h
    | succ fuel =>
      rw [pwLoop_round] at h
      rw [pwCopies_round]
      cases hg : afterGen ent i regen st with
      | none => rw [hg] at h; cases h
      | some p =>
        obtain ⟨st', i'⟩ := p
        rw [hg] at h
        simp only [List.nil_append, choose_copy hc] at h ⊢
        cases fuel with
        | zero => simp [pwLoop] at h
        | succ fuel =>
          rw [pwLoop_round] at h
          rw [pwCopies_round]
          simp only [afterGen, Bool.false_eq_true, if_false, choose_yes, Res.ok.injEq] at h ⊢
          have h1 : copyChoice (some c :: some (b! "y") :: rest) = true := by simp [copyChoice, hc]
          have h2 : copyChoice (some (b! "y") :: rest) = false := by
            show decide ((fields (b! "y")).head? = some (b! "c")) = false
            decide +kernel
          simp [h1, h2, h]
  | cons x pre ih =>
    intro fuel i regen st hpre h
    cases fuel with
    | zero => simp [pwLoop] at h
    | succ fuel =>
      rw [pwLoop_round] at h
      rw [pwCopies_round]
      cases hg : afterGen ent i regen st with
      | none => rw [hg] at h; cases h
      | some p =>
        obtain ⟨st', i'⟩ := p
        rw [hg] at h
        simp only [List.cons_append] at h ⊢
        rcases choose_asks (st := st') (rest := pre ++ some c :: some (b! "y") :: rest) (hpre x (by simp)) with k | ⟨regen', st'', k⟩
        · rw [k] at h; cases h
        · rw [k] at h ⊢
          have := ih _ _ _ _ (fun y hy => hpre y (by simp [hy])) h
          simp only [List.getLast?_append, this, Option.some_or]

/-! ## what the commands copy -/

/-- the entry a query selects -/
theorem findOne_entry {v : Env} {u : Session} (hv : EnvOk v u.store) (h : WellFormed u.store) (q : Str) :
    (∃ s, findOne v.lower v.ord v.ord' u.store q = (s, .ok [])) ∨
    ∃ uuid e, Picks v u.store q uuid ∧ Blob.Spec.Visible u.store uuid e := by
  obtain ⟨id, h1, h2⟩ := wf_findOne v.lower hv.ord hv.ord' h q
  by_cases hid : id = []
  · subst hid; exact .inl ⟨_, h1⟩
  · obtain ⟨n, e, he, -⟩ := h2 hid
    exact .inr ⟨id, e, ⟨hid, _, h1⟩, he⟩

theorem getCopies_what {date : Str → Str} {v : Env} {u : Session} (hv : EnvOk v u.store) (h : WellFormed u.store) (q key : Str) :
    ∀ x ∈ getCopies date v u q key, Copyable date v u.store x := by
  intro x hx
  unfold getCopies at hx
  rcases findOne_entry hv h q with ⟨s, hs⟩ | ⟨uuid, e, hp, he⟩
  · have : (getCmd v u q key).2 = .ok none := by simp [getCmd, oneEntry, one, lift, hs]
    rw [this] at hx
    simp at hx
  · unfold getCmd at hx
    obtain ⟨en, rfl, -, -, hk⟩ := oneEntry_picks hv h hp he (none : Option Str) _
    rw [hk] at hx
    by_cases h1 : key = keyTwoFactor
    · rw [if_pos h1] at hx
      have hne : ¬ keyTwoFactor = keyUpdated := by decide
      by_cases h2 : val en keyTwoFactor = []
      · simp only [h2, if_true] at hx
        split at hx <;> rename_i k
        · split at k <;> cases k
        · simp at hx
      · simp only [h2, if_false] at hx
        cases ht : v.totp (val en keyTwoFactor) with
        | none => simp [ht] at hx
        | some code =>
          simp only [ht] at hx
          by_cases h3 : code = []
          · simp only [h3, if_true] at hx
            split at hx <;> rename_i k
            · split at k <;> cases k
            · simp at hx
          · simp only [h3, if_false, h1, hne, List.mem_singleton] at hx
            subst hx
            have : en.get? keyTwoFactor = some (val en keyTwoFactor) := by
              unfold val at h2 ⊢
              cases hg : en.get? keyTwoFactor with
              | none => rw [hg] at h2; exact absurd rfl h2
              | some y => rfl
            exact .code _ _ _ _ he this ht
    · rw [if_neg h1] at hx
      by_cases h2 : key = keyUpdated
      · rw [if_pos h2] at hx
        cases hu : en.get? keyUpdated with
        | none =>
          have h3 : Blob.updated en = some none := by unfold Blob.updated; rw [hu]
          rw [h3] at hx
          simp only at hx
          split at hx <;> rename_i k
          · split at k <;> cases k
          · simp at hx
        | some ts =>
          cases ha : atoi ts with
          | none =>
            have h3 : Blob.updated en = none := by unfold Blob.updated; rw [hu]; simp [ha]
            simp [h3] at hx
          | some t =>
            have h3 : Blob.updated en = some (some t) := by unfold Blob.updated; rw [hu]; simp [ha]
            simp only [h3, List.mem_singleton, h2, if_true] at hx
            subst hx
            exact .date _ _ _ _ he hu ha
      · rw [if_neg h2] at hx
        cases hg : en.get? key with
        | none =>
          simp only [hg] at hx
          split at hx <;> rename_i k
          · split at k <;> cases k
          · simp at hx
        | some y =>
          simp only [hg, h2, if_false, List.mem_singleton] at hx
          subst hx
          exact .value _ _ _ _ he h1 h2 hg

theorem loginLoop_sub (l : List (Str × Str)) : ∀ (inp : Input) (out : List (Str × Str)), ∀ x ∈ (loginLoop l inp out).1, x ∈ out ∨ x ∈ l := by
  induction l with
  | nil => intro inp out x hx; exact .inl hx
  | cons a l ih =>
    intro inp out x hx
    cases l with
    | nil => simpa [loginLoop] using hx
    | cons b l =>
      unfold loginLoop at hx
      split at hx
      · simp only [List.mem_append, List.mem_singleton] at hx
        exact hx.imp id fun k => by simp [k]
      · rcases ih _ _ x hx with k | k
        · simp only [List.mem_append, List.mem_singleton] at k
          exact k.imp id fun k => by simp [k]
        · exact .inr (List.mem_cons_of_mem _ k)

theorem login_picks {v : Env} {u : Session} {q uuid : Str} {e : Str → Option Str} (hv : EnvOk v u.store) (h : WellFormed u.store)
    (hp : Picks v u.store q uuid) (he : Blob.Spec.Visible u.store uuid e) :
    ∃ en : Entry, (e = fun k => en.get? k) ∧ loginCopies v u q = match loginValues v en with
      | none => []
      | some l => (loginLoop l v.d.inp []).1.map Prod.snd := by
  obtain ⟨hid, s', hf⟩ := hp
  obtain ⟨id, h1, -⟩ := wf_findOne v.lower hv.ord hv.ord' h q
  rw [h1] at hf
  obtain ⟨-, hf⟩ := Prod.mk.inj hf
  cases hf
  obtain ⟨-, hfr, hg, hlog⟩ := good_withSnapshot h.good (fun s => ((s, .panic) : Out Str))
  have he' := (visible_log hlog _ _).2 he
  rw [visible_fresh hfr] at he'
  obtain ⟨en, hen, rfl⟩ := he'
  have hf : find u.store.updateSnapshot.1 uuid = (u.store.updateSnapshot.1, .ok (some en)) := by
    unfold find
    rw [(good_withSnapshot (wf_update h).good _).1, update_fresh hfr, hen]
  refine ⟨en, rfl, ?_⟩
  unfold loginCopies
  simp only [h1, lift, hid, if_false, hf, Option.getD_some]
  cases loginValues v en <;> rfl

theorem loginValues_what {v : Env} {en : Entry} {l : List (Str × Str)} (h : loginValues v en = some l) : ∀ p ∈ l,
    (p.1 ≠ keyTwoFactor ∧ p.1 ≠ keyUpdated ∧ en.get? p.1 = some p.2) ∨ p.2 = [] ∨ ∃ t, en.get? keyTwoFactor = some t ∧ v.totp t = some p.2 := by
  have hplain : ∀ p ∈ [keyUser, keyEmail, keyPass].filterMap (fun k => (en.get? k).map fun x => (k, x)),
      p.1 ≠ keyTwoFactor ∧ p.1 ≠ keyUpdated ∧ en.get? p.1 = some p.2 := by
    intro p hp
    obtain ⟨k, hk, h2⟩ := List.mem_filterMap.1 hp
    obtain ⟨x, hx, rfl⟩ := Option.map_eq_some_iff.1 h2
    have hne := (by decide : ∀ k ∈ [keyUser, keyEmail, keyPass], k ≠ keyTwoFactor ∧ k ≠ keyUpdated) k hk
    exact ⟨hne.1, hne.2, hx⟩
  unfold loginValues at h
  generalize [keyUser, keyEmail, keyPass].filterMap (fun k => (en.get? k).map fun x => (k, x)) = plain at h hplain
  intro p hp
  dsimp only at h
  cases ht : en.get? keyTwoFactor with
  | none => rw [ht] at h; cases h; exact .inl (hplain p hp)
  | some t =>
    rw [ht] at h
    simp only at h
    split at h
    · cases h
      rcases List.mem_append.1 hp with k | k
      · exact .inl (hplain p k)
      · simp at k; subst k; exact .inr (.inl rfl)
    · obtain ⟨c, hc, rfl⟩ := Option.map_eq_some_iff.1 h
      rcases List.mem_append.1 hp with k | k
      · exact .inl (hplain p k)
      · simp at k; subst k; exact .inr (.inr ⟨t, rfl, hc⟩)

theorem loginCopies_what {date : Str → Str} {v : Env} {u : Session} (hv : EnvOk v u.store) (h : WellFormed u.store) (q : Str) :
    ∀ x ∈ loginCopies v u q, Copyable date v u.store x := by
  intro x hx
  rcases findOne_entry hv h q with ⟨s, hs⟩ | ⟨uuid, e, hp, he⟩
  · simp [loginCopies, lift, hs] at hx
  · obtain ⟨en, rfl, hk⟩ := login_picks hv h hp he
    rw [hk] at hx
    cases hl : loginValues v en with
    | none => rw [hl] at hx; simp at hx
    | some l =>
      rw [hl] at hx
      obtain ⟨p, hp', rfl⟩ := List.mem_map.1 hx
      rcases loginLoop_sub l _ _ p hp' with k | k
      · cases k
      · rcases loginValues_what hl p k with ⟨k1, k2⟩ | k | ⟨t, k1, k2⟩
        · exact .value _ _ _ _ he k1 k2.1 k2.2
        · rw [k]; exact .none
        · exact .code _ _ _ _ he k1 k2

theorem askCopies_what {date : Str → Str} {v : Env} {s : DB} (i : Option Input) : ∀ x ∈ askCopies v i, Copyable date v s x := by
  intro x hx
  cases i with
  | none => cases hx
  | some inp =>
    rcases pwCopies_made v.d.ent _ _ _ _ _ (.inl rfl) x hx with rfl | ⟨j, len, cl, k⟩
    · exact .none
    · exact .generated _ _ _ _ k

end Verif.App
