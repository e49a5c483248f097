import Verif.App.OwnSyncSpec
import Verif.App.OwnLemmas
import Verif.App.SyncProps
import Verif.App.KeepProps
import Verif.App.MergingProps
import Verif.App.FieldsProps
/-!
# The password of a single-user file, with `sync`
-/
set_option linter.unusedSimpArgs false
namespace Verif.App
open Verif Verif.Txlogs Verif.Blob Verif.Crypt Verif.App.Spec

/-- What `decryptSingle` gives. -/
theorem decryptSingle_ok {P : Prims} {pass : Str} {ck : Option Str} {cs f pt : Str} {p : Params}
    (h : decryptSingle P pass ck cs f = .ok (p, pt)) :
    ∃ key salt iv, p = { keys := [key], salts := [salt], ivs := [iv] } ∧ salt.length = 32 ∧
      ((key = P.kdf pass salt ∧ pass ≠ []) ∨
       (ck = some key ∧ salt = cs ∧ ∀ pass', decryptSingle P pass' ck cs f = .ok (p, pt))) := by
  have hh := h
  unfold decryptSingle at h
  split at h
  · cases h
  rename_i hlen
  have hsl : ((f.drop magicLen).take saltSize).length = 32 := by
    have : saltSize = 32 := by decide
    simp only [List.length_take, List.length_drop, this] at hlen ⊢
    omega
  dsimp only at h
  split at h
  · cases h
  rename_i hp
  split at h
  · cases h
  split at h
  · cases h
  split at h
  · cases h
  · cases h
  split at h
  · cases h
  · cases h
  cases h
  refine ⟨_, _, _, rfl, ?_⟩
  by_cases hd : (ck.isNone || cs != (f.drop magicLen).take saltSize) = true
  · rw [if_pos hd, if_pos hd]
    refine ⟨hsl, .inl ⟨rfl, ?_⟩⟩
    rintro rfl
    simp [hd] at hp
  · have hd' : (ck.isNone || cs != (f.drop magicLen).take saltSize) = false := Bool.eq_false_iff.2 hd
    rw [if_neg hd, if_neg hd]
    simp only [Bool.or_eq_false_iff, bne_eq_false_iff_eq] at hd'
    obtain ⟨h1, h2⟩ := hd'
    refine ⟨h2 ▸ hsl, .inr ⟨?_, rfl, ?_⟩⟩
    · cases ck with
      | none => cases h1
      | some k => rfl
    · intro pass'
      rw [if_neg hd, if_neg hd] at hh
      rw [← hh]
      unfold decryptSingle
      simp only [h1, ← h2, bne_self_eq_false, Bool.or_self, Bool.false_and, Bool.false_eq_true, if_false]

theorem decryptSingle_err {P : Prims} {pass : Str} {ck : Option Str} {cs f : Str} {e : CErr}
    (h : decryptSingle P pass ck cs f = .err e) : e = .wrongPassphrase := by
  unfold decryptSingle at h
  split at h
  · cases h
  dsimp only at h
  split at h
  · cases h; rfl
  split at h
  · cases h
  split at h
  · cases h
  split at h
  · cases h
  · rename_i he; cases h; exact decUnpad_err _ _ _ _ he
  split at h
  · cases h
  · rename_i he; cases h; exact checkHash_err _ _ _ _ he
  · cases h

/-- the number of users in the header -/
theorem noUsers_header {f : Str} (h : isMultiUser f ≠ .ok true) {v : Int} (hv : verifyMagic f = .ok v) (hl : ¬ f.length < magicLen)
    {n : Int} (hn : parseSigned ((f.drop 12).take 4) = some n) : n = 0 := by
  unfold isMultiUser at h
  rw [hv] at h
  simp only [hl, if_false, hn] at h
  simpa using h

/-- A file without users. -/
theorem decrypt_noUsers {P : Prims} {user pass : Str} {ck : Option Str} {cs f : Str} (hf : isMultiUser f ≠ .ok true) :
    (∀ user', decrypt P user' pass ck cs f = decrypt P user pass ck cs f) ∧ decrypt P user pass ck cs f ≠ .err .needUser ∧
    (∀ v p pt, decrypt P user pass ck cs f = .ok (v, p, pt) → ∃ p', p = { p' with version := 1 } ∧
      decryptSingle P pass ck cs f = .ok (p', pt) ∧ ∀ pass', decryptSingle P pass' ck cs f = .ok (p', pt) →
        decrypt P user pass' ck cs f = .ok (v, p, pt)) := by
  unfold decrypt
  split
  · simp
  rename_i hl
  split
  · simp
  split
  · simp
  · rename_i e he
    refine ⟨fun _ => rfl, ?_, by simp⟩
    intro h
    cases h
    unfold verifyMagic at he
    repeat (split at he <;> try cases he)
  · rename_i v hv
    split
    · simp
    split
    · simp
    · rename_i n hn
      have h0 := noUsers_header hf hv hl hn
      subst h0
      simp only [ne_eq, not_true, false_and, if_false, if_true]
      refine ⟨fun _ => trivial, ?_, ?_⟩
      · intro h
        split at h
        · cases h
        · rename_i e he
          cases h
          cases decryptSingle_err he
        · cases h
      · intro v' p pt h
        split at h
        · cases h
        · cases h
        · rename_i p' pt' he
          cases h
          exact ⟨p', rfl, he, fun pass' h' => by rw [h']⟩

/-- `decryptBlob` of a file without users keeps the user name, and the passphrase is the one tried first or a line typed. -/
theorem decryptBlob_noUsers {P : Prims} {c : Creds} {ct : Str} (hf : isMultiUser ct ≠ .ok true) : ∀ (inp : Input) (user pass : Str)
    (inp' : Input) (user' pass' : Str) (p : Params) (pt : Str),
    decryptBlob P c ct user pass inp = (.ok (some (user', pass', p, pt)), inp') →
    user' = user ∧ (pass' = pass ∨ (some pass' ∈ inp ∧ ∀ v, decrypt P user pass (orNil c.key) c.salt ct ≠ .ok (v, p, pt))) := by
  have hask : ∀ user pass, tryDecrypt P c ct user pass ≠ .askUser := by
    intro user pass h
    unfold tryDecrypt at h
    split at h
    · cases h
    · cases h
    · rename_i e he
      split at h
      · rename_i hx
        rcases hx with rfl | rfl
        · exact (decrypt_noUsers hf).2.1 he
        · exact C46_unknownUser_false _ _ _ _ _ _ he
      · split at h <;> cases h
  have hdone : ∀ user pass user' pass' p pt, tryDecrypt P c ct user pass = .done (.ok (some (user', pass', p, pt))) →
      user' = user ∧ pass' = pass := by
    intro user pass user' pass' p pt h
    unfold tryDecrypt at h
    split at h
    · cases h
    · cases h; exact ⟨rfl, rfl⟩
    · split at h
      · cases h
      · split at h <;> cases h
  intro inp
  induction inp with
  | nil =>
    intro user pass inp' user' pass' p pt h
    simp only [decryptBlob] at h
    split at h
    · rename_i r hr
      cases h
      obtain ⟨a, b⟩ := hdone _ _ _ _ _ _ hr
      exact ⟨a, .inl b⟩
    · cases h
  | cons x rest ih =>
    intro user pass inp' user' pass' p pt h
    cases x with
    | none =>
      simp only [decryptBlob] at h
      split at h
      · rename_i r hr
        cases h
        obtain ⟨a, b⟩ := hdone _ _ _ _ _ _ hr
        exact ⟨a, .inl b⟩
      · cases h
    | some line =>
      simp only [decryptBlob] at h
      split at h
      · rename_i r hr
        cases h
        obtain ⟨a, b⟩ := hdone _ _ _ _ _ _ hr
        exact ⟨a, .inl b⟩
      · rename_i hr
        exact absurd hr (hask _ _)
      · rename_i hr
        split at h
        · cases h
        · obtain ⟨a, b⟩ := ih _ _ _ _ _ _ _ h
          refine ⟨a, .inr ⟨?_, ?_⟩⟩
          · rcases b with rfl | ⟨b, -⟩
            · exact List.mem_cons_self
            · exact List.mem_cons_of_mem _ b
          · intro v hv
            unfold tryDecrypt at hr
            rw [hv] at hr
            cases hr

theorem pullBlob_listens {w : World} (hw : Listens w) {uuid : Str} {e : Entry} {inp rest : Input} {x : Option (Pulled × Str)}
    (h : pullBlob w uuid e inp = (x, rest)) : rest <:+ inp := by
  unfold pullBlob at h
  split at h
  · cases h; exact List.suffix_refl _
  · split at h
    · exact hw _ _ _ _ _ h
    · split at h <;> (cases h; exact List.suffix_refl _)

theorem decryptBlob_suffix {P : Prims} {c : Creds} {ct : Str} : ∀ (inp : Input) (user pass : Str),
    (decryptBlob P c ct user pass inp).2 <:+ inp := by
  intro inp
  induction inp with
  | nil =>
    intro user pass
    simp only [decryptBlob]
    split <;> exact List.suffix_refl _
  | cons x rest ih =>
    intro user pass
    have h1 : rest <:+ x :: rest := List.suffix_cons _ _
    cases x with
    | none =>
      simp only [decryptBlob]
      split
      · exact List.suffix_refl _
      · exact h1
    | some line =>
      simp only [decryptBlob]
      split
      · exact List.suffix_refl _
      · exact (ih _ _).trans h1
      · split
        · exact h1
        · exact (ih _ _).trans h1

theorem pullOne_suffix {P : Prims} {C : Codec} {w : World} (hw : Listens w) (u : Session) (uuid : Str) (inp : Input) :
    (pullOne P C w u uuid inp).2 <:+ inp := by
  simp only [pullOne]
  split
  · rename_i h; exact pullBlob_listens hw h
  · rename_i h; exact pullBlob_listens hw h
  · rename_i h; exact pullBlob_listens hw h
  · rename_i ct h' i1 h
    have a := pullBlob_listens hw h
    have b := decryptBlob_suffix (P := P) (c := u.creds) (ct := ct) i1 u.creds.user u.creds.pass
    cases hd : decryptBlob P u.creds ct u.creds.user u.creds.pass i1 with
    | mk o i2 =>
      rw [hd] at b
      have := b.trans a
      clear hd
      cases o with
      | panic => exact this
      | err e => exact this
      | ok x =>
        cases x with
        | none => exact this
        | some x =>
          dsimp only
          repeat' (first | exact this | split)

theorem pullAll_inputs {P : Prims} {C : Codec} {w : World} (hw : Listens w) (u : Session) : ∀ (syncs : List Str) (inp inp' : Input)
    (l : List (Str × Fate × Str)), pullAll P C w u syncs inp = (some l, inp') →
    ∀ x ∈ l, x.1 ∈ syncs ∧ ∃ i i', i <:+ inp ∧ pullOne P C w u x.1 i = (some x.2, i')
  | [], inp, inp', l, h => by
    simp only [pullAll, Prod.mk.injEq, Option.some.injEq] at h
    simp [← h.1]
  | uuid :: syncs, inp, inp', l, h => by
    simp only [pullAll] at h
    split at h
    · cases h
    · rename_i f hh i1 h1
      have s1 := pullOne_suffix (P := P) (C := C) hw u uuid inp
      rw [h1] at s1
      split at h
      · cases h
      · rename_i l' i2 h2
        cases h
        intro x hx
        rcases List.mem_cons.1 hx with rfl | hx
        · exact ⟨List.mem_cons_self, _, _, List.suffix_refl _, h1⟩
        · obtain ⟨a, i, i', b, c⟩ := pullAll_inputs hw u syncs _ _ _ h2 x hx
          exact ⟨List.mem_cons_of_mem _ a, i, i', b.trans s1, c⟩

/-- Each remote that is merged has credentials of a file without users. -/
theorem own_remote {P : Prims} (hP : Crypt.Spec.Lawful P) {C : Codec} {w : World} {u : Session} {pass uuid h : Str} {inp inp' : Input}
    {r : Remote} (ho : OwnSession P u pass)
    (hn : ∀ f h rest, pullBlob w uuid ((u.store.snapshot.get? uuid).getD []) inp = (some (.bytes f, h), rest) → isMultiUser f ≠ .ok true)
    (hw : Listens w)
    (hp : pullOne P C w u uuid inp = (some (.merge r, h), inp')) :
    ∃ pass', (pass' = pass ∨ some pass' ∈ inp) ∧ OwnSession P { u with creds := r.creds } pass' := by
  simp only [pullOne] at hp
  split at hp
  · cases hp
  · cases hp
  · cases hp
  · rename_i ct h' i1 heq
    have hpre := pullBlob_listens hw heq
    have hct := hn _ _ _ heq
    split at hp
    · cases hp
    · cases hp
    · cases hp
    · rename_i user' pass' p pt i2 hd
      obtain ⟨v, hv⟩ := decryptBlob_ok _ _ _ _ _ hd
      obtain ⟨a, b⟩ := decryptBlob_noUsers hct _ _ _ _ _ _ _ _ hd
      obtain ⟨p', hp', hs, hs'⟩ := (decrypt_noUsers hct).2.2 _ _ _ hv
      obtain ⟨key, salt, iv, rfl, hsl, hk⟩ := decryptSingle_ok hs
      split at hp
      · cases hp
      split at hp
      · cases hp
      · cases hp
      split at hp
      · cases hp
      · cases hp
      subst hp'
      split at hp
      rotate_left
      · cases hp
      rename_i k' s' hk' hs'' 
      cases hk'
      cases hs''
      cases hp
      rcases hk with ⟨hk, hne⟩ | ⟨hk, hsalt, hall⟩
      · refine ⟨pass', ?_, ho.writable, a.trans ho.user, ⟨rfl, hk ▸ hP.kdf_length _ _, hsl⟩, hne, hk, .inl rfl⟩
        rcases b with rfl | ⟨b, -⟩
        · exact .inl (ho.typed.resolve_right hne)
        · exact .inr (hpre.subset b)
      · have hkey : key = u.creds.key := by
          unfold orNil at hk
          split at hk
          · cases hk
          · cases hk; rfl
        have hpass : pass' = u.creds.pass := by
          rcases b with b | ⟨-, b⟩
          · exact b
          · refine absurd ?_ (b v)
            rw [← a]
            exact hs' _ (hall _)
        refine ⟨pass, .inl rfl, ho.writable, a.trans ho.user, ⟨rfl, hkey ▸ ho.creds.key, hsl⟩, ho.pass_ne, ?_, ?_⟩
        · show key = P.kdf pass salt
          rw [hkey, hsalt]; exact ho.key
        · show pass' = pass ∨ pass' = []
          rw [hpass]; exact ho.typed

theorem pushBack_readOnly (P : Prims) (C : Codec) (w : World) (v : SyncEnv) (push : Bool) (hosts : Results) (ts : List Str)
    (u : Session) (inp : Input) : (pushBack P C w v push hosts ts u inp).session.readOnly = u.readOnly := by
  unfold pushBack
  repeat' (first | rfl | split)

theorem own_store {P : Prims} {u u' : Session} {pass : Str} (h : OwnSession P u pass) (hr : u'.readOnly = u.readOnly)
    (hc : u'.creds = u.creds) : OwnSession P u' pass :=
  ⟨hr.trans h.writable, by rw [hc]; exact h.user, by rw [hc]; exact h.creds, h.pass_ne, by rw [hc]; exact h.key, by rw [hc]; exact h.typed⟩

end Verif.App
