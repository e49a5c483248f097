import Verif.App.TornSpec
import Verif.App.SyncProps
import Verif.Crypt.Lemmas2
/-!
# Lemmas on files that were cut off
-/
namespace Verif.App
open Verif Verif.Txlogs Verif.Blob Verif.Crypt Spec

/-- The outermost cipher has blocks of 8 bytes; nothing else can be decrypted, with any key. -/
theorem decUnpad_eight (P : Prims) {key iv w : Str} {ls : List (Alg × Str × Str)} (hl : layers suite key iv = some ls)
    (hw : w.length % 8 ≠ 0) : decUnpad P ls w = .panic := by
  obtain ⟨-, g3⟩ := layers_wf _ _ _ _ hl
  match ls, g3 with
  | [(a, k1, i1), (b, k2, i2), (c, k3, i3)], g3 =>
    simp only [List.map_cons, List.map_nil, suite, List.cons.injEq, and_true] at g3
    obtain ⟨rfl, rfl, rfl⟩ := g3
    have hc : cbcDec (P.dec Alg.cast5 k3) Alg.cast5.blockSize i3 w = none := if_neg hw
    simp only [decUnpad, hc]

theorem decryptSingle_length {P : Prims} {pass : Str} {key : Option Str} {salt f : Str} {p : Params} {pt : Str}
    (h : decryptSingle P pass key salt f = .ok (p, pt)) : 88 ≤ f.length ∧ f.length % 8 = 0 := by
  obtain ⟨z1, z2, z3, z4, z5, z6, z7⟩ := sizes
  unfold decryptSingle at h
  simp only [z2, z4, z5] at h
  split at h
  · cases h
  · split at h
    · cases h
    · split at h
      · cases h
      · rename_i hl
        refine ⟨by omega, ?_⟩
        split at h
        · cases h
        · rename_i ls hls
          refine Decidable.byContradiction fun hc => ?_
          rw [decUnpad_eight P hls (by rw [List.length_drop]; omega)] at h
          cases h

theorem decryptMulti_length {P : Prims} {n : Int} {user pass : Str} {key : Option Str} {salt f : Str} {p : Params} {pt : Str}
    (h16 : 16 ≤ f.length) (hn0 : n ≠ 0) (h : decryptMulti P n user pass key salt f = .ok (p, pt)) : 88 ≤ f.length ∧ f.length % 8 = 0 := by
  obtain ⟨z1, z2, z3, z4, z5, z6, z7⟩ := sizes
  unfold decryptMulti at h
  cases hp : parseUsers n.toNat (f.drop magicLen) with
  | none => rw [hp] at h; cases h
  | some x =>
    obtain ⟨rs, rest⟩ := x
    rw [hp] at h
    obtain ⟨p1, p2, p3, -⟩ := parseUsers_ok hp
    have hr : rest.length = f.length - 16 - 184 * n.toNat := by rw [p3, List.length_drop, List.length_drop, z5]
    rw [List.length_drop, z5] at p1
    have h8 : 40 ≤ rest.length → f.length % 8 ≠ 0 → (rest.drop 40).length % 8 ≠ 0 := by rw [List.length_drop]; omega
    have hempty : n.toNat = 0 → findUserRec (P.sha256 user) rs = none := by
      intro h0
      have : rs = [] := List.length_eq_zero_iff.1 (by omega)
      subst this
      rfl
    simp only [z2] at h
    generalize findUserRec (P.sha256 user) rs = found at h hempty
    generalize (if found.isSome = true then rs else rs ++ [_] : List UserRec) = rs' at h
    generalize hn' : (if found.isSome = true then n else n + 1 : Int) = n' at h
    split at h
    · cases h
    · rename_i h40
      split at h
      · cases h
      · split at h
        · cases h
        · split at h
          · cases h
          · rename_i hni
            have hpos : 0 < n.toNat := by
              refine Nat.pos_of_ne_zero fun h0 => hni ?_
              rw [hempty h0] at hn' ⊢
              rw [if_neg (by simp)] at hn'
              simp only [Option.getD_none]
              omega
            refine ⟨by omega, ?_⟩
            split at h
            · cases h
            · split at h
              · cases h
              · split at h
                · cases h
                · rename_i ls hls
                  refine Decidable.byContradiction fun hc => ?_
                  rw [decUnpad_eight P hls (h8 (by omega) hc)] at h
                  cases h

/-- The length of every file that can be decrypted. -/
theorem decrypt_length {P : Prims} {user pass : Str} {key : Option Str} {salt f : Str} {v : Int} {p : Params} {pt : Str}
    (h : decrypt P user pass key salt f = .ok (v, p, pt)) : 88 ≤ f.length ∧ f.length % 8 = 0 := by
  have h16 : 16 ≤ f.length := by
    refine Nat.le_of_not_lt fun hc => ?_
    unfold decrypt at h
    rw [if_pos (by simpa [magicLen] using hc)] at h
    cases h
  obtain ⟨-, n, p', -, -, a, b⟩ := decrypt_ok h
  by_cases h0 : n = 0
  · exact decryptSingle_length (a h0)
  · exact decryptMulti_length h16 h0 (b h0).2

theorem torn_length {f ct : Str} (h : Torn f ct) : ct.length < 88 ∨ ct.length % 8 ≠ 0 := by
  obtain ⟨k, h1, h2, rfl⟩ := h
  rw [List.length_take, Nat.min_eq_left (by omega)]
  exact h2

/-- A file for one user that was cut off crashes `Decrypt`, with every passphrase. -/
theorem decrypt_torn (P : Prims) {user pass t ct : Str} (key : Option Str) (salt : Str) (hp : pass ≠ []) (hc : Torn (magic 0 ++ t) ct) :
    decrypt P user pass key salt ct = .panic := by
  obtain ⟨z1, z2, z3, z4, z5, z6, z7⟩ := sizes
  have hl := torn_length hc
  obtain ⟨k, hk, -, hct⟩ := hc
  have hm : (magic 0).length = 16 := by decide
  by_cases h16 : ct.length < 16
  · unfold decrypt
    rw [if_pos (by rw [z5]; exact h16)]
  · have hk16 : 16 ≤ k := by rw [hct, List.length_take] at h16; omega
    have hf : ct = magic 0 ++ t.take (k - 16) := by rw [hct, List.take_append, hm, List.take_of_length_le (by omega)]
    obtain ⟨m, d1, -, -, d4⟩ := decrypt_header P user pass key salt 0 (t.take (k - 16))
    have h16t : (magic 0).take 16 = magic 0 := List.take_of_length_le (by omega)
    have hm0 : m = 0 := Decidable.byContradiction fun hc => absurd rfl (d1.1 hc)
    rw [h16t, ← hf] at d4
    have hs : decryptSingle P pass key salt ct = .panic := by
      unfold decryptSingle
      simp only [z2, z4, z5]
      split
      · rfl
      · rw [if_neg (by simp [hp])]
        split
        · rfl
        · cases hls : layers suite (if (key.isNone || salt != (ct.drop 16).take 32) = true then P.kdf pass ((ct.drop 16).take 32) else key.getD [])
            ((ct.drop (16 + 32)).take 40) with
          | none => rfl
          | some ls =>
            simp only
            rw [decUnpad_eight P hls (by rw [List.length_drop]; omega)]
    rw [d4, hm0]
    simp only [ne_eq, not_true, false_and, if_false, if_true, hs]

theorem decryptBlob_panic {P : Prims} {c : Creds} {ct user pass : Str} (h : decrypt P user pass (orNil c.key) c.salt ct = .panic) (i : Input) :
    decryptBlob P c ct user pass i = (.panic, i) := by
  cases i with
  | nil => simp only [decryptBlob, tryDecrypt, h]
  | cons a i => cases a <;> simp only [decryptBlob, tryDecrypt, h]

/-- One remote that crashes is enough, wherever it is in the list. -/
theorem pullAll_panic {P : Prims} {C : Codec} {w : World} {u : Session} {x : Str}
    (h : ∀ inp, ∃ inp', pullOne P C w u x inp = (none, inp')) (l : List Str) (hx : x ∈ l) (inp : Input) :
    ∃ inp', pullAll P C w u l inp = (none, inp') := by
  induction l generalizing inp with
  | nil => cases hx
  | cons y l ih =>
    unfold pullAll
    by_cases hy : x = y
    · subst hy
      obtain ⟨i, hi⟩ := h inp
      rw [hi]
      exact ⟨_, rfl⟩
    · have hx' : x ∈ l := (List.mem_cons.1 hx).resolve_left hy
      rcases hp : pullOne P C w u y inp with ⟨_ | ⟨f, hh⟩, i⟩
      · exact ⟨_, rfl⟩
      · obtain ⟨i', hi'⟩ := ih hx' i
        simp only [hi']
        exact ⟨_, rfl⟩

end Verif.App
