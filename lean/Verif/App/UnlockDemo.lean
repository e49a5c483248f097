import Verif.App.UnlockProps
import Verif.App.SyncDemo
/-!
# C108: what sync cannot be told, and non-vacuity
-/
namespace Verif.App
open Verif Verif.Txlogs Verif.Blob Verif.Crypt Verif.App.Spec
open Verif.Crypt.Spec (toy toy_lawful Lawful saltOf fit)

namespace UnlockDemo
open SyncDemo (C iv logA logB u)

/-- a remote that somebody saved with another passphrase -/
def other : Creds := { pass := [9], key := List.replicate 80 9, salt := List.replicate 32 2 }

def file : Str :=
  match saveBlob toy C id id iv { creds := other, store := { log := logB } } with
  | .ok (some f) => f
  | _ => []

def p : Params := { version := 1, keys := [List.replicate 80 9], salts := [List.replicate 32 2], ivs := [iv] }

/-- `toy` with a hash that depends on the length -/
def toyL : Prims := { toy with sha512 := fun x => fit 64 (UInt8.ofNat x.length :: UInt8.ofNat (x.length / 256) :: x) }

theorem toyL_lawful : Lawful toyL where
  enc_length := toy_lawful.enc_length
  dec_length := toy_lawful.dec_length
  dec_enc := toy_lawful.dec_enc
  sha256_length := toy_lawful.sha256_length
  sha512_length _ := Crypt.Spec.fit_length 64 _
  kdf_length := toy_lawful.kdf_length

/-- a file with one user -/
def pM : Params :=
  { nUsers := 1, user := 0, keys := [List.replicate 80 9], users := [toyL.sha256 (b! "ann")], salts := [List.replicate 32 2]
    ivs := [List.replicate 40 6], ivm := some (List.replicate 40 8), master := some (List.replicate 80 3)
    mkeys := [match encryptMasterKey toyL 1 (List.replicate 80 9) (List.replicate 80 3) (List.replicate 40 6) with | .ok (a, _) => a | _ => []] }

def fileM : Str :=
  match encrypt toyL 1 pM iv (List.replicate 300 2) with
  | .ok f => f
  | _ => []

def tag : Res CErr (Int × Params × Str) → Nat
  | .ok _ => 0
  | .err .wrongPassphrase => 1
  | .err .needUser => 2
  | .err _ => 3
  | .panic => 4

theorem tag_wrong {r : Res CErr (Int × Params × Str)} (h : tag r = 1) : r = .err .wrongPassphrase := by
  cases r with
  | ok x => cases h
  | panic => cases h
  | err e => cases e <;> first | rfl | cases h

theorem tag_need {r : Res CErr (Int × Params × Str)} (h : tag r = 2) : r = .err .needUser := by
  cases r with
  | ok x => cases h
  | panic => cases h
  | err e => cases e <;> first | rfl | cases h

theorem tag_ok {r : Res CErr (Int × Params × Str)} (h : tag r = 0) : ∃ v p pt, r = .ok (v, p, pt) := by
  cases r with
  | ok x => exact ⟨x.1, x.2.1, x.2.2, rfl⟩
  | panic => cases h
  | err e => cases e <;> cases h

theorem opens : byHand toy file [] [9] = .ok (1, p, [2]) := by decide +kernel
theorem salts : OtherSalt toy file [] { u.creds with pass := [7] } := by unfold OtherSalt; decide +kernel
theorem no5 : Refuses toy file [] [5] := tag_wrong (by decide +kernel)
theorem no6 : Refuses toy file [] [6] := tag_wrong (by decide +kernel)
theorem no7 : Refuses toy file [] [7] := tag_wrong (by decide +kernel)

/-- the session -/
def uU : Session := { u with creds := { u.creds with pass := [7] }, store := u.store.updateSnapshot.1 }

def w : World := { SyncDemo.w with readFile := fun _ _ => .bytes file }

-- two passphrases are refused, the third is right
example : decryptBlob toy uU.creds file [] [7] [some [5], some [6], some [9], some [1]] = (.ok (some ([], [9], p, [2])), [some [1]]) :=
  C108_opens_partial toy uU.creds file [] [9] [2] 1 p [[5], [6]] [some [1]] opens salts (by decide) no7
    (by
      intro t ht
      simp only [List.mem_cons, List.not_mem_nil, or_false] at ht
      rcases ht with rfl | rfl
      · exact ⟨by decide, no5⟩
      · exact ⟨by decide, no6⟩)

example : decryptBlob toy other file [] [9] [] = (.ok (some ([], [9], p, [2])), []) :=
  C108_silent toy toy_lawful other file [2] 1 p [] ⟨by decide, by decide +kernel⟩ opens

-- with users: the name, then the passphrase
example : (byHand toyL fileM [] [7] = .err .needUser ∧ (∃ v p pt, byHand toyL fileM (b! "ann") [9] = .ok (v, p, pt)) ∧
    OtherSalt toyL fileM (b! "ann") uU.creds ∧ Refuses toyL fileM (b! "ann") [7]) :=
  ⟨tag_need (by decide +kernel), tag_ok (by decide +kernel), by unfold OtherSalt; decide +kernel, tag_wrong (by decide +kernel)⟩

-- an interruption
example : decryptBlob toy uU.creds file [] [7] [some [5], none, some [9]] = (.ok none, [some [9]]) :=
  C108_giveUp toy uU.creds file [] [[5]] none [some [9]] (decrypt_nonneg opens) salts no7
    (by
      intro t ht
      simp only [List.mem_cons, List.not_mem_nil, or_false] at ht
      subst ht
      exact ⟨by decide, no5⟩) (.inl rfl)

example : pullOne toy C w uU [97] ([[5]].map some ++ some [9] :: []) = (some (.merge { name := b! "sync/a", creds := other, log := logB }, []), []) :=
  C108_merged_partial toy C w uU [97] file [] [9] [2] _ _ 1 p [[5]] [] logB (fun _ => rfl) opens rfl salts (by decide) no7
    (by
      intro t ht
      simp only [List.mem_cons, List.not_mem_nil, or_false] at ht
      subst ht
      exact ⟨by decide, no5⟩) (by decide) rfl (by decide +kernel) rfl rfl

-- no user has the salt of the session in this file
example : ∀ user, OtherSalt toy file user uU.creds := by
  intro user
  have h : parseSigned ((file.drop 12).take 4) = some 0 := by decide +kernel
  unfold OtherSalt saltOf
  rw [h]
  show some (List.take 32 (List.drop 16 file)) ≠ _
  decide +kernel

/-- What was typed is not remembered: two remotes with the same passphrase ask for it twice, and the one that is not answered is left
out. -/
theorem C108_once_false : ∃ (P : Prims) (C : Codec) (w : World) (u : Session) (a b pass f : Str) (r : Remote), Lawful P ∧
    (∀ uuid e, w.readFile uuid e = .bytes f) ∧ (∃ v p pt, byHand P f u.creds.user pass = .ok (v, p, pt)) ∧
    pullAll P C w u [a, b] [some pass] = (some [(a, .merge r, []), (b, .skip, [])], []) ∧
    ∃ r', pullAll P C w u [a, b] [some pass, some pass] = (some [(a, .merge r, []), (b, .merge r', [])], []) :=
  ⟨toy, C, w, uU, [97], [98], [9], file, { name := b! "sync/a", creds := other, log := logB }, toy_lawful, fun _ _ => rfl,
    ⟨1, p, [2], opens⟩, by decide +kernel, { name := b! "sync/b", creds := other, log := logB }, by decide +kernel⟩

/-- `toyL` with a key that only depends on whether the passphrase begins with 9 -/
def toyK : Prims := { toyL with kdf := fun p _ => List.replicate 80 (if p.headD 0 = 9 then 9 else 1) }

theorem toyK_lawful : Lawful toyK where
  enc_length := toy_lawful.enc_length
  dec_length := toy_lawful.dec_length
  dec_enc := toy_lawful.dec_enc
  sha256_length := toy_lawful.sha256_length
  sha512_length _ := Crypt.Spec.fit_length 64 _
  kdf_length _ _ := by simp [toyK]

theorem kdf_same (P : Prims) (p q : Str) (hp : p ≠ []) (hq : q ≠ []) (h : ∀ s, P.kdf p s = P.kdf q s) (user cs f : Str) (ck : Option Str) :
    decrypt P user p ck cs f = decrypt P user q ck cs f := by
  have h1 : (p.length == 0) = false := by simpa using hp
  have h2 : (q.length == 0) = false := by simpa using hq
  unfold decrypt decryptSingle decryptMulti
  simp only [h, h1, h2]

theorem bob9 : tag (decrypt toyK (b! "bob") [9] (orNil uU.creds.key) uU.creds.salt fileM) = 1 := by decide +kernel
theorem bob1 : tag (decrypt toyK (b! "bob") [1] (orNil uU.creds.key) uU.creds.salt fileM) = 1 := by decide +kernel
theorem bob0 : tag (decrypt toyK (b! "bob") [] (orNil uU.creds.key) uU.creds.salt fileM) = 1 := by decide +kernel

theorem bob_refused (pass : Str) : decrypt toyK (b! "bob") pass (orNil uU.creds.key) uU.creds.salt fileM = .err .wrongPassphrase := by
  cases pass with
  | nil => exact tag_wrong bob0
  | cons a l =>
    by_cases h : a = 9
    · rw [kdf_same toyK (a :: l) [9] (by simp) (by simp) (fun s => by simp [toyK, h])]
      exact tag_wrong bob9
    · rw [kdf_same toyK (a :: l) [1] (by simp) (by simp) (fun s => by simp [toyK, h])]
      exact tag_wrong bob1

attribute [irreducible] fileM

/-- Who has another name in the remote than in the session cannot open it, whatever they answer: the name is never asked for. -/
theorem C108_name_false : ∃ (P : Prims) (c : Creds) (f user pass : Str), Lawful P ∧
    (∃ v p pt, byHand P f user pass = .ok (v, p, pt)) ∧ c.user ≠ [] ∧ OtherSalt P f user c ∧
    ∀ (inp : Input) (x : Str × Str × Params × Str), (decryptBlob P c f c.user c.pass inp).1 ≠ .ok (some x) := by
  refine ⟨toyK, { uU.creds with user := b! "bob" }, fileM, b! "ann", [9], toyK_lawful, tag_ok (by decide +kernel), (by decide),
    (by unfold OtherSalt; decide +kernel), ?_⟩
  intro inp x h
  obtain ⟨user', pass', p, pt⟩ := x
  obtain ⟨rest, hr⟩ : ∃ rest, decryptBlob toyK { uU.creds with user := b! "bob" } fileM (b! "bob") [7] inp =
      (.ok (some (user', pass', p, pt)), rest) := ⟨_, Prod.ext h rfl⟩
  have hu := C108_stuck _ _ _ _ (by decide) _ _ _ _ _ _ _ hr
  obtain ⟨v, hv⟩ := decryptBlob_ok _ _ _ _ _ hr
  subst hu
  have hv : decrypt toyK (b! "bob") pass' (orNil uU.creds.key) uU.creds.salt fileM = .ok (v, p, pt) := hv
  rw [bob_refused] at hv
  cases hv

/-- the same salt with another key -/
def fileS : Str :=
  match saveBlob toy C id id iv { creds := { other with salt := u.creds.salt }, store := { log := logB } } with
  | .ok (some f) => f
  | _ => []

/-- A remote with the salt of the session and another key does not open with its own passphrase. -/
theorem C108_salt_false : ∃ (P : Prims) (c : Creds) (f pass : Str), Lawful P ∧ Typed P c ∧
    (∃ v p pt, byHand P f c.user pass = .ok (v, p, pt)) ∧ ∀ inp, (decryptBlob P c f c.user c.pass inp).1 = .ok none := by
  refine ⟨toy, { uU.creds with key := List.replicate 80 7 }, fileS, [9], toy_lawful, ⟨by decide, by decide +kernel⟩, tag_ok (by decide +kernel), fun inp => ?_⟩
  obtain ⟨v, p, pt, ho⟩ : ∃ v p pt, byHand toy fileS [] [9] = .ok (v, p, pt) := tag_ok (by decide +kernel)
  exact C108_same_salt toy _ fileS _ (by decide) (decrypt_nonneg ho) (by decide +kernel) (tag_wrong (by decide +kernel)) inp _

end UnlockDemo
end Verif.App
