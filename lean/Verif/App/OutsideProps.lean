import Verif.App.SessionProps
import Verif.App.AccountsDemo
import Verif.App.OwnSyncDemo
import Verif.Crypt.OutsideProps
/-!
# C100 for the files that the program writes
-/
namespace Verif.App
open Verif Verif.Txlogs Verif.Blob Verif.Crypt Verif.App.Spec
open Verif.Crypt.Spec (toy toy_lawful fileSize frontSize Listed)

theorem saved_parts {P : Prims} {C : Codec} {ord : Order} {ord' : Results → Results} {iv f : Str} {u : Session}
    (h : saveBlob P C ord ord' iv u = .ok (some f)) : u.readOnly = false ∧ u.store.txPoint = 0 ∧
      ∃ p, (makeParams P ord ord' u.creds u.store).2 = .ok p ∧ encrypt P 1 p iv (C.marshal u.store) = .ok f := by
  unfold saveBlob at h
  cases hro : u.readOnly with
  | true => rw [hro] at h; cases h
  | false =>
    rw [hro, if_neg (by simp)] at h
    unfold sealFile at h
    by_cases htx : u.store.txPoint = 0
    · refine ⟨rfl, htx, ?_⟩
      simp only [DB.save, htx] at h
      cases hm : makeParams P ord ord' u.creds u.store with
      | mk s x =>
        rw [hm] at h
        cases x with
        | panic => simp at h
        | err e => simp at h
        | ok p =>
          refine ⟨p, rfl, ?_⟩
          cases he : encrypt P 1 p iv (C.marshal u.store) with
          | panic => simp [he] at h
          | err e => simp [he] at h
          | ok g => simp [he] at h; rw [h]
    · simp [DB.save, htx] at h

/-- A file without users shows its size, that is the length of the text up to 16 bytes, a salt and random bytes. -/
theorem C100_saved (P : Prims) (hP : Crypt.Spec.Lawful P) (C : Codec) (ord : Order) (ord' : Results → Results) (iv f : Str)
    (u : Session) (hil : iv.length = 40) (hc : u.creds.master = []) (h : saveBlob P C ord ord' iv u = .ok (some f)) :
    f.length = 192 + 16 * ((C.marshal u.store).length / 16) ∧ f.take 88 = b! "blobpass00010000" ++ u.creds.salt ++ iv := by
  obtain ⟨-, -, p, h1, h2⟩ := saved_parts h
  unfold makeParams at h1
  rw [if_pos hc] at h1
  cases h1
  exact ⟨C100_size P hP _ iv _ f hil h2, C100_single P hP _ iv _ f _ hil rfl rfl h2⟩

/-- With users it shows their names to whoever guesses them, and is the same each time it is saved without a change. -/
theorem C100_saved_users_false (P : Prims) (hP : Crypt.Spec.Lawful P) (C : Codec) (ord : Order) (hord : ∀ m, (ord m).Perm m)
    (ord' : Results → Results) (hord' : ∀ m, (ord' m).Perm m) (iv f : Str) (u : Session) (hil : iv.length = 40) (hg : Good u.store)
    (hc : MultiCreds u.creds) (hw : Spec.WfUsers P u.store) (h : saveBlob P C ord ord' iv u = .ok (some f)) :
    (∀ user salt key, Account P u.store u.creds.master user salt key → Listed P f user) ∧
    ∀ iv', saveBlob P C ord ord' iv' u = .ok (some f) := by
  obtain ⟨hro, htx, p, h1, h2⟩ := saved_parts h
  obtain ⟨p', n, hmk, hwf, hn, -, -, hacc⟩ := makeParams_multi P hP hord hord' hg hc hw
  rw [hmk] at h1
  cases h1
  have h0 : p.nUsers ≠ 0 := by have := hwf.nUsers; have := hwf.pos; omega
  constructor
  · intro user salt key ha
    obtain ⟨i, -, -, a1, -⟩ := hacc user salt key ha
    exact C100_names_false P hP p iv _ f user hil h0 (by rw [hwf.nUsers]; omega) (List.mem_of_getElem? a1) h2
  · intro iv'
    rw [C100_fresh_false P p iv iv' _ h0] at h2
    simp [saveBlob, hro, sealFile, DB.save, htx, hmk, h2]

namespace OutsideDemo
open Verif.App.SyncDemo (iv)

def file (u : Session) : Str :=
  match saveBlob toy Json.Spec.codec id id iv u with
  | .ok (some f) => f
  | _ => []

theorem single_ok : saveBlob toy Json.Spec.codec id id iv HistoryDemo.u = .ok (some (file HistoryDemo.u)) := by decide +kernel
theorem users_ok : saveBlob toy Json.Spec.codec id id iv Demo.u1 = .ok (some (file Demo.u1)) := by decide +kernel

example := C100_saved toy toy_lawful Json.Spec.codec id id iv _ HistoryDemo.u (by decide) (by decide) single_ok
example := C100_saved_users_false toy toy_lawful Json.Spec.codec id (fun m => .refl m) id (fun m => .refl m) iv _ Demo.u1 (by decide)
  Demo.u1_multi.1.good Demo.u1_multi.1.creds Demo.u1_multi.1.users users_ok

end OutsideDemo

end Verif.App
