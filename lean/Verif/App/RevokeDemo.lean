import Verif.App.RevokeProps
/-!
# C101: the hypotheses can be met

Two users, a and b; a removes b and stores something. The primitives are `Crypt.Spec.toy`.
-/
namespace Verif.App
open Verif Verif.Txlogs Verif.Blob Verif.Crypt Verif.App.Spec
open Verif.Crypt.Spec (toy toy_lawful Listed readWith)

namespace RevokeDemo
open Demo (u1 u2 u1_multi u2_multi perm_id perm_id')
open Verif.App.SyncDemo (iv)

def turn : Env := { d := { now := fun i => 100 + i, uuid := b! "n", inp := [some (b! "user/b")] } }
def turn' : Env := { d := { now := fun i => 200 + i, uuid := b! "n", inp := [some [], some [], some (b! "m"), some [7], some [7]] } }
def turns : List Turn := [(some (b! "rm user/b"), turn), (some (b! "add bank"), turn')]
def after : Repl := (runRepl toy Json.Spec.codec turns { u := u2 }).1
def before : Str := OutsideDemo.file u2
def later : Str := OutsideDemo.file after.u

theorem before_ok : saveBlob toy Json.Spec.codec id id iv u2 = .ok (some before) := by decide +kernel
theorem later_ok : saveBlob toy Json.Spec.codec id id iv after.u = .ok (some later) := by decide +kernel

theorem faithful : Faithful Json.Spec.codec u2.store :=
  OwnSyncDemo.faithful_of u2_multi.1.good.ok rfl (by decide +kernel) (by decide +kernel)

theorem along : Along toy Json.Spec.codec (fun _ line r => SameKeyLine line r) turns { u := u2 } := by
  have h1 : parseLine (b! "rm user/b") = some (b! "rm", [b! "user/b"]) := by decide +kernel
  have h2 : parseLine (b! "add bank") = some (b! "add", [b! "bank"]) := by decide +kernel
  refine ⟨⟨by rw [h1]; simp, by rw [h1]; simp, ?_⟩, ⟨by rw [h2]; simp, by rw [h2]; simp, ?_⟩, trivial⟩
  · intro nm args h
    rw [h1] at h
    cases h
    exact .inr (by decide +kernel)
  · intro nm args h
    rw [h2] at h
    cases h

-- b is gone and the entry is there
example : (runRepl toy Json.Spec.codec turns { u := u2 }).2 = .ok () := by decide +kernel
example : after.u.store.updateSnapshot.1.snapshot.map (fun p => name p.2) = [some (b! "user/a"), some (b! "bank")] := by decide +kernel

theorem opens : Opens toy u2.store u2.creds.master [98] [7] Demo.dBob.salt := ⟨by decide, u2_multi.2.1 ▸ u2_multi.2.2⟩

-- b reads the file in which the new entry is
example : ∃ who n, openFile toy Json.Spec.codec none before [some [98], some [7]] = (.ok who, []) ∧
    readWith toy who.creds.master n later = some (Json.Spec.codec.marshal after.u.store) := by
  obtain ⟨who, h1, h2⟩ := C101_false toy toy_lawful Json.Spec.codec id perm_id id perm_id' iv before u2 u2_multi.1 faithful before_ok
    [98] [7] _ opens
  obtain ⟨n, h3⟩ := h2 id id iv later turns { u := u2 } rfl along later_ok
  exact ⟨who, n, h1, h3⟩

example := C101_names_partial toy toy_lawful Json.Spec.codec id perm_id id perm_id' iv before u2 (by decide) u2_multi.1 before_ok [98]
  ((C100_saved_users_false toy toy_lawful Json.Spec.codec id perm_id id perm_id' iv before u2 (by decide) u2_multi.1.good u2_multi.1.creds
    u2_multi.1.users before_ok).1 [98] _ _ opens.2)

end RevokeDemo

end Verif.App
