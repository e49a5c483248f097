import Verif.Crypt.MistypedLemmas
/-!
# What a mistyped passphrase does (C45)

`Decrypt` undoes three ciphers one after the other, and after each takes off the padding. The outermost has blocks of 8
bytes, the next one of 16. What a wrong passphrase makes of the last block is arbitrary; if it ends in a byte 0 or 1 that is
taken for padding of that length (0 is accepted, see C41), what is left is not a whole number of blocks of the next cipher,
and `CryptBlocks` panics. All other last bytes are refused, unless the byte before is the same. So about one typing error in
128 ends in a crash and not in "wrong passphrase".
-/
namespace Verif.Crypt
open Verif Spec

/-- For every file without users that `Encrypt` writes, and all ciphers: a passphrase that makes the last byte 0 or 1 crashes
`Decrypt`. -/
theorem C45_mistyped_false (P : Prims) (hP : Lawful P) (p : Params) (iv pt f salt user pass a : Str) (hil : iv.length = 40)
    (he : encrypt P 1 p iv pt = .ok f) (h0 : p.nUsers = 0) (hs : p.salts.head? = some salt) (hp : pass ≠ [])
    (hl : lastBlock P (P.kdf pass salt) f = a ++ [0] ∨ lastBlock P (P.kdf pass salt) f = a ++ [1]) :
    decrypt P user pass none [] f = .panic := (single_mistyped hP hil he h0 hs user hp).1 a hl

/-- If the last byte is another one, and differs from the one before, the passphrase is refused. -/
theorem C45_mistyped_partial (P : Prims) (hP : Lawful P) (p : Params) (iv pt f salt user pass a : Str) (x y : UInt8) (hil : iv.length = 40)
    (he : encrypt P 1 p iv pt = .ok f) (h0 : p.nUsers = 0) (hs : p.salts.head? = some salt) (hp : pass ≠ [])
    (hl : lastBlock P (P.kdf pass salt) f = a ++ [x, y]) (hxy : x ≠ y) (hy : 2 ≤ y.toNat) :
    decrypt P user pass none [] f = .err .wrongPassphrase := (single_mistyped hP hil he h0 hs user hp).2 a x y hl hxy hy

/-- The same for files with users, with what the passphrase makes of the master key. -/
theorem C45_users_mistyped_false (P : Prims) (hP : Lawful P) (p : Params) (iv pt f name pass salt uiv mk a : Str) (i : Nat) (hil : iv.length = 40)
    (h0 : p.nUsers ≠ 0) (hmax : p.nUsers ≤ 9999) (he : encrypt P 1 p iv pt = .ok f) (hname : name ≠ []) (hp : pass ≠ [])
    (h1 : p.users[i]? = some (P.sha256 name)) (hfirst : ∀ j < i, p.users[j]? ≠ some (P.sha256 name))
    (h2 : p.salts[i]? = some salt) (h3 : p.ivs[i]? = some uiv) (h4 : p.mkeys[i]? = some mk)
    (hl : lastBlock P (masterWith P pass salt uiv mk) f = a ++ [0] ∨ lastBlock P (masterWith P pass salt uiv mk) f = a ++ [1]) :
    decrypt P name pass none [] f = .panic := (multi_mistyped hP hil h0 hmax he hname hp h1 hfirst h2 h3 h4).1 a hl

theorem C45_users_mistyped_partial (P : Prims) (hP : Lawful P) (p : Params) (iv pt f name pass salt uiv mk a : Str) (x y : UInt8) (i : Nat)
    (hil : iv.length = 40) (h0 : p.nUsers ≠ 0) (hmax : p.nUsers ≤ 9999) (he : encrypt P 1 p iv pt = .ok f) (hname : name ≠ []) (hp : pass ≠ [])
    (h1 : p.users[i]? = some (P.sha256 name)) (hfirst : ∀ j < i, p.users[j]? ≠ some (P.sha256 name))
    (h2 : p.salts[i]? = some salt) (h3 : p.ivs[i]? = some uiv) (h4 : p.mkeys[i]? = some mk)
    (hl : lastBlock P (masterWith P pass salt uiv mk) f = a ++ [x, y]) (hxy : x ≠ y) (hy : 2 ≤ y.toNat) :
    decrypt P name pass none [] f = .err .wrongPassphrase := (multi_mistyped hP hil h0 hmax he hname hp h1 hfirst h2 h3 h4).2 a x y hl hxy hy

/-! ## Non-vacuity -/

namespace MistypedDemo

def p : Params := { keys := [toy.kdf [1] []], salts := [List.replicate 32 0] }
def pt : Str := (List.range 20).map UInt8.ofNat
def f : Str := match encrypt toy 1 p (List.replicate 40 0) pt with | .ok f => f | _ => []


def g : Str := match encrypt toy 1 twoUsers (List.replicate 40 0) pt with | .ok f => f | _ => []


theorem f_ok : encrypt toy 1 p (List.replicate 40 0) pt = .ok f := by decide +kernel
theorem g_ok : encrypt toy 1 twoUsers (List.replicate 40 0) pt = .ok g := by decide +kernel

/-- what a passphrase of one byte makes of the last block of `f` -/
def b (x : UInt8) : Str := lastBlock toy (toy.kdf [x] (List.replicate 32 0)) f

/-- and of `g`, for bob -/
def c (x : UInt8) : Str :=
  lastBlock toy (masterWith toy [x] (List.replicate 32 2) (List.replicate 40 1) (twoUsers.mkeys[1]?.getD [])) g

example : b 249 = (b 249).take 7 ++ [0] ∧ b 250 = (b 250).take 7 ++ [1] := by decide +kernel

example : decrypt toy [] [249] none [] f = .panic :=
  C45_mistyped_false toy toy_lawful p _ pt f (List.replicate 32 0) [] [249] ((b 249).take 7) (by decide) f_ok rfl rfl (by decide)
    (.inl (show b 249 = _ by decide +kernel))

example : decrypt toy [] [3] none [] f = .err .wrongPassphrase :=
  C45_mistyped_partial toy toy_lawful p _ pt f (List.replicate 32 0) [] [3] ((b 3).take 6) 10 14 (by decide) f_ok rfl rfl (by decide)
    (show b 3 = _ by decide +kernel) (by decide) (by decide)

example : decrypt toy (b! "bob") [59] none [] g = .panic :=
  C45_users_mistyped_false toy toy_lawful twoUsers _ pt g (b! "bob") [59] (List.replicate 32 2) (List.replicate 40 1)
    (twoUsers.mkeys[1]?.getD []) ((c 59).take 7) 1 (by decide) (by decide) (by decide) g_ok (by decide) (by decide) (by decide) (by decide)
    rfl rfl rfl (.inr (show c 59 = _ by decide +kernel))

example : decrypt toy (b! "bob") [1] none [] g = .err .wrongPassphrase :=
  C45_users_mistyped_partial toy toy_lawful twoUsers _ pt g (b! "bob") [1] (List.replicate 32 2) (List.replicate 40 1)
    (twoUsers.mkeys[1]?.getD []) ((c 1).take 6) 55 71 1 (by decide) (by decide) (by decide) g_ok (by decide) (by decide) (by decide) (by decide)
    rfl rfl rfl (show c 1 = _ by decide +kernel) (by decide) (by decide)

end MistypedDemo

end Verif.Crypt
