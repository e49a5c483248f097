import Verif.Go.Strings
import Verif.Pkcs7.Model
/-!
# Model of `crypt/`

The block ciphers, the hashes and scrypt are parameters (`Prims`); everything around them is modelled: file layout,
CBC mode, padding, the cascade of three ciphers, key wrapping, parameter validation and all checks.

Simplifications.
* A slice has no spare capacity: slicing beyond the length is a panic.
* The random source delivers (its errors are not modelled); random bytes are arguments.
* nil and empty slices are distinguished only where the code does (`key == nil` in decryptV1Single, `IVM` and `Master`
  in `validate`).
* `scrypt.Key` and the cipher constructors do not fail: their arguments always have the right sizes.
-/
namespace Verif.Crypt
open Verif

/-! ## Sizes (crypto.go:31-36, 79-118) -/

inductive Alg where
  | aes | camellia | cast5
  deriving Repr, DecidableEq

/-- crypto.go:81-83 -/
def Alg.keySize : Alg → Nat
  | .aes => 32 | .camellia => 32 | .cast5 => 16
def Alg.blockSize : Alg → Nat
  | .aes => 16 | .camellia => 16 | .cast5 => 8

/-- the cipher suite of version 1 (crypto.go:90) -/
def suite : List Alg := [.aes, .camellia, .cast5]

def magicLen : Nat := 16
def magicStr : Str := b! "blobpass"
def saltSize : Nat := 32
/-- sums of the suite (crypto.go:112-113): 80 and 40 -/
def keySize : Nat := (suite.map Alg.keySize).sum
def blockSize : Nat := (suite.map Alg.blockSize).sum
def sha256Size : Nat := 32
def sha512Size : Nat := 64
/-- crypto_v1.go:105 -/
def userSize : Nat := sha256Size + saltSize + blockSize + keySize

/-- crypto.go:39-42 -/
def v0Header : Str := [0x6b, 0x6e, 0x69, 0x6f, 0x70, 0x61, 0x73, 0x73,
  0x30, 0x30, 0x30, 0x30, 0x30, 0x30, 0x30, 0x31]

/-- What the model does not look into: one block of each cipher, the hashes, the key derivation. -/
structure Prims where
  enc : Alg → Str → Str → Str
  dec : Alg → Str → Str → Str
  sha256 : Str → Str
  sha512 : Str → Str
  kdf : Str → Str → Str

/-- Errors (crypto.go:17-29 and the anonymous ones; all complaints of `validate` are one). -/
inductive CErr where
  | wrongPassphrase | needUser | unknownUser | invalidFormat
  | needFullRekey | invalidKey | invalidSalt
  | unknownVersion | badParams | notImplemented | masterSize | userKeySize
  deriving Repr, DecidableEq

/-! ## CBC mode (`crypto/cipher`) -/

def xor (a b : Str) : Str := List.zipWith (· ^^^ ·) a b

/-- the first `k` blocks of `n` bytes -/
def chunk (n : Nat) : Nat → Str → List Str
  | 0, _ => []
  | k + 1, s => s.take n :: chunk n k (s.drop n)

def cbcE (E : Str → Str) : Str → List Str → List Str
  | _, [] => []
  | iv, b :: bs => E (xor iv b) :: cbcE E (E (xor iv b)) bs

def cbcD (D : Str → Str) : Str → List Str → List Str
  | _, [] => []
  | iv, c :: cs => xor iv (D c) :: cbcD D c cs

/-- `CryptBlocks` of an encrypter; `none` = panic: input not full blocks. -/
def cbcEnc (E : Str → Str) (n : Nat) (iv s : Str) : Option Str :=
  if s.length % n = 0 then some (cbcE E iv (chunk n (s.length / n) s)).flatten else none

def cbcDec (D : Str → Str) (n : Nat) (iv s : Str) : Option Str :=
  if s.length % n = 0 then some (cbcD D iv (chunk n (s.length / n) s)).flatten else none

/-! ## The cascade -/

/-- `makeCiphers` (crypto.go:290-303) together with the pieces of the iv each cipher gets (crypto_v1.go:83-89,
259-267); `none` = panic: the key or the iv is too short. In the decryption loops the iv pieces are taken from the
end; the iv always has exactly the summed block size there, so they are the same pieces. -/
def layers : List Alg → Str → Str → Option (List (Alg × Str × Str))
  | [], _, _ => some []
  | a :: as, key, iv =>
    if key.length < a.keySize ∨ iv.length < a.blockSize then none
    else
      match layers as (key.drop a.keySize) (iv.drop a.blockSize) with
      | none => none
      | some ls => some ((a, key.take a.keySize, iv.take a.blockSize) :: ls)

/-- pad & encrypt (crypto_v1.go:84-94 and 152-162) -/
def encPad (P : Prims) : List (Alg × Str × Str) → Str → Option Str
  | [], work => some work
  | (a, k, iv) :: ls, work =>
    match Pkcs7.pad work a.blockSize with
    | none => none
    | some padded =>
      match cbcEnc (P.enc a k) a.blockSize iv padded with
      | none => none
      | some w => encPad P ls w

/-- decrypt & discard padding, last cipher first (crypto_v1.go:261-277 and 413-429) -/
def decUnpad (P : Prims) : List (Alg × Str × Str) → Str → Res CErr Str
  | [], work => .ok work
  | (a, k, iv) :: ls, work =>
    match decUnpad P ls work with
    | .err e => .err e
    | .panic => .panic
    | .ok w =>
      match cbcDec (P.dec a k) a.blockSize iv w with
      | none => .panic
      | some w =>
        match Pkcs7.unpad w with
        | .ok w => .ok w
        | _ => .err .wrongPassphrase

/-- without padding (crypto_v1.go:194-203) -/
def encRaw (P : Prims) : List (Alg × Str × Str) → Str → Option Str
  | [], work => some work
  | (a, k, iv) :: ls, work =>
    match cbcEnc (P.enc a k) a.blockSize iv work with
    | none => none
    | some w => encRaw P ls w

/-- crypto_v1.go:390-398 -/
def decRaw (P : Prims) : List (Alg × Str × Str) → Str → Option Str
  | [], work => some work
  | (a, k, iv) :: ls, work =>
    match decRaw P ls work with
    | none => none
    | some w => cbcDec (P.dec a k) a.blockSize iv w

/-! ## Parameters (params.go) -/

/-- `Params` (params.go:15-51). An absent key is the empty string. -/
structure Params where
  version : Int := 0
  nUsers : Int := 0
  user : Int := 0
  keys : List Str := []
  salts : List Str := []
  users : List Str := []
  ivs : List Str := []
  mkeys : List Str := []
  ivm : Option Str := none
  master : Option Str := none
  deriving Repr, DecidableEq

/-- `validate` (params.go:54-120). -/
def Params.validate (p : Params) : Bool :=
  if p.keys.length = 0 then false
  else if p.salts.length = 0 then false
  else if p.keys.any (fun k => k.length != 0 && k.length != keySize) then false
  else if p.salts.any (fun s => s.length != saltSize) then false
  else if p.nUsers = 0 then true
  else if (p.keys.length : Int) ≠ p.nUsers then false
  else if (p.salts.length : Int) ≠ p.nUsers then false
  else if p.user < 0 ∨ p.user ≥ p.nUsers then false
  else if (p.users.length : Int) ≠ p.nUsers then false
  else if p.users.any (fun u => u.length != sha256Size) then false
  else if (p.ivs.length : Int) ≠ p.nUsers then false
  else if p.ivs.any (fun iv => iv.length != blockSize) then false
  else if (p.mkeys.length : Int) ≠ p.nUsers then false
  else if p.mkeys.any (fun k => k.length != keySize) then false
  else if p.ivm.any (fun iv => iv.length != blockSize) then false
  else if p.master.any (fun k => k.length != keySize) then false
  else true

/-! ## Encryption -/

/-- `%04d` of a non-negative number -/
def fmt4 (n : Nat) : Str := List.replicate (4 - (fmtNat n).length) 48 ++ fmtNat n

/-- `fmt.Sprintf("%s%04d%04d", magicStr, c.version, nUsers)` (crypto_v1.go:70, 109) -/
def magic (nUsers : Nat) : Str := magicStr ++ fmt4 1 ++ fmt4 nUsers

/-- header and payload of a single-user file (crypto_v1.go:44-97); `iv` is random -/
def encryptSingle (P : Prims) (p : Params) (iv pt : Str) : Res CErr Str :=
  match p.keys, p.salts with
  | key :: _, salt :: _ =>
    if key.length ≠ keySize then .err .invalidKey
    else if salt.length ≠ saltSize then .err .invalidSalt
    else
      match layers suite key iv with
      | none => .panic
      | some ls =>
        let header := magic 0 ++ salt ++ iv
        match encPad P ls (P.sha512 (header ++ pt) ++ pt) with
        | none => .panic
        | some ct => .ok (header ++ ct)
  | _, _ => .panic

/-- the user records of the header (crypto_v1.go:113-131). `validate` has checked the lengths of all pieces, so each
`copy` fills its field exactly. -/
def records : List Str → List Str → List Str → List Str → Str
  | u :: us, s :: ss, iv :: ivs, k :: ks => u ++ s ++ iv ++ k ++ records us ss ivs ks
  | _, _, _, _ => []

/-- `encryptV1Multi` (crypto_v1.go:99-165). A number of users with more than four digits overflows into the first user
record and is overwritten by it (109, 123). The checks of lines 115-120 repeat those of `validate`. -/
def encryptMulti (P : Prims) (p : Params) (pt : Str) : Res CErr Str :=
  let header := (magic p.nUsers.toNat).take magicLen ++ records p.users p.salts p.ivs p.mkeys ++
    p.ivm.getD (List.replicate blockSize 0)
  match layers suite (p.master.getD []) (p.ivm.getD []) with
  | none => .panic
  | some ls =>
    match encPad P ls (P.sha512 (header ++ pt) ++ pt) with
    | none => .panic
    | some ct => .ok (header ++ ct)

/-- `Encrypt` (crypto.go:138-149); `iv` is the random iv of a single-user file. -/
def encrypt (P : Prims) (version : Int) (p : Params) (iv pt : Str) : Res CErr Str :=
  if version ≠ 1 then .err .unknownVersion
  else if ¬ p.validate then .err .badParams
  else if p.nUsers = 0 then encryptSingle P p iv pt
  else encryptMulti P p pt

/-- `EncryptMasterKey` (crypto.go:154-161, crypto_v1.go:167-206): wrapped key and the random iv. -/
def encryptMasterKey (P : Prims) (version : Int) (userKey master iv : Str) : Res CErr (Str × Str) :=
  if version ≠ 1 then .err .unknownVersion
  else if master.length ≠ keySize then .err .masterSize
  else if userKey.length ≠ keySize then .err .userKeySize
  else
    match layers suite userKey iv with
    | none => .panic
    | some ls =>
      match encRaw P ls master with
      | none => .panic
      | some c => .ok (c, iv)

/-- `DeriveKey` (crypto.go:242-260) with the random salt. -/
def deriveKey (P : Prims) (version : Int) (pass salt : Str) : Res CErr (Str × Str) :=
  if version ≠ 1 then .err .unknownVersion else .ok (P.kdf pass salt, salt)

/-! ## Decryption -/

/-- `verifyMagic` (crypto.go:272-288) -/
def verifyMagic (f : Str) : Res CErr Int :=
  if f.length < 12 then .panic
  else if f.take 8 ≠ magicStr then .err .invalidFormat
  else
    match parseSigned ((f.drop 8).take 4) with
    | none => .err .invalidFormat
    | some v => .ok v

/-- `IsMultiUser` (crypto.go:221-233) -/
def isMultiUser (f : Str) : Res CErr Bool :=
  match verifyMagic f with
  | .panic => .panic
  | .err e => .err e
  | .ok _ =>
    if f.length < magicLen then .panic
    else
      match parseSigned ((f.drop 12).take 4) with
      | none => .err .invalidFormat
      | some i => .ok (i != 0)

/-- the end of both decryption functions: cut off the stored hash and compare (crypto_v1.go:279-292, 432-442) -/
def checkHash (P : Prims) (header work : Str) : Res CErr Str :=
  if work.length < sha512Size then .panic
  else if P.sha512 (header ++ work.drop sha512Size) = work.take sha512Size then .ok (work.drop sha512Size)
  else .err .wrongPassphrase

/-- `decryptV1Single` (crypto_v1.go:228-307); `key = none` is nil. -/
def decryptSingle (P : Prims) (pass : Str) (key : Option Str) (salt f : Str) : Res CErr (Params × Str) :=
  if f.length < magicLen + saltSize then .panic
  else
    let newSalt := (f.drop magicLen).take saltSize
    let derive : Bool := key.isNone || salt != newSalt
    if derive && pass.length == 0 then .err .wrongPassphrase
    else
      let key := if derive then P.kdf pass newSalt else key.getD []
      let salt := if derive then newSalt else salt
      if f.length < magicLen + saltSize + blockSize then .panic
      else
        let iv := (f.drop (magicLen + saltSize)).take blockSize
        match layers suite key iv with
        | none => .panic
        | some ls =>
          match decUnpad P ls (f.drop (magicLen + saltSize + blockSize)) with
          | .panic => .panic
          | .err e => .err e
          | .ok work =>
            match checkHash P (f.take magicLen ++ salt ++ iv) work with
            | .panic => .panic
            | .err e => .err e
            | .ok pt => .ok ({ keys := [key], salts := [salt], ivs := [iv] }, pt)

/-- one user record of the header -/
structure UserRec where
  hash : Str
  salt : Str
  iv : Str
  mkey : Str
  deriving Repr, DecidableEq

/-- the loop of crypto_v1.go:318-338: the records and the rest of the file; `none` = panic, file too short -/
def parseUsers : Nat → Str → Option (List UserRec × Str)
  | 0, f => some ([], f)
  | n + 1, f =>
    if f.length < userSize then none
    else
      let r : UserRec := {
        hash := f.take sha256Size
        salt := (f.drop sha256Size).take saltSize
        iv := (f.drop (sha256Size + saltSize)).take blockSize
        mkey := (f.drop (sha256Size + saltSize + blockSize)).take keySize }
      match parseUsers n (f.drop userSize) with
      | none => none
      | some (rs, rest) => some (r :: rs, rest)

/-- first record whose hash is `h` (crypto_v1.go:323-325) -/
def findUserRec (h : Str) : List UserRec → Option Nat
  | [] => none
  | r :: rs => if r.hash = h then some 0 else (findUserRec h rs).map (· + 1)

/-- `decryptV1Multi` (crypto_v1.go:309-445). For an unknown user lines 344-349 append zeros to all lists but then set
`p.User` to 0, because `p.Keys` was empty: the first user's salt, iv and wrapped key are used, and the number of users
is one too large from then on. -/
def decryptMulti (P : Prims) (nUsers : Int) (user pass : Str) (key : Option Str) (salt f : Str) :
    Res CErr (Params × Str) :=
  match parseUsers nUsers.toNat (f.drop magicLen) with
  | none => .panic
  | some (rs, rest) =>
    let found := findUserRec (P.sha256 user) rs
    let zero : UserRec := ⟨[], List.replicate saltSize 0, List.replicate blockSize 0, List.replicate keySize 0⟩
    let rs' := if found.isSome then rs else rs ++ [zero]
    let n : Int := if found.isSome then nUsers else nUsers + 1
    let i : Nat := found.getD 0
    if rest.length < blockSize then .panic
    else
      let ivm := rest.take blockSize
      match rs'[i]? with
      | none => .panic
      | some me =>
        let derive : Bool := (key.getD []).length == 0 || salt != me.salt
        if derive && pass.length == 0 then .err .wrongPassphrase
        else
          let key := if derive then P.kdf pass me.salt else key.getD []
          if n ≤ i then .panic  -- `make([][]byte, p.NUsers)` or the index expression after it (372-373)
          else
            match layers suite key me.iv with
            | none => .panic
            | some ls =>
              match decRaw P ls me.mkey with
              | none => .panic
              | some master =>
                match layers suite master ivm with
                | none => .panic
                | some ls =>
                  match decUnpad P ls (rest.drop blockSize) with
                  | .panic => .panic
                  | .err e => .err e
                  | .ok work =>
                    let headerLen := magicLen + userSize * n.toNat + blockSize
                    if work.length < sha512Size ∨ f.length < headerLen then .panic
                    else
                      match checkHash P (f.take headerLen) work with
                      | .panic => .panic
                      | .err e => .err e
                      | .ok pt =>
                        .ok ({ nUsers := n, user := i
                               keys := (List.replicate n.toNat []).set i key
                               salts := rs'.map UserRec.salt
                               users := rs.map UserRec.hash
                               ivs := rs'.map UserRec.iv
                               mkeys := rs'.map UserRec.mkey
                               ivm := some ivm, master := some master }, pt)

/-- `Decrypt` (crypto.go:185-213) and `decryptV1` (crypto_v1.go:208-226). The parameters returned together with an
error are not modelled: no caller looks at them. -/
def decrypt (P : Prims) (user pass : Str) (key : Option Str) (salt f : Str) :
    Res CErr (Int × Params × Str) :=
  if f.length < magicLen then .panic
  else if f.take magicLen = v0Header then .err .notImplemented
  else
    match verifyMagic f with
    | .panic => .panic
    | .err e => .err e
    | .ok v =>
      if v ≠ 1 then .err .unknownVersion
      else
        match parseSigned ((f.drop 12).take 4) with
        | none => .err .invalidFormat
        | some n =>
          if n ≠ 0 ∧ user.length = 0 then .err .needUser
          else
            let r := if n = 0 then decryptSingle P pass key salt f
              else decryptMulti P n user pass key salt f
            match r with
            | .panic => .panic
            | .err e => .err e
            | .ok (p, pt) => .ok (1, { p with version := 1 }, pt)

end Verif.Crypt
