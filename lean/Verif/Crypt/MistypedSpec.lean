import Verif.Crypt.Spec
/-!
# What a passphrase makes of the end of a file
-/
namespace Verif.Crypt
open Verif

namespace Spec

/-- What `key` makes of the last block of a file: the outermost cipher (CAST5, which has the last 16 bytes of the key), in
CBC mode. -/
def lastBlock (P : Prims) (key f : Str) : Str :=
  xor ((f.drop (f.length - 16)).take 8) (P.dec .cast5 ((key.drop 64).take 16) (f.drop (f.length - 8)))

/-- What `pass` makes of the wrapped master key of a record, whether it is the right one or not. -/
def masterWith (P : Prims) (pass salt iv mkey : Str) : Str :=
  match layers suite (P.kdf pass salt) iv with
  | none => []
  | some ls => (decRaw P ls mkey).getD []

end Spec

end Verif.Crypt
