import Verif.App.AccessSpec
import Verif.App.Net
/-!
# Remotes that answer with text
-/
namespace Verif.App.Spec
open Verif Verif.Txlogs Verif.Blob Verif.Crypt Verif.App

/-- The values of an entry are well-formed text. -/
def TextEntry (e : Entry) : Prop := ∀ k x, e.get? k = some x → ValidUtf8 x

/-- New known-hosts lines are well-formed text for entries that are. Nothing is supposed of the files that remotes hold. -/
structure TextWorld (w : World) : Prop where
  pull : ∀ x e inp p h rest, TextEntry e → w.sshPull x e inp = (some (p, h), rest) → ValidUtf8 h
  push : ∀ x e ct inp b h rest, TextEntry e → w.sshPush x e ct inp = (some (b, h), rest) → ValidUtf8 h

/-- Those who answer on the network have addresses made of text. -/
def TextOutside (o : Outside) : Prop := ∀ a s, o.net a = some s → ValidUtf8 a ∧ ValidUtf8 s.addr

/-- the orders in which `sync` visits things are orders, and its clock readings satisfy `T` -/
structure SyncChoices (T : Int → Prop) (v : SyncEnv) : Prop where
  ord : ∀ m, (v.ord m).Perm m
  ordH : ∀ m, (v.ordH m).Perm m
  now : ∀ i, T (v.now i)
  now' : ∀ i, T (v.now' i)

/-- A turn of well-formed text, `sync` included. -/
def TextWholeTurn (v : Env) (line : Str) (r : Repl) : Prop :=
  TextTurn v line r ∨ ∃ args, parseLine line = some (b! "sync", args) ∧ TextWorld v.w ∧ SyncChoices (fun _ => True) v.v

end Verif.App.Spec
