import Verif.App.EditProps
import Verif.Otp.UriLemmas
/-!
# Two factor codes: C95
-/
set_option linter.unusedSimpArgs false
namespace Verif.Otp.Spec
open Verif

/-- what is asked of the parts that are not modelled -/
structure Lawful (v : Env) : Prop where
  upper : Upper v
  mac : ∀ k m, (v.hmac k m).length = 20

end Verif.Otp.Spec

namespace Verif.App
open Verif Verif.Txlogs Verif.Blob Verif.Crypt Verif.App.Spec
open Verif.Otp.Spec (Spells Upper Lawful totp)

theorem truncate_eq (mac : Str) (h : mac.length = 20) :
    Otp.truncate mac % 1000000 = (((mac.drop ((mac.getLast?.getD 0).toNat % 16)).take 4).foldl (fun n b => n * 256 + b.toNat) 0) %
      2147483648 % 1000000 := by
  unfold Otp.truncate
  simp only
  have ho : (mac.getLast?.getD 0).toNat % 16 < 16 := Nat.mod_lt _ (by decide)
  generalize (mac.getLast?.getD 0).toNat % 16 = o at ho
  have hd : mac.drop o = mac.getD o 0 :: mac.getD (o + 1) 0 :: mac.getD (o + 2) 0 :: mac.getD (o + 3) 0 :: mac.drop (o + 4) := by
    have e : ∀ i, i < 20 → mac.drop i = mac.getD i 0 :: mac.drop (i + 1) := by
      intro i hi
      rw [List.drop_eq_getElem_cons (by omega)]
      simp only [List.getD_eq_getElem?_getD, List.getElem?_eq_getElem (show i < mac.length by omega), Option.getD_some]
    rw [e o (by omega), e (o + 1) (by omega), e (o + 2) (by omega), e (o + 3) (by omega)]
  rw [hd]
  simp only [List.take_succ_cons, List.take_zero, List.foldl_cons, List.foldl_nil, Nat.add_zero]
  have h0 := (mac.getD o 0).toNat_lt
  have h1 := (mac.getD (o + 1) 0).toNat_lt
  have h2 := (mac.getD (o + 2) 0).toNat_lt
  have h3 := (mac.getD (o + 3) 0).toNat_lt
  congr 1
  omega

theorem sixDigits_eq (n : Nat) : Otp.sixDigits n = (List.range 6).map fun i => UInt8.ofNat (48 + n / 10 ^ (5 - i) % 10) := by
  rw [show List.range 6 = [0, 1, 2, 3, 4, 5] from rfl]
  unfold Otp.sixDigits
  simp only [List.map_cons, List.map_nil, Nat.sub_zero, Nat.reduceSub, Nat.reducePow, Nat.div_one]

theorem generate_spells {w : Otp.Env} (hw : Lawful w) {s key : Str} (h : Spells s key) (unix : Nat) :
    Otp.generate w s unix = some (totp w.hmac key unix) := by
  have ht : trimSpace s = s := by
    refine Otp.trimSpace_noSpace (noSpace_ascii _ fun c hc => ?_)
    obtain ⟨x, j, rfl, hx, -⟩ := h
    rcases List.mem_append.1 hc with hc | hc
    · have := Otp.upper_letters hx c hc; exact ⟨this.1, this.2.2.2⟩
    · rw [List.eq_of_mem_replicate hc]; decide
  unfold Otp.generate
  rw [ht, Otp.decode_spells hw.upper h, Option.map_some, truncate_eq _ (hw.mac _ _), sixDigits_eq]
  rfl

/-- A key that is typed in base32, in letters of either case, with or without padding, gives at every time the code of RFC 6238 for
that key. -/
theorem C95_typed_partial (w : Otp.Env) (hw : Lawful w) (uuid s key : Str) (h : Spells s key) :
    Otp.uriOk (Otp.makeUri uuid s) = true ∧ ∀ unix, Otp.code w unix (Otp.makeUri uuid s) = some (totp w.hmac key unix) := by
  refine ⟨(Otp.code_made w 0 uuid s).1, fun unix => ?_⟩
  rw [(Otp.code_made w unix uuid s).2, generate_spells hw h]

/-- The same for an address, such as in a QR code, with any label and any other parameters beside the secret. -/
theorem C95_url_partial (w : Otp.Env) (hw : Lawful w) (label q key : Str) (hl : ∀ x ∈ label, Otp.tame x = true)
    (hl' : (Url.unescape .path label).isSome = true) (hq : ∀ x ∈ q, x ≠ 35 ∧ 33 ≤ x.toNat ∧ x.toNat < 127)
    (h : Spells (Url.queryGet (Url.parseQuery q) (b! "secret")) key) :
    Otp.uriOk (b! "otpauth://totp/" ++ label ++ 63 :: q) = true ∧
      ∀ unix, Otp.code w unix (b! "otpauth://totp/" ++ label ++ 63 :: q) = some (totp w.hmac key unix) := by
  refine ⟨(Otp.code_uri w 0 label q hl hl' hq).1, fun unix => ?_⟩
  rw [(Otp.code_uri w unix label q hl hl' hq).2, generate_spells hw h]

/-- Codes have six digits. -/
theorem C95_digits (hmac : Str → Str → Str) (key : Str) (unix : Nat) :
    (totp hmac key unix).length = 6 ∧ ∀ c ∈ totp hmac key unix, isDigit c = true := by
  unfold totp
  simp only
  generalize (((List.take 4 _).foldl _ 0 % 2147483648 % 1000000 : Nat)) = n
  refine ⟨by simp, fun c hc => ?_⟩
  obtain ⟨i, -, rfl⟩ := List.mem_map.1 hc
  have : n / 10 ^ (5 - i) % 10 < 10 := Nat.mod_lt _ (by decide)
  generalize n / 10 ^ (5 - i) % 10 = d at this
  exact (show ∀ d < 10, isDigit (UInt8.ofNat (48 + d)) = true from by decide) d this

/-- the environment of a session whose two factor codes are computed as modelled -/
structure OtpEnv (w : Otp.Env) (unix : Nat) (v : Env) : Prop where
  uri : v.otpUri = Otp.makeUri
  ok : v.otpOk = Otp.uriOk
  code : v.totp = Otp.code w unix

/-- `set q totp s` stores, in the entry selected, what was typed if it is an address, otherwise an address with what was typed as
secret, and nothing if that is not an address. -/
theorem C95_set (v : Env) (u : Session) (q s uuid : Str) (e : Str → Option Str) (hv : EnvOk v u.store)
    (h : WellFormed u.store) (hp : Picks v u.store q uuid) (he : Blob.Spec.Visible u.store uuid e) :
    let uri := if hasPrefix s (b! "otpauth://") then s else v.otpUri uuid s
    (setCmd v u q keyTwoFactor s).2 = .ok () ∧
      (v.otpOk uri = true → KeyNow uuid keyTwoFactor (some uri) (v.d.now 0) e u (setCmd v u q keyTwoFactor s).1) ∧
      (v.otpOk uri = false → Same u (setCmd v u q keyTwoFactor s).1) := by
  intro uri
  unfold setCmd
  rw [one_picks hv h hp]
  dsimp only
  rw [if_neg (by decide), if_pos rfl]
  have hs : setTwofactor v.otpUri v.otpOk v.d.now u.store.updateSnapshot.1 uuid s =
      if v.otpOk uri then ((touchUpdated u.store.updateSnapshot.1 v.d.now uuid).setKey (v.d.now 2) uuid keyTwoFactor uri, .ok ())
      else (u.store.updateSnapshot.1, .err .badTotp) := rfl
  rw [hs]
  have hl := updateSnapshot_log u.store
  cases hok : v.otpOk uri with
  | false => exact ⟨rfl, by simp, fun _ => same_update u⟩
  | true =>
    refine ⟨rfl, fun _ => ?_, by simp⟩
    obtain ⟨h1, h2⟩ := visible_setKey (v.d.now 1) uuid keyUpdated (fmtInt (v.d.now 0)) e ((visible_log hl _ _).2 he)
    obtain ⟨h3, h4⟩ := visible_setKey (s := touchUpdated u.store.updateSnapshot.1 v.d.now uuid) (v.d.now 2) uuid keyTwoFactor uri _ h1
    exact ⟨h3, fun w f hw => ((h4 w f hw).trans (h2 w f hw)).trans (visible_log hl w f), rfl⟩

/-- A secret that is refused is reported, and nothing is stored. -/
theorem C95_refused (uri : Str → Str → Str) (ok : Str → Bool) (now : Nat → Int) (s : DB) (uuid x : Str)
    (h : ok (if hasPrefix x (b! "otpauth://") then x else uri uuid x) = false) :
    setTwofactor uri ok now s uuid x = (s, .err .badTotp) := by
  simp only [setTwofactor, h, Bool.false_eq_true, if_false]

/-- `get q totp` prints the code of the address that is stored. -/
theorem C95_get (v : Env) (u : Session) (q uuid x : Str) (e : Str → Option Str) (hv : EnvOk v u.store) (h : WellFormed u.store)
    (hp : Picks v u.store q uuid) (he : Blob.Spec.Visible u.store uuid e) (hx : e keyTwoFactor = some x) (hne : x ≠ [])
    (hc : v.totp x ≠ some []) :
    (getCmd v u q keyTwoFactor).2 = .ok (v.totp x) ∧ Same u (getCmd v u q keyTwoFactor).1 := by
  obtain ⟨hid, s', hf⟩ := hp
  obtain ⟨id, h1, -⟩ := wf_findOne v.lower hv.ord hv.ord' h q
  rw [h1] at hf
  obtain ⟨rfl, hf⟩ := Prod.mk.inj hf
  cases hf
  obtain ⟨-, hfr, hg, hlog⟩ := good_withSnapshot h.good (fun s => ((s, .panic) : Out Str))
  have hw := wf_update h
  have he' := (visible_log hlog _ _).2 he
  obtain ⟨en, h3, rfl, -, -⟩ := mustFind_visible hw.good.ok uuid e he'
  have hval : val en keyTwoFactor = x := by
    unfold val
    rw [show en.get? keyTwoFactor = some x from hx]
    rfl
  have hs : Same u { u with store := u.store.updateSnapshot.1 } := ⟨hlog, upd_tx _, rfl, rfl, rfl⟩
  unfold getCmd oneEntry one
  rw [h1]
  simp only [lift, hid, if_false, h3, update_fresh hfr, if_true, hval, hne]
  cases ht : v.totp x with
  | none => exact ⟨rfl, hs⟩
  | some c =>
    have : c ≠ [] := fun h => hc (by rw [ht, h])
    simp only [if_neg this]
    exact ⟨by simp, hs⟩

/-- A key that was typed with `set q totp` is stored so that `get totp` of that entry, now or later and on whatever machine, prints
the code of RFC 6238 for that key and the time. -/
theorem C95_partial (w : Otp.Env) (hw : Lawful w) (v : Env) (u : Session) (q s key uuid : Str) (e : Str → Option Str) (t : Nat)
    (hv : EnvOk v u.store) (ho : OtpEnv w t v) (h : WellFormed u.store) (hp : Picks v u.store q uuid)
    (he : Blob.Spec.Visible u.store uuid e) (hs : Spells s key) :
    ∃ x, KeyNow uuid keyTwoFactor (some x) (v.d.now 0) e u (setCmd v u q keyTwoFactor s).1 ∧
      ∀ (v' : Env) (u' : Session) (q' : Str) (e' : Str → Option Str) (unix : Nat), EnvOk v' u'.store → OtpEnv w unix v' →
        WellFormed u'.store → Picks v' u'.store q' uuid → Blob.Spec.Visible u'.store uuid e' → e' keyTwoFactor = some x →
        (getCmd v' u' q' keyTwoFactor).2 = .ok (some (totp w.hmac key unix)) := by
  have hpre : hasPrefix s (b! "otpauth://") = false := by
    cases hpre : hasPrefix s (b! "otpauth://") with
    | false => rfl
    | true =>
      exfalso
      have h58 : (58 : UInt8) ∈ s := by
        have : b! "otpauth://" <+: s := List.isPrefixOf_iff_prefix.1 hpre
        exact this.subset (by decide)
      obtain ⟨x, j, rfl, hx, -⟩ := hs
      rcases List.mem_append.1 h58 with h | h
      · have hm : Otp.Spec.upper 58 ∈ (Otp.Spec.digits key).map Otp.Spec.letter := hx ▸ List.mem_map_of_mem h
        obtain ⟨n, hn, hl⟩ := List.mem_map.1 hm
        have := (Otp.digit_letter (Otp.digits_lt key n hn)).1
        rw [hl] at this
        cases this
      · exact absurd (List.eq_of_mem_replicate h) (by decide)
  have h1 := C95_set v u q s uuid e hv h hp he
  simp only [hpre, Bool.false_eq_true, if_false, ho.uri, ho.ok] at h1
  obtain ⟨c1, c2⟩ := C95_typed_partial w hw uuid s key hs
  refine ⟨Otp.makeUri uuid s, h1.2.1 c1, ?_⟩
  intro v' u' q' e' unix hv' ho' h' hp' he' hx
  have hc : v'.totp (Otp.makeUri uuid s) = some (totp w.hmac key unix) := by rw [ho'.code, c2]
  have := (C95_get v' u' q' uuid _ e' hv' h' hp' he' hx (by simp [Otp.makeUri]) (by
    rw [hc]
    intro k
    have := (C95_digits w.hmac key unix).1
    rw [Option.some.inj k] at this
    cases this)).1
  rw [this, hc]

/-! ## What is taken though it gives no codes, or the wrong ones -/

/-- A key in groups of four, as it is usually shown, is taken, but there will never be a code. -/
theorem C95_spaces_false (w : Otp.Env) (hw : Upper w) (uuid : Str) :
    Otp.uriOk (Otp.makeUri uuid (b! "jbsw y3dp ehpk 3pxp")) = true ∧
      ∀ unix, Otp.code w unix (Otp.makeUri uuid (b! "jbsw y3dp ehpk 3pxp")) = none := by
  refine ⟨(Otp.code_made w 0 uuid _).1, fun unix => ?_⟩
  rw [(Otp.code_made w unix uuid _).2]
  unfold Otp.generate
  rw [show trimSpace (b! "jbsw y3dp ehpk 3pxp") = b! "jbsw y3dp ehpk 3pxp" by decide +kernel, hw _ (by decide +kernel)]
  rw [show Otp.decode32 ((Otp.padded (b! "jbsw y3dp ehpk 3pxp")).map Otp.Spec.upper) = none by decide +kernel]
  rfl

/-- Every text whatsoever is taken as a secret. -/
theorem C95_any_false (uuid s : Str) : Otp.uriOk (Otp.makeUri uuid s) = true := (Otp.code_made ⟨fun _ _ => [], id⟩ 0 uuid s).1

/-- An address of a key that counts logins is taken, but there will never be a code. -/
theorem C95_hotp_false (w : Otp.Env) :
    Otp.uriOk (b! "otpauth://hotp/x?secret=JBSWY3DPEHPK3PXP&counter=0") = true ∧
      ∀ unix, Otp.code w unix (b! "otpauth://hotp/x?secret=JBSWY3DPEHPK3PXP&counter=0") = none := by
  have hp : Url.parse (trimSpace (b! "otpauth://hotp/x?secret=JBSWY3DPEHPK3PXP&counter=0")) =
      some { scheme := b! "otpauth", host := b! "hotp", path := b! "/x" } := by decide +kernel
  unfold Otp.uriOk Otp.code
  rw [hp]
  refine ⟨rfl, fun unix => ?_⟩
  simp only
  rw [if_pos (by decide)]

/-- The number of digits, the period and the hash that an address asks for are ignored: the codes shown are those for six digits,
30 seconds and SHA1, which the other side will not take. -/
theorem C95_params_false (w : Otp.Env) (hw : Lawful w) (unix : Nat) :
    Otp.code w unix (b! "otpauth://totp/x?secret=JBSWY3DPEHPK3PXP&digits=8&period=60&algorithm=SHA256") =
      some (totp w.hmac [0x48, 0x65, 0x6c, 0x6c, 0x6f, 0x21, 0xde, 0xad, 0xbe, 0xef] unix) := by
  have e : b! "otpauth://totp/x?secret=JBSWY3DPEHPK3PXP&digits=8&period=60&algorithm=SHA256" =
      b! "otpauth://totp/" ++ b! "x" ++ 63 :: b! "secret=JBSWY3DPEHPK3PXP&digits=8&period=60&algorithm=SHA256" := rfl
  rw [e]
  refine (C95_url_partial w hw _ _ _ (by decide) (by decide) (by decide) ?_).2 unix
  exact ⟨b! "JBSWY3DPEHPK3PXP", 0, by decide +kernel, by decide +kernel, by decide⟩

/-! ## Not vacuous -/

namespace OtpDemo

def w : Otp.Env := ⟨fun _ _ => List.replicate 20 7, fun s => s.map Otp.Spec.upper⟩
theorem lawful : Lawful w := ⟨fun _ _ => rfl, fun _ _ => rfl⟩

-- "Hello!" followed by 0xdeadbeef
def key : Str := [0x48, 0x65, 0x6c, 0x6c, 0x6f, 0x21, 0xde, 0xad, 0xbe, 0xef]
theorem spelt : Spells (b! "jbswy3dpehpk3pxp") key := ⟨b! "jbswy3dpehpk3pxp", 0, by decide +kernel, by decide +kernel, by decide⟩
-- a key of one byte, with three of the six characters of the padding
example : Spells (b! "Ae===") [1] := ⟨b! "Ae", 3, by decide, by decide, by decide⟩
example : Otp.code w 59 (Otp.makeUri [7] (b! "jbswy3dpehpk3pxp")) = some (b! "901063") :=
  ((C95_typed_partial w lawful [7] _ key spelt).2 59).trans (by decide +kernel)
example := C95_typed_partial w lawful [7] _ key spelt
-- RFC 4226, section 5.4
example : Otp.truncate [0x1f, 0x86, 0x98, 0x69, 0x0e, 0x02, 0xca, 0x16, 0x61, 0x85, 0x50, 0xef, 0x7f, 0x19, 0xda, 0x8e, 0x94, 0x5b, 0x55, 0x5a] % 1000000 =
  872921 := by decide

end OtpDemo

end Verif.App
