import Verif.App.NetSpec
import Verif.App.HostsProps
import Verif.App.AddSyncProps
import Verif.App.AccessSpec
import Verif.Scp.Props
/-!
# Properties of the network side of `sync`
-/
set_option linter.unusedSimpArgs false
namespace Verif.App
open Verif Verif.Txlogs Verif.Blob Verif.Crypt Verif.App.Spec

/-! ## C90 The remote that was typed is the one that is used -/

theorem scp_parse {user host port file : Str} {pass : Option Str} (hh : Url.HostOk host) (hp : port.all isDigit = true)
    (hf : file ≠ []) : Url.parse (scpUrl user host port file pass) =
      some { scheme := syncSCP, user := some (user, pass), host := Url.joinHostPort host port, path := 47 :: relative file } := by
  rw [scpUrl, Url.parse_toString (by decide) (by decide) (Url.host_roundtrip hh hp).1 (Url.joinHostPort_ne _ _)]
  congr 2
  cases file with
  | nil => exact absurd rfl hf
  | cons c s => by_cases h : c = 47 <;> simp [relative, h]

/-- What `addsync scp` was told is what `sync` connects to: the host and port, the user, the password and key, and the file, without
its first slash. -/
theorem C90_scp_partial (parseKey : Str → Option Str) (e : Entry) (user host port file : Str) (pass : Option Str)
    (he : val e keyURL = scpUrl user host port file pass) (hu : user ≠ []) (hh : Url.HostOk host) (hp : port.all isDigit = true)
    (hf : file ≠ []) (hf' : file ≠ b! "/") (hk : val e keyPriv = [] ∨ (parseKey (val e keyPriv)).isSome = true) :
    sshConfig parseKey e = .ok
      { address := Url.joinHostPort host port
        path := relative file
        user := user
        auth := loginWith parseKey (pass.getD []) (val e keyPriv) } := by
  have hr : relative file ≠ [] := by
    cases file with
    | nil => exact absurd rfl hf
    | cons c s =>
      by_cases h : c = 47
      · subst h
        simp only [relative, List.head?_cons, if_true, List.drop_succ_cons, List.drop_zero]
        rintro rfl
        exact hf' rfl
      · simp [relative, h]
  have hs := (Url.host_roundtrip hh hp).2
  unfold sshConfig
  rw [he, scp_parse hh hp hf]
  simp only [Option.map_some, Option.getD_some, Option.bind_some, Url.Url.hostname, Url.Url.port, hs]
  rw [if_neg hu, if_neg hh.1, if_neg hr]
  by_cases hpr : val e keyPriv = []
  · rw [if_pos hpr]
    simp only [loginWith, hpr, if_true, List.append_nil]
    by_cases hp0 : pass.getD [] = [] <;> simp [hp0]
  · rw [if_neg hpr]
    obtain ⟨k, hk⟩ := Option.isSome_iff_exists.1 (hk.resolve_left hpr)
    rw [hk]
    simp only [loginWith, hpr, if_false, hk, Option.map_some, Option.toList_some]
    by_cases hp0 : pass.getD [] = [] <;> simp [hp0]

/-- What `addsync file` was told is the file that `sync` reads and writes. -/
theorem C90_file (o : Outside) (e : Entry) (abs : Str) (he : val e keyURL = fileUrl abs) (ha : abs.head? = some 47) :
    (netWorld o).scheme (val e keyURL) = some syncFile ∧ filePath e = abs := by
  have : Url.parse (val e keyURL) = some { scheme := syncFile, path := abs } := by
    rw [he, fileUrl]
    exact Url.parse_toString_file (by decide) (by decide) ha
  simp [netWorld, filePath, this]

/-- Two different things typed give two different remotes: nothing that was typed is lost in the address. -/
theorem C90_apart (u u' h h' p p' f f' : Str) (w w' : Option Str) (hh : Url.HostOk h) (hp : p.all isDigit = true) (hf : f ≠ [])
    (hh' : Url.HostOk h') (hp' : p'.all isDigit = true) (hf' : f' ≠ []) (heq : scpUrl u h p f w = scpUrl u' h' p' f' w') :
    u = u' ∧ w = w' ∧ h = h' ∧ p = p' ∧ relative f = relative f' := by
  have h1 := scp_parse (user := u) (pass := w) hh hp hf
  have h2 := scp_parse (user := u') (pass := w') hh' hp' hf'
  rw [heq, h2] at h1
  simp only [Option.some.injEq, Url.Url.mk.injEq, Prod.mk.injEq, List.cons.injEq, true_and] at h1
  obtain ⟨⟨a, b⟩, c, d⟩ := h1
  have k1 := (Url.host_roundtrip hh hp).2
  have k2 := (Url.host_roundtrip hh' hp').2
  rw [c, k1] at k2
  simp only [Prod.mk.injEq] at k2
  exact ⟨a.symm, b.symm, k2.1, k2.2, d.symm⟩

/-- The file that is synced need not be the one that was typed: of an absolute path the slash is lost, so scp looks for it in the
home directory of the user. -/
theorem C90_false : ¬ ∀ (parseKey : Str → Option Str) (e : Entry) (user host port file : Str) (c : SshConfig),
    val e keyURL = scpUrl user host port file none → Url.HostOk host → port.all isDigit = true → file ≠ [] →
    sshConfig parseKey e = .ok c → c.path = file := by
  intro h
  have := h (fun _ => none) [(keyURL, scpUrl (b! "me") (b! "h") (b! "22") (b! "/srv/pw") none)] (b! "me") (b! "h") (b! "22") (b! "/srv/pw")
    { address := b! "h:22", path := b! "srv/pw", user := b! "me", auth := [] } rfl ⟨by decide, by decide⟩ (by decide) (by decide)
    (by decide +kernel)
  exact absurd this (by decide)

theorem port_lost {h p : Str} {c : UInt8} (hh : Url.HostOk h) (hc : c = 43 ∨ c = 45) (hp : p.all isDigit = true) :
    Url.parseHost (Url.escape .host (Url.joinHostPort h (c :: p))) = none := by
  obtain ⟨d1, d2, d3, d4, d5⟩ := Url.digit_facts hp
  have ec : Url.escapeByte .host c = [c] := by rcases hc with rfl | rfl <;> decide
  have e5 : Url.escape .host (c :: p) = c :: p := by rw [Url.escape, ec, d5]; rfl
  have hbad : Url.validOptionalPort (58 :: c :: p) = false := by
    rcases hc with rfl | rfl <;> simp only [Url.validOptionalPort, List.all_cons]
    · rw [show isDigit 43 = false from by decide]; rfl
    · rw [show isDigit 45 = false from by decide]; rfl
  have h58 : (58 : UInt8) ∉ c :: p := by
    simp only [List.mem_cons, not_or]
    exact ⟨by rcases hc with rfl | rfl <;> decide, d2⟩
  unfold Url.joinHostPort
  split
  · have e : Url.escape .host ([91] ++ h ++ [93, 58] ++ c :: p) = (91 :: Url.escape .host h) ++ 93 :: (58 :: c :: p) := by
      simp only [Url.escape_append, e5]
      have e1 : Url.escape .host [91] = [91] := by decide
      have e2 : Url.escape .host [93, 58] = [93, 58] := by decide
      rw [e1, e2]; simp
    have h93 : (93 : UInt8) ∉ 58 :: c :: p := by
      simp only [List.mem_cons, not_or]
      exact ⟨by decide, by rcases hc with rfl | rfl <;> decide, d3⟩
    unfold Url.parseHost
    rw [e, if_pos (by rfl), Url.lastCut_append _ h93]
    simp only [hbad]
    rfl
  · have e : Url.escape .host (h ++ [58] ++ c :: p) = Url.escape .host h ++ 58 :: c :: p := by
      simp only [Url.escape_append, e5]
      have e2 : Url.escape .host [58] = [58] := by decide
      rw [e2]; simp
    have hhead : (Url.escape .host h ++ 58 :: c :: p).head? ≠ some 91 := by
      cases h with
      | nil => exact absurd rfl hh.1
      | cons x s =>
        have hx := (hh.2 x (by simp)).2.1
        have := Url.byteInd (p := fun c => c ≠ 91 → Url.escapeByte .host c ≠ [] ∧ (Url.escapeByte .host c).head? ≠ some 91)
          (by decide +kernel) x hx
        cases he : Url.escapeByte .host x with
        | nil => exact absurd he this.1
        | cons a b =>
          rw [he] at this
          simpa [Url.escape, he] using this.2
    unfold Url.parseHost
    rw [e, if_neg hhead, Url.lastCut_append _ h58]
    simp only [hbad]
    rfl

/-- `addsync` takes a port with a sign, but the address it makes of it cannot be read, so that `sync` skips the remote. -/
theorem C90_port_false (o : Outside) (user host p file : Str) (pass : Option Str) (c : UInt8) (hh : Url.HostOk host)
    (hc : c = 43 ∨ c = 45) (hp : p.all isDigit = true) (e : Entry) (he : val e keyURL = scpUrl user host (c :: p) file pass) :
    isSync (netWorld o) e = false := by
  have hn : Url.parse (val e keyURL) = none := by
    rw [he, scpUrl]
    rw [Url.parse_toString_any (by decide) (by decide) (Url.joinHostPort_ne _ _), port_lost hh hc hp]
    rfl
  simp [isSync, netWorld, hn]

/-- A host with a character that hosts cannot have, such as a space or a slash, makes an address that cannot be read. -/
theorem C90_host_false (o : Outside) (user host port file : Str) (pass : Option Str) (c : UInt8) (hm : c ∈ host)
    (hc : Url.hostByte c = false) (h58 : (58 : UInt8) ∉ host) (h91 : host.head? ≠ some 91) (hp : port.all isDigit = true) (e : Entry)
    (he : val e keyURL = scpUrl user host port file pass) : isSync (netWorld o) e = false := by
  have hn : Url.parse (val e keyURL) = none := by
    rw [he, scpUrl, Url.parse_toString_any (by decide) (by decide) (Url.joinHostPort_ne _ _),
      Url.parseHost_bad hm hc h58 h91 hp]
    rfl
  simp [isSync, netWorld, hn]

/-- `set` takes an address without a path, but a pull from it crashes. -/
theorem C90_crash_false : ¬ ∀ (o : Outside) (value : Str) (e : Entry) (inp : Input), urlOk value = true → val e keyURL = value →
    isSync (netWorld o) e = true → (pullBlob (netWorld o) [] e inp).1 ≠ none := by
  intro h
  refine h ⟨fun _ => none, id, some, fun _ => .notFound, fun _ _ => true⟩ (b! "scp://me@h:22")
    [(keySync, b! "true"), (keyName, b! "s"), (keyURL, b! "scp://me@h:22")] [] (by decide +kernel) rfl (by decide +kernel)
    (by decide +kernel)

theorem firstAnswer_unique {Q : Str → Prop} {inp r r' : Input} {a a' : Str} (h : FirstAnswer Q inp a r) (h' : FirstAnswer Q inp a' r') :
    a = a' ∧ r = r' := by
  obtain ⟨sk, rfl, hs, hq⟩ := h
  induction sk with
  | nil =>
    obtain ⟨rfl, rfl⟩ := (firstAnswer_take hq).1 h'
    exact ⟨rfl, rfl⟩
  | cons x sk ih =>
    exact ih ((firstAnswer_skip (hs x (by simp))).1 h') (fun z hz => hs z (by simp [hz]))

theorem scpTyped_unique {inp : Input} {u u' h h' p p' f f' : Str} {c c' : Int} {r r' : Input} (h1 : ScpTyped inp u h p f c r)
    (h2 : ScpTyped inp u' h' p' f' c' r') : u = u' ∧ h = h' ∧ p = p' ∧ f = f' ∧ c = c' ∧ r = r' := by
  obtain ⟨i1, i2, i3, i4, a1, a2, a3, a4, s, a5, a6⟩ := h1
  obtain ⟨j1, j2, j3, j4, b1, b2, b3, b4, t, b5, b6⟩ := h2
  obtain ⟨rfl, rfl⟩ := firstAnswer_unique a1 b1
  obtain ⟨rfl, rfl⟩ := firstAnswer_unique a2 b2
  have hp : p = p' ∧ i3 = j3 := by
    have x := (C82_port _ _ _).2 a3
    have y := (C82_port _ _ _).2 b3
    rw [x] at y
    simpa using y
  obtain ⟨rfl, rfl⟩ := hp
  obtain ⟨rfl, rfl⟩ := firstAnswer_unique a4 b4
  obtain ⟨rfl, rfl⟩ := firstAnswer_unique a5 b5
  rw [a6] at b6
  simp only [Option.some.injEq] at b6
  exact ⟨rfl, rfl, rfl, rfl, by omega, rfl⟩

/-- the entry that `addsync` made, as `sync` finds it in the snapshot -/
theorem addSync_snapshot {v : Env} {u : Session} {kind : Str} (h0 : u.store.txPoint = 0) (hv : EnvOk v u.store) (h : WellFormed u.store)
    (hk : kind = syncSCP ∨ kind = syncFile) (hr : (addSync v u kind).2 = .ok ()) {e : Str → Option Str}
    (he : Blob.Spec.Visible (addSync v u kind).1.store v.d.uuid e) :
    ∃ en : Entry, (addSync v u kind).1.store.updateSnapshot.1.snapshot.get? v.d.uuid = some en ∧ en.get? = e := by
  have hku : ValidUtf8 kind := by rcases hk with rfl | rfl <;> exact valid_ascii _ (by decide)
  have hkc : ¬ (kind ≠ syncSCP ∧ kind ≠ syncFile) := by rcases hk with rfl | rfl <;> simp
  have hwf : WellFormed (addSync v u kind).1.store := by
    rw [addSync_eq, if_neg hkc] at hr ⊢
    exact ((doCmd_spec (p := False) (L := fun _ => False) h0 h (body_sync hv h kind hku (fun k => k.elim))).1.2 (by rw [hr]; simp)).1
  obtain ⟨-, hf, hg, hlog⟩ := good_withSnapshot hwf.good (fun s => ((s, .panic) : Out Str))
  obtain ⟨en, b1, b2⟩ := (visible_fresh hf _ _).1 ((visible_log hlog _ _).2 he)
  exact ⟨en, b1, b2.symm⟩

/-- After `addsync scp`, `sync` finds the new remote and connects to the host and port that were typed, as the user that was typed,
with the password that was chosen or the key that was made, and asks for the file that was typed, without its first slash. -/
theorem C90_addsync_partial (v : Env) (u : Session) (o : Outside) (h0 : u.store.txPoint = 0) (hv : EnvOk v u.store)
    (h : WellFormed u.store) (hurl : v.scpUrl = scpUrl) (hr : (addSync v u syncSCP).2 = .ok ()) (user host port file : Str)
    (choice : Int) (rest : Input) (ht : ScpTyped v.d.inp user host port file choice rest) (hh : Url.HostOk host)
    (hp : port.all isDigit = true) (hf : file ≠ b! "/") (hkey : ∀ a b, v.keys = some (a, b) → a = [] ∨ (o.parseKey a).isSome = true)
    (ord : Order) (hord : ∀ m, (ord m).Perm m) :
    v.d.uuid ∈ collectSyncs (netWorld o) ord (addSync v u syncSCP).1.store.updateSnapshot.1 ∧
    ∃ en : Entry, (addSync v u syncSCP).1.store.updateSnapshot.1.snapshot.get? v.d.uuid = some en ∧
      ∃ pass priv : Str,
        (choice = 2 → getPassword v.d.ent rest = .ok pass ∧ priv = []) ∧
        (choice ≠ 2 → pass = [] ∧ priv = (v.keys.map Prod.fst).getD []) ∧
        sshConfig o.parseKey en = .ok
          { address := Url.joinHostPort host port
            path := relative file
            user := user
            auth := loginWith o.parseKey pass priv } := by
  obtain ⟨e, n, url, a1, -, -, -, a5, a6, a7, -⟩ := C82_added v u syncSCP h0 hv h (.inl rfl) hr
  obtain ⟨user', host', port', file', choice', rest', b1, b2⟩ := a7 rfl
  obtain ⟨rfl, rfl, rfl, rfl, rfl, rfl⟩ := scpTyped_unique ht b1
  obtain ⟨i1, i2, i3, i4, ⟨sk1, -, -, hu⟩, -, -, ⟨sk4, -, -, hf0⟩, -⟩ := ht
  obtain ⟨en, c1, c2⟩ := addSync_snapshot h0 hv h (.inl rfl) hr a1
  have e3 : val en keyURL = url := by unfold val; rw [show en.get? keyURL = _ from (congrFun c2 _).trans a6]; rfl
  have hpr : val en keyPriv = (e keyPriv).getD [] := by unfold val; rw [show en.get? keyPriv = _ from congrFun c2 _]
  have hsch : ∀ pass, url = scpUrl user host port file pass → url ≠ [] ∧ (netWorld o).scheme url = some syncSCP := by
    rintro pass rfl
    have := scp_parse (user := user) (pass := pass) hh hp hf0
    refine ⟨fun k => ?_, by simp [netWorld, this]⟩
    rw [k] at this
    have hs : (Url.parse []).map (·.scheme) = some [] := by decide
    rw [this] at hs
    revert hs; simp [syncSCP]
  rw [hurl] at b2
  rcases b2 with ⟨k1, pass, k2, k3, k4, -⟩ | ⟨k1, k3, k4, -⟩
  · refine ⟨C82_counts v u syncSCP h0 hv h (.inl rfl) hr _ ord hord a1 a6 (hsch _ k3).1 (hsch _ k3).2, en, c1, pass, [],
      fun _ => ⟨k2, rfl⟩, fun k => absurd k1 k, ?_⟩
    have := C90_scp_partial o.parseKey en user host port file (some pass) (e3.trans k3) hu hh hp hf0 hf (.inl (by rw [hpr, k4]; rfl))
    rw [this, hpr, k4]
    rfl
  · refine ⟨C82_counts v u syncSCP h0 hv h (.inl rfl) hr _ ord hord a1 a6 (hsch _ k3).1 (hsch _ k3).2, en, c1, [],
      (v.keys.map Prod.fst).getD [], fun k => absurd k k1, fun _ => ⟨rfl, rfl⟩, ?_⟩
    have := C90_scp_partial o.parseKey en user host port file none (e3.trans k3) hu hh hp hf0 hf (by
      rw [hpr, k4]
      cases hk : v.keys with
      | none => exact .inl rfl
      | some q => exact hkey q.1 q.2 hk)
    rw [this, hpr, k4]
    rfl

/-- After `addsync file`, `sync` finds the new remote and reads and writes the file that was typed. -/
theorem C90_addsync_file_partial (v : Env) (u : Session) (o : Outside) (h0 : u.store.txPoint = 0) (hv : EnvOk v u.store)
    (h : WellFormed u.store) (abs : Str → Option Str) (hurl : v.fileUrl = fun f => (abs f).map fileUrl)
    (habs : ∀ f a, abs f = some a → a.head? = some 47) (hr : (addSync v u syncFile).2 = .ok ()) (file : Str) (rest : Input)
    (ht : FirstAnswer (fun s => s ≠ []) v.d.inp file rest) (ord : Order) (hord : ∀ m, (ord m).Perm m) :
    v.d.uuid ∈ collectSyncs (netWorld o) ord (addSync v u syncFile).1.store.updateSnapshot.1 ∧
    ∃ en : Entry, (addSync v u syncFile).1.store.updateSnapshot.1.snapshot.get? v.d.uuid = some en ∧
      some (filePath en) = abs file := by
  obtain ⟨e, n, url, a1, -, -, -, a5, a6, -, a7, -⟩ := C82_added v u syncFile h0 hv h (.inr rfl) hr
  obtain ⟨-, -, file', rest', b1, b2⟩ := a7 rfl
  obtain ⟨rfl, rfl⟩ := firstAnswer_unique ht b1
  obtain ⟨en, c1, c2⟩ := addSync_snapshot h0 hv h (.inr rfl) hr a1
  have e3 : val en keyURL = url := by unfold val; rw [show en.get? keyURL = _ from (congrFun c2 _).trans a6]; rfl
  rw [hurl] at b2
  obtain ⟨a, ha, rfl⟩ := Option.map_eq_some_iff.1 b2
  obtain ⟨d1, d2⟩ := C90_file o en a e3 (habs _ _ ha)
  rw [e3] at d1
  refine ⟨C82_counts v u syncFile h0 hv h (.inr rfl) hr _ ord hord a1 a6 (fun k => ?_) d1, en, c1, by rw [d2, ha]⟩
  rw [k] at d1
  revert d1
  simp only [netWorld]
  decide

/-- The addresses are ASCII, whatever was typed: they survive being written as JSON. -/
theorem C90_ascii (user host port file : Str) (pass : Option Str) :
    ValidUtf8 (scpUrl user host port file pass) ∧ ValidUtf8 (fileUrl file) := by
  have hw : ∀ p, (Url.writePath p).all (fun b => b.toNat < 0x80) = true := by
    intro p; unfold Url.writePath; split
    · decide
    · exact Url.escape_ascii _ _
  have hus : ∀ q : Str × Option Str, (Url.userString (some q)).all (fun b => b.toNat < 0x80) = true := by
    rintro ⟨a, b⟩
    have ha := Url.escape_ascii .userPassword a
    cases b with
    | none =>
      simp only [Url.userString, List.all_append, ha, Bool.true_and]; decide
    | some b =>
      have hb := Url.escape_ascii .userPassword b
      simp only [Url.userString, List.all_append, List.all_cons, ha, hb, Bool.true_and]; decide
  have hh := Url.escape_ascii .host (Url.joinHostPort host port)
  constructor
  · refine valid_ascii _ ?_
    have hi : ∀ p : Prop, [Decidable p] → (if p then ([47] : Str) else []).all (fun b => b.toNat < 0x80) = true := by
      intro p _; split <;> decide
    have h2 : ∀ p : Prop, [Decidable p] → (if p then (b! "//") else []).all (fun b => b.toNat < 0x80) = true := by
      intro p _; split <;> decide
    simp only [scpUrl, Url.toString]
    rw [if_neg (by simp)]
    simp only [List.all_append, hw, hus, hh, hi, h2]
    decide
  · refine valid_ascii _ ?_
    have hi : ∀ p : Prop, [Decidable p] → (if p then ([47] : Str) else []).all (fun b => b.toNat < 0x80) = true := by
      intro p _; split <;> decide
    have h2 : ∀ p : Prop, [Decidable p] → (if p then (b! "//") else []).all (fun b => b.toNat < 0x80) = true := by
      intro p _; split <;> decide
    simp only [fileUrl, Url.toString]
    rw [if_neg (by simp)]
    simp only [List.all_append, hw, hi, h2]
    decide

/-! ## C91 Secrets go to hosts whose key is on record or has just been accepted -/

theorem callback_ok {sha : Str → Str} {known : Str} {k : HostKey} {inp rest : Input} {r : Option Str}
    (h : callback sha known k inp = (.ok r, rest)) :
    (r = none ∧ rest = inp ∧ ∃ line a tl, KnownLine known k.hostname line ∧
      split space line = k.hostname :: a :: k.keyType :: hexEncode (sha k.blob) :: tl) ∨
    (r = some (hostLine sha k) ∧ AcceptedNow known k.hostname inp ∧ rest = inp.drop 1) := by
  rcases first_or_none known k.hostname with hn | ⟨line, hl⟩
  · have h1 : (callback sha known k inp).1 = .ok r := by rw [h]
    obtain ⟨h2, h3⟩ := ((C28_unknown sha known k inp hn).1 r).1 h1
    refine .inr ⟨h3, ⟨hn, h2⟩, ?_⟩
    unfold callback at h
    rw [checkKnown_none sha k _ hn] at h
    cases inp with
    | nil => simp at h2
    | cons a inp =>
      cases a with
      | none => simp at h2
      | some a =>
        simp only [prompt] at h
        split at h
        · exact (Prod.mk.inj h).2.symm
        · cases (Prod.mk.inj h).1
  · left
    have hl' := hl
    obtain ⟨pre, post, h1, h2, h3⟩ := hl'
    unfold callback at h
    rw [h1, checkKnown_skip sha k pre _ h3] at h
    match hs : split space line with
    | [] => rw [hs] at h2; cases h2
    | [x] =>
      rw [hs] at h2
      simp [checkKnown, hs, show x = k.hostname by simpa using h2] at h
    | [x, a] =>
      rw [hs] at h2
      simp [checkKnown, hs, show x = k.hostname by simpa using h2] at h
    | [x, a, t] =>
      rw [hs] at h2
      by_cases ht : t = k.keyType <;> simp [checkKnown, hs, show x = k.hostname by simpa using h2, ht] at h
    | x :: a :: t :: g :: tl =>
      rw [hs] at h2
      have hx : x = k.hostname := by simpa using h2
      subst hx
      rw [checkKnown_hit sha k line post a t g tl hs] at h
      by_cases ht : t = k.keyType
      · by_cases hg : g = keyHash sha k
        · subst ht hg
          simp at h
          exact ⟨h.1.symm, h.2.symm, line, a, tl, hl, hs⟩
        · simp [ht, hg] at h
      · simp [ht] at h

theorem dial_sent (o : Outside) (c : SshConfig) (known : Str) (inp : Input) :
    (∀ x ∈ (dial o c known inp).sent, ∃ s, x = .login s c.user c.auth ∧ o.net c.address = some s ∧
      (OnRecord o.sha known c.address s ∨ AcceptedNow known c.address inp)) ∧
    (∀ s, (dial o c known inp).out = .up s → o.net c.address = some s ∧
      (OnRecord o.sha known c.address s ∨ AcceptedNow known c.address inp)) ∧
    ((dial o c known inp).host ≠ [] → AcceptedNow known c.address inp ∧
      ∃ s, o.net c.address = some s ∧ (dial o c known inp).host = hostLine o.sha (hostKey c.address s)) := by
  unfold dial
  cases hn : o.net c.address with
  | none => simp
  | some s =>
    simp only
    split
    · simp
    · cases hc : callback o.sha known (hostKey c.address s) inp with
      | mk r rest =>
        cases r with
        | panic => simp
        | err e => simp
        | ok r =>
          have hv : OnRecord o.sha known c.address s ∨ AcceptedNow known c.address inp := by
            rcases callback_ok hc with ⟨-, -, line, a, tl, h1, h2⟩ | ⟨-, h, -⟩
            · exact .inl ⟨line, a, tl, h1, h2⟩
            · exact .inr h
          refine ⟨?_, ?_, ?_⟩
          · intro x hx
            simp only [List.mem_singleton] at hx
            exact ⟨s, hx, rfl, hv⟩
          · intro s' hs
            simp only at hs
            split at hs
            · cases hs; exact ⟨rfl, hv⟩
            · cases hs
          · intro hh
            rcases callback_ok hc with ⟨rfl, -⟩ | ⟨rfl, h, -⟩
            · exact absurd rfl hh
            · exact ⟨h, s, rfl, rfl⟩

/-- What a pull sends: the user and the ways to log in, and the command for the file, to the server at the address of the remote,
and only if its key is on record for this address, or nothing is and the user has just accepted it. -/
theorem C91_pull (o : Outside) (e : Entry) (inp : Input) (x : Sent) (hx : x ∈ (sshPull o e inp).sent) :
    ∃ c s, sshConfig o.parseKey e = .ok c ∧ o.net c.address = some s ∧
      (x = .login s c.user c.auth ∨ x = .run s (recvCmd c.path) [0, 0, 0]) ∧
      (OnRecord o.sha (val e keyKnownHosts) c.address s ∨ AcceptedNow (val e keyKnownHosts) c.address inp) := by
  unfold sshPull at hx
  cases hc : sshConfig o.parseKey e with
  | panic => rw [hc] at hx; cases hx
  | err _ => rw [hc] at hx; cases hx
  | ok c =>
    rw [hc] at hx
    obtain ⟨h1, h2, -⟩ := dial_sent o c (val e keyKnownHosts) inp
    simp only at hx
    refine ⟨c, ?_⟩
    split at hx
    · obtain ⟨s, a, b, d⟩ := h1 x hx; exact ⟨s, rfl, b, .inl a, d⟩
    · obtain ⟨s, a, b, d⟩ := h1 x hx; exact ⟨s, rfl, b, .inl a, d⟩
    · rename_i s hs
      simp only [List.mem_append, List.mem_singleton] at hx
      rcases hx with hx | hx
      · obtain ⟨s, a, b, d⟩ := h1 x hx; exact ⟨s, rfl, b, .inl a, d⟩
      · exact ⟨s, rfl, (h2 s hs).1, .inr hx, (h2 s hs).2⟩

/-- What a push sends: the same, with the encrypted file. -/
theorem C91_push (o : Outside) (e : Entry) (ct : Str) (inp : Input) (x : Sent) (hx : x ∈ (sshPush o e ct inp).sent) :
    ∃ c s, sshConfig o.parseKey e = .ok c ∧ o.net c.address = some s ∧
      (x = .login s c.user c.auth ∨ x = .run s (sendCmd c.path) (Scp.sendFile c.path 384 ct)) ∧
      (OnRecord o.sha (val e keyKnownHosts) c.address s ∨ AcceptedNow (val e keyKnownHosts) c.address inp) := by
  unfold sshPush at hx
  cases hc : sshConfig o.parseKey e with
  | panic => rw [hc] at hx; cases hx
  | err _ => rw [hc] at hx; cases hx
  | ok c =>
    rw [hc] at hx
    obtain ⟨h1, h2, -⟩ := dial_sent o c (val e keyKnownHosts) inp
    simp only at hx
    refine ⟨c, ?_⟩
    split at hx
    · obtain ⟨s, a, b, d⟩ := h1 x hx; exact ⟨s, rfl, b, .inl a, d⟩
    · obtain ⟨s, a, b, d⟩ := h1 x hx; exact ⟨s, rfl, b, .inl a, d⟩
    · rename_i s hs
      simp only [List.mem_append, List.mem_singleton] at hx
      rcases hx with hx | hx
      · obtain ⟨s, a, b, d⟩ := h1 x hx; exact ⟨s, rfl, b, .inl a, d⟩
      · exact ⟨s, rfl, (h2 s hs).1, .inr hx, (h2 s hs).2⟩

/-- A server that shows another key than the one on record gets nothing, neither from a pull nor from a push, whatever the user
types; and nothing is remembered. -/
theorem C91_changed (o : Outside) (e : Entry) (ct : Str) (inp : Input) (c : SshConfig) (s : Server) (line : Str)
    (hc : sshConfig o.parseKey e = .ok c) (hs : o.net c.address = some s)
    (hl : KnownLine (val e keyKnownHosts) c.address line) (hr : ¬ OnRecord o.sha (val e keyKnownHosts) c.address s) :
    (sshPull o e inp).sent = [] ∧ (sshPush o e ct inp).sent = [] ∧ (sshPull o e inp).host = [] ∧ (sshPush o e ct inp).host = [] := by
  have hu : ∀ inp, ¬ AcceptedNow (val e keyKnownHosts) c.address inp := by
    rintro inp ⟨h, -⟩
    obtain ⟨pre, post, h1, h2, -⟩ := hl
    exact h line (by rw [h1]; simp) h2
  obtain ⟨-, h2, h3⟩ := dial_sent o c (val e keyKnownHosts) inp
  have hh : (dial o c (val e keyKnownHosts) inp).host = [] := by
    by_cases k : (dial o c (val e keyKnownHosts) inp).host = []
    · exact k
    · exact absurd (h3 k).1 (hu _)
  refine ⟨?_, ?_, ?_, ?_⟩
  · refine List.eq_nil_iff_forall_not_mem.2 fun x hx => ?_
    obtain ⟨c', s', a1, a2, -, a4⟩ := C91_pull o e inp x hx
    rw [hc] at a1; cases a1
    rw [hs] at a2; cases a2
    exact a4.elim hr (hu _)
  · refine List.eq_nil_iff_forall_not_mem.2 fun x hx => ?_
    obtain ⟨c', s', a1, a2, -, a4⟩ := C91_push o e ct inp x hx
    rw [hc] at a1; cases a1
    rw [hs] at a2; cases a2
    exact a4.elim hr (hu _)
  · unfold sshPull
    rw [hc]
    simp only
    split <;> exact hh
  · unfold sshPush
    rw [hc]
    simp only
    split
    · rfl
    · rfl
    · simp only; split
      · exact hh
      · rfl

/-- A new line for the known hosts comes from a server that the user has just accepted, and is about its key. -/
theorem C91_remember (o : Outside) (e : Entry) (ct : Str) (inp : Input) (h : Str) (hne : h ≠ [])
    (hh : (sshPull o e inp).host = h ∨ (sshPush o e ct inp).host = h) :
    ∃ c s, sshConfig o.parseKey e = .ok c ∧ o.net c.address = some s ∧ AcceptedNow (val e keyKnownHosts) c.address inp ∧
      h = hostLine o.sha (hostKey c.address s) := by
  have key : ∃ c, sshConfig o.parseKey e = .ok c ∧ (dial o c (val e keyKnownHosts) inp).host = h := by
    unfold sshPull sshPush at hh
    cases hc : sshConfig o.parseKey e with
    | panic => rw [hc] at hh; rcases hh with hh | hh <;> exact absurd hh.symm hne
    | err _ => rw [hc] at hh; rcases hh with hh | hh <;> exact absurd hh.symm hne
    | ok c =>
      rw [hc] at hh
      simp only at hh
      refine ⟨c, rfl, ?_⟩
      rcases hh with hh | hh
      · split at hh <;> exact hh
      · split at hh
        · exact absurd hh.symm hne
        · exact absurd hh.symm hne
        · simp only at hh
          split at hh
          · exact hh
          · exact absurd hh.symm hne
  obtain ⟨c, h1, h2⟩ := key
  obtain ⟨-, -, h3⟩ := dial_sent o c (val e keyKnownHosts) inp
  obtain ⟨h4, s, h5, h6⟩ := h3 (by rw [h2]; exact hne)
  exact ⟨c, s, h1, h5, h4, h2 ▸ h6⟩

/-- A server that was accepted is not asked about again: with the new line among the known hosts, the next pull and the next push ask
no question and give no new line, as long as it shows the same key. -/
theorem C91_accepted_once (o : Outside) (e e' : Entry) (ct : Str) (inp inp' : Input) (c : SshConfig) (s : Server)
    (hc : sshConfig o.parseKey e = .ok c) (hc' : sshConfig o.parseKey e' = .ok c) (hs : o.net c.address = some s)
    (hp : Plain (hostKey c.address s)) (hne : (sshPull o e inp).host ≠ [])
    (he : val e' keyKnownHosts = appendHost (val e keyKnownHosts) (sshPull o e inp).host) :
    (sshPull o e' inp').rest = inp' ∧ (sshPush o e' ct inp').rest = inp' ∧
      (sshPull o e' inp').host = [] ∧ (sshPush o e' ct inp').host = [] := by
  obtain ⟨c1, s1, a1, a2, ⟨a3, a4⟩, a5⟩ := C91_remember o e ct inp _ hne (.inl rfl)
  rw [hc] at a1; cases a1
  rw [hs] at a2; cases a2
  have hcb : ∃ rest, callback o.sha (val e keyKnownHosts) (hostKey c.address s) inp =
      (.ok (some (hostLine o.sha (hostKey c.address s))), rest) := by
    have := ((C28_unknown o.sha (val e keyKnownHosts) (hostKey c.address s) inp a3).1
      (some (hostLine o.sha (hostKey c.address s)))).2 ⟨a4, rfl⟩
    exact ⟨_, Prod.ext this rfl⟩
  obtain ⟨rest, hcb⟩ := hcb
  have hnext := (C28_next_time o.sha (val e keyKnownHosts) (hostKey c.address s) (hostKey c.address s) inp rest inp' _ hp a3 hcb rfl).1
    ⟨rfl, rfl⟩
  rw [a5] at he
  rw [← he] at hnext
  have hd : (dial o c (val e' keyKnownHosts) inp').rest = inp' ∧ (dial o c (val e' keyKnownHosts) inp').host = [] := by
    unfold dial
    rw [hs]
    simp only
    split
    · exact ⟨rfl, rfl⟩
    · rw [hnext]; exact ⟨rfl, rfl⟩
  unfold sshPull sshPush
  rw [hc']
  simp only
  refine ⟨?_, ?_, ?_, ?_⟩
  · split <;> exact hd.1
  · split <;> exact hd.1
  · split <;> exact hd.2
  · split
    · rfl
    · rfl
    · simp only; split
      · exact hd.2
      · rfl

/-! ## C92 scp is asked for the file, and an honest server gives back what it was given -/

theorem safe_facts {path : Str} (h : path.all shellSafe = true) :
    NoSpace path ∧ (47 :: path) ≠ [] ∧ (∀ c ∈ path, c ≠ 59 ∧ c ≠ 38 ∧ c ≠ 124 ∧ c ≠ 10) := by
  have h' : ∀ c ∈ path, shellSafe c = true := List.all_eq_true.1 h
  refine ⟨noSpace_ascii _ fun c hc => ?_, by simp, fun c hc => ?_⟩
  · exact Url.byteInd (p := fun c => shellSafe c = true → c.toNat < 0x80 ∧ isSpaceRune c.toNat = false) (by decide +kernel) c (h' c hc)
  · exact Url.byteInd (p := fun c => shellSafe c = true → c ≠ 59 ∧ c ≠ 38 ∧ c ≠ 124 ∧ c ≠ 10) (by decide +kernel) c (h' c hc)

theorem shell_cmd {opt path : Str} (h : SafePath path) (ho : NoSpace opt) (hn : opt ≠ [])
    (ho' : ∀ c ∈ opt, c ≠ 59 ∧ c ≠ 38 ∧ c ≠ 124 ∧ c ≠ 10) :
    shell (b! "scp" ++ 32 :: (opt ++ 32 :: path)) = [[b! "scp", opt, path]] := by
  obtain ⟨h1, -, h3⟩ := safe_facts h.2.1
  have hall : ∀ c ∈ b! "scp" ++ 32 :: (opt ++ 32 :: path), c ≠ 59 ∧ c ≠ 38 ∧ c ≠ 124 ∧ c ≠ 10 := by
    intro c hc
    simp only [List.mem_append, List.mem_cons] at hc
    rcases hc with hc | rfl | hc | rfl | hc
    · have : ∀ c ∈ b! "scp", c ≠ 59 ∧ c ≠ 38 ∧ c ≠ 124 ∧ c ≠ 10 := by decide
      exact this c (by simpa using hc)
    · decide
    · exact ho' c hc
    · decide
    · exact h3 c hc
  have hmap : (b! "scp" ++ 32 :: (opt ++ 32 :: path)).map (fun c => if c = 59 ∨ c = 38 ∨ c = 124 then 10 else c) =
      b! "scp" ++ 32 :: (opt ++ 32 :: path) := by
    conv => rhs; rw [← List.map_id (b! "scp" ++ 32 :: (opt ++ 32 :: path))]
    refine List.map_congr_left fun c hc => ?_
    have := hall c hc
    simp [this.1, this.2.1, this.2.2.1]
  unfold shell
  simp only [hmap]
  rw [split_of_notMem 10 _ (fun k => (hall 10 k).2.2.2 rfl)]
  simp only [List.map_cons, List.map_nil]
  rw [fields_word (b! "scp") (by decide) (noSpace_ascii _ (by decide)) 32 (by decide) (by decide),
    fields_word opt hn ho 32 (by decide) (by decide), fields_single path h.1 h1]

/-- The command line, as a shell takes it, is the command `scp` with the option and the path. -/
theorem C92_command (path : Str) (h : SafePath path) :
    shell (recvCmd path) = [[b! "scp", b! "-qf", path]] ∧ shell (sendCmd path) = [[b! "scp", b! "-qt", path]] :=
  ⟨shell_cmd (opt := b! "-qf") h (noSpace_ascii _ (by decide)) (by decide) (by decide),
    shell_cmd (opt := b! "-qt") h (noSpace_ascii _ (by decide)) (by decide) (by decide)⟩

/-- A path can be a command of its own, or more than one word. -/
theorem C92_command_false : shell (recvCmd (b! "x;reboot")) = [[b! "scp", b! "-qf", b! "x"], [b! "reboot"]] ∧
    shell (sendCmd (b! "my passwords")) = [[b! "scp", b! "-qt", b! "my", b! "passwords"]] := by decide +kernel

theorem base_safe {path : Str} (h : path.all shellSafe = true) : NoSpace (Scp.base path) := by
  obtain ⟨h1, -, -⟩ := safe_facts h
  have hsub : ∀ c ∈ Scp.base path, c ∈ path ∨ c = 46 ∨ c = 47 := by
    intro c hc
    unfold Scp.base at hc
    split at hc
    · right; left; simpa using hc
    · simp only at hc
      split at hc
      · right; right; simpa using hc
      · left
        rw [List.mem_reverse] at hc
        have := (List.takeWhile_sublist _).mem hc
        rw [List.mem_reverse, Scp.stripSlashes, List.mem_reverse] at this
        have := (List.dropWhile_sublist _).mem this
        exact List.mem_reverse.1 this
  refine noSpace_ascii _ fun c hc => ?_
  rcases hsub c hc with k | rfl | rfl
  · exact Url.byteInd (p := fun c => shellSafe c = true → c.toNat < 0x80 ∧ isSpaceRune c.toNat = false) (by decide +kernel) c
      (List.all_eq_true.1 h c k)
  · decide
  · decide

theorem dial_up {o : Outside} {c : SshConfig} {known : Str} {inp : Input} {s : Server} (hs : o.net c.address = some s)
    (hk : s.keyType = b! "ssh-ed25519" ∨ s.keyType = b! "ssh-rsa") (hl : s.login c.user c.auth = true)
    (hr : OnRecord o.sha known c.address s) :
    dial o c known inp = { out := .up s, sent := [.login s c.user c.auth], rest := inp } := by
  obtain ⟨line, a, tl, h1, h2⟩ := hr
  have := (C28_known o.sha known (hostKey c.address s) inp line a s.keyType (hexEncode (o.sha s.key)) tl h1 h2).1 ⟨rfl, rfl⟩
  unfold dial
  rw [hs]
  simp only
  rw [if_neg (by rcases hk with k | k <;> simp [k]), this]
  simp [hl]

theorem not_found_msg (path : Str) : (indexOf ((b! "scp: " ++ path ++ b! ": No such file or directory\n").map Scp.lowerByte)
    (b! "no such file or directory")).isSome = true := by
  have key : ∀ a b : Str, (indexOf (a ++ (b! "no such file or directory" ++ b)) (b! "no such file or directory")).isSome = true := by
    intro a b
    induction a with
    | nil => rw [List.nil_append, indexOf_prefix]; rfl
    | cons x a ih =>
      rw [List.cons_append, indexOf]
      split
      · rfl
      · simpa using ih
  have e : (b! "scp: " ++ path ++ b! ": No such file or directory\n").map Scp.lowerByte =
      ((b! "scp: " ++ path).map Scp.lowerByte ++ b! ": ") ++ (b! "no such file or directory" ++ [10]) := by
    rw [List.map_append, List.append_assoc]
    congr 1
  rw [e]
  exact key _ _

theorem readLine_msg {x y : Str} (h : (10 : UInt8) ∉ x) : Scp.readLine (x ++ 10 :: y) = some (x ++ [10], y) := by
  induction x with
  | nil => rfl
  | cons a x ih =>
    have h1 : a ≠ 10 := fun k => h (by simp [k])
    simp [Scp.readLine, h1, ih (fun k => h (by simp [k]))]

theorem received_missing (path : Str) (hp : path.all shellSafe = true) :
    received { out := 1 :: (b! "scp: " ++ path ++ b! ": No such file or directory\n"), exit := false } = some .notFound := by
  obtain ⟨-, -, h3⟩ := safe_facts hp
  have e : 1 :: (b! "scp: " ++ path ++ b! ": No such file or directory\n") =
      (1 :: (b! "scp: " ++ path ++ b! ": No such file or directory")) ++ 10 :: [] := by
    simp
  have hn : (10 : UInt8) ∉ (1 :: (b! "scp: " ++ path ++ b! ": No such file or directory")) := by
    simp only [List.mem_cons, List.mem_append, not_or]
    refine ⟨by decide, ⟨by decide, fun k => (h3 10 k).2.2.2 rfl⟩, by decide⟩
  have hread : Scp.readFile (1 :: (b! "scp: " ++ path ++ b! ": No such file or directory\n")) =
      .err (.remote 1 (b! "scp: " ++ path ++ b! ": No such file or directory\n")) := by
    unfold Scp.readFile
    rw [e, readLine_msg hn]
    simp
  unfold received
  rw [if_neg Bool.noConfusion]
  simp only [hread]
  simp only [Scp.isNotFoundErr, not_found_msg path]
  rfl

/-- A pull from a server with scp whose key is on record gives the file that the server has at the path, or finds that there is
none. No question is asked. -/
theorem C92_pull_partial (o : Outside) (e : Entry) (inp : Input) (c : SshConfig) (s : Server) (files : Str → Option Str)
    (writable : Bool) (hc : sshConfig o.parseKey e = .ok c) (hs : o.net c.address = some s)
    (hk : s.keyType = b! "ssh-ed25519" ∨ s.keyType = b! "ssh-rsa") (hl : s.login c.user c.auth = true)
    (hr : OnRecord o.sha (val e keyKnownHosts) c.address s) (hrun : s.run = scpServer files writable) (hp : SafePath c.path)
    (hsize : ∀ f, files c.path = some f → f.length ≤ 2147483647) :
    (netWorld o).sshPull [] e inp = (some (match files c.path with | some f => .bytes f | none => .notFound, []), inp) := by
  have hcmd := (C92_command c.path hp).1
  simp only [netWorld, sshPull, hc, dial_up hs hk hl hr, hrun]
  unfold scpServer
  rw [hcmd]
  simp only [and_self, if_true]
  cases hf : files c.path with
  | some f =>
    simp only [received]
    rw [if_neg (by decide), Scp.C55_roundtrip_partial c.path 384 f (by decide) (hsize f hf) (base_safe hp.2.1)]
    rfl
  | none =>
    simp only [received_missing c.path hp.2.1]
    rfl

/-- A push to a server with scp whose key is on record works if the file can be written, and what it sends makes scp store
exactly the new file at the path. No question is asked. -/
theorem C92_push_partial (o : Outside) (e : Entry) (ct : Str) (inp : Input) (c : SshConfig) (s : Server) (files : Str → Option Str)
    (writable : Bool) (hc : sshConfig o.parseKey e = .ok c) (hs : o.net c.address = some s)
    (hk : s.keyType = b! "ssh-ed25519" ∨ s.keyType = b! "ssh-rsa") (hl : s.login c.user c.auth = true)
    (hr : OnRecord o.sha (val e keyKnownHosts) c.address s) (hrun : s.run = scpServer files writable) (hp : SafePath c.path)
    (hsize : ct.length ≤ 2147483647) :
    (netWorld o).sshPush [] e ct inp = (some (writable, []), inp) ∧
    ((sshPush o e ct inp).sent.filterMap fun x => match x with | .run _ cmd stdin => scpStores cmd stdin | _ => none) =
      [(c.path, ct)] := by
  have hcmd := (C92_command c.path hp).2
  simp only [netWorld, sshPush, hc, dial_up hs hk hl hr, hrun]
  constructor
  · unfold scpServer
    rw [hcmd]
    have h1 : ¬ (True ∧ b! "-qt" = b! "-qf") := by decide
    simp only [if_neg h1, and_self, if_true]
    cases writable <;> rfl
  · simp only [List.cons_append, List.nil_append, List.filterMap_cons, List.filterMap_nil]
    unfold scpStores
    rw [hcmd]
    simp only [and_self, if_true]
    rw [sendInput, Scp.C55_roundtrip_partial c.path 384 ct (by decide) hsize (base_safe hp.2.1)]

theorem dialed_net {o : Outside} {c : SshConfig} {known : Str} {inp : Input} {s : Server} (h : (dial o c known inp).out = .up s) :
    o.net c.address = some s := by
  unfold dial at h
  split at h
  · cases h
  · rename_i s' hs
    split at h
    · cases h
    · split at h
      · cases h
      · cases h
      · dsimp only at h
        split at h
        · cases h; exact hs
        · cases h

/-- Whoever answers: `sync` takes what it read for the file only if the command was started, spoke as scp does, and ended well, and
takes it that there is no file only if the answer said so. -/
theorem C92_got (o : Outside) (e : Entry) (inp : Input) (p : Pulled) (h : (sshPull o e inp).out = some p) (hp : p ≠ .failed) :
    ∃ c s, sshConfig o.parseKey e = .ok c ∧ o.net c.address = some s ∧ (s.run (recvCmd c.path) [0, 0, 0]).start = true ∧
      (s.run (recvCmd c.path) [0, 0, 0]).close = true ∧
      ((∃ f, Scp.readFile (s.run (recvCmd c.path) [0, 0, 0]).out = .ok f ∧ (s.run (recvCmd c.path) [0, 0, 0]).exit = true ∧
          p = .bytes f.contents) ∨
        ∃ x, Scp.readFile (s.run (recvCmd c.path) [0, 0, 0]).out = .err x ∧ Scp.isNotFoundErr x = true ∧ p = .notFound) := by
  unfold sshPull at h
  cases hc : sshConfig o.parseKey e with
  | panic => rw [hc] at h; cases h
  | err x => rw [hc] at h; cases h; exact absurd rfl hp
  | ok c =>
    rw [hc] at h
    dsimp only at h
    cases hd : (dial o c (val e keyKnownHosts) inp).out with
    | crash => rw [hd] at h; cases h
    | failed => rw [hd] at h; cases h; exact absurd rfl hp
    | up s =>
      rw [hd] at h
      refine ⟨c, s, rfl, dialed_net hd, ?_⟩
      dsimp only at h
      simp only [received] at h
      generalize s.run (recvCmd c.path) [0, 0, 0] = r at h ⊢
      cases hst : r.start with
      | false => rw [hst] at h; cases h; exact absurd rfl hp
      | true =>
        rw [hst, if_neg (by decide)] at h
        cases hf : Scp.readFile r.out with
        | panic => rw [hf] at h; cases h
        | err x =>
          rw [hf] at h
          cases h
          cases h1 : r.close <;> cases h2 : Scp.isNotFoundErr x <;> rw [h1, h2] at hp <;> simp at hp
          exact ⟨rfl, rfl, .inr ⟨x, rfl, h2, rfl⟩⟩
        | ok f =>
          rw [hf] at h
          cases h
          cases h1 : r.close <;> cases h2 : r.exit <;> rw [h1, h2] at hp <;> simp at hp
          exact ⟨rfl, rfl, .inl ⟨f, rfl, rfl, rfl⟩⟩

/-- Whoever answers: a push counts as done only if the command was started, agreed and ended well, and what was sent to it was the
new file. -/
theorem C92_done (o : Outside) (e : Entry) (ct : Str) (inp : Input) (h : (sshPush o e ct inp).out = some true) :
    ∃ c s, sshConfig o.parseKey e = .ok c ∧ o.net c.address = some s ∧
      (s.run (sendCmd c.path) (Scp.sendFile c.path 384 ct)).start = true ∧
      Scp.readResponse (s.run (sendCmd c.path) (Scp.sendFile c.path 384 ct)).first = .ok () ∧
      (s.run (sendCmd c.path) (Scp.sendFile c.path 384 ct)).exit = true ∧
      (s.run (sendCmd c.path) (Scp.sendFile c.path 384 ct)).close = true := by
  unfold sshPush at h
  cases hc : sshConfig o.parseKey e with
  | panic => rw [hc] at h; cases h
  | err x => rw [hc] at h; cases h
  | ok c =>
    rw [hc] at h
    dsimp only at h
    cases hd : (dial o c (val e keyKnownHosts) inp).out with
    | crash => rw [hd] at h; cases h
    | failed => rw [hd] at h; cases h
    | up s =>
      rw [hd] at h
      refine ⟨c, s, rfl, dialed_net hd, ?_⟩
      dsimp only at h
      simp only [sendInput, delivered, Option.some.injEq, Bool.and_eq_true] at h
      generalize s.run (sendCmd c.path) (Scp.sendFile c.path 384 ct) = r at h ⊢
      obtain ⟨⟨⟨h1, h2⟩, h3⟩, h4⟩ := h
      refine ⟨h1, ?_, h3, h4⟩
      cases hr : Scp.readResponse r.first with
      | ok x => rfl
      | err x => rw [hr] at h2; cases h2
      | panic => rw [hr] at h2; cases h2

/-- A file that is too large for a 32 bit number is pushed without complaint and can never be pulled again. -/
theorem C92_size_false (o : Outside) (e : Entry) (ct : Str) (inp : Input) (c : SshConfig) (s : Server) (files : Str → Option Str)
    (hc : sshConfig o.parseKey e = .ok c) (hs : o.net c.address = some s)
    (hk : s.keyType = b! "ssh-ed25519" ∨ s.keyType = b! "ssh-rsa") (hl : s.login c.user c.auth = true)
    (hr : OnRecord o.sha (val e keyKnownHosts) c.address s) (hrun : s.run = scpServer files true) (hp : SafePath c.path)
    (hf : files c.path = some ct) (hsize : 2147483647 < ct.length) :
    (netWorld o).sshPush [] e ct inp = (some (true, []), inp) ∧ (netWorld o).sshPull [] e inp = (some (.failed, []), inp) := by
  obtain ⟨hcmd, hcmd'⟩ := C92_command c.path hp
  constructor
  · simp only [netWorld, sshPush, hc, dial_up hs hk hl hr, hrun]
    unfold scpServer
    rw [hcmd']
    have h1 : ¬ (True ∧ b! "-qt" = b! "-qf") := by decide
    simp only [if_neg h1, and_self, if_true]
    rfl
  · simp only [netWorld, sshPull, hc, dial_up hs hk hl hr, hrun]
    unfold scpServer
    rw [hcmd]
    simp only [and_self, if_true, hf, received]
    rw [if_neg (by decide), Scp.C55_false c.path 384 ct (by decide) hsize (base_safe hp.2.1)]
    rfl

namespace NetDemo
open ShowDemo (u u_wf u_env)
open Demo (perm_id)

/-- a server that lets everybody in -/
def server (key : Str) (files : Str → Option Str) : Server where
  addr := b! "10.0.0.1:22"
  keyType := b! "ssh-rsa"
  key := key
  login _ _ := true
  run := scpServer files true

/-- the world with this server, known as `h` -/
def out (key : Str) (files : Str → Option Str) : Outside where
  net a := if a = b! "h:22" then some (server key files) else none
  sha := id
  parseKey k := some k
  read _ := .notFound
  write _ _ := true

def files : Str → Option Str := fun p => if p = b! "pw" then some (b! "abc") else none

/-- an entry as `addsync` makes it, and with the server on record -/
def fresh : Entry := [(keyURL, scpUrl (b! "me") (b! "h") (b! "22") (b! "/pw") (some (b! "q")))]
def known (key : Str) : Entry := (keyKnownHosts, hostLine id (hostKey (b! "h:22") (server key files))) :: fresh

def conf : SshConfig where
  address := b! "h:22"
  path := b! "pw"
  user := b! "me"
  auth := [.password (b! "q")]

theorem host_ok : Url.HostOk (b! "h") := ⟨by decide, by decide⟩
theorem conf_fresh (key : Str) : sshConfig (out key files).parseKey fresh = .ok conf :=
  C90_scp_partial _ fresh (b! "me") (b! "h") (b! "22") (b! "/pw") (some (b! "q")) rfl (by decide) host_ok (by decide) (by decide) (by decide)
    (.inl rfl)
theorem conf_known (key k : Str) : sshConfig (out key files).parseKey (known k) = .ok conf :=
  C90_scp_partial _ (known k) (b! "me") (b! "h") (b! "22") (b! "/pw") (some (b! "q")) rfl (by decide) host_ok (by decide) (by decide)
    (by decide) (.inl rfl)

/-- the url, in full -/
example : val fresh keyURL = b! "scp://me:q@h:22/pw" := by decide
example : Url.parse (b! "scp://me:q@h:22/pw") =
    some { scheme := syncSCP, user := some (b! "me", some (b! "q")), host := b! "h:22", path := b! "/pw" } := by decide +kernel
example : scpUrl (b! "a b") (b! "::1") (b! "22") (b! "p?") none = b! "scp://a%20b@[::1]:22/p%3F" := by decide +kernel
example : filePath [(keyURL, fileUrl (b! "/tmp/x y"))] = b! "/tmp/x y" := (C90_file (out [1] files) _ (b! "/tmp/x y") rfl rfl).2
example : isSync (netWorld (out [1] files)) ((keySync, b! "true") :: (keyName, b! "s") ::
    [(keyURL, scpUrl (b! "me") (b! "h") (b! "+22") (b! "/pw") none)]) = false :=
  C90_port_false _ (b! "me") (b! "h") (b! "22") (b! "/pw") none 43 host_ok (.inl rfl) (by decide) _ rfl
example : isSync (netWorld (out [1] files)) ((keySync, b! "true") :: (keyName, b! "s") ::
    [(keyURL, scpUrl (b! "me") (b! "my host") (b! "22") (b! "/pw") none)]) = false :=
  C90_host_false _ (b! "me") (b! "my host") (b! "22") (b! "/pw") none 32 (by decide) (by decide) (by decide) (by decide) (by decide) _ rfl
/-- with the port typed as it should be, the remote counts -/
example : isSync (netWorld (out [1] files)) ((keySync, b! "true") :: (keyName, b! "s") :: fresh) = true := by decide +kernel

/-- what is typed for `addsync` -/
def v : Env :=
  { d := { Demo.d0 with uuid := [6], inp := [some (b! "me"), some (b! "h"), some [], some (b! "/pw"), some (b! "1")] }
    keys := some (b! "priv", b! "pub")
    scpUrl := scpUrl }
theorem typed : ScpTyped v.d.inp (b! "me") (b! "h") (b! "22") (b! "/pw") 0 [] :=
  ⟨_, _, _, _, ⟨[], rfl, by simp, by decide⟩, ⟨[], rfl, by simp, by decide⟩, ⟨[], ⟨[], rfl, by simp, .inl rfl⟩, rfl⟩,
    ⟨[], rfl, by simp, by decide⟩, b! "1", ⟨[], rfl, by simp, 1, by decide, by decide, by decide⟩, by decide⟩
/-- the remote set up by `addsync` logs in to `h:22` as `me` with the new key, for the file `pw` -/
example : ∃ en : Entry, (addSync v u syncSCP).1.store.updateSnapshot.1.snapshot.get? [6] = some en ∧
    sshConfig (out [1] files).parseKey en = .ok
      { address := b! "h:22"
        path := b! "pw"
        user := b! "me"
        auth := [.key (b! "priv")] } := by
  obtain ⟨-, en, h1, pass, priv, -, h3, h4⟩ := C90_addsync_partial v u (out [1] files) rfl (u_env v rfl rfl rfl) u_wf.1 rfl
    (by decide +kernel) (b! "me") (b! "h") (b! "22") (b! "/pw") 0 [] typed host_ok (by decide) (by decide)
    (fun _ _ _ => .inr rfl) id perm_id
  obtain ⟨rfl, rfl⟩ := h3 (by decide)
  exact ⟨en, h1, h4⟩
def v' : Env :=
  { d := { Demo.d0 with uuid := [6], inp := [some (b! "/tmp/x")] }
    fileUrl := fun f => (if f.head? = some 47 then some f else some (b! "/home/me/" ++ f)).map fileUrl }
example : ∃ en : Entry, (addSync v' u syncFile).1.store.updateSnapshot.1.snapshot.get? [6] = some en ∧
    some (filePath en) = some (b! "/tmp/x") :=
  (C90_addsync_file_partial v' u (out [1] files) rfl (u_env v' rfl rfl rfl) u_wf.1
    (fun f => if f.head? = some 47 then some f else some (b! "/home/me/" ++ f)) rfl
    (by intro f a; split
        · rintro ⟨⟩; assumption
        · rintro ⟨⟩; rfl)
    (by decide +kernel) (b! "/tmp/x") [] ⟨[], rfl, by simp, by decide⟩ id perm_id).2

/-! ### the host key -/

theorem on_record (key : Str) (fs : Str → Option Str) (h : key = [1]) :
    OnRecord (out key fs).sha (val (known [1]) keyKnownHosts) conf.address (server key fs) := by
  subst h
  exact ⟨val (known [1]) keyKnownHosts, b! "10.0.0.1:22", [], ⟨[], [], by decide, by decide, by simp⟩,
    show split space (val (known [1]) keyKnownHosts) = [b! "h:22", b! "10.0.0.1:22", b! "ssh-rsa", b! "01"] from by decide⟩

theorem not_on_record (fs : Str → Option Str) :
    ¬ OnRecord (out [2] fs).sha (val (known [1]) keyKnownHosts) conf.address (server [2] fs) := by
  rintro ⟨line, a, rest, ⟨pre, post, h1, h2, h3⟩, h4⟩
  have e : split newline (val (known [1]) keyKnownHosts) = [val (known [1]) keyKnownHosts] := by decide
  rw [e] at h1
  have hl : line = val (known [1]) keyKnownHosts := by
    cases pre with
    | nil => simpa using (List.cons.inj h1).1.symm
    | cons x pre => simp at h1
  rw [hl, show split space (val (known [1]) keyKnownHosts) = [b! "h:22", b! "10.0.0.1:22", b! "ssh-rsa", b! "01"] from by decide] at h4
  have h5 : (b! "01" : Str) = b! "02" := (List.cons.inj (List.cons.inj (List.cons.inj (List.cons.inj h4).2).2).2).1
  exact absurd h5 (by decide)

-- what was read counts, a push counts as done
example := C92_got (out [1] files) (known [1]) [] (.bytes (b! "abc")) (by decide +kernel) (by simp)
example := C92_got (out [1] fun _ => none) (known [1]) [] .notFound (by decide +kernel) (by simp)
example := C92_done (out [1] files) (known [1]) (b! "new") [] (by decide +kernel)

/-- a pull sends two things to a server on record, nothing to one with another key -/
example : (sshPull (out [1] files) (known [1]) []).sent.length = 2 ∧ (sshPull (out [2] files) (known [1]) [some (b! "y")]).sent = [] :=
  ⟨by simp only [sshPull, conf_known, dial_up (s := server [1] files) rfl (.inr rfl) rfl (on_record [1] files rfl)]; rfl,
    (C91_changed (out [2] files) (known [1]) [] [some (b! "y")] conf (server [2] files) _ (conf_known _ _) rfl
      ⟨[], [], rfl, by decide, by simp⟩ (not_on_record files)).1⟩

/-- a new server is asked about and remembered -/
theorem asked : (sshPull (out [1] files) fresh [some (b! "y")]).host = b! "h:22 10.0.0.1:22 ssh-rsa 01" := by decide +kernel
example : AcceptedNow (val fresh keyKnownHosts) conf.address [some (b! "y")] := by
  obtain ⟨c, s, h1, -, h3, -⟩ := C91_remember (out [1] files) fresh [] [some (b! "y")] _ (by decide) (.inl asked)
  rw [conf_fresh] at h1; cases h1; exact h3
example : (sshPull (out [1] files) fresh [some (b! "n")]).host = [] ∧ (sshPull (out [1] files) fresh [some (b! "n")]).sent.length = 0 := by
  decide +kernel
example : (sshPush (out [1] files) (known [1]) (b! "ct") [some (b! "x")]).rest = [some (b! "x")] :=
  (C91_accepted_once (out [1] files) fresh (known [1]) (b! "ct") [some (b! "y")] [some (b! "x")] conf (server [1] files)
    (conf_fresh _) (conf_known _ _) rfl (by unfold Plain; decide) (by rw [asked]; decide) (by rw [asked]; decide)).2.1

/-! ### scp -/

theorem safe : SafePath conf.path := ⟨by decide, by decide, by decide⟩
example : (netWorld (out [1] files)).sshPull [] (known [1]) [] = (some (.bytes (b! "abc"), []), []) :=
  C92_pull_partial (out [1] files) (known [1]) [] conf (server [1] files) files true (conf_known _ _) rfl (.inr rfl) rfl
    (on_record [1] files rfl) rfl safe (by intro f h; cases h; decide)
example : (netWorld (out [1] fun _ => none)).sshPull [] (known [1]) [] = (some (.notFound, []), []) :=
  C92_pull_partial (out [1] fun _ => none) (known [1]) [] conf (server [1] fun _ => none) (fun _ => none) true (conf_known [1] [1]) rfl
    (.inr rfl) rfl (on_record [1] (fun _ => none) rfl) rfl safe (by intro f h; cases h)
example : ((sshPush (out [1] files) (known [1]) (b! "new") []).sent.filterMap fun x =>
    match x with | .run _ cmd stdin => scpStores cmd stdin | _ => none) = [(b! "pw", b! "new")] :=
  (C92_push_partial (out [1] files) (known [1]) (b! "new") [] conf (server [1] files) files true (conf_known _ _) rfl (.inr rfl) rfl
    (on_record [1] files rfl) rfl safe (by decide)).2

end NetDemo

end Verif.App
