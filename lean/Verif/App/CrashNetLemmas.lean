import Verif.App.CrashLemmas
import Verif.App.HostsProps
import Verif.Go.UrlLemmas
import Verif.Scp.Props
/-!
# Lemmas for C97: the network
-/
namespace Verif.Url
open Verif

theorem escapeOk_newline {m : Mode} (hm : m = .host ∨ m = .zone) {a b : Nat} (ha : a < 16) (hb : b < 16) (h : escapeOk m a b = true) :
    UInt8.ofNat (a * 16 + b) ≠ 10 := by
  have key : ∀ a : Fin 16, ∀ b : Fin 16, ∀ m : Fin 2, escapeOk (if m = 0 then .host else .zone) a.1 b.1 = true →
      UInt8.ofNat (a.1 * 16 + b.1) ≠ 10 := by decide +kernel
  rcases hm with rfl | rfl
  · exact key ⟨a, ha⟩ ⟨b, hb⟩ 0 h
  · exact key ⟨a, ha⟩ ⟨b, hb⟩ 1 h

theorem unhex_lt {c : UInt8} {n : Nat} (h : unhex c = some n) : n < 16 := by
  unfold unhex at h
  split at h
  · cases h; omega
  · split at h
    · cases h; omega
    · split at h
      · cases h; omega
      · cases h

theorem unescape_newline {m : Mode} (hm : m = .host ∨ m = .zone) : ∀ (s x : Str), unescape m s = some x → (10 : UInt8) ∉ x := by
  intro s
  fun_induction unescape m s with
  | case1 => intro x h; cases h; simp
  | case2 a b s x1 y1 hx hy hok ih =>
    intro x h
    obtain ⟨z, hz, rfl⟩ := Option.map_eq_some_iff.1 h
    intro hin
    rcases List.mem_cons.1 hin with e | e
    · exact escapeOk_newline hm (unhex_lt hy) (unhex_lt hx) hok e.symm
    · exact ih z hz e
  | case3 => intro x h; cases h
  | case4 => intro x h; cases h
  | case5 => intro x h; cases h
  | case6 => intro x h; cases h
  | case7 c s h1 h2 ih =>
    intro x h
    obtain ⟨z, hz, rfl⟩ := Option.map_eq_some_iff.1 h
    intro hin
    rcases List.mem_cons.1 hin with e | e
    · subst e
      refine h2 ⟨hm, by decide, ?_⟩
      rcases hm with rfl | rfl <;> decide
    · exact ih z hz e

theorem parseHost_newline {h x : Str} (hp : parseHost h = some x) : (10 : UInt8) ∉ x := by
  unfold parseHost at hp
  split at hp
  · split at hp
    · cases hp
    · split at hp
      · split at hp
        · split at hp
          · rename_i h1 h2 h3
            cases hp
            have a := unescape_newline (.inl rfl) _ _ h1
            have b := unescape_newline (.inr rfl) _ _ h2
            have c := unescape_newline (.inl rfl) _ _ h3
            simp [a, b, c]
          · cases hp
        · exact unescape_newline (.inl rfl) _ _ hp
      · cases hp
  · split at hp
    · split at hp
      · exact unescape_newline (.inl rfl) _ _ hp
      · cases hp
    · exact unescape_newline (.inl rfl) _ _ hp

theorem parseAuthority_newline {a : Str} {x : Option (Str × Option Str) × Str} (hp : parseAuthority a = some x) : (10 : UInt8) ∉ x.2 := by
  unfold parseAuthority at hp
  split at hp
  · obtain ⟨z, hz, rfl⟩ := Option.map_eq_some_iff.1 hp
    exact parseHost_newline hz
  · split at hp
    · cases hp
    · rename_i hh
      split at hp
      · split at hp
        · obtain ⟨z, hz, rfl⟩ := Option.map_eq_some_iff.1 hp
          exact parseHost_newline hh
        · split at hp
          · cases hp; exact parseHost_newline hh
          · cases hp
      · cases hp

theorem parse'_newline {raw : Str} {u : Url} (h : parse' raw = some u) : (10 : UInt8) ∉ u.host := by
  unfold parse' at h
  split at h
  · cases h
  · split at h
    · cases h; simp
    · split at h
      · cases h
      · dsimp only at h
        split at h
        · cases h; simp
        · split at h
          · cases h
          · split at h
            · split at h
              · cases h
              · rename_i hh
                obtain ⟨z, hz, rfl⟩ := Option.map_eq_some_iff.1 h
                exact parseAuthority_newline hh
            · obtain ⟨z, hz, rfl⟩ := Option.map_eq_some_iff.1 h
              simp

theorem parse_newline {raw : Str} {u : Url} (h : parse raw = some u) : (10 : UInt8) ∉ u.host := by
  unfold parse at h
  split at h
  · exact parse'_newline h
  · split at h
    · cases h
    · rename_i hu
      obtain ⟨z, hz, rfl⟩ := Option.map_eq_some_iff.1 h
      exact parse'_newline hu

end Verif.Url

namespace Verif.App
open Verif Verif.Txlogs Verif.Blob Verif.Crypt Verif.App.Spec

theorem lastCut_mem {c : UInt8} : ∀ {s a p : Str}, Url.lastCut c s = some (a, p) → (∀ b ∈ a, b ∈ s) ∧ ∀ b ∈ p, b ∈ s := by
  intro s
  induction s with
  | nil => intro a p h; cases h
  | cons b s ih =>
    intro a p h
    simp only [Url.lastCut] at h
    cases hl : Url.lastCut c s with
    | some q =>
      obtain ⟨x, y⟩ := q
      rw [hl] at h
      simp only [Option.some.injEq, Prod.mk.injEq] at h
      obtain ⟨rfl, rfl⟩ := h
      obtain ⟨i, j⟩ := ih hl
      exact ⟨fun z hz => (List.mem_cons.1 hz).elim (fun e => by simp [e]) (fun e => List.mem_cons_of_mem _ (i z e)),
        fun z hz => List.mem_cons_of_mem _ (j z hz)⟩
    | none =>
      rw [hl] at h
      simp only at h
      split at h
      · simp only [Option.some.injEq, Prod.mk.injEq] at h
        obtain ⟨rfl, rfl⟩ := h
        exact ⟨by simp, fun z hz => List.mem_cons_of_mem _ hz⟩
      · cases h

theorem splitHostPort_mem (h : Str) : (∀ b ∈ (Url.splitHostPort h).1, b ∈ h) ∧ ∀ b ∈ (Url.splitHostPort h).2, b ∈ h := by
  have key : ∀ (q : Str × Str), (∀ b ∈ q.1, b ∈ h) → (∀ b ∈ q.2, b ∈ h) →
      (∀ b ∈ (if q.1.head? = some 91 ∧ q.1.getLast? = some 93 then (q.1.drop 1).dropLast else q.1), b ∈ h) ∧ ∀ b ∈ q.2, b ∈ h := by
    intro q h1 h2
    refine ⟨fun b hb => ?_, h2⟩
    split at hb
    · exact h1 b (List.mem_of_mem_drop ((List.dropLast_sublist _).subset hb))
    · exact h1 b hb
  unfold Url.splitHostPort
  split
  rename_i host port hq
  cases hl : Url.lastCut 58 h with
  | none =>
    rw [hl] at hq
    cases hq
    exact key (h, []) (fun _ hb => hb) (by simp)
  | some q =>
    obtain ⟨a, p⟩ := q
    obtain ⟨i, j⟩ := lastCut_mem hl
    rw [hl] at hq
    simp only at hq
    split at hq
    · cases hq
      exact key (host, port) i j
    · cases hq
      exact key (h, []) (fun _ hb => hb) (by simp)

theorem address_newline {u : Url.Url} (h : (10 : UInt8) ∉ u.host) : newline ∉ Url.joinHostPort u.hostname u.port := by
  obtain ⟨a, b⟩ := splitHostPort_mem u.host
  have h1 : (10 : UInt8) ∉ u.hostname := fun hh => h (a _ hh)
  have h2 : (10 : UInt8) ∉ u.port := fun hh => h (b _ hh)
  unfold Url.joinHostPort newline
  split <;> simp [h1, h2]

theorem address_ne_nil (a b : Str) : Url.joinHostPort a b ≠ [] := by
  unfold Url.joinHostPort
  split <;> simp

theorem split_length (sep : UInt8) : ∀ s : Str, (split sep s).length = s.count sep + 1 := by
  intro s
  induction s with
  | nil => rfl
  | cons c s ih =>
    unfold split
    by_cases hc : c = sep
    · subst hc; simp [ih]
    · rw [if_neg hc, List.count_cons_of_ne hc]
      split
      · rename_i h; exact absurd h (split_ne_nil _ _)
      · rename_i h; rw [h] at ih; exact ih

theorem hostLine_fields (sha : Str → Str) (k : HostKey) : 4 ≤ (split space (hostLine sha k)).length := by
  rw [split_length]
  simp [hostLine, join, List.count_append]
  omega

theorem newline_line (sha : Str → Str) {k : HostKey} (h1 : newline ∉ k.hostname) (h2 : newline ∉ k.addr) (h3 : newline ∉ k.keyType) :
    newline ∉ hostLine sha k := by
  have h4 := (keyHash_plain sha k).2
  have h5 : newline ≠ space := by decide
  simp [hostLine, join, h1, h2, h3, h4, h5]

theorem goodHosts_append {known line : Str} (h : GoodHosts known) (hn : newline ∉ line) (hf : 4 ≤ (split space line).length) :
    GoodHosts (appendHost known line) := by
  intro x hx
  rw [split_appendHost _ _ hn] at hx
  split at hx
  · rw [List.mem_singleton.1 hx]; exact .inr hf
  · rcases List.mem_append.1 hx with hx | hx
    · exact h x hx
    · rw [List.mem_singleton.1 hx]; exact .inr hf

theorem checkKnown_good (sha : Str → Str) {k : HostKey} (hk : k.hostname ≠ []) : ∀ (ls : List Str),
    (∀ line ∈ ls, line = [] ∨ 4 ≤ (split space line).length) → checkKnown sha k ls ≠ .panic := by
  intro ls
  induction ls with
  | nil => intro _; simp [checkKnown]
  | cons l ls ih =>
    intro h
    simp only [checkKnown]
    split
    · exact ih fun x hx => h x (by simp [hx])
    · rename_i hh
      rcases h l (by simp) with rfl | h4
      · exfalso
        apply hh
        simpa [split] using hk
      · obtain ⟨a, b, c, d, t, e⟩ : ∃ a b c d t, split space l = a :: b :: c :: d :: t := by
          match hl : split space l with
          | a :: b :: c :: d :: t => exact ⟨a, b, c, d, t, rfl⟩
          | [] | [_] | [_, _] | [_, _, _] => rw [hl] at h4; simp at h4
        rw [e]
        simp only [List.getElem?_cons_succ, List.getElem?_cons_zero]
        split
        · simp
        · split <;> simp

theorem callback_good (sha : Str → Str) {known : Str} (hkn : GoodHosts known) {k : HostKey} (hk : k.hostname ≠ []) (inp : Input) :
    (callback sha known k inp).1 ≠ .panic := by
  have h := checkKnown_good sha hk _ hkn
  unfold callback
  split
  · rename_i hp; exact absurd hp h
  · simp
  · simp
  · split
    · simp
    · split <;> simp

theorem callback_line {sha : Str → Str} {known : Str} {k : HostKey} {inp rest : Input} {l : Str}
    (h : callback sha known k inp = (.ok (some l), rest)) : l = hostLine sha k := by
  unfold callback at h
  split at h
  · cases h
  · cases h
  · cases h
  · split at h
    · cases h
    · split at h
      · cases h; rfl
      · cases h

theorem sshConfig_good {parseKey : Str → Option Str} {e : Entry} (h : GoodUrl (val e keyURL)) (hs : ((Url.parse (val e keyURL)).map (·.scheme)) = some syncSCP) :
    (∃ x, sshConfig parseKey e = .err x) ∨ ∃ c, sshConfig parseKey e = .ok c ∧ c.address ≠ [] ∧ newline ∉ c.address := by
  obtain ⟨u, hu, hp⟩ := h
  rw [hu] at hs
  have hpath := hp (by simpa using hs)
  have ha := address_newline (Url.parse_newline hu)
  have hne := address_ne_nil u.hostname u.port
  obtain ⟨b, path, hb⟩ := List.exists_cons_of_ne_nil hpath
  simp only [sshConfig, hu, hb]
  split
  · exact .inl ⟨_, rfl⟩
  · split
    · exact .inl ⟨_, rfl⟩
    · split
      · exact .inl ⟨_, rfl⟩
      · split
        · exact .inr ⟨_, rfl, hne, ha⟩
        · split
          · exact .inl ⟨_, rfl⟩
          · exact .inr ⟨_, rfl, hne, ha⟩

theorem dial_good {o : Outside} (ho : Polite o) {c : SshConfig} (hc : c.address ≠ []) (hn : newline ∉ c.address) {known : Str} (hk : GoodHosts known)
    (inp : Input) : (dial o c known inp).out ≠ .crash ∧ ((dial o c known inp).host ≠ [] → ∀ k, GoodHosts k → GoodHosts (appendHost k (dial o c known inp).host)) ∧
      ∀ s, (dial o c known inp).out = .up s → ∀ cmd i, Scp.readFile (s.run cmd i).out ≠ .panic := by
  unfold dial
  cases hs : o.net c.address with
  | none => simp
  | some s =>
    simp only
    obtain ⟨h1, h2⟩ := ho _ _ hs
    split
    · simp
    · rename_i hkt
      have hb := callback_good o.sha hk (k := hostKey c.address s) hc inp
      cases hcb : callback o.sha known (hostKey c.address s) inp with
      | mk r rest =>
        rw [hcb] at hb
        cases r with
        | panic => exact absurd rfl hb
        | err e => simp
        | ok h =>
          simp only
          refine ⟨by split <;> simp, ?_, ?_⟩
          · cases h with
            | none => intro hh; exact absurd rfl hh
            | some l =>
              intro _ k hk'
              rw [Option.getD_some, callback_line hcb]
              refine goodHosts_append hk' (newline_line _ hn h1 ?_) (hostLine_fields _ _)
              show newline ∉ s.keyType
              by_cases he : s.keyType = b! "ssh-ed25519"
              · rw [he]; decide
              · have : s.keyType = b! "ssh-rsa" := Decidable.byContradiction fun hr => hkt ⟨he, hr⟩
                rw [this]; decide
          · intro s' hs'
            split at hs'
            · cases hs'; exact h2
            · cases hs'

theorem sshPull_good {o : Outside} (ho : Polite o) {e : Entry} (h : GoodUrl (val e keyURL))
    (hs : ((Url.parse (val e keyURL)).map (·.scheme)) = some syncSCP) (hk : GoodHosts (val e keyKnownHosts)) (inp : Input) :
    (∃ p, (sshPull o e inp).out = some p) ∧ ((sshPull o e inp).host ≠ [] → ∀ k, GoodHosts k → GoodHosts (appendHost k (sshPull o e inp).host)) := by
  unfold sshPull
  rcases sshConfig_good (parseKey := o.parseKey) h hs with ⟨x, e1⟩ | ⟨c, e1, hc, hn⟩
  · rw [e1]; simp
  · rw [e1]
    simp only
    obtain ⟨a, b, d⟩ := dial_good ho hc hn hk inp
    cases ht : (dial o c (val e keyKnownHosts) inp).out with
    | crash => exact absurd ht a
    | failed => exact ⟨⟨_, rfl⟩, b⟩
    | up s =>
      refine ⟨?_, b⟩
      have := d s ht (recvCmd c.path) [0, 0, 0]
      simp only [received]
      split
      · exact ⟨_, rfl⟩
      · split
        · rename_i hp; exact absurd hp this
        · exact ⟨_, rfl⟩
        · exact ⟨_, rfl⟩

theorem sshPush_good {o : Outside} (ho : Polite o) {e : Entry} (h : GoodUrl (val e keyURL))
    (hs : ((Url.parse (val e keyURL)).map (·.scheme)) = some syncSCP) (hk : GoodHosts (val e keyKnownHosts)) (ct : Str) (inp : Input) :
    (∃ p, (sshPush o e ct inp).out = some p) ∧ ((sshPush o e ct inp).host ≠ [] → ∀ k, GoodHosts k → GoodHosts (appendHost k (sshPush o e ct inp).host)) := by
  unfold sshPush
  rcases sshConfig_good (parseKey := o.parseKey) h hs with ⟨x, e1⟩ | ⟨c, e1, hc, hn⟩
  · rw [e1]; simp
  · rw [e1]
    simp only
    obtain ⟨a, b, d⟩ := dial_good ho hc hn hk inp
    cases ht : (dial o c (val e keyKnownHosts) inp).out with
    | crash => exact absurd ht a
    | failed => exact ⟨⟨_, rfl⟩, fun hh => absurd rfl hh⟩
    | up s =>
      refine ⟨⟨_, rfl⟩, ?_⟩
      dsimp only
      split
      · exact b
      · exact fun hh => absurd rfl hh

theorem net_gentle {o : Outside} (ho : Polite o) : Gentle (netWorld o) GoodUrl GoodHosts := by
  refine ⟨⟨_, rfl, by decide⟩, fun line hl => .inl (by simpa [split] using hl), ?_, ?_⟩
  · intro uuid e inp h hk
    obtain ⟨u, hu, hp⟩ := id h
    simp only [pullBlob, netWorld, hu, Option.map_some]
    split
    · rename_i hsc
      obtain ⟨⟨p, h1⟩, h2⟩ := sshPull_good ho h (by rw [hu, Option.map_some, hsc]) hk inp
      exact ⟨p, _, _, by rw [h1]; rfl, h2⟩
    · split
      · exact ⟨_, _, _, rfl, fun hh => absurd rfl hh⟩
      · exact ⟨_, _, _, rfl, fun hh => absurd rfl hh⟩
  · intro uuid e ct inp h hk
    obtain ⟨u, hu, hp⟩ := id h
    simp only [pushBlob, netWorld, hu, Option.map_some]
    split
    · rename_i hsc
      obtain ⟨⟨p, h1⟩, h2⟩ := sshPush_good ho h (by rw [hu, Option.map_some, hsc]) hk ct inp
      exact ⟨p, _, _, by rw [h1]; rfl, h2⟩
    · split
      · exact ⟨_, _, _, rfl, fun hh => absurd rfl hh⟩
      · exact ⟨_, _, _, rfl, fun hh => absurd rfl hh⟩

/-! ## A server with scp -/

theorem sendFile_calm (path : Str) (mode : Nat) (f : Str) : Scp.readFile (Scp.sendFile path mode f) ≠ .panic := by
  intro h
  obtain ⟨hdr, rest, m, l, name, md, len, h1, h2, h3, h4, h5, h6⟩ := (Scp.C56_no_crash_partial _).1 h
  have hs := (fmtNat_facts f.length).2.1
  have n1 := Scp.noSpace_fmtOct mode
  have n2 := Scp.noSpace_fmtNat f.length
  have e : Scp.sendFile path mode f = 67 :: ((48 :: Scp.fmtOct mode) ++ 32 :: (fmtNat f.length ++ 32 :: (Scp.base path ++ 10 :: (f ++ [0])))) := by
    simp [Scp.sendFile]
  rw [e] at h1
  have h1' := (List.cons.inj h1).2
  -- the newline comes after both words
  have key : ∀ (a x hdr rest y : Str), (10 : UInt8) ∉ a → a ++ 32 :: x = hdr ++ 10 :: rest → ∃ z, hdr = a ++ 32 :: z ∧ x = z ++ 10 :: rest := by
    intro a
    induction a with
    | nil =>
      intro x hdr rest y _ hh
      cases hdr with
      | nil => simp at hh
      | cons c hdr => simp only [List.nil_append, List.cons_append, List.cons.injEq] at hh; exact ⟨hdr, by rw [hh.1]; rfl, hh.2⟩
    | cons b a ih =>
      intro x hdr rest y hn hh
      cases hdr with
      | nil => simp at hh; exact absurd (by simp [hh.1]) hn
      | cons c hdr =>
        simp only [List.cons_append, List.cons.injEq] at hh
        obtain ⟨z, hz, hx⟩ := ih x hdr rest y (fun hm => hn (by simp [hm])) hh.2
        exact ⟨z, by rw [hh.1, hz]; rfl, hx⟩
  have d1 : (10 : UInt8) ∉ (48 :: Scp.fmtOct mode) := by
    have := (Scp.fmtOct_facts mode).1
    rw [List.all_eq_true] at this
    intro hm
    rcases List.mem_cons.1 hm with hm | hm
    · exact absurd hm (by decide)
    · exact absurd (this _ hm) (by decide)
  have d2 : (10 : UInt8) ∉ fmtNat f.length := by
    rw [List.all_eq_true] at hs
    intro hm
    exact absurd (hs _ hm) (by decide)
  obtain ⟨z, rfl, hz⟩ := key _ _ hdr rest [] d1 h1'
  obtain ⟨z2, rfl, -⟩ := key _ _ z rest [] d2 hz
  have hf : fields ((48 :: Scp.fmtOct mode) ++ 32 :: (fmtNat f.length ++ 32 :: z2) ++ [10]) =
      (48 :: Scp.fmtOct mode) :: fmtNat f.length :: fields (z2 ++ [10]) := by
    have e2 : (48 :: Scp.fmtOct mode) ++ 32 :: (fmtNat f.length ++ 32 :: z2) ++ [10] =
        (48 :: Scp.fmtOct mode) ++ 32 :: (fmtNat f.length ++ 32 :: (z2 ++ [10])) := by simp
    rw [e2, fields_word _ (by simp) n1 32 (by decide) (by decide),
      fields_word _ (fmtNat_facts f.length).1 n2 32 (by decide) (by decide)]
  rw [hf] at h3
  simp only [List.cons.injEq] at h3
  obtain ⟨-, rfl, -⟩ := h3
  rw [Scp.parseDec_fmtNat] at h5
  unfold Scp.int32 at h5
  split at h5
  · cases h5; omega
  · cases h5

theorem readFile_one (t : Str) : Scp.readFile (1 :: t) ≠ .panic := by
  intro h
  obtain ⟨hdr, rest, m, l, name, md, len, h1, -⟩ := (Scp.C56_no_crash_partial _).1 h
  simp at h1

theorem scpServer_calm (files : Str → Option Str) (writable : Bool) (cmd inp : Str) :
    Scp.readFile (scpServer files writable cmd inp).out ≠ .panic := by
  unfold scpServer
  split
  · split
    · split
      · exact sendFile_calm _ _ _
      · exact readFile_one _
    · split
      · show Scp.readFile [0] ≠ .panic
        decide
      · show Scp.readFile [] ≠ .panic
        decide
  · show Scp.readFile [] ≠ .panic
    decide

/-! ## The whole command -/

theorem chosen_log {w : World} {v : SyncEnv} {nm : Str} {s : DB} {x : Str} (hok : Ok s) (hord : ∀ m, (v.ord m).Perm m)
    (h : Chosen w v nm s x) : s.log ≠ [] := by
  intro hl
  by_cases hn : nm = []
  · obtain ⟨p, hp, rfl⟩ := List.mem_map.1 (h.1 hn)
    have hp := (hord _).mem_iff.1 (List.mem_filter.1 hp).1
    have h2 := hok.coh.2
    rw [hl, List.take_nil] at h2
    have h3 := congrFun (Option.some.inj h2) p.1
    have h4 : s.snapshot.get? p.1 = some p.2 := GoMap.get?_of_mem hok.nodup hp
    simp only [Txlogs.Spec.view, h4, Option.map_some] at h3
    cases h3
  · obtain ⟨e, ⟨st, h1, h2⟩, -⟩ := h.2 hn
    rw [hl] at h1
    cases h1
    cases h2

theorem sync_calm {P : Prims} (hP : Crypt.Spec.Lawful P) {C : Codec} {w : World} {url hosts : Str → Prop} {v : SyncEnv} {nm : Str}
    {push : Bool} {u : Session} {inp : Input} (hgood : Good u.store) (hown : OwnHistory u.store.log) (hs : SyncOk P C w v nm u inp)
    (hc : CalmSync P C w v nm u inp url hosts) :
    (sync P C w v nm push u inp).result ≠ .panic ∧ SomeCreds (sync P C w v nm push u inp).session.creds := by
  have h0 : CalmStore url hosts u.store.updateSnapshot.1 := CalmStore.update ⟨hgood.ok, hc.calm⟩
  have hl0 : u.store.updateSnapshot.1.log = u.store.log := updateSnapshot_log _
  obtain ⟨-, hf, hg1, hl⟩ := good_withSnapshot hgood (fun s => ((s, .panic) : Out Str))
  simp only [sync]
  cases hx : u.store.updateSnapshot with
  | mk s e =>
    have e1 : u.store.updateSnapshot.1 = s := by rw [hx]
    rw [e1] at h0 hl0 hg1
    cases e with
    | some e => exact ⟨by simp, hc.creds⟩
    | none =>
      simp only
      have hupd : s.updateSnapshot.1 = s := by rw [update_again hx]
      have main : ∀ syncs, Selected w v u nm syncs → (∀ x ∈ syncs, Chosen w v nm s x) →
          (syncWith P C w v push { u with store := s } syncs inp).result ≠ .panic ∧
            SomeCreds (syncWith P C w v push { u with store := s } syncs inp).session.creds := by
        intro syncs hsel hch
        refine syncWith_calm hP hc.gentle hc.listens hc.iv hs.ordH hc.ord hc.ord' hs.tick (u := { u with store := s }) hc.creds (by rw [hl0]; exact hown)
          (by rw [hl0]; exact hs.late) h0 (fun hsy => ?_) ?_ ?_
        · obtain ⟨x, l, rfl⟩ := List.exists_cons_of_ne_nil hsy
          exact chosen_log h0.ok hc.ord (hch x (by simp))
        · intro x hx i f h rest hi hp
          exact hc.held x i f h rest hi (by rw [e1]; exact hch x hx) (by rw [e1]; exact hp)
        · intro l rest hp
          rw [show ({ u with store := s } : Session).store.log = u.store.log from hl0]
          exact hs.pulled syncs l rest hsel (by rw [e1]; exact hp)
      by_cases hn : nm = []
      · simp only [hn, ne_eq, not_true, if_false]
        exact main _ ⟨fun _ => by rw [e1], fun h => absurd hn h⟩ fun x hx => ⟨fun _ => hx, fun h => absurd hn h⟩
      · simp only [ne_eq, hn, not_false_eq_true, if_true]
        rcases findByName_spec hc.ord hg1 nm with ⟨x, en, a, b, c⟩ | ⟨a, -⟩
        · rw [a, hupd]
          simp only
          split
          · exact ⟨by simp, hc.creds⟩
          · rename_i hxe
            refine main [x] ⟨fun h => absurd h hn, fun _ => ⟨x, hxe, rfl⟩⟩ ?_
            intro y hy
            rw [List.mem_singleton.1 hy]
            exact ⟨fun h => absurd h hn, fun _ => ⟨_, b, c⟩⟩
        · rw [a]; exact ⟨by simp, hc.creds⟩

end Verif.App
