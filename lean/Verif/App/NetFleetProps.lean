import Verif.App.NetFleetSpec
import Verif.App.NetProps
import Verif.App.FleetTextProps
/-!
# C93: syncing with a server over ssh is syncing with a file
-/
set_option linter.unusedSimpArgs false
namespace Verif.App
open Verif Verif.Txlogs Verif.Blob Verif.Crypt Verif.App.Spec
open Verif.Txlogs.Spec (upd)

theorem pullBlob_share (f x : Str) (e : Entry) (inp : Input) : pullBlob (shareWorld f) x e inp = (some (.bytes f, []), inp) := by
  have hsc : syncFile ≠ syncSCP := by decide
  simp [pullBlob, shareWorld, hsc]

theorem pullAll_world {P : Prims} {C : Codec} {w w' : World} {u : Session} {l : List Str} {inp : Input}
    (h : ∀ x ∈ l, ∀ inp, pullBlob w x ((u.store.snapshot.get? x).getD []) inp = pullBlob w' x ((u.store.snapshot.get? x).getD []) inp) :
    pullAll P C w u l inp = pullAll P C w' u l inp := by
  induction l generalizing inp with
  | nil => rfl
  | cons x l ih =>
    have h1 : ∀ inp, pullOne P C w u x inp = pullOne P C w' u x inp := by
      intro inp
      unfold pullOne
      simp only
      rw [h x (by simp) inp]
    simp only [pullAll, h1, ih (fun x hx => h x (by simp [hx]))]

theorem pullAll_hosts {P : Prims} {C : Codec} {f : Str} {u : Session} {l : List Str} {inp inp' : Input} {r : List (Str × Fate × Str)}
    (h : pullAll P C (shareWorld f) u l inp = (some r, inp')) : (∀ q ∈ r, q.2.2 = [] ∧ q.1 ∈ l) := by
  induction l generalizing inp r with
  | nil => cases h; simp
  | cons x l ih =>
    have key : ∀ inp a h', (pullOne P C (shareWorld f) u x inp).1 = some (a, h') → h' = [] := by
      intro inp a h' hx
      unfold pullOne at hx
      simp only at hx
      rw [pullBlob_share] at hx
      simp only at hx
      split at hx
      · cases hx
      · cases hx; rfl
      · cases hx; rfl
      · split at hx
        · cases hx; rfl
        · split at hx
          · cases hx
          · cases hx; rfl
          · split at hx
            · cases hx
            · cases hx; rfl
            · split at hx
              · cases hx; rfl
              · cases hx
    unfold pullAll at h
    cases hp : pullOne P C (shareWorld f) u x inp with
    | mk a i1 =>
      rw [hp] at h
      cases a with
      | none => cases h
      | some a =>
        obtain ⟨a, h'⟩ := a
        simp only at h
        cases hq : pullAll P C (shareWorld f) u l i1 with
        | mk b i2 =>
          rw [hq] at h
          cases b with
          | none => cases h
          | some b =>
            cases h
            intro q hq'
            rcases List.mem_cons.1 hq' with rfl | hq'
            · exact ⟨key inp a h' (by rw [hp]), by simp⟩
            · have := ih hq q hq'
              exact ⟨this.1, by simp [this.2]⟩

theorem newHosts_nil {r : List (Str × Fate × Str)} (h : ∀ q ∈ r, q.2.2 = []) (m : Results) : newHosts r m = m := by
  induction r generalizing m with
  | nil => rfl
  | cons q r ih =>
    obtain ⟨a, b, c⟩ := q
    have : c = [] := h (a, b, c) (by simp)
    simp only [newHosts, this, if_true]
    exact ih (fun q hq => h q (by simp [hq])) m

theorem targets_sub {r : List (Str × Fate × Str)} {l : List Str} (h : ∀ q ∈ r, q.1 ∈ l) : ∀ x ∈ targets r, x ∈ l := by
  induction r with
  | nil => simp [targets]
  | cons q r ih =>
    obtain ⟨a, b, c⟩ := q
    have ih := ih (fun q hq => h q (by simp [hq]))
    have ha : a ∈ l := h (a, b, c) (by simp)
    intro x hx
    cases b with
    | skip => exact ih x hx
    | absent =>
      simp only [targets] at hx
      split at hx
      · exact ih x hx
      · rcases List.mem_cons.1 hx with rfl | hx
        · exact ha
        · exact ih x hx
    | merge m =>
      simp only [targets] at hx
      split at hx
      · exact ih x hx
      · rcases List.mem_cons.1 hx with rfl | hx
        · exact ha
        · exact ih x hx

theorem pushAll_world {w : World} {f : Str} {s : DB} {ct : Str} {ts : List Str} {inp : Input}
    (h : ∀ x ∈ ts, ∀ inp, pushBlob w x ((s.snapshot.get? x).getD []) ct inp = (some (true, []), inp)) :
    pushAll w s ct ts [] inp = pushAll (shareWorld f) s ct ts [] inp := by
  rw [pushAll_share]
  induction ts with
  | nil => rfl
  | cons x ts ih =>
    have ih := ih (fun x hx => h x (by simp [hx]))
    simp only [pushAll, h x (by simp) inp, if_true, ih]
    simp

theorem pushBack_world {P : Prims} {C : Codec} {w : World} {f : Str} {v : SyncEnv} {ts : List Str} {u : Session} {inp : Input}
    (hord : ∀ m, (v.ordH m).Perm m) (hu : u.store.updateSnapshot = (u.store, none))
    (hpush : ∀ x ∈ ts, ∀ inp', pushBlob w x ((u.store.snapshot.get? x).getD [])
      (pushBack P C (shareWorld f) v true [] ts u inp).sent inp' = (some (true, []), inp')) :
    pushBack P C w v true [] ts u inp = pushBack P C (shareWorld f) v true [] ts u inp := by
  have h0 : v.ordH [] = [] := List.Perm.eq_nil (hord [])
  have hs := sealFile_store P C v.ord v.ord' v.iv u.creds hu
  simp only [pushBack, h0, saveHosts, saveHostsLoop, hu, Bool.true_eq_false, if_false] at hpush ⊢
  cases hx : sealFile P C v.ord v.ord' v.iv u.creds u.store with
  | mk s o =>
    rw [hx] at hs hpush
    simp only at hs
    subst hs
    cases o with
    | panic => rfl
    | err e => rfl
    | ok ct =>
      simp only [pushAll_share, h0, saveHostsLoop, hu] at hpush
      simp only [pushAll_world (f := f) hpush]

/-- A world in which the remotes of the session read as `f` and can be written is as good as a shared file: `sync` does the same
and asks the same questions. -/
theorem C93_same (P : Prims) (C : Codec) (w : World) (f : Str) (v : SyncEnv) (u : Session) (inp : Input)
    (hord : ∀ m, (v.ordH m).Perm m)
    (hone : collectSyncs w v.ord u.store.updateSnapshot.1 = collectSyncs (shareWorld f) v.ord u.store.updateSnapshot.1)
    (hpull : ∀ x ∈ collectSyncs w v.ord u.store.updateSnapshot.1, ∀ inp',
      pullBlob w x (syncEntry u x) inp' = (some (.bytes f, []), inp'))
    (hpush : ∀ x ∈ collectSyncs w v.ord u.store.updateSnapshot.1, ∀ inp',
      pushBlob w x (((sync P C (shareWorld f) v [] true u inp).session.store.snapshot.get? x).getD [])
        (sync P C (shareWorld f) v [] true u inp).sent inp' = (some (true, []), inp')) :
    sync P C w v [] true u inp = sync P C (shareWorld f) v [] true u inp := by
  unfold syncEntry at hpull
  unfold sync at hpush ⊢
  cases hus : u.store.updateSnapshot with
  | mk s0 e0 =>
    rw [hus] at hpush hpull hone
    cases e0 with
    | some e0 => rfl
    | none =>
      simp only [ne_eq, not_true, if_false] at hpush hpull hone ⊢
      rw [hone] at hpush hpull ⊢
      generalize collectSyncs (shareWorld f) v.ord s0 = l at hpush hpull hone ⊢
      have hpa : pullAll P C w { u with store := s0 } l inp = pullAll P C (shareWorld f) { u with store := s0 } l inp :=
        pullAll_world fun x hx inp' => by rw [pullBlob_share]; exact hpull x hx inp'
      unfold syncWith at hpush ⊢
      rw [hpa]
      cases hp : pullAll P C (shareWorld f) { u with store := s0 } l inp with
      | mk r i1 =>
        rw [hp] at hpush
        cases r with
        | none => rfl
        | some r =>
          have hh := pullAll_hosts hp
          have hn := newHosts_nil (fun q hq => (hh q hq).1) []
          have ht := targets_sub (fun q hq => (hh q hq).2)
          simp only at hpush ⊢
          cases hm : mergeBlobs v.ord u.creds s0.log (remotes r) i1 with
          | mk m i2 =>
            rw [hm] at hpush
            cases m with
            | panic => rfl
            | err e => rfl
            | ok m =>
              simp only at hpush ⊢
              cases hs1 : ({ s0.resetSnapshot with log := m.log } : DB).updateSnapshot with
              | mk s1 e1 =>
                rw [hs1] at hpush
                cases e1 with
                | some e1 => rfl
                | none =>
                  simp only [hn] at hpush ⊢
                  have hu1 := update_again hs1
                  refine pushBack_world hord (by exact hu1) fun x hx inp' => ?_
                  have := hpush x (ht x hx) inp'
                  rw [pushBack_store hord (by exact hu1)] at this
                  exact this

theorem linked_pull {o : Outside} {address : Str} {s : Server} {path : Str} {e : Entry} {files : Str → Option Str} {f : Str}
    (h : Linked o address s path e) (hk : s.keyType = b! "ssh-ed25519" ∨ s.keyType = b! "ssh-rsa") (hp : SafePath path)
    (hf : files path = some f) (hsize : f.length ≤ 2147483647) (x : Str) (inp : Input) :
    pullBlob (netWorld (reach o address s files)) x e inp = (some (.bytes f, []), inp) := by
  obtain ⟨h1, c, h2, rfl, rfl, h5, h6⟩ := h
  have := C92_pull_partial (reach o c.address s files) e inp c (serve s files) files true h2 (by simp [reach]) hk h5 h6 rfl hp
    (by intro g hg; rw [hf] at hg; cases hg; exact hsize)
  rw [hf] at this
  unfold pullBlob
  rw [show (netWorld (reach o c.address s files)).scheme (val e keyURL) = some syncSCP from h1]
  simp only [if_true]
  exact this

theorem linked_push {o : Outside} {address : Str} {s : Server} {path : Str} {e : Entry} {files : Str → Option Str} {ct : Str}
    (h : Linked o address s path e) (hk : s.keyType = b! "ssh-ed25519" ∨ s.keyType = b! "ssh-rsa") (hp : SafePath path)
    (hsize : ct.length ≤ 2147483647) (x : Str) (inp : Input) :
    pushBlob (netWorld (reach o address s files)) x e ct inp = (some (true, []), inp) ∧
      stored (reach o address s files) e ct = [(path, ct)] := by
  obtain ⟨h1, c, h2, rfl, rfl, h5, h6⟩ := h
  have k := C92_push_partial (reach o c.address s files) e ct inp c (serve s files) files true h2 (by simp [reach]) hk h5 h6 rfl hp hsize
  have k' := C92_push_partial (reach o c.address s files) e ct [] c (serve s files) files true h2 (by simp [reach]) hk h5 h6 rfl hp hsize
  refine ⟨?_, k'.2⟩
  unfold pushBlob
  rw [show (netWorld (reach o c.address s files)).scheme (val e keyURL) = some syncSCP from h1]
  simp only [if_true]
  exact k.1

theorem store_all {files : Str → Option Str} {path ct : Str} {L : List (Str × Str)} (h : ∀ q ∈ L, q = (path, ct)) :
    Spec.store files L path = if L = [] then files path else some ct := by
  induction L generalizing files with
  | nil => rfl
  | cons q L ih =>
    obtain ⟨a, b⟩ := q
    have hq := h (a, b) (by simp)
    simp only [Prod.mk.injEq] at hq
    obtain ⟨rfl, rfl⟩ := hq
    rw [Spec.store, ih (fun q hq => h q (by simp [hq]))]
    simp [upd]

theorem pushed_one {P : Prims} {C : Codec} {w : World} {v : SyncEnv} {u : Session} {inp : Input} {x : Str}
    (h : collectSyncs w v.ord u.store.updateSnapshot.1 = [x]) : ∀ p ∈ (sync P C w v [] true u inp).pushed, p.1 = x := by
  intro p hp
  rcases sync_cases P C w v [] true u inp with k | ⟨syncs, -, h1, -, h2⟩
  · rw [k.2.2.2.2.2] at hp; cases hp
  · have h1 := h1 rfl
    rw [h] at h1
    subst h1
    rw [h2] at hp
    rcases syncWith_cases P C w v true { u with store := u.store.updateSnapshot.1 } [x] inp with ⟨-, k⟩ | ⟨l, i1, m, i2, k1, k2, k3⟩
    · rw [k] at hp; cases hp
    · rcases k3 with ⟨s, e, -, k4⟩ | ⟨s, -, k4⟩
      · rw [k4] at hp; cases hp
      · rw [k4] at hp
        obtain ⟨-, -, b, -⟩ := pushBack_spec P C w v true (newHosts l []) (targets l) { u with creds := m.creds, store := s } i2
        obtain ⟨-, f, hh, ht, -⟩ := (mem_targets _ _).1 (b _ hp)
        obtain ⟨hone, -⟩ := pullAll_spec P C w _ _ _ _ _ k1
        have hmem : p.1 ∈ [x] := by rw [← hone]; exact List.mem_map.2 ⟨_, ht, rfl⟩
        simpa using hmem

/-- One sync with the server is one sync with the shared file: the machine ends up the same, with the same questions asked, and so does
the file. -/
theorem C93_step_partial (P : Prims) (C : Codec) (o : Outside) (address : Str) (s : Server) (path : Str) (N : NetFleet) (F : Fleet)
    (e : Event) (hk : s.keyType = b! "ssh-ed25519" ∨ s.keyType = b! "ssh-rsa") (hp : SafePath path) (hm : Mirrors path N F)
    (he : EventLinked P C o address s path F e) :
    Mirrors path (N.step P C o address s e) (F.step P C e) := by
  obtain ⟨h1, h2⟩ := hm
  obtain ⟨machine, files⟩ := N
  simp only at h1 h2
  subst h1
  cases e with
  | work i turns => exact ⟨rfl, h2⟩
  | sync i v inp =>
    obtain ⟨hord, hsz, hsz', x, g1, g2, g3, g4⟩ := he
    have hw : collectSyncs (netWorld (reach o address s files)) v.ord (F.machine i).store.updateSnapshot.1 = [x] := g2
    have key : sync P C (netWorld (reach o address s files)) v [] true (F.machine i) inp =
        sync P C (shareWorld F.share) v [] true (F.machine i) inp := by
      refine C93_same P C _ F.share v (F.machine i) inp hord (by rw [hw, g1]) ?_ ?_
      · intro y hy inp'
        rw [hw, List.mem_singleton] at hy
        subst hy
        exact linked_pull g3 hk hp h2 hsz y inp'
      · intro y hy inp'
        rw [hw, List.mem_singleton] at hy
        subst hy
        exact (linked_push g4 hk hp hsz' y inp').1
    refine ⟨?_, ?_⟩
    · simp only [NetFleet.step, Fleet.step, Fleet.set, key]
    · simp only [NetFleet.step, Fleet.step, Fleet.set, key]
      have hone := pushed_one (P := P) (C := C) (inp := inp) g1
      generalize sync P C (shareWorld F.share) v [] true (F.machine i) inp = r at hsz' g4 hone ⊢
      have hst := (linked_push (files := files) g4 hk hp hsz' x []).2
      rw [store_all (path := path) (ct := r.sent) (fun q hq => by
        obtain ⟨p, hp', hq⟩ := List.mem_flatMap.1 hq
        rw [hone p hp', hst] at hq
        simpa using hq)]
      cases hpu : r.pushed with
      | nil => simp [h2]
      | cons p l =>
        rw [hpu] at hone
        simp [hone p (by simp), hst]

/-- A run with the server is a run with the shared file. -/
theorem C93_run_partial (P : Prims) (C : Codec) (o : Outside) (address : Str) (s : Server) (path : Str) (N : NetFleet) (F : Fleet)
    (es : List Event) (hk : s.keyType = b! "ssh-ed25519" ∨ s.keyType = b! "ssh-rsa") (hp : SafePath path) (hm : Mirrors path N F)
    (he : RunLinked P C o address s path es F) :
    Mirrors path (N.run P C o address s es) (F.run P C es) := by
  induction es generalizing N F with
  | nil => exact hm
  | cons e es ih => exact ih _ _ (C93_step_partial P C o address s path N F e hk hp hm he.1) he.2

theorem runLinked_left {P : Prims} {C : Codec} {o : Outside} {address : Str} {s : Server} {path : Str} {es es' : List Event} {F : Fleet}
    (h : RunLinked P C o address s path (es ++ es') F) : RunLinked P C o address s path es F := by
  induction es generalizing F with
  | nil => trivial
  | cons e es ih => exact ⟨h.1, ih h.2⟩

/-- **Machines that sync with a server over ssh agree**: after two rounds of syncs they have the same log, which is that of the file
on the server, and it holds what any of them had. -/
theorem C93_agree_partial (P : Prims) (hP : Crypt.Spec.Lawful P) (o : Outside) (address : Str) (s : Server) (path : Str) (c : Creds)
    (N : NetFleet) (F : Fleet) (base : List Tx) (es s1 s2 : List Event)
    (hk : s.keyType = b! "ssh-ed25519" ∨ s.keyType = b! "ssh-rsa") (hp : SafePath path) (hm : Mirrors path N F)
    (h : Copies P Json.Spec.codec c F base) (hb : ∀ t ∈ base, Json.Spec.CleanTx t ∧ FitsInt64 t.time)
    (hr : TextRunOk P true (es ++ s1 ++ s2) F) (hl : RunLinked P Json.Spec.codec o address s path (es ++ s1 ++ s2) F)
    (h1 : OnlySyncs s1) (h2 : OnlySyncs s2) (hsub : ∀ i ∈ syncers s2, i ∈ syncers s1) :
    let N1 := N.run P Json.Spec.codec o address s es
    let N2 := N.run P Json.Spec.codec o address s (es ++ s1 ++ s2)
    ∃ f1 f2 R1 R2, N1.files path = some f1 ∧ N2.files path = some f2 ∧
      readShare P Json.Spec.codec c f1 = some R1 ∧ readShare P Json.Spec.codec c f2 = some R2 ∧
      (∀ i ∈ syncers s2, (N2.machine i).store.log = R2) ∧
      ∀ t, t ∈ R2 ↔ t ∈ R1 ∨ ∃ i ∈ syncers s1, t ∈ (N1.machine i).store.log := by
  have hl1 : RunLinked P Json.Spec.codec o address s path es F := by
    rw [List.append_assoc] at hl
    exact runLinked_left hl
  have m1 := C93_run_partial P Json.Spec.codec o address s path N F es hk hp hm hl1
  have m2 := C93_run_partial P Json.Spec.codec o address s path N F (es ++ s1 ++ s2) hk hp hm hl
  obtain ⟨R1, R2, a1, a2, a3, a4⟩ := C89_text_agree_partial P hP c F base es s1 s2 h hb hr h1 h2 hsub
  refine ⟨_, _, R1, R2, m1.file, m2.file, a1, a2, ?_, ?_⟩
  · rw [m2.machine]; exact a3
  · rw [m1.machine]; exact a4

namespace NetFleetDemo
open FleetTextDemo
open FleetDemo (start on upd base opsN opsU upd_log v turnsN turnsU es s1 st)

abbrev o : Outside := NetDemo.out [1] fun _ => none
abbrev server : Server := NetDemo.server [1] fun _ => none

theorem linked {e : Entry} (h1 : val e keyURL = b! "scp://me:q@h:22/pw") (h2 : val e keyKnownHosts = b! "h:22 10.0.0.1:22 ssh-rsa 01")
    (h3 : val e keyPriv = []) : Linked o (b! "h:22") server (b! "pw") e := by
  have e0 : b! "scp://me:q@h:22/pw" = scpUrl (b! "me") (b! "h") (b! "22") (b! "/pw") (some (b! "q")) := by decide
  refine ⟨by rw [h1]; decide +kernel, NetDemo.conf, ?_, rfl, rfl, rfl, ?_⟩
  · have := C90_scp_partial o.parseKey e (b! "me") (b! "h") (b! "22") (b! "/pw") (some (b! "q")) (h1.trans e0) (by decide) NetDemo.host_ok
      (by decide) (by decide) (by decide) (.inl h3)
    rw [this, h3]
    rfl
  · rw [h2]
    exact ⟨b! "h:22 10.0.0.1:22 ssh-rsa 01", b! "10.0.0.1:22", [], ⟨[], [], by decide, by decide, by simp⟩,
      show split space (b! "h:22 10.0.0.1:22 ssh-rsa 01") = [b! "h:22", b! "10.0.0.1:22", b! "ssh-rsa", b! "01"] from by decide⟩

/-- the entry is the one in the file everybody starts with -/
def same (e : Entry) : Bool :=
  val e keyURL = b! "scp://me:q@h:22/pw" && val e keyKnownHosts = b! "h:22 10.0.0.1:22 ssh-rsa 01" && val e keyPriv = []

theorem linked' {e : Entry} (h : same e = true) : Linked o (b! "h:22") server (b! "pw") e := by
  simp only [same, Bool.and_eq_true, decide_eq_true_eq] at h
  exact linked h.1.1 h.1.2 h.2

theorem linkedSync {F : Fleet} {i : Nat} {u : Session} {l : List Tx} {f f' : Str} (hm : F.machine i = u) (hf : F.share = f)
    (h : Gives u f l f') (h1 : f.length ≤ 2147483647)
    (h2 : (sync Crypt.Spec.toy C (shareWorld f) v [] true u []).sent.length ≤ 2147483647)
    (h3 : collectSyncs (netWorld o) v.ord u.store.updateSnapshot.1 = [[97]])
    (h4 : same ((u.store.updateSnapshot.1.snapshot.get? [97]).getD []) = true)
    (h5 : same (((on l).store.snapshot.get? [97]).getD []) = true) :
    EventLinked Crypt.Spec.toy C o (b! "h:22") server (b! "pw") F (.sync i v []) := by
  subst hm hf
  refine ⟨Demo.perm_id', h1, h2, [97], h.syncs, h3, linked' h4, ?_⟩
  rw [h.session]
  exact linked' h5

theorem linked0 {a b : Session} {l : List Tx} {f f' : Str} (h : Gives a f l f') (h1 : f.length ≤ 2147483647)
    (h2 : (sync Crypt.Spec.toy C (shareWorld f) v [] true a []).sent.length ≤ 2147483647)
    (h3 : collectSyncs (netWorld o) v.ord a.store.updateSnapshot.1 = [[97]])
    (h4 : same ((a.store.updateSnapshot.1.snapshot.get? [97]).getD []) = true)
    (h5 : same (((on l).store.snapshot.get? [97]).getD []) = true) :
    EventLinked Crypt.Spec.toy C o (b! "h:22") server (b! "pw") (st a b f) (.sync 0 v []) :=
  linkedSync (F := st a b f) (i := 0) rfl rfl h h1 h2 h3 h4 h5
theorem linked1 {a b : Session} {l : List Tx} {f f' : Str} (h : Gives b f l f') (h1 : f.length ≤ 2147483647)
    (h2 : (sync Crypt.Spec.toy C (shareWorld f) v [] true b []).sent.length ≤ 2147483647)
    (h3 : collectSyncs (netWorld o) v.ord b.store.updateSnapshot.1 = [[97]])
    (h4 : same ((b.store.updateSnapshot.1.snapshot.get? [97]).getD []) = true)
    (h5 : same (((on l).store.snapshot.get? [97]).getD []) = true) :
    EventLinked Crypt.Spec.toy C o (b! "h:22") server (b! "pw") (st a b f) (.sync 1 v []) :=
  linkedSync (F := st a b f) (i := 1) rfl rfl h h1 h2 h3 h4 h5

theorem runLinked : RunLinked Crypt.Spec.toy C o (b! "h:22") server (b! "pw") (es ++ s1 ++ s2) F0 := by
  have e1 := step_work0 start (file base) turnsN
  have e2 := step_work1 (after turnsN) (file base) turnsU
  have e3 := step_sync0 (b := after turnsU) gives1
  have e4 := step_sync1 (a := on (base ++ opsN)) gives2
  simp only [es, s1, s2, List.cons_append, List.nil_append, RunLinked, F0, e1, e2, e3, e4, and_true]
  exact ⟨trivial, trivial,
    linked0 gives1 (by decide +kernel) (by decide +kernel) (by decide +kernel) (by decide +kernel) (by decide +kernel),
    linked1 gives2 (by decide +kernel) (by decide +kernel) (by decide +kernel) (by decide +kernel) (by decide +kernel),
    linked0 gives3 (by decide +kernel) (by decide +kernel) (by decide +kernel) (by decide +kernel) (by decide +kernel)⟩

/-- the same machines, and the server has the file -/
def mirror (F : Fleet) : NetFleet := { machine := F.machine, files := fun p => if p = b! "pw" then some F.share else none }
theorem mirrors (F : Fleet) : Mirrors (b! "pw") (mirror F) F := ⟨rfl, by simp [mirror]⟩

/-- two machines sync with the server and agree -/
example : ∃ f R, ((mirror F0).run Crypt.Spec.toy C o (b! "h:22") server (es ++ s1 ++ s2)).files (b! "pw") = some f ∧
    readShare Crypt.Spec.toy C start.creds f = some R ∧
    ((((mirror F0).run Crypt.Spec.toy C o (b! "h:22") server (es ++ s1 ++ s2)).machine 0).store.log = R) := by
  have h := C93_agree_partial Crypt.Spec.toy Crypt.Spec.toy_lawful o (b! "h:22") server (b! "pw")
    start.creds (mirror F0) F0 base es s1 s2 (.inr rfl) NetDemo.safe (mirrors F0) copies clean_base runOk runLinked (by simp [OnlySyncs, s1])
    (by simp [OnlySyncs, s2]) (by simp [s1, s2, syncers])
  generalize (mirror F0).run Crypt.Spec.toy C o (b! "h:22") server (es ++ s1 ++ s2) = N2 at h ⊢
  obtain ⟨f1, f2, R1, R2, -, a2, -, a4, a5, -⟩ := h
  exact ⟨f2, R2, a2, a4, a5 0 (by simp [s2, syncers])⟩

end NetFleetDemo

end Verif.App
