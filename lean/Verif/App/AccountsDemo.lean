import Verif.App.AccountsProps
/-!
# A small file to show that the properties of the account commands are not vacuous

and the concrete file that refutes C52. The primitives are `Crypt.Spec.toy`.
-/
set_option linter.unusedSimpArgs false
namespace Verif.App.Demo
open Verif Verif.Txlogs Verif.Blob Verif.Crypt Verif.App Verif.App.Spec
open Verif.Crypt.Spec (toy toy_lawful)

/-- a new single-user file, opened with the password `[1]` -/
def u0 : Session := { creds := { pass := [1], key := List.replicate 80 1, salt := List.replicate 32 1 } }

def d0 : Draw :=
  { uuid := [9], salt := List.replicate 32 1, iv := List.replicate 40 2, master := List.replicate 80 5
    ivm := List.replicate 40 3, inp := [some (b! "m"), some [7], some [7]] }

/-- the same, nothing typed as a password -/
def dEmpty : Draw := { d0 with uuid := [8], inp := [some (b! "m"), some [], some []] }
def dBob : Draw := { d0 with uuid := [8] }
def dAll : Draw := { d0 with master := List.replicate 80 6, inp := [some (b! "y")] }

/-- after `adduser a` -/
def u1 : Session := (adduser toy id d0 u0 [97]).1
/-- after `adduser b` -/
def u2 : Session := (adduser toy id dBob u1 [98]).1
/-- after `add x/user/a` -/
def u3 : Session := { u1 with store := (new id (fun _ => 0) [7] u1.store (b! "x/user/a")).1 }

/-- a codec that is faithful for one store -/
def codec (s : DB) : Codec :=
  { marshal := fun _ => [1], load := fun _ => .ok (some s), loadLog := fun _ => .ok s.log }

theorem perm_id : ∀ m : Snapshot, (id m).Perm m := fun m => List.Perm.refl m
theorem perm_id' : ∀ m : Results, (id m).Perm m := fun m => List.Perm.refl m

theorem d0_ok : DrawOk d0 := ⟨by decide, by decide, by decide, by decide⟩
theorem dBob_ok : DrawOk dBob := ⟨by decide, by decide, by decide, by decide⟩
theorem dEmpty_ok : DrawOk dEmpty := ⟨by decide, by decide, by decide, by decide⟩
theorem dAll_ok : DrawOk dAll := ⟨by decide, by decide, by decide, by decide⟩

theorem d0_pw : getPassword d0.ent d0.inp = .ok [7] := by decide +kernel
theorem dBob_pw : getPassword dBob.ent dBob.inp = .ok [7] := by decide +kernel
theorem dEmpty_pw : getPassword dEmpty.ent dEmpty.inp = .ok [] := by decide +kernel

theorem u0_single : SingleSession toy u0 [1] :=
  ⟨rfl, good_new, rfl, ⟨rfl, by decide, by decide⟩, by decide, by decide⟩

/-- names in a store by looking at its snapshot -/
theorem named_concrete {s : DB} (hg : Good s) (v n : Str) :
    Blob.Spec.Named s v n ↔ ∃ en, s.updateSnapshot.1.snapshot.get? v = some en ∧ name en = some n :=
  (named_log (updateSnapshot_log s) v n).symm.trans
    (named_fresh (good_withSnapshot hg (fun s => ((s, .panic) : Out Str))).2.1 v n)

theorem get_mem {s : DB} {v : Str} {en : Entry} {n : Str} (h : s.snapshot.get? v = some en) (hn : name en = some n) :
    (v, some n) ∈ s.snapshot.map (fun p => (p.1, name p.2)) := by
  have : (v, en) ∈ s.snapshot := GoMap.mem_of_get? h
  exact List.mem_map.2 ⟨_, this, by simp [hn]⟩

theorem u0_none : ∀ v user, ¬ IsUser u0.store v user := by
  rintro v user h
  obtain ⟨en, h1, -⟩ := (named_concrete good_new _ _).1 h
  have : u0.store.updateSnapshot.1.snapshot = [] := by decide +kernel
  rw [show DB.new = u0.store from rfl, this] at h1
  cases h1

theorem u0_new : NewOk toy u0.store d0.uuid [97] := by
  refine ⟨?_, by decide, by decide, fun v user' h => absurd h (u0_none v user'), ?_⟩
  · rintro ⟨e, st, a, b⟩
    cases a
    simp [Txlogs.Spec.empty] at b
  · intro l _ h
    match l, h with
    | [], _ => simp
    | v :: l, h =>
      obtain ⟨x, hx⟩ := h v (by simp)
      exact absurd hx (u0_none v x)

theorem u1_multi : MultiSession toy u1 ∧ u1.creds.user = [97] ∧
    Holders toy u1 (Txlogs.Spec.upd (fun _ => none) [97] (some [1])) := by
  obtain ⟨u', h1, h2, h3, h4⟩ := C51_first_user toy toy_lawful perm_id d0_ok u0_single u0_new u0_none
  have : u' = u1 := by rw [u1, h1]
  subst this
  exact ⟨h2, h3, h4⟩

theorem u1_users {v user : Str} (h : IsUser u1.store v user) : v = [9] ∧ user = [97] := by
  obtain ⟨en, h1, h2⟩ := (named_concrete u1_multi.1.good _ _).1 h
  have hm := get_mem h1 h2
  have he : u1.store.updateSnapshot.1.snapshot.map (fun p => (p.1, name p.2)) = [([9], some (userPrefix ++ [97]))] := by
    decide +kernel
  rw [he] at hm
  simp at hm
  exact hm

theorem u1_a : IsUser u1.store [9] [97] := by
  obtain ⟨v, hv⟩ := u1_multi.1.me
  rw [u1_multi.2.1] at hv
  rw [(u1_users hv).1] at hv
  exact hv

theorem fresh_concrete {s : DB} (hg : Good s) {v : Str} (h : s.updateSnapshot.1.snapshot.get? v = none) : ¬ Exists s v := by
  rintro ⟨e, he⟩
  obtain ⟨en, a, -⟩ := (visible_fresh (good_withSnapshot hg (fun s => ((s, .panic) : Out Str))).2.1 v e).1
    ((visible_log (updateSnapshot_log s) _ _).2 he)
  rw [h] at a
  cases a

theorem u1_new : NewOk toy u1.store dBob.uuid [98] := by
  refine ⟨fresh_concrete u1_multi.1.good (by decide +kernel), by decide, by decide, ?_, ?_⟩
  · intro v user' h hh
    rw [(u1_users h).2] at hh
    exact absurd hh (by decide)
  · intro l hl h
    have := nodup_subset_length l [[9]] hl (by
      intro x hx
      obtain ⟨y, hy⟩ := h x hx
      simp [(u1_users hy).1])
    simp at this
    omega

theorem u1_free : ∀ v, ¬ IsUser u1.store v [98] := by
  intro v h
  exact absurd (u1_users h).2 (by decide)

theorem u2_multi : MultiSession toy u2 ∧ u2.creds = u1.creds ∧
    Account toy u2.store u1.creds.master [98] dBob.salt (toy.kdf [7] dBob.salt) := by
  obtain ⟨u', h1, h2, h3, h4, h5⟩ := adduser_multi toy toy_lawful perm_id dBob_ok u1_multi.1 dBob_pw u1_new u1_free
  have : u' = u2 := by rw [u2, h1]
  subst this
  exact ⟨h2, h3, h4⟩

/-- a codec that is faithful for one store -/
theorem codec_faithful {s : DB} (hg : Good s) (ht : s.txPoint = 0) : Faithful (codec s) s :=
  ⟨by simp [codec], ⟨s, rfl, rfl, rfl, ht, hg.ok.nodup, hg.ok.inner, rfl⟩, rfl⟩

theorem iv40 : (List.replicate 40 (4 : UInt8)).length = 40 := by decide

/-! ## C52 -/

/-- after `rekeyall` -/
def u4 : Session := (rekeyAll toy id id dAll (fun _ => dAll) u1).1

theorem u4_multi : MultiSession toy u4 := by
  obtain ⟨u', out, h1, h2, -⟩ := C52_old_master_partial toy toy_lawful perm_id perm_id' (d := dAll) (ds := fun _ => dAll) dAll_ok
    (fun _ => dAll_ok) u1_multi.1 (by decide +kernel)
  have : u' = u4 := by rw [u4, h1]
  exact this ▸ h2

/-- the password `rekeyall` prints for user `a` when all random bytes are 0 -/
def printed : Str := match (rekeyAll toy id id dAll (fun _ => dAll) u1).2 with
  | .ok [(_, p)] => p
  | _ => []

def f4 : Str := match saveBlob toy (codec u4.store) id id (List.replicate 40 4) u4 with
  | .ok (some f) => f
  | _ => []

set_option maxRecDepth 1000000 in
/-- C52 is false: there is a file and a run of `rekeyall` that reports success and whose result is saved, such that no
passphrase it printed opens the file. -/
theorem C52_false : ∃ (P : Prims) (C : Codec) (u u' : Session) (d : Draw) (out : List (Str × Str)) (f : Str),
    Crypt.Spec.Lawful P ∧ MultiSession P u ∧ DrawOk d ∧ rekeyAll P id id d (fun _ => d) u = (u', .ok out) ∧ out ≠ [] ∧
      MultiSession P u' ∧ Faithful C u'.store ∧ saveBlob P C id id (List.replicate 40 4) u' = .ok (some f) ∧
      ∀ x ∈ out, (openFile P C none f [some x.1, some x.2]).1 = .err (.crypt .wrongPassphrase) := by
  refine ⟨toy, codec u4.store, u1, u4, dAll, [([97], printed)], f4, toy_lawful, u1_multi.1, dAll_ok, by decide +kernel, by simp,
    u4_multi, codec_faithful u4_multi.good u4_multi.idle, by decide +kernel, ?_⟩
  intro x hx
  rw [List.mem_singleton.1 hx]
  decide +kernel

/-! ## The hypotheses of the other properties are satisfied -/

example : ∃ f s', saveBlob toy (codec u0.store) id id (List.replicate 40 4) u0 = .ok (some f) ∧ SameStore s' u0.store ∧
    ∃ x, openFile toy (codec u0.store) none f [some [1]] = (.ok x, []) := by
  obtain ⟨f, s', h1, h2, h3⟩ := C51_save_open_single toy toy_lawful (codec u0.store) id id _ iv40 u0 rfl rfl
    (codec_faithful u0_single.good rfl) u0_single.creds [1] (by decide) u0_single.key
  exact ⟨f, s', h1, h2, _, h3⟩

/-- a `passwd` and an `adduser` after the first user -/
example : ∃ u' t', Runs toy id u2 (Txlogs.Spec.upd (fun _ => none) [98] (some [7])) u' t' ∧ t' [97] = some [7] ∧ t' [98] = some [7] := by
  have hh : Holders toy u2 (Txlogs.Spec.upd (fun _ => none) [98] (some [7])) := by
    intro user pass h
    simp only [Txlogs.Spec.upd] at h
    split at h
    · cases h
      rename_i he
      exact ⟨_, by decide, he ▸ u2_multi.2.1 ▸ u2_multi.2.2⟩
    · cases h
  have hc : CanRun toy d0 u2 [7] (.passwd []) := ⟨d0_pw, by decide⟩
  obtain ⟨u', h1, h2, h3⟩ := C51_step toy toy_lawful perm_id d0_ok u2_multi.1 hh hc
  have hr := Runs.step d0 [7] _ (Runs.refl _ (Txlogs.Spec.upd (fun _ => none) [98] (some [7]))) d0_ok hc h1
  have hme : u2.creds.user = [97] := by rw [u2_multi.2.1, u1_multi.2.1]
  exact ⟨u', _, hr, by simp [effect, hme, Txlogs.Spec.upd], by simp [effect, hme, Txlogs.Spec.upd]⟩

example : ∃ f s', saveBlob toy (codec u1.store) id id (List.replicate 40 4) u1 = .ok (some f) ∧ SameStore s' u1.store ∧
    ∃ c, openFile toy (codec u1.store) none f [some [97], some [1]] =
      (.ok { creds := c, store := s', readOnly := false, startTx := u1.store.log.length }, []) := by
  obtain ⟨f, s', h1, h2, h3⟩ := C51_sequence_partial toy toy_lawful (codec u1.store) id perm_id id perm_id' (List.replicate 40 4)
    u1 u1 _ _ u1_multi.1 u1_multi.2.2 (.refl _ _) (codec_faithful u1_multi.1.good u1_multi.1.idle)
  obtain ⟨c, hc, -⟩ := h3 [97] [1] (by simp [Txlogs.Spec.upd])
  exact ⟨f, s', h1, h2, c, hc⟩

example := C51_passwd_single toy toy_lawful (codec u0.store) id id _ iv40 d0 d0_ok u0 [1] u0_single rfl [] [7] d0_pw (by decide)
  (codec_faithful u0_single.good rfl)

example := C51_rekey_single toy toy_lawful (codec u0.store) id id _ iv40 d0 d0_ok u0 u0_single
  (codec_faithful u0_single.good rfl)

example := C53_partial toy toy_lawful perm_id d0_ok u2_multi.1 [] (.inl rfl) d0_pw (by decide)

example := C53_false toy toy_lawful perm_id d0_ok u2_multi.1 [98] (by rw [u2_multi.2.1, u1_multi.2.1]; decide) d0_pw (by decide)

example := C51_passwd_rekey_false toy toy_lawful perm_id d0_ok d0_ok u1_multi.1 d0_pw (by decide) (by decide +kernel)

theorem u1_new' : NewOk toy u1.store dEmpty.uuid [98] := u1_new

example : ∃ C u' f, adduser toy id dEmpty u1 [98] = (u', .ok ()) ∧ saveBlob toy C id id (List.replicate 40 4) u' = .ok (some f) ∧
    ∀ h u'', (openFile toy C h f [some [98], some []]).1 ≠ .ok u'' := by
  obtain ⟨u', h1, h2, -⟩ := adduser_multi toy toy_lawful perm_id dEmpty_ok u1_multi.1 dEmpty_pw u1_new' u1_free
  refine ⟨codec u'.store, C51_empty_password_false toy toy_lawful _ perm_id id perm_id' _ dEmpty_ok u1_multi.1 dEmpty_pw
    u1_new' u1_free ?_⟩
  rw [h1]
  exact codec_faithful h2.good h2.idle

theorem u1_exists : Exists u1.store.updateSnapshot.1 [9] := by
  obtain ⟨e, h, -⟩ := u1_a
  exact ⟨e, (visible_log (updateSnapshot_log _) _ _).2 h⟩

example := C62_last_user_partial toy toy_lawful (codec (u1.store.updateSnapshot.1.delete 0 [9])) perm_id id _ iv40 0
  [some (userPrefix ++ u1.creds.user)] u1_multi.1 (uuid := [9]) (pass := [1]) (u1_multi.2.1 ▸ u1_a) (fun v user h => (u1_users h).1) rfl
  (by decide) (by decide +kernel) (by decide +kernel)
  (codec_faithful (good_delete _ _ (good_update u1_multi.1.good) u1_exists) (by decide +kernel))

/-- with two users, the current one cannot be removed -/
example : deleteEntry id 0 [] u2 (userPrefix ++ u2.creds.user) = ({ u2 with store := u2.store.updateSnapshot.1 }, .ok ()) := by
  obtain ⟨-, v, e, iv, mk, h1, h2, -⟩ := u2_multi.2.2
  obtain ⟨w, hw⟩ := u2_multi.1.me
  have hme : u2.creds.user = [97] := by rw [u2_multi.2.1, u1_multi.2.1]
  refine C62_self_refused perm_id 0 [] u2_multi.1.good (by rw [hme]; decide) (v := v) (w := w) ?_ ⟨e, h1, h2⟩ hw
  rintro rfl
  obtain ⟨e', a, b⟩ := hw
  rw [visible_unique h1 a] at h2
  rw [h2, hme] at b
  exact absurd b (by decide)

/-! An entry that looks like the entry of the only user: C62 -/

theorem u3_good : Good u3.store := by
  rcases good_newOp id perm_id (fun _ => 0) [7] (b! "x/user/a") u1_multi.1.good
    (fresh_concrete u1_multi.1.good (by decide +kernel)) with ⟨s', h, hs', -⟩ | ⟨s', h, hs', -⟩ <;>
  · have : u3.store = s' := by rw [u3, h]
    exact this ▸ hs'

theorem u3_names {v n : Str} (h : Blob.Spec.Named u3.store v n) :
    (v = [9] ∧ n = userPrefix ++ [97]) ∨ (v = [7] ∧ n = b! "x/user/a") := by
  obtain ⟨en, h1, h2⟩ := (named_concrete u3_good _ _).1 h
  have hm := get_mem h1 h2
  have he : u3.store.updateSnapshot.1.snapshot.map (fun p => (p.1, name p.2)) =
      [([9], some (userPrefix ++ [97])), ([7], some (b! "x/user/a"))] := by decide +kernel
  rw [he] at hm
  simpa using hm

theorem u3_users {v user : Str} (h : IsUser u3.store v user) : v = [9] ∧ user = [97] := by
  rcases u3_names h with h | ⟨-, h⟩
  · simpa using h
  · exact absurd h (by cases user <;> simp [userPrefix])

theorem u3_me : IsUser u3.store [9] [97] :=
  (named_concrete u3_good _ _).2 ⟨(u3.store.updateSnapshot.1.snapshot.get? [9]).getD [], by decide +kernel, by decide +kernel⟩

theorem u3_other : Blob.Spec.Named u3.store [7] (b! "x/user/a") :=
  (named_concrete u3_good _ _).2 ⟨(u3.store.updateSnapshot.1.snapshot.get? [7]).getD [], by decide +kernel, by decide +kernel⟩

theorem u3_multi : MultiSession toy u3 := by
  refine ⟨by decide +kernel, u3_good, by decide +kernel, ⟨by decide +kernel, by decide +kernel, by decide +kernel⟩,
    ⟨⟨_, _, u3_me⟩, ?_, ?_, ?_⟩, ?_, ⟨[9], ?_⟩⟩
  · intro l hl h
    have := nodup_subset_length l [[9]] hl (by
      intro x hx
      obtain ⟨y, hy⟩ := h x hx
      simp [(u3_users hy).1])
    simp at this
    omega
  · intro uuid e user h h'
    obtain ⟨rfl, rfl⟩ := u3_users ⟨e, h, h'⟩
    obtain ⟨en, h1, h2⟩ := (visible_fresh (good_withSnapshot u3_good (fun s => ((s, .panic) : Out Str))).2.1 [9] e).1
      ((visible_log (updateSnapshot_log _) _ _).2 h)
    have he : u3.store.updateSnapshot.1.snapshot.get? [9] = some ((u3.store.updateSnapshot.1.snapshot.get? [9]).getD []) := by
      decide +kernel
    rw [he] at h1
    cases h1
    refine ⟨by decide, List.replicate 32 1, List.replicate 40 2, (hexDecode ((e keyMKey).getD [])).getD [], ?_⟩
    subst h2
    exact ⟨by decide +kernel, by decide +kernel, by decide +kernel, by decide +kernel, by decide +kernel, by decide +kernel⟩
  · intro v w user user' h h' _
    rw [(u3_users h).1, (u3_users h').1]
  · intro v user h
    rw [(u3_users h).1]
    decide
  · have : u3.creds.user = [97] := by decide +kernel
    rw [this]
    exact u3_me

theorem u3_user : u3.creds.user = [97] := by decide +kernel

example := C62_false toy perm_id 0 [some (b! "x/user/a")] u3_multi (x := b! "x/") (uuid := [7]) (me := [9])
  (by decide +kernel) (by decide +kernel) u3_other
  (by
    intro v h
    rcases u3_names h with ⟨-, h⟩ | ⟨h, -⟩
    · exact absurd h (by decide +kernel)
    · exact h)
  (by decide) (u3_user ▸ u3_me) (fun v user h => (u3_users h).1) (by decide +kernel)

end Verif.App.Demo
