import Verif.App.RandomSpec
import Verif.Txlogs.Lemmas
/-!
# Lemmas for C122
-/
namespace Verif.App
open Verif Verif.Txlogs Verif.Blob Verif.Crypt
open Spec (drawnAs filledEnv)

theorem of_asked_ok {ε α : Type} {y : Res ε α} {a : α} (h : (.ok a : Res (Option ε) α) = asked y) : y = .ok a := by
  cases y <;> simp_all [asked]

theorem of_asked_err {ε α : Type} {y : Res ε α} {e : ε} (h : (.err (some e) : Res (Option ε) α) = asked y) : y = .err e := by
  cases y <;> simp_all [asked]

theorem of_asked_panic {ε α : Type} {y : Res ε α} (h : (.panic : Res (Option ε) α) = asked y) : y = .panic := by
  cases y <;> simp_all [asked]

theorem asked_ne {ε α : Type} {y : Res ε α} : (.err none : Res (Option ε) α) ≠ asked y := by
  cases y <;> simp [asked]

/-- the request failed, or the outcome is that of the ordinary model whatever stands for the answers not given -/
theorem genPasswordR_eq (ent : Option (Nat → UInt8)) (n : Int) (c : Classes) :
    genPasswordR ent n c = .err none ∨ ∀ f, genPasswordR ent n c = asked (genPassword (ent.getD f) n c) := by
  by_cases hn : c.needLen > n
  · right
    intro f
    unfold genPasswordR genPassword
    rw [if_pos hn, if_pos hn]
    rfl
  · cases ent with
    | none => left; unfold genPasswordR; rw [if_neg hn]
    | some e => right; intro f; unfold genPasswordR; rw [if_neg hn]; rfl

theorem pwLoopR_eq (ent : Nat → Option (Nat → UInt8)) : ∀ (fuel i : Nat) (regen : Bool) (st : PwState) (inp : Input),
    pwLoopR ent fuel i regen st inp = .err none ∨
      ∀ f : Nat → Nat → UInt8, pwLoopR ent fuel i regen st inp = asked (pwLoop (fun i => (ent i).getD (f i)) fuel i regen st inp) := by
  intro fuel
  induction fuel with
  | zero => intro i regen st inp; right; intro f; rfl
  | succ fuel ih =>
    intro i regen st inp
    have hnext : ∀ (st : PwState) (i : Nat),
        (match choose st inp with
          | .ret pw => .ok pw
          | .fail => .err (some ())
          | .crash => .panic
          | .again regen st rest => pwLoopR ent fuel i regen st rest : Res (Option Unit) Str) = .err none ∨
        ∀ f : Nat → Nat → UInt8, (match choose st inp with
          | .ret pw => .ok pw
          | .fail => .err (some ())
          | .crash => .panic
          | .again regen st rest => pwLoopR ent fuel i regen st rest : Res (Option Unit) Str) =
          asked (match choose st inp with
          | .ret pw => .ok pw
          | .fail => .err ()
          | .crash => .panic
          | .again regen st rest => pwLoop (fun i => (ent i).getD (f i)) fuel i regen st rest) := by
      intro st i
      cases hc : choose st inp with
      | ret pw => right; intro f; rfl
      | fail => right; intro f; rfl
      | crash => right; intro f; rfl
      | again regen st rest => exact ih i regen st rest
    rw [pwLoopR]
    cases regen with
    | false =>
      rcases hnext st i with h | h
      · left; exact h
      · right; intro f; rw [pwLoop]; exact h f
    | true =>
      simp only [if_true]
      rcases genPasswordR_eq (ent i) st.length st.classes with hg | hg
      · left; rw [hg]
      · cases hr : genPasswordR (ent i) st.length st.classes with
        | panic =>
          right; intro f
          rw [hr] at hg
          rw [pwLoop]
          simp only [if_true, of_asked_panic (hg (f i))]
          rfl
        | ok pw =>
          rw [hr] at hg
          dsimp only
          rcases hnext { st with password := pw, shown := true } (i + 1) with h | h
          · left; exact h
          · right; intro f
            rw [pwLoop]
            simp only [if_true, of_asked_ok (hg (f i))]
            exact h f
        | err e =>
          rw [hr] at hg
          cases e with
          | none => exact absurd (hg fun _ => 0) asked_ne
          | some e =>
            dsimp only
            rcases hnext { st with password := [], shown := false } (i + 1) with h | h
            · left; exact h
            · right; intro f
              rw [pwLoop]
              simp only [if_true, of_asked_err (hg (f i))]
              exact h f

theorem getPasswordR_eq (x : Rolls) (inp : Input) :
    getPasswordR x.ent inp = .err none ∨ ∀ f : Draw, getPasswordR x.ent inp = asked (getPassword (drawnAs x f).ent inp) := by
  rcases pwLoopR_eq x.ent (inp.length + 1) 0 true {} inp with h | h
  · exact .inl h
  · exact .inr fun f => h f.ent

theorem deriveKeyR_eq (P : Prims) (x : Rolls) (pass : Str) :
    deriveKeyR P pass x.salt = .err none ∨ ∀ f : Draw, deriveKeyR P pass x.salt = asked (deriveKey P 1 pass (drawnAs x f).salt) := by
  unfold drawnAs
  cases x.salt with
  | none => exact .inl rfl
  | some s => exact .inr fun f => rfl

theorem encryptMasterKeyR_eq (P : Prims) (x : Rolls) (key master : Str) :
    encryptMasterKeyR P key master x.iv = .err none ∨
      ∀ f : Draw, encryptMasterKeyR P key master x.iv = asked (encryptMasterKey P 1 key master (drawnAs x f).iv) := by
  by_cases h1 : master.length ≠ keySize
  · right; intro f; simp only [encryptMasterKeyR, encryptMasterKey, if_pos h1]; rfl
  · by_cases h2 : key.length ≠ keySize
    · right; intro f; simp only [encryptMasterKeyR, encryptMasterKey, if_neg h1, if_pos h2]; rfl
    · unfold drawnAs
      unfold encryptMasterKeyR
      rw [if_neg h1, if_neg h2]
      cases x.iv with
      | none => exact .inl rfl
      | some s => exact .inr fun f => rfl

theorem newR_eq (ord : Order) (x : Rolls) (s : DB) (nm : Str) :
    (newR ord x.now x.uuid s nm).2 = .err none ∨
      ∀ f : Draw, newR ord x.now x.uuid s nm = asked2 (Blob.new ord (drawnAs x f).now (drawnAs x f).uuid s nm) := by
  unfold newR Blob.new withSnapshot drawnAs
  rcases s.updateSnapshot with ⟨s', e⟩
  cases e with
  | some e => exact .inr fun f => rfl
  | none =>
    dsimp only
    cases nameTaken nm (ord s'.snapshot) with
    | none => exact .inr fun f => rfl
    | some b =>
      cases b with
      | true => exact .inr fun f => rfl
      | false =>
        cases x.uuid with
        | none => exact .inl rfl
        | some id => exact .inr fun f => rfl

theorem newSyncLoopR_eq (ord : Order) (x : Rolls) : ∀ (fuel : Nat) (s : DB) (nm : Str),
    (∃ s', newSyncLoopR ord x.now x.uuid fuel s nm = some (s', .err none)) ∨
      ∀ f : Draw, newSyncLoopR ord x.now x.uuid fuel s nm =
        (newSyncLoop ord (drawnAs x f).now (drawnAs x f).uuid fuel s nm).map asked2 := by
  intro fuel
  induction fuel with
  | zero => intro s nm; exact .inr fun f => rfl
  | succ fuel ih =>
    intro s nm
    rw [newSyncLoopR]
    rcases newR_eq ord x s nm with h | h
    · left
      rcases hn : newR ord x.now x.uuid s nm with ⟨s', o⟩
      rw [hn] at h
      cases h
      exact ⟨s', rfl⟩
    · rcases hn : newR ord x.now x.uuid s nm with ⟨s', o⟩
      rw [hn] at h
      have h' : ∀ f : Draw, (s' = (Blob.new ord (drawnAs x f).now (drawnAs x f).uuid s nm).1) ∧
          o = asked (Blob.new ord (drawnAs x f).now (drawnAs x f).uuid s nm).2 := fun f => by
        have := h f
        unfold asked2 at this
        exact ⟨congrArg Prod.fst this, congrArg Prod.snd this⟩
      have h2 : ∀ (f : Draw) (y : Res BErr Str), (Blob.new ord (drawnAs x f).now (drawnAs x f).uuid s nm).2 = y →
          Blob.new ord (drawnAs x f).now (drawnAs x f).uuid s nm = (s', y) := fun f y hy =>
        Prod.ext (h' f).1.symm hy
      cases o with
      | ok a =>
        right; intro f
        rw [newSyncLoop, h2 f _ (of_asked_ok (h' f).2)]
        rfl
      | panic =>
        right; intro f
        rw [newSyncLoop, h2 f _ (of_asked_panic (h' f).2)]
        rfl
      | err e =>
        cases e with
        | none => exact .inl ⟨s', rfl⟩
        | some e =>
          by_cases he : e = .nameNotUnique
          · cases he
            rcases ih s' (nm ++ b! "1") with h3 | h3
            · exact .inl h3
            · right; intro f
              rw [newSyncLoop, h2 f _ (of_asked_err (h' f).2)]
              exact h3 f
          · right; intro f
            rw [newSyncLoop, h2 f _ (of_asked_err (h' f).2)]
            cases e <;> first | rfl | exact absurd rfl he

/-- a request failed, or all is as in the ordinary model whatever stands for the answers not given -/
def Fits {φ σ ε α : Type} (a : σ × Res (Option ε) α) (b : φ → σ × Res ε α) : Prop :=
  a.2 = .err none ∨ ∀ f, a = asked2 (b f)

theorem storeUserR_fits (P : Prims) (ord : Order) (x : Rolls) (u : Session) (user key salt : Str) :
    Fits (storeUserR P ord x u user key salt) fun f => storeUser P ord (drawnAs x f) u user key salt := by
  unfold storeUserR storeUser
  rcases mustFindUser ord u.store user with ⟨s, o⟩
  cases o with
  | panic => exact .inr fun f => rfl
  | err e => exact .inr fun f => rfl
  | ok a =>
    dsimp only
    rcases encryptMasterKeyR_eq P x key u.creds.master with h | h
    · left; rw [h]
    · cases hr : encryptMasterKeyR P key u.creds.master x.iv with
      | panic =>
        rw [hr] at h
        right; intro f; simp only [of_asked_panic (h f)]; rfl
      | ok r =>
        rw [hr] at h
        right; intro f; simp only [of_asked_ok (h f)]; rfl
      | err e =>
        rw [hr] at h
        cases e with
        | none => exact .inl rfl
        | some e => right; intro f; simp only [of_asked_err (h f)]; rfl

theorem finishUserR_fits (P : Prims) (x : Rolls) (u : Session) (uuid key salt : Str) :
    Fits (finishUserR P x u uuid key salt) fun f => finishUser P (drawnAs x f) u uuid key salt := by
  unfold finishUserR finishUser
  rcases encryptMasterKeyR_eq P x key u.creds.master with h | h
  · left; rw [h]
  · cases hr : encryptMasterKeyR P key u.creds.master x.iv with
    | panic =>
      rw [hr] at h
      right; intro f; simp only [of_asked_panic (h f)]; rfl
    | ok r =>
      rw [hr] at h
      right; intro f; simp only [of_asked_ok (h f)]; rfl
    | err e =>
      rw [hr] at h
      cases e with
      | none => exact .inl rfl
      | some e => right; intro f; simp only [of_asked_err (h f)]; rfl

theorem Fits.ite {φ σ ε α : Type} {c : Prop} [Decidable c] {a a' : σ × Res (Option ε) α} {b b' : φ → σ × Res ε α}
    (h : c → Fits a b) (h' : ¬ c → Fits a' b') : Fits (if c then a else a') fun f => if c then b f else b' f := by
  by_cases hc : c
  · simp only [if_pos hc]; exact h hc
  · simp only [if_neg hc]; exact h' hc

/-- a password is asked for, then the command goes on -/
theorem withPassword_fits {σ α : Type} (x : Rolls) (inp : Input) (u : σ) (k : Str → σ × Res (Option AppErr) α)
    (k' : Str → Draw → σ × Res AppErr α) (h : ∀ pass, Fits (k pass) (k' pass)) :
    Fits (match getPasswordR x.ent inp with
        | .panic => (u, .panic)
        | .err none => (u, .err none)
        | .err (some _) => (u, .err (some .aborted))
        | .ok pass => k pass)
      fun f => match getPassword (drawnAs x f).ent inp with
        | .panic => (u, .panic)
        | .err _ => (u, .err .aborted)
        | .ok pass => k' pass f := by
  rcases getPasswordR_eq x inp with hp | hp
  · left; rw [hp]
  · cases hr : getPasswordR x.ent inp with
    | panic =>
      rw [hr] at hp
      right; intro f; simp only [of_asked_panic (hp f)]; rfl
    | ok r =>
      rw [hr] at hp
      rcases h r with h1 | h1
      · exact .inl h1
      · right; intro f; simp only [of_asked_ok (hp f)]; exact h1 f
    | err e =>
      rw [hr] at hp
      cases e with
      | none => exact .inl rfl
      | some e => right; intro f; simp only [of_asked_err (hp f)]; rfl

/-- a key is derived, or the request fails -/
theorem deriveKeyR_cases (P : Prims) (x : Rolls) (pass : Str) :
    deriveKeyR P pass x.salt = .err none ∨
      ∃ key salt, deriveKeyR P pass x.salt = .ok (key, salt) ∧ ∀ f : Draw, deriveKey P 1 pass (drawnAs x f).salt = .ok (key, salt) := by
  unfold drawnAs
  cases x.salt with
  | none => exact .inl rfl
  | some s => exact .inr ⟨P.kdf pass s, s, rfl, fun f => rfl⟩

theorem Fits.same {φ σ ε α : Type} {a : σ × Res ε α} : Fits (asked2 a) fun _ : φ => a := .inr fun _ => rfl

theorem passwdR_fits (P : Prims) (ord : Order) (x : Rolls) (u : Session) (user : Str) :
    Fits (passwdR P ord x u user) fun f => passwd P ord (drawnAs x f) u user := by
  unfold passwdR passwd
  refine withPassword_fits x x.inp u _ (fun pass f => _) fun pass => ?_
  refine Fits.ite (fun _ => Fits.same (a := (u, .ok ()))) fun _ => ?_
  rcases deriveKeyR_cases P x pass with h | ⟨key, salt, h, h'⟩
  · left; rw [h]
  simp only [h, h']
  generalize (if u.creds.user = [] ∨ u.creds.user = user then
    { u with creds := { u.creds with pass := pass, key := key, salt := salt } } else u : Session) = w
  exact Fits.ite (fun _ => Fits.same (a := (w, .ok ()))) fun _ => storeUserR_fits P ord x w _ key salt

theorem rekeyR_fits (P : Prims) (ord : Order) (x : Rolls) (u : Session) (user : Str) :
    Fits (rekeyR P ord x u user) fun f => rekey P ord (drawnAs x f) u user := by
  have hrest : ∀ pass : Str, Fits (if pass = [] then ((u, .ok ()) : Session × Res (Option AppErr) Unit)
    else
      match deriveKeyR P pass x.salt with
      | .panic => (u, .panic)
      | .err none => (u, .err none)
      | .err (some e) => (u, .err (some (.crypt e)))
      | .ok (key, salt) =>
        let u := if user = [] then
          { u with creds := { u.creds with pass := pass, key := key, salt := salt } } else u
        if u.creds.master = [] then (u, .ok ())
        else storeUserR P ord x u (if user = [] then u.creds.user else user) key salt)
     (fun f => if pass = [] then (u, .ok ())
    else
      match deriveKey P 1 pass (drawnAs x f).salt with
      | .panic => (u, .panic)
      | .err e => (u, .err (.crypt e))
      | .ok (key, salt) =>
        let u := if user = [] then
          { u with creds := { u.creds with pass := pass, key := key, salt := salt } } else u
        if u.creds.master = [] then (u, .ok ())
        else storeUser P ord (drawnAs x f) u (if user = [] then u.creds.user else user) key salt) := by
    intro pass
    refine Fits.ite (fun _ => Fits.same (a := (u, .ok ()))) fun _ => ?_
    rcases deriveKeyR_cases P x pass with h | ⟨key, salt, h, h'⟩
    · left; rw [h]
    simp only [h, h']
    generalize (if user = [] then
      { u with creds := { u.creds with pass := pass, key := key, salt := salt } } else u : Session) = w
    exact Fits.ite (fun _ => Fits.same (a := (w, .ok ()))) fun _ => storeUserR_fits P ord x w _ key salt
  unfold rekeyR rekey
  by_cases hu : user = []
  · have := hrest u.creds.pass
    simp only [if_pos hu] at this ⊢
    exact this
  · have := withPassword_fits x x.inp u _ _ hrest
    simp only [if_neg hu] at this ⊢
    exact this

/-- the outcome of `New` when the request did not fail -/
theorem newR_cases (ord : Order) (x : Rolls) (s : DB) (nm : Str) :
    (∃ s', newR ord x.now x.uuid s nm = (s', .err none)) ∨
      ∃ s' o, newR ord x.now x.uuid s nm = (s', asked o) ∧
        ∀ f : Draw, Blob.new ord (drawnAs x f).now (drawnAs x f).uuid s nm = (s', o) := by
  rcases newR_eq ord x s nm with h | h
  · exact .inl ⟨_, Prod.ext rfl h⟩
  · right
    rcases hn : newR ord x.now x.uuid s nm with ⟨s', o⟩
    rw [hn] at h
    have h1 : ∀ f : Draw, s' = (Blob.new ord (drawnAs x f).now (drawnAs x f).uuid s nm).1 := fun f => congrArg Prod.fst (h f)
    have h2 : ∀ f : Draw, o = asked (Blob.new ord (drawnAs x f).now (drawnAs x f).uuid s nm).2 := fun f => congrArg Prod.snd (h f)
    cases o with
    | ok a => exact ⟨s', .ok a, rfl, fun f => Prod.ext (h1 f).symm (of_asked_ok (h2 f))⟩
    | panic => exact ⟨s', .panic, rfl, fun f => Prod.ext (h1 f).symm (of_asked_panic (h2 f))⟩
    | err e =>
      cases e with
      | none => exact absurd (h2 {}) asked_ne
      | some e => exact ⟨s', .err e, rfl, fun f => Prod.ext (h1 f).symm (of_asked_err (h2 f))⟩

theorem adduserR_fits (P : Prims) (ord : Order) (x : Rolls) (u : Session) (user : Str)
    (hm : u.creds.master = [] → x.master ≠ none ∧ x.ivm ≠ none) :
    Fits (adduserR P ord x u user) fun f => adduser P ord (drawnAs x f) u user := by
  unfold adduserR adduser newUser
  rcases newR_cases ord x u.store (userPrefix ++ user) with ⟨s', h⟩ | ⟨s', o, h, h'⟩
  · left; rw [h]
  simp only [h, h']
  cases o with
  | panic => exact .inr fun f => rfl
  | err e => right; intro f; cases e <;> rfl
  | ok uuid =>
    simp only [asked]
    refine Fits.ite (fun hc => ?_) fun _ => ?_
    · obtain ⟨h1, h2⟩ := hm hc
      unfold drawnAs
      cases hx : x.master with
      | none => exact absurd hx h1
      | some m =>
        cases hi : x.ivm with
        | none => exact absurd hi h2
        | some i =>
          have := finishUserR_fits P x
            { u with store := s', creds := { u.creds with master := m, ivm := i, user := user } } uuid u.creds.key u.creds.salt
          unfold drawnAs at this
          simp only [hx, hi] at this ⊢
          exact this
    · refine withPassword_fits x x.inp { u with store := s' } _ (fun pass f => _) fun pass => ?_
      rcases deriveKeyR_cases P x pass with h | ⟨key, salt, h, h'⟩
      · left; rw [h]
      simp only [h, h']
      exact finishUserR_fits P x _ uuid key salt

theorem rekeyLoopR_fits (P : Prims) : ∀ (us : List (Str × Str)) (xs : Nat → Rolls) (u : Session) (out : List (Str × Str)),
    Fits (rekeyLoopR P us xs u out) fun fs : Nat → Draw => rekeyLoop P us (fun i => drawnAs (xs i) (fs i)) u out := by
  intro us
  induction us with
  | nil => intro xs u out; exact .inr fun f => rfl
  | cons a rest ih =>
    intro xs u out
    obtain ⟨uuid, nm⟩ := a
    rcases genPasswordR_eq ((xs 0).ent 0) 32 {} with hg | hg
    · left; rw [rekeyLoopR]; simp only [hg]
    cases hr : genPasswordR ((xs 0).ent 0) 32 {} with
    | panic =>
      rw [hr] at hg
      right; intro f; show _ = asked2 (rekeyLoop _ _ _ _ _); rw [rekeyLoopR, rekeyLoop]
      simp only [hr, show (drawnAs (xs 0) (f 0)).ent 0 = ((xs 0).ent 0).getD ((f 0).ent 0) from rfl, of_asked_panic (hg _)]
      rfl
    | err e =>
      rw [hr] at hg
      cases e with
      | none => exact absurd (hg fun _ => 0) asked_ne
      | some e =>
        right; intro f; show _ = asked2 (rekeyLoop _ _ _ _ _); rw [rekeyLoopR, rekeyLoop]
        simp only [hr, show (drawnAs (xs 0) (f 0)).ent 0 = ((xs 0).ent 0).getD ((f 0).ent 0) from rfl, of_asked_err (hg _)]
        rfl
    | ok pass =>
      rw [hr] at hg
      rcases deriveKeyR_cases P (xs 0) pass with h | ⟨key, salt, h, h'⟩
      · left; rw [rekeyLoopR]; simp only [hr, h]
      generalize hw : (if splitUsername nm = u.creds.user then
        { u with creds := { u.creds with pass := pass, key := key, salt := salt } } else u : Session) = w
      rcases encryptMasterKeyR_eq P (xs 0) key w.creds.master with he | he
      · left; rw [rekeyLoopR]; simp only [hr, h, hw, he]
      · cases hk : encryptMasterKeyR P key w.creds.master (xs 0).iv with
        | panic =>
          rw [hk] at he
          right; intro f; show _ = asked2 (rekeyLoop _ _ _ _ _); rw [rekeyLoopR, rekeyLoop]
          simp only [hr, h, h', hw, hk, show (drawnAs (xs 0) (f 0)).ent 0 = ((xs 0).ent 0).getD ((f 0).ent 0) from rfl,
            of_asked_ok (hg _), of_asked_panic (he _)]
          rfl
        | err e =>
          rw [hk] at he
          cases e with
          | none => exact absurd (he {}) asked_ne
          | some e =>
            right; intro f; show _ = asked2 (rekeyLoop _ _ _ _ _); rw [rekeyLoopR, rekeyLoop]
            simp only [hr, h, h', hw, hk, show (drawnAs (xs 0) (f 0)).ent 0 = ((xs 0).ent 0).getD ((f 0).ent 0) from rfl,
              of_asked_ok (hg _), of_asked_err (he _)]
            rfl
        | ok k =>
          rw [hk] at he
          rcases ih (fun i => xs (i + 1)) { w with store := setRecord (xs 0).now w.store uuid salt k.2 k.1 }
            (out ++ [(splitUsername nm, pass)]) with hi | hi
          · left; rw [rekeyLoopR]; simp only [hr, h, hw, hk]; exact hi
          · right; intro f; show _ = asked2 (rekeyLoop _ _ _ _ _); rw [rekeyLoopR, rekeyLoop]
            simp only [hr, h, h', hw, hk, show (drawnAs (xs 0) (f 0)).ent 0 = ((xs 0).ent 0).getD ((f 0).ent 0) from rfl,
              of_asked_ok (hg _), of_asked_ok (he _)]
            exact hi fun i => f (i + 1)

theorem endAll (q : Session × Res AppErr (List (Str × Str))) (m i : Str) :
    (match asked2 q with
      | (u, .ok out) => ({ u with creds := { u.creds with master := m, ivm := i } }, .ok out)
      | r => r : Session × Res (Option AppErr) (List (Str × Str))) =
    asked2 (match q with
      | (u, .ok out) => ({ u with creds := { u.creds with master := m, ivm := i } }, .ok out)
      | r => r) := by
  obtain ⟨u, o⟩ := q
  cases o <;> rfl

theorem rekeyAllR_fits (P : Prims) (ord : Order) (ord' : Results → Results) (x : Rolls) (xs : Nat → Rolls) (u : Session) :
    Fits (rekeyAllR P ord ord' x xs u) fun f : Draw × (Nat → Draw) =>
      rekeyAll P ord ord' (drawnAs x f.1) (fun i => drawnAs (xs i) (f.2 i)) u := by
  unfold rekeyAllR rekeyAll
  refine Fits.ite (fun _ => Fits.same (a := (u, .ok []))) fun _ => ?_
  unfold drawnAs
  dsimp only
  rcases getYesNo x.inp with ⟨o, rest⟩
  cases o with
  | none => exact .inr fun f => rfl
  | some b =>
    cases b with
    | false => exact .inr fun f => rfl
    | true =>
      cases x.master with
      | none => exact .inl rfl
      | some m =>
        cases x.ivm with
        | none => exact .inl rfl
        | some i =>
          rcases users ord u.store with ⟨s, o⟩
          cases o with
          | panic => exact .inr fun f => rfl
          | err e => exact .inr fun f => rfl
          | ok us =>
            dsimp only
            rcases rekeyLoopR_fits P (ord' us) xs { u with store := s } [] with h | h
            · left
              rcases hl : rekeyLoopR P (ord' us) xs { u with store := s } [] with ⟨u', o'⟩
              rw [hl] at h
              cases h
              rfl
            · right; intro f
              have hf := h f.2
              unfold drawnAs at hf
              dsimp only at hf
              rw [hf]
              exact endAll _ m i

theorem doCmdR_fits {φ : Type} (u : Session) (k : Session → Session × Res (Option AppErr) Unit) (k' : φ → Session → Session × Res AppErr Unit)
    (h : Fits (k { u with store := u.store.begin }) fun f => k' f { u with store := u.store.begin })
    (hr : ∀ w, k { u with store := u.store.begin } = (w, .err none) → w.store.rollback ≠ none) :
    Fits (doCmdR u k) fun f => doCmd u (k' f) := by
  unfold doCmdR doCmd
  rcases h with h | h
  · rcases hk : k { u with store := u.store.begin } with ⟨w, o⟩
    rw [hk] at h
    cases h
    left
    cases hb : w.store.rollback with
    | none => exact absurd hb (hr w hk)
    | some s => simp only [hb]
  · right; intro f
    have hf := h f
    dsimp only at hf ⊢
    rw [hf]
    generalize k' f { u with store := u.store.begin } = q
    obtain ⟨w, o⟩ := q
    cases o with
    | ok a => simp only [asked2, asked]; cases w.store.commit <;> rfl
    | err e => simp only [asked2, asked]; cases w.store.rollback <;> rfl
    | panic => rfl

/-- inside a transaction begun on a log of `n` operations -/
def Within (n : Nat) (s : DB) : Prop := s.txPoint = n + 1 ∧ n ≤ s.log.length

theorem Within.rollback {n : Nat} {s : DB} (h : Within n s) : s.rollback ≠ none := by
  unfold DB.rollback
  rw [if_neg (by rw [h.1]; omega)]
  dsimp only
  rw [if_neg (by rw [h.1]; have := h.2; omega)]
  simp

theorem within_begin (s : DB) : Within s.log.length s.begin := ⟨rfl, Nat.le_refl _⟩

theorem Within.update {n : Nat} {s : DB} (h : Within n s) : Within n s.updateSnapshot.1 :=
  ⟨by rw [updateSnapshot_txPoint]; exact h.1, by rw [updateSnapshot_log]; exact h.2⟩

theorem Within.add {n : Nat} {s : DB} (h : Within n s) (t : Int) (uuid : Str) : Within n (s.add t uuid) :=
  ⟨h.1, by simp only [DB.add, List.length_append]; have := h.2; omega⟩

theorem Within.setKey {n : Nat} {s : DB} (h : Within n s) (t : Int) (uuid k v : Str) : Within n (s.setKey t uuid k v) :=
  ⟨h.1, by simp only [DB.setKey, DB.appendLog, List.length_append]; have := h.2; omega⟩

theorem within_newR {n : Nat} {s : DB} (h : Within n s) (ord : Order) (now : Nat → Int) (uuid : Option Str) (nm : Str) :
    Within n (newR ord now uuid s nm).1 := by
  have h1 := h.update
  unfold newR
  revert h1
  rcases s.updateSnapshot with ⟨s', e⟩
  intro h1
  cases e with
  | some e => exact h1
  | none =>
    dsimp only
    cases nameTaken nm (ord s'.snapshot) with
    | none => exact h1
    | some b =>
      cases b with
      | true => exact h1
      | false =>
        cases uuid with
        | none => exact h1
        | some id => exact ((h1.add _ _).setKey _ _ _ _).setKey _ _ _ _

theorem within_newSync {n : Nat} (ord : Order) (now : Nat → Int) (uuid : Option Str) : ∀ (fuel : Nat) (s : DB) (nm : Str)
    (r : DB × Res (Option BErr) Str), Within n s → newSyncLoopR ord now uuid fuel s nm = some r → Within n r.1 := by
  intro fuel
  induction fuel with
  | zero => intro s nm r _ h; simp [newSyncLoopR] at h
  | succ fuel ih =>
    intro s nm r h hr
    have h1 := within_newR h ord now uuid nm
    rw [newSyncLoopR] at hr
    rcases hn : newR ord now uuid s nm with ⟨s', o⟩
    rw [hn] at hr h1
    cases o with
    | ok a => cases hr; exact h1
    | panic => cases hr; exact h1
    | err e =>
      cases e with
      | none => cases hr; exact h1
      | some e =>
        by_cases he : e = .nameNotUnique
        · cases he; exact ih _ _ _ h1 hr
        · have : some (s', (.err (some e) : Res (Option BErr) Str)) = some r := by
            cases e <;> first | exact hr | exact absurd rfl he
          cases this; exact h1

theorem addNewR_fits (v : Env) (x : Rolls) (xs : Nat → Rolls) (u : Session) (nm : Str) :
    Fits (addNewR v x u nm) fun f : Draw × (Nat → Draw) => addNew (filledEnv v x xs f.1 f.2) u nm := by
  unfold addNewR addNew
  refine doCmdR_fits u _ (fun f => _) ?_ ?_
  · rcases newR_cases v.ord x u.store.begin nm with ⟨s', h⟩ | ⟨s', o, h, h'⟩
    · left; simp only [h]
    simp only [h, filledEnv, h']
    cases o with
    | panic => exact .inr fun f => rfl
    | err e => right; intro f; cases e <;> rfl
    | ok uuid =>
      simp only [asked]
      have hi : ∀ f : Draw, (drawnAs x f).inp = x.inp := fun _ => rfl
      have hnow : ∀ f : Draw, (drawnAs x f).now = x.now := fun _ => rfl
      simp only [hi, hnow]
      rcases prompt x.inp with ⟨o1, i1⟩
      cases o1 with
      | none => exact .inr fun f => rfl
      | some email =>
        dsimp only
        rcases prompt i1 with ⟨o2, i2⟩
        cases o2 with
        | none => exact .inr fun f => rfl
        | some user =>
          dsimp only
          generalize hd : (fun pass => setNonEmpty (setNonEmpty (setNonEmpty s' (x.now 4) uuid keyUser user) (x.now 5) uuid keyEmail
            email) (x.now 6) uuid keyPass pass : Str → DB) = d
          rcases withPassword_fits x i2 ({ u with store := s' } : Session)
            (fun pass => (({ u with store := d pass } : Session), (.ok () : Res (Option AppErr) Unit)))
            (fun pass _ => (({ u with store := d pass } : Session), .ok ())) (fun pass => .inr fun f => rfl) with h3 | h3
          all_goals rw [← hd] at h3
          · exact .inl h3
          · exact .inr fun f => h3 f.1
  · intro w hw
    have h1 := within_newR (within_begin u.store) v.ord x.now x.uuid nm
    revert hw h1
    dsimp only
    rcases newR v.ord x.now x.uuid u.store.begin nm with ⟨s', o⟩
    intro hw h1
    refine Within.rollback (n := u.store.log.length) ?_
    have hs : w.store = s' := by
      cases o with
      | panic => cases hw
      | err e =>
        cases e with
        | none => cases hw; rfl
        | some e => cases e <;> cases hw
      | ok uuid =>
        revert hw
        dsimp only
        rcases prompt x.inp with ⟨o1, i1⟩
        cases o1 with
        | none => intro hw; cases hw
        | some email =>
          dsimp only
          rcases prompt i1 with ⟨o2, i2⟩
          cases o2 with
          | none => intro hw; cases hw
          | some user =>
            dsimp only
            cases getPasswordR x.ent i2 with
            | panic => intro hw; cases hw
            | ok p => intro hw; cases hw
            | err e => intro hw; cases e <;> cases hw; rfl
    rw [hs]; exact h1

theorem addSCPEntryR_fits (v : Env) (x : Rolls) (xs : Nat → Rolls) (u : Session) (uuid : Str) :
    Fits (addSCPEntryR v x u uuid) fun f : Draw × (Nat → Draw) => addSCPEntry (filledEnv v x xs f.1 f.2) u uuid := by
  unfold addSCPEntryR addSCPEntry
  have hi : ∀ f : Draw, (drawnAs x f).inp = x.inp := fun _ => rfl
  have hnow : ∀ f : Draw, (drawnAs x f).now = x.now := fun _ => rfl
  simp only [filledEnv, hi, hnow]
  rcases getString x.inp with ⟨o, i0⟩
  cases o with
  | none => exact .inr fun f => rfl
  | some user =>
    dsimp only
    rcases getString i0 with ⟨o, i1⟩
    cases o with
    | none => exact .inr fun f => rfl
    | some host =>
      dsimp only
      rcases askPort i1 with ⟨o, i2⟩
      cases o with
      | none => exact .inr fun f => rfl
      | some port =>
        dsimp only
        rcases getString i2 with ⟨o, i3⟩
        cases o with
        | none => exact .inr fun f => rfl
        | some path =>
          dsimp only
          rcases getMenuChoice 3 i3 with ⟨o, i4⟩
          cases o with
          | none => exact .inr fun f => rfl
          | some choice =>
            dsimp only
            refine Fits.ite (fun _ => ?_) fun _ => ?_
            · rcases withPassword_fits x i4 u
                (fun pass => (u, (.ok (v.scpUrl user host port path (some pass)) : Res (Option AppErr) Str)))
                (fun pass _ => (u, .ok (v.scpUrl user host port path (some pass)))) (fun pass => .inr fun f => rfl) with h3 | h3
              · exact .inl h3
              · exact .inr fun f => h3 f.1
            · cases v.keys with
              | none => exact .inr fun f => rfl
              | some k => exact .inr fun f => rfl

theorem addSCPEntryR_same (v : Env) (x : Rolls) (u w : Session) (uuid : Str) (h : addSCPEntryR v x u uuid = (w, .err none)) : w = u := by
  unfold addSCPEntryR at h
  revert h
  rcases getString x.inp with ⟨o, i0⟩
  cases o with
  | none => intro h; cases h
  | some user =>
    dsimp only
    rcases getString i0 with ⟨o, i1⟩
    cases o with
    | none => intro h; cases h
    | some host =>
      dsimp only
      rcases askPort i1 with ⟨o, i2⟩
      cases o with
      | none => intro h; cases h
      | some port =>
        dsimp only
        rcases getString i2 with ⟨o, i3⟩
        cases o with
        | none => intro h; cases h
        | some path =>
          dsimp only
          rcases getMenuChoice 3 i3 with ⟨o, i4⟩
          cases o with
          | none => intro h; cases h
          | some choice =>
            dsimp only
            by_cases hc : choice = 2
            · rw [if_pos hc]
              cases getPasswordR x.ent i4 with
              | panic => intro h; cases h
              | ok p => intro h; cases h
              | err e => intro h; cases e <;> cases h; rfl
            · rw [if_neg hc]
              cases v.keys with
              | none => intro h; cases h
              | some k => intro h; cases h

/-- the end of `addSync` in the ordinary model -/
theorem endSync_eq (x : Rolls) (uuid : Str) (p : Session × Res AppErr Str) :
    (match asked2 p with
      | (u, .panic) => (u, .panic)
      | (u, .err e) => (u, .err e)
      | (u, .ok uri) => asked2 (endSync x u uuid uri) : Session × Res (Option AppErr) Unit) =
    asked2 (match p with
      | (u, .panic) => (u, .panic)
      | (u, .err e) => (u, .err e)
      | (u, .ok uri) => endSync x u uuid uri) := by
  obtain ⟨w, o⟩ := p
  cases o <;> rfl

theorem lift_ok {α : Type} (u : Session) (s : DB) (a : α) : lift u (s, .ok a) = ({ u with store := s }, .ok a) := rfl

theorem newSync_cases (ord : Order) (x : Rolls) (fuel : Nat) (s : DB) (nm : Str) :
    (∃ s', newSyncLoopR ord x.now x.uuid fuel s nm = some (s', .err none)) ∨
    (newSyncLoopR ord x.now x.uuid fuel s nm = none ∧
      ∀ f : Draw, newSyncLoop ord (drawnAs x f).now (drawnAs x f).uuid fuel s nm = none) ∨
    ∃ s' o, newSyncLoopR ord x.now x.uuid fuel s nm = some (s', asked o) ∧
      ∀ f : Draw, newSyncLoop ord (drawnAs x f).now (drawnAs x f).uuid fuel s nm = some (s', o) := by
  rcases newSyncLoopR_eq ord x fuel s nm with h | h
  · exact .inl h
  · right
    cases hn : newSyncLoopR ord x.now x.uuid fuel s nm with
    | none =>
      rw [hn] at h
      exact .inl ⟨rfl, fun f => Option.map_eq_none_iff.1 (h f).symm⟩
    | some r =>
      right
      obtain ⟨s', o⟩ := r
      rw [hn] at h
      have h1 : ∀ f : Draw, ∃ o', newSyncLoop ord (drawnAs x f).now (drawnAs x f).uuid fuel s nm = some (s', o') ∧ o = asked o' := by
        intro f
        obtain ⟨⟨a, b⟩, ha, hb⟩ := Option.map_eq_some_iff.1 (h f).symm
        cases hb
        exact ⟨b, ha, rfl⟩
      obtain ⟨o0, _, h0⟩ := h1 {}
      refine ⟨s', o0, by rw [h0], fun f => ?_⟩
      obtain ⟨o', h2, h3⟩ := h1 f
      rw [h2]
      have : o' = o0 := by
        rw [h0] at h3
        cases o0 with
        | ok a => exact of_asked_ok h3
        | panic => exact of_asked_panic h3
        | err e => exact of_asked_err h3
      rw [this]

theorem addSyncR_fits (v : Env) (x : Rolls) (xs : Nat → Rolls) (u : Session) (kind : Str) :
    Fits (addSyncR v x u kind) fun f : Draw × (Nat → Draw) => addSync (filledEnv v x xs f.1 f.2) u kind := by
  unfold addSyncR addSync
  refine Fits.ite (fun _ => Fits.same (a := (u, .ok ()))) fun _ => ?_
  refine doCmdR_fits u _ (fun f => _) ?_ ?_
  · dsimp only
    rcases newSync_cases v.ord x (u.store.begin.log.length + 1) u.store.begin (syncPrefix ++ kind) with
      ⟨s', h⟩ | ⟨h, h'⟩ | ⟨s', o, h, h'⟩
    · left; simp only [h]
    · right; intro f
      have h2 := h' f.1
      simp only [h, filledEnv, newSync, h2]
      rfl
    · simp only [h, filledEnv, newSync, h']
      cases o with
      | panic => exact .inr fun f => rfl
      | err e => exact .inr fun f => rfl
      | ok uuid =>
        simp only [asked, lift_ok]
        by_cases hk : kind = syncFile
        · simp only [if_pos hk]
          have hi : ∀ f : Draw, (drawnAs x f).inp = x.inp := fun _ => rfl
          simp only [hi]
          rcases getString x.inp with ⟨o1, i1⟩
          cases o1 with
          | none => exact .inr fun f => rfl
          | some file =>
            dsimp only
            cases v.fileUrl file with
            | none => exact .inr fun f => rfl
            | some uri => exact .inr fun f => rfl
        · simp only [if_neg hk]
          rcases addSCPEntryR_fits v x xs { u with store := s' } uuid with h3 | h3
          · left
            generalize addSCPEntryR v x { u with store := s' } uuid = q at h3
            obtain ⟨w, o⟩ := q
            cases h3
            rfl
          · right; intro f
            have h4 := h3 f
            dsimp only at h4 ⊢
            rw [h4]
            exact endSync_eq x uuid _
  · intro w hw
    refine Within.rollback (n := u.store.log.length) ?_
    revert hw
    dsimp only
    cases hn : newSyncLoopR v.ord x.now x.uuid (u.store.begin.log.length + 1) u.store.begin (syncPrefix ++ kind) with
    | none => intro hw; cases hw
    | some r =>
      have h1 := within_newSync v.ord x.now x.uuid _ _ _ r (within_begin u.store) hn
      obtain ⟨s', o⟩ := r
      cases o with
      | panic => intro hw; cases hw
      | err e => intro hw; cases e <;> cases hw; exact h1
      | ok uuid =>
        dsimp only
        by_cases hk : kind = syncFile
        · simp only [if_pos hk]
          rcases getString x.inp with ⟨o1, i1⟩
          cases o1 with
          | none => intro hw; cases hw
          | some file =>
            dsimp only
            cases v.fileUrl file with
            | none => intro hw; cases hw
            | some uri =>
              intro hw
              exact absurd (congrArg Prod.snd hw).symm asked_ne
        · simp only [if_neg hk]
          rcases ha : addSCPEntryR v x { u with store := s' } uuid with ⟨w', o'⟩
          cases o' with
          | panic => intro hw; cases hw
          | ok uri =>
            intro hw
            exact absurd (congrArg Prod.snd hw).symm asked_ne
          | err e =>
            intro hw
            cases hw
            rw [addSCPEntryR_same v x _ _ uuid ha]
            exact h1

theorem setCmdR_fits (v : Env) (x : Rolls) (xs : Nat → Rolls) (u : Session) (q key value : Str) :
    Fits (setCmdR v x u q key value) fun f : Draw × (Nat → Draw) => setCmd (filledEnv v x xs f.1 f.2) u q key value := by
  unfold setCmdR
  by_cases hc : key = keyPass ∧ value = []
  · rw [if_pos hc]
    obtain ⟨h1, h2⟩ := hc
    simp only [setCmd, one, h1, h2, if_true, filledEnv]
    rcases lift u (findOne v.lower v.ord v.ord' u.store q) with ⟨w, o⟩
    cases o with
    | panic => exact .inr fun f => rfl
    | err e => exact .inr fun f => rfl
    | ok uuid =>
      dsimp only
      refine Fits.ite (fun _ => .inr fun f => rfl) fun _ => ?_
      rcases withPassword_fits x x.inp w (fun pw => asked2 (lift_ w (Blob.set x.now w.store uuid keyPass pw)))
        (fun pw _ => lift_ w (Blob.set x.now w.store uuid keyPass pw)) (fun pw => Fits.same) with h3 | h3
      · exact .inl h3
      · exact .inr fun f => h3 f.1
  · rw [if_neg hc]
    right
    intro f
    refine congrArg asked2 ?_
    unfold setCmd one
    dsimp only [unasked, filledEnv, drawnAs]
    rcases lift u (findOne v.lower v.ord v.ord' u.store q) with ⟨w, o⟩
    cases o with
    | panic => rfl
    | err e => rfl
    | ok uuid =>
      dsimp only
      by_cases hk : key = keyPass
      · have hv : value ≠ [] := fun h => hc ⟨hk, h⟩
        simp only [if_pos hk, if_neg hv]
      · simp only [if_neg hk]
        rcases promptMultiline v.ctrlC x.inp [] false with ⟨o, i⟩
        cases o <;> rfl

theorem backR_fits {φ : Type} (r : Repl) {a : Session × Res (Option AppErr) Unit} {b : φ → Session × Res AppErr Unit} (h : Fits a b) :
    Fits (backR r a) fun f => back r (b f) := by
  rcases h with h | h
  · left
    obtain ⟨w, o⟩ := a
    cases h
    rfl
  · right; intro f
    rw [h f]
    dsimp only
    generalize b f = q
    obtain ⟨w, o⟩ := q
    cases o <;> rfl

theorem backR_fits' {φ α : Type} (r : Repl) {a : Session × Res (Option AppErr) α} {b : φ → Session × Res AppErr α} (h : Fits a b) :
    Fits (backR r a) fun f => back_ r (b f) := by
  rcases h with h | h
  · left
    obtain ⟨w, o⟩ := a
    cases h
    rfl
  · right; intro f
    rw [h f]
    dsimp only
    generalize b f = q
    obtain ⟨w, o⟩ := q
    cases o <;> rfl

theorem interruptibleR_fits {φ : Type} (v : Env) (v' : φ → Env) (hv : ∀ f, (v' f).ctrlC = v.ctrlC)
    {a : Session × Res (Option AppErr) Unit} {b : φ → Session × Res AppErr Unit} (h : Fits a b) :
    Fits ((fun y => (y.1, interruptibleR v y.2)) a) fun f => (fun y => (y.1, interruptible (v' f) y.2)) (b f) := by
  rcases h with h | h
  · left
    obtain ⟨w, o⟩ := a
    cases h
    rfl
  · right; intro f
    rw [h f]
    dsimp only
    generalize b f = q
    obtain ⟨w, o⟩ := q
    cases o with
    | ok a => rfl
    | panic => rfl
    | err e =>
      cases e <;> first | rfl | skip
      simp only [asked2, asked, interruptible, interruptibleR, hv f]
      cases v.ctrlC <;> rfl

theorem Fits.left {φ ψ σ ε α : Type} {a : σ × Res (Option ε) α} {b : φ → σ × Res ε α} (h : Fits a b) :
    Fits a fun f : φ × ψ => b f.1 := by
  rcases h with h | h
  · exact .inl h
  · exact .inr fun f => h f.1

theorem labelLoop_env {v v' : Env} (hc : v.ctrlC = v'.ctrlC) (hu : v.isUpper = v'.isUpper) : ∀ (inp : Input) (ls : List Str) (c : Bool),
    labelLoop v inp ls c = labelLoop v' inp ls c
  | [], ls, c => by rw [labelLoop, labelLoop, hc]
  | none :: _, ls, c => by rw [labelLoop, labelLoop, hc]
  | some line :: rest, ls, c => by
    rw [labelLoop, labelLoop, hu, labelLoop_env hc hu rest _ _, labelLoop_env hc hu rest _ _]

theorem addLabels_env (v : Env) (x : Rolls) (xs : Nat → Rolls) (f : Draw) (fs : Nat → Draw) (u : Session) (q : Str) :
    addLabels (unasked v x) u q = addLabels (filledEnv v x xs f fs) u q := by
  unfold addLabels
  simp only [labelLoop_env (v := unasked v x) (v' := filledEnv v x xs f fs) rfl rfl]
  rfl

theorem execWriteR_fits (P : Prims) (C : Codec) (v : Env) (x : Rolls) (xs : Nat → Rolls) (cmd : Str) (args : List Str) (r : Repl)
    (hm : cmd = b! "adduser" → x.master ≠ none ∧ x.ivm ≠ none) :
    Fits (execWriteR P C v x xs cmd args r) fun f : Draw × (Nat → Draw) => execWrite P C (filledEnv v x xs f.1 f.2) cmd args r := by
  unfold execWriteR
  by_cases h1 : cmd = b! "passwd"
  · have : ∀ f : Draw × (Nat → Draw), execWrite P C (filledEnv v x xs f.1 f.2) cmd args r =
        back r (passwd P v.ord (drawnAs x f.1) r.u (args.head?.getD [])) := fun f => by
      unfold execWrite; rw [if_pos h1]; rfl
    simp only [this, if_pos h1]
    exact backR_fits r (passwdR_fits P v.ord x r.u _).left
  by_cases h2 : cmd = b! "adduser"
  · have : ∀ f : Draw × (Nat → Draw), execWrite P C (filledEnv v x xs f.1 f.2) cmd args r =
        match args with
        | [] => (r, .ok false)
        | user :: _ => back r (adduser P v.ord (drawnAs x f.1) r.u user) := fun f => by
      unfold execWrite; rw [if_neg h1, if_pos h2]; rfl
    simp only [this, if_neg h1, if_pos h2]
    cases args with
    | nil => exact .inr fun f => rfl
    | cons a l => exact backR_fits r (adduserR_fits P v.ord x r.u a fun _ => hm h2).left
  by_cases h3 : cmd = b! "rekey"
  · have : ∀ f : Draw × (Nat → Draw), execWrite P C (filledEnv v x xs f.1 f.2) cmd args r =
        back r (rekey P v.ord (drawnAs x f.1) r.u (args.head?.getD [])) := fun f => by
      unfold execWrite; rw [if_neg h1, if_neg h2, if_pos h3]; rfl
    simp only [this, if_neg h1, if_neg h2, if_pos h3]
    exact backR_fits r (rekeyR_fits P v.ord x r.u _).left
  by_cases h4 : cmd = b! "rekeyall"
  · have : ∀ f : Draw × (Nat → Draw), execWrite P C (filledEnv v x xs f.1 f.2) cmd args r =
        back_ r (rekeyAll P v.ord v.ord' (drawnAs x f.1) (fun i => drawnAs (xs i) (f.2 i)) r.u) := fun f => by
      unfold execWrite; rw [if_neg h1, if_neg h2, if_neg h3, if_pos h4]; rfl
    simp only [this, if_neg h1, if_neg h2, if_neg h3, if_pos h4]
    exact backR_fits' r (rekeyAllR_fits P v.ord v.ord' x xs r.u)
  by_cases h5 : cmd = b! "add"
  · have : ∀ f : Draw × (Nat → Draw), execWrite P C (filledEnv v x xs f.1 f.2) cmd args r =
        match args with
        | [] => (r, .ok false)
        | nm :: _ => back r ((fun y => (y.1, interruptible (filledEnv v x xs f.1 f.2) y.2))
            (addNew (filledEnv v x xs f.1 f.2) r.u nm)) := fun f => by
      unfold execWrite; rw [if_neg h1, if_neg h2, if_neg h3, if_neg h4, if_pos h5]; cases args <;> rfl
    simp only [this, if_neg h1, if_neg h2, if_neg h3, if_neg h4, if_pos h5]
    cases args with
    | nil => exact .inr fun f => rfl
    | cons a l => exact backR_fits r (interruptibleR_fits v (fun f => filledEnv v x xs f.1 f.2) (fun _ => rfl) (addNewR_fits v x xs r.u a))
  by_cases h6 : cmd = b! "set"
  · have : ∀ f : Draw × (Nat → Draw), execWrite P C (filledEnv v x xs f.1 f.2) cmd args r =
        match setArgs r.ctx args with
        | none => (r, .ok false)
        | some (q, k, value) => back r (setCmd (filledEnv v x xs f.1 f.2) r.u q k value) := fun f => by
      subst h6; unfold execWrite; simp (decide := true) only [if_false, if_true]; cases setArgs r.ctx args <;> rfl
    simp only [this, if_neg h1, if_neg h2, if_neg h3, if_neg h4, if_neg h5, if_pos h6]
    cases setArgs r.ctx args with
    | none => exact .inr fun f => rfl
    | some a =>
      obtain ⟨q, k, value⟩ := a
      exact backR_fits r (setCmdR_fits v x xs r.u q k value)
  by_cases h7 : cmd = b! "addsync"
  · have : ∀ f : Draw × (Nat → Draw), execWrite P C (filledEnv v x xs f.1 f.2) cmd args r =
        match args with
        | [] => (r, .ok false)
        | kind :: _ => back r ((fun y => (y.1, interruptible (filledEnv v x xs f.1 f.2) y.2))
            (addSync (filledEnv v x xs f.1 f.2) r.u kind)) := fun f => by
      subst h7; unfold execWrite; simp (decide := true) only [if_false, if_true]; cases args <;> rfl
    simp only [this, if_neg h1, if_neg h2, if_neg h3, if_neg h4, if_neg h5, if_neg h6, if_pos h7]
    cases args with
    | nil => exact .inr fun f => rfl
    | cons a l => exact backR_fits r (interruptibleR_fits v (fun f => filledEnv v x xs f.1 f.2) (fun _ => rfl) (addSyncR_fits v x xs r.u a))
  simp only [if_neg h1, if_neg h2, if_neg h3, if_neg h4, if_neg h5, if_neg h6, if_neg h7]
  right
  intro f
  refine congrArg asked2 ?_
  have g1 : renameCmd (unasked v x) = renameCmd (filledEnv v x xs f.1 f.2) := rfl
  have g2 : deleteKeyCmd (unasked v x) = deleteKeyCmd (filledEnv v x xs f.1 f.2) := rfl
  have g3 : login (unasked v x) = login (filledEnv v x xs f.1 f.2) := rfl
  have g4 : edit (unasked v x) = edit (filledEnv v x xs f.1 f.2) := rfl
  have g5 : deleteLabel (unasked v x) = deleteLabel (filledEnv v x xs f.1 f.2) := rfl
  unfold execWrite
  simp only [if_neg h1, if_neg h2, if_neg h3, if_neg h4, if_neg h5, if_neg h6, if_neg h7, g1, g2, g3, g4, g5, addLabels_env v x xs f.1 f.2]
  rfl

theorem runLineR_fits (P : Prims) (C : Codec) (v : Env) (x : Rolls) (xs : Nat → Rolls) (line : Str) (r : Repl)
    (hm : Spec.MasterMade (some line) x) :
    Fits (runLineR P C v x xs line r) fun f : Draw × (Nat → Draw) => runLine P C (filledEnv v x xs f.1 f.2) line r := by
  unfold runLineR runLine
  cases hp : parseLine line with
  | none => exact .inr fun f => rfl
  | some a =>
    obtain ⟨cmd, args⟩ := a
    dsimp only
    cases readOnlyFlag cmd with
    | none => exact .inr fun f => rfl
    | some b =>
      cases b with
      | true => exact .inr fun f => rfl
      | false =>
        refine Fits.ite (fun _ => .inr fun f => rfl) fun _ => ?_
        exact execWriteR_fits P C v x xs cmd args r fun hc => hm line args rfl (by rw [hp, hc])

theorem runReplR_fits (P : Prims) (C : Codec) : ∀ (turns : List TurnR) (r : Repl), (∀ t ∈ turns, Spec.MasterMade t.line t.x) →
    Fits (runReplR P C turns r) fun g : Nat → Draw × (Nat → Draw) => runRepl P C (Spec.filledTurns turns g) r := by
  intro turns
  induction turns with
  | nil => intro r _; exact .inr fun g => rfl
  | cons t rest ih =>
    intro r hm
    obtain ⟨line, v, x, xs⟩ := t
    cases line with
    | none =>
      right; intro g
      simp only [runReplR, Spec.filledTurns, Spec.filledTurn, runRepl, asked2, filledEnv]
      cases v.ctrlC <;> rfl
    | some line =>
      have ht := runLineR_fits P C v x xs line r (hm _ (.head _))
      rcases ht with h | h
      · left
        rw [runReplR]
        dsimp only
        generalize runLineR P C v x xs line r = q at h
        obtain ⟨w, o⟩ := q
        cases h
        rfl
      · rcases hq : runLineR P C v x xs line r with ⟨w, o⟩
        rw [hq] at h
        have h1 : ∀ f : Draw × (Nat → Draw), (runLine P C (filledEnv v x xs f.1 f.2) line r).1 = w := fun f =>
          (congrArg Prod.fst (h f)).symm
        have h2 : ∀ f : Draw × (Nat → Draw), o = asked (runLine P C (filledEnv v x xs f.1 f.2) line r).2 := fun f =>
          congrArg Prod.snd (h f)
        have key : ∀ (f : Draw × (Nat → Draw)) (y : Res AppErr Bool), (runLine P C (filledEnv v x xs f.1 f.2) line r).2 = y →
            runLine P C (filledEnv v x xs f.1 f.2) line r = (w, y) := fun f y hy => Prod.ext (h1 f) hy
        rw [runReplR]
        dsimp only
        rw [hq]
        cases o with
        | panic =>
          right; intro g
          simp only [Spec.filledTurns, Spec.filledTurn, runRepl, key (g 0) _ (of_asked_panic (h2 (g 0)))]
          rfl
        | err e =>
          cases e with
          | none => exact .inl rfl
          | some e =>
            right; intro g
            simp only [Spec.filledTurns, Spec.filledTurn, runRepl, key (g 0) _ (of_asked_err (h2 (g 0)))]
            rfl
        | ok b =>
          cases b with
          | true =>
            right; intro g
            simp only [Spec.filledTurns, Spec.filledTurn, runRepl, key (g 0) _ (of_asked_ok (h2 (g 0)))]
            rfl
          | false =>
            dsimp only
            rcases ih w fun t ht => hm t (.tail _ ht) with h3 | h3
            · exact .inl h3
            · right; intro g
              simp only [Spec.filledTurns, Spec.filledTurn, runRepl, key (g 0) _ (of_asked_ok (h2 (g 0)))]
              exact h3 fun i => g (i + 1)

theorem encryptR_eq (P : Prims) (p : Params) (iv : Option Str) (pt : Str) :
    encryptR P p iv pt = .err none ∨ ∀ f : Str, encryptR P p iv pt = asked (encrypt P 1 p (iv.getD f) pt) := by
  unfold encryptR
  by_cases h1 : p.validate = true
  · by_cases h2 : p.nUsers = 0
    · have he : ∀ iv, encrypt P 1 p iv pt = encryptSingle P p iv pt := fun iv => by
        unfold encrypt
        rw [if_neg (by decide), if_neg (Decidable.not_not.2 h1), if_pos h2]
      simp only [he]
      rw [if_neg (Decidable.not_not.2 h1), if_pos h2]
      unfold encryptSingle
      cases p.keys with
      | nil => exact .inr fun f => rfl
      | cons key l =>
        cases p.salts with
        | nil => exact .inr fun f => rfl
        | cons salt l' =>
          dsimp only
          by_cases h3 : key.length ≠ keySize
          · right; intro f; rw [if_pos h3, if_pos h3]; rfl
          · by_cases h4 : salt.length ≠ saltSize
            · right; intro f; rw [if_neg h3, if_pos h4, if_neg h3, if_pos h4]; rfl
            · rw [if_neg h3, if_neg h4]
              cases iv with
              | none => exact .inl rfl
              | some iv => right; intro f; rfl
    · right; intro f
      unfold encrypt
      rw [if_neg (Decidable.not_not.2 h1), if_neg h2, if_neg (by decide), if_neg (Decidable.not_not.2 h1), if_neg h2]
  · right; intro f
    unfold encrypt
    rw [if_pos h1, if_neg (by decide), if_pos h1]
    rfl

theorem saveBlobR_eq (P : Prims) (C : Codec) (ord : Order) (ord' : Results → Results) (iv : Option Str) (u : Session) :
    saveBlobR P C ord ord' iv u = .err none ∨ ∀ f : Str, saveBlobR P C ord ord' iv u = asked (saveBlob P C ord ord' (iv.getD f) u) := by
  unfold saveBlobR saveBlob sealFile
  by_cases hr : u.readOnly = true
  · right; intro f; rw [if_pos hr, if_pos hr]; rfl
  · simp only [if_neg hr]
    cases u.store.save with
    | error e => exact .inr fun f => rfl
    | ok s =>
      dsimp only
      rcases makeParams P ord ord' u.creds u.store with ⟨s', o⟩
      cases o with
      | panic => exact .inr fun f => rfl
      | err e => exact .inr fun f => rfl
      | ok p =>
        dsimp only
        rcases encryptR_eq P p iv (C.marshal u.store) with h | h
        · left; rw [h]
        · cases he : encryptR P p iv (C.marshal u.store) with
          | panic => rw [he] at h; right; intro f; simp only [of_asked_panic (h f)]; rfl
          | ok a => rw [he] at h; right; intro f; simp only [of_asked_ok (h f)]; rfl
          | err e =>
            rw [he] at h
            cases e with
            | none => exact .inl rfl
            | some e => right; intro f; simp only [of_asked_err (h f)]; rfl

end Verif.App
