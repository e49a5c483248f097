import Verif.App.Dump
import Verif.App.ShowProps
import Verif.App.Show
import Verif.Go.QuoteLemmas
/-!
# Property C110, second part: what `dump` prints
-/
namespace Verif.App
open Verif Verif.Txlogs Verif.Blob Verif.Crypt Verif.App.Spec
open Verif.Txlogs.Spec (GoodHistory)

theorem split_blank {k k' X X' : Str} (h : 32 ∉ k) (h' : 32 ∉ k') (he : k ++ 58 :: 32 :: X = k' ++ 58 :: 32 :: X') :
    k = k' ∧ X = X' := by
  induction k generalizing k' with
  | nil =>
    cases k' with
    | nil => simpa using he
    | cons c k' =>
      simp only [List.nil_append, List.cons_append, List.cons.injEq] at he
      obtain ⟨rfl, he⟩ := he
      cases k' with
      | nil => simp at he
      | cons d k' =>
        simp only [List.cons_append, List.cons.injEq] at he
        exact absurd (by simp [← he.1]) h'
  | cons c k ih =>
    cases k' with
    | nil =>
      simp only [List.nil_append, List.cons_append, List.cons.injEq] at he
      obtain ⟨rfl, he⟩ := he
      cases k with
      | nil => simp at he
      | cons d k =>
        simp only [List.cons_append, List.cons.injEq] at he
        exact absurd (by simp [he.1]) h
    | cons d k' =>
      simp only [List.cons_append, List.cons.injEq] at he
      obtain ⟨rfl, he⟩ := he
      obtain ⟨rfl, hx⟩ := ih (fun hm => h (by simp [hm])) (fun hm => h' (by simp [hm])) he
      exact ⟨rfl, hx⟩

/-- What `dump` prints tells every key and every value, byte by byte, if no key has a blank in it (whatever the values hold, and
whatever is taken for printable). -/
theorem C110_dump_tells (isPrint isPrint' : Nat → Bool) (l l' : List (Str × Str)) (h : ∀ p ∈ l, 32 ∉ p.1) (h' : ∀ p ∈ l', 32 ∉ p.1)
    (he : dumpText isPrint l = dumpText isPrint' l') : l = l' := by
  have hc : ∀ (ip : Nat → Bool) (p : Str × Str) (l : List (Str × Str)),
      dumpText ip (p :: l) = p.1 ++ 58 :: 32 :: (goQuote ip p.2 ++ 10 :: dumpText ip l) := by
    intro ip p l
    simp [dumpText]
  induction l generalizing l' with
  | nil =>
    cases l' with
    | nil => rfl
    | cons p l' =>
      rw [hc] at he
      have := congrArg List.length he
      simp [dumpText] at this
  | cons p l ih =>
    cases l' with
    | nil =>
      rw [hc] at he
      have := congrArg List.length he
      simp [dumpText] at this
    | cons q l' =>
      rw [hc, hc] at he
      obtain ⟨h1, h2⟩ := split_blank (h p (by simp)) (h' q (by simp)) he
      obtain ⟨h3, h4⟩ := goQuote_inj _ _ h2
      obtain rfl := ih l' (fun x hx => h x (by simp [hx])) (fun x hx => h' x (by simp [hx])) (by simpa using h4)
      obtain ⟨a, b⟩ := p
      obtain ⟨c, d⟩ := q
      simp only at h1 h3
      rw [h1, h3]

theorem mustFind_nodup {s s' : DB} {uuid : Str} {en : Entry} (h : Ok s) (hm : mustFind s uuid = (s', .ok en)) : GoMap.NodupKeys en := by
  have hi := (ok_update h).inner
  unfold mustFind find withSnapshot at hm
  rcases hu : s.updateSnapshot with ⟨s1, _ | er⟩
  · rw [hu] at hm hi
    simp only at hm hi
    cases hg : s1.snapshot.get? uuid with
    | none => rw [hg] at hm; simp at hm
    | some e2 =>
      rw [hg] at hm
      simp only [Prod.mk.injEq, Res.ok.injEq] at hm
      obtain ⟨-, rfl⟩ := hm
      exact hi _ _ hg
  · rw [hu] at hm
    simp at hm

/-- So the command tells the entry: in whatever order its keys are printed, only the keys and values of this entry are printed like
that. -/
theorem C110_dump_partial (isPrint : Nat → Bool) (v : Env) (u : Session) (q uuid : Str) (e : Str → Option Str) (hv : EnvOk v u.store)
    (h : WellFormed u.store) (hp : Picks v u.store q uuid) (he : Blob.Spec.Visible u.store uuid e) (hk : ∀ k, e k ≠ none → 32 ∉ k) :
    ∃ en, (dump v u q).2 = .ok (some en) ∧
      ∀ l, l.Perm en → ∀ l', (∀ p ∈ l', 32 ∉ p.1) → dumpText isPrint l' = dumpText isPrint l →
        ∀ k x, (k, x) ∈ l' ↔ e k = some x := by
  obtain ⟨-, hfr, hg, hlog⟩ := good_withSnapshot h.good (fun s => ((s, .panic) : Out Str))
  unfold dump
  obtain ⟨en, rfl, -, hm, hx⟩ := oneEntry_picks hv h hp he (none : Option Entry) (fun u _ e => (u, .ok (some e)))
  rw [hx]
  have hnd : GoMap.NodupKeys en := by
    rcases hq : mustFind u.store.updateSnapshot.1 uuid with ⟨s2, r⟩
    rw [hq] at hm
    cases r with
    | ok en2 =>
      simp only [lift, Prod.mk.injEq, Res.ok.injEq] at hm
      obtain ⟨-, rfl⟩ := hm
      exact mustFind_nodup hg.ok hq
    | err e => simp [lift] at hm
    | panic => simp [lift] at hm
  refine ⟨en, rfl, fun l hl l' hb ht k x => ?_⟩
  have hb' : ∀ p ∈ l, 32 ∉ p.1 := by
    intro p hp
    refine hk p.1 ?_
    show GoMap.get? en p.1 ≠ none
    rw [GoMap.get?_of_mem hnd (hl.mem_iff.1 hp)]
    simp
  obtain rfl := C110_dump_tells _ _ _ _ hb hb' ht
  rw [hl.mem_iff]
  exact ⟨fun hm => GoMap.get?_of_mem hnd hm, GoMap.mem_of_get?⟩

/-- No value can play tricks on the terminal: apart from the keys and the line breaks nothing below 32 and no 127 is printed. -/
theorem C110_dump_tame (isPrint : Nat → Bool) (hp : ∀ r, isPrint r = true → 32 ≤ r ∧ r ≠ 127) (l : List (Str × Str))
    (hk : ∀ p ∈ l, ∀ b ∈ p.1, Tame b) : ∀ b ∈ dumpText isPrint l, b = 10 ∨ Tame b := by
  intro b hb
  obtain ⟨p, hpl, hb⟩ := List.mem_flatMap.1 hb
  simp only [List.mem_append, List.mem_singleton] at hb
  rcases hb with ((hb | hb) | hb) | hb
  · exact .inr (hk p hpl b hb)
  · have : ∀ b ∈ b! ": ", Tame b := by unfold Tame; decide
    exact .inr (this b hb)
  · exact .inr (tame_goQuote isPrint hp p.2 b hb)
  · exact .inl hb

namespace DumpDemo

/-- a simple `isPrint` -/
def ascii (r : Nat) : Bool := 32 ≤ r && r < 127

def l1 : List (Str × Str) := [(b! "a: \"x\"\nb", b! "y")]
def l2 : List (Str × Str) := [(b! "a", b! "x"), (b! "b", b! "y")]
def e1 : Entry := [(keyName, b! "n"), (keyPass, b! "x\n  notes:   y")]
def e2 : Entry := [(keyName, b! "n"), (keyPass, b! "x"), (keyNotes, b! "y")]
def e3 : Entry := [(keyName, b! "n"), (keyPass, [27, 91, 50, 74])]

end DumpDemo
open DumpDemo

/-- With a blank and a line break in a key another entry prints the same. -/
theorem C110_key_false : l1 ≠ l2 ∧ dumpText ascii l1 = dumpText ascii l2 ∧ l1.map Prod.fst ≠ l2.map Prod.fst := by
  decide +kernel

/-- `show` does not quote: a password with a line break in it shows like two values, and a password that is an order to the terminal
reaches the terminal (here: clear the screen). -/
theorem C110_show_false : e1.get? keyPass ≠ e2.get? keyPass ∧
    showText Demo.vV [] (fun _ => []) (e1.map Prod.fst) e1 1 = showText Demo.vV [] (fun _ => []) (e2.map Prod.fst) e2 1 ∧
    (∃ t, showText Demo.vV [] (fun _ => []) (e3.map Prod.fst) e3 1 = some t ∧ 27 ∈ t) ∧
    27 ∉ dumpText ascii e3 :=
  ⟨by decide +kernel, by decide +kernel, ⟨_, rfl, by decide +kernel⟩, by decide +kernel⟩

/-- non-vacuity -/
example : dumpText ascii [(keyNotes, b! "a\nb\"c"), (keyPass, [255, 27, 195, 169])] =
    b! "notes: \"a\\nb\\\"c\"\npass: \"\\xff\\x1b\\u00e9\"\n" := by decide +kernel

example : ∀ b ∈ dumpText ascii [(keyNotes, [7, 10, 255, 127])], b = 10 ∨ Tame b :=
  C110_dump_tame ascii (fun r h => by simp [ascii] at h; omega) _ (fun p hp b hb => by
    simp only [List.mem_singleton] at hp
    subst hp
    have : ∀ b ∈ keyNotes, Tame b := by unfold Tame; decide
    exact this b hb)

example : ∃ en, (dump Demo.vV ShowDemo.u (b! "bank")).2 = .ok (some en) ∧
      ∀ l, l.Perm en → ∀ l', (∀ p ∈ l', 32 ∉ p.1) → dumpText ascii l' = dumpText ascii l →
        ∀ k x, (k, x) ∈ l' ↔ ShowDemo.e k = some x :=
  C110_dump_partial ascii Demo.vV ShowDemo.u (b! "bank") [1] ShowDemo.e (ShowDemo.u_env _ rfl rfl rfl) ShowDemo.u_wf.1
    (ShowDemo.u_picks _ rfl rfl rfl) ShowDemo.u_entry (fun k hk => by
      intro hb
      refine hk ?_
      unfold ShowDemo.e Txlogs.Spec.upd
      have hn : ∀ x : Str, 32 ∉ x → ¬ k = x := fun x hx he => hx (he ▸ hb)
      rw [if_neg (hn _ (by decide)), if_neg (hn _ (by decide)), if_neg (hn _ (by decide)), if_neg (hn _ (by decide)),
        if_neg (hn _ (by decide)), if_neg (hn _ (by decide))])

end Verif.App
