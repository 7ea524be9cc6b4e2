import Verif.Spec.Startup
import Verif.Props.Permissions
/-!
C63: how `git-lfs-transfer` starts.
-/
namespace Verif
open Spec

namespace Transfer

theorem exit_ofGit (e : GitErr) : (⟨(Err.ofGit e).exitStatus.code, (Err.ofGit e).display ++ b!"\n"⟩ : Exit) = gitExit e := by
  obtain ⟨c, t⟩ := e
  cases c <;> simp [Err.ofGit, Err.wrapOther, Err.exitStatus, Err.display, Err.kindText, gitExit, ExitStatus.code]

theorem octDigits_iff : ∀ {ds : Bytes} {a n : Nat}, a < 65536 →
    (octDigits a ds = some n ↔ (∀ d ∈ ds, 48 ≤ d ∧ d ≤ 55) ∧ n = ds.foldl (fun n d => 8 * n + (d.toNat - 48)) a ∧ n < 65536)
  | [], a, n, ha => by
    simp only [octDigits, List.foldl_nil, Option.some.injEq, List.not_mem_nil, false_imp_iff, implies_true, true_and]
    constructor
    · rintro rfl; exact ⟨rfl, ha⟩
    · rintro ⟨rfl, _⟩; rfl
  | d :: ds, a, n, ha => by
    have mono : ∀ (ds : Bytes) (a : Nat), a ≤ ds.foldl (fun n d => 8 * n + (d.toNat - 48)) a := by
      intro ds
      induction ds with
      | nil => exact fun a => Nat.le_refl a
      | cons d ds ih => exact fun a => Nat.le_trans (show a ≤ 8 * a + (d.toNat - 48) by omega) (ih _)
    simp only [octDigits, List.foldl_cons, List.forall_mem_cons]
    by_cases hd : 48 ≤ d ∧ d ≤ 55
    · rw [if_pos hd, Nat.mul_comm a 8]
      split
      · rename_i h
        rw [octDigits_iff h]
        simp [hd]
      · rename_i h
        have := mono ds (8 * a + (d.toNat - 48))
        simp only [reduceCtorEq, false_iff]
        rintro ⟨_, rfl, h'⟩
        omega
    · rw [if_neg hd]
      simp [hd]

theorem parseOctal_iff {x : Bytes} {n : Nat} : parseOctal x = some n ↔ OctalNumber x n ∧ n < 65536 := by
  have key : ∀ ds : Bytes, ds ≠ [] → (octDigits 0 ds = some n ↔ (∀ d ∈ ds, 48 ≤ d ∧ d ≤ 55) ∧
      n = ds.foldl (fun n d => 8 * n + (d.toNat - 48)) 0 ∧ n < 65536) := fun ds _ => octDigits_iff (by decide)
  unfold parseOctal OctalNumber
  by_cases hx : x.head? = some 43
  · obtain ⟨t, rfl⟩ : ∃ t, x = 43 :: t := by
      cases x with
      | nil => cases hx
      | cons a t => simp at hx; exact ⟨t, by rw [hx]⟩
    simp only [List.head?_cons, if_true, List.tail_cons]
    by_cases ht : t = []
    · subst ht
      simp only [if_true, reduceCtorEq, false_iff]
      rintro ⟨⟨ds, h | h, h1, h2, _⟩, _⟩
      · subst h; exact absurd (h2 43 (by simp)).1 (by decide)
      · simp at h; exact h1 h
    · rw [if_neg ht, key t ht]
      constructor
      · rintro ⟨h1, h2, h3⟩; exact ⟨⟨t, .inr rfl, ht, h1, h2⟩, h3⟩
      · rintro ⟨⟨ds, h | h, h1, h2, h4⟩, h3⟩
        · subst h; exact absurd (h2 43 (by simp)).1 (by decide)
        · simp at h; subst h; exact ⟨h2, h4, h3⟩
  · rw [if_neg hx]
    simp only
    by_cases ht : x = []
    · subst ht
      simp only [if_true, reduceCtorEq, false_iff]
      rintro ⟨⟨ds, h | h, h1, _, _⟩, _⟩
      · exact h1 h.symm
      · cases h
    · rw [if_neg ht, key x ht]
      constructor
      · rintro ⟨h1, h2, h3⟩; exact ⟨⟨x, .inl rfl, ht, h1, h2⟩, h3⟩
      · rintro ⟨⟨ds, h | h, h1, h2, h4⟩, h3⟩
        · subst h; exact ⟨h2, h4, h3⟩
        · subst h; exact absurd rfl hx

theorem leaves_umaskFor (n : Nat) : Leaves n (umaskFor n) := by
  intro i
  unfold umaskFor
  simp only
  rw [Nat.testBit_and, testBit_777, Nat.testBit_xor, show (0xFFFF : Nat) = 2 ^ 16 - 1 from rfl,
    Nat.testBit_two_pow_sub_one, Nat.testBit_or, Nat.testBit_shiftRight, Nat.testBit_and]
  by_cases h : i < 9
  · have h' : i < 16 := by omega
    have : Nat.testBit 0o444 (2 + i) = (i % 3 == 0) := by
      have : i ∈ List.range 9 := by simpa using h
      revert this; revert i
      decide
    rw [this, Nat.add_comm 2 i]
    simp [h, h', Bool.and_comm]
  · simp [h]

end Transfer

open Transfer

/-- **C63.** The process stops before it touches any file, reads any input or prints anything on standard output, or
it serves with the umask that the configuration asks for. Which of the two depends on the answers of libgit2 alone. -/
theorem C63_startup (repo : Except GitErr (Except GitErr Shared)) (cfg : Cfg) (op : Bytes) (r : Rdr) :
    (∃ x, Stops repo x ∧ Transfer.process repo cfg op r = .ret x) ∨
    (∃ s u, repo = .ok (.ok s) ∧ Begins cfg.umask s u ∧ Transfer.process repo cfg op r = mainProg { cfg with umask := u } op r) := by
  rcases repo with e | (e | ⟨str, bool⟩)
  · exact .inl ⟨_, .repo e, rfl⟩
  · refine .inl ⟨_, .config e, ?_⟩
    rw [← exit_ofGit]; rfl
  · have serve : ∀ w, wantedPerms ⟨str, bool⟩ = .ok w → Begins cfg.umask ⟨str, bool⟩ (match w with
        | some v => umaskFor v
        | none => cfg.umask) →
        ∃ s u, (Except.ok (Except.ok ⟨str, bool⟩) : Except GitErr (Except GitErr Shared)) = .ok (.ok s) ∧
          Begins cfg.umask s u ∧ Transfer.process (.ok (.ok ⟨str, bool⟩)) cfg op r = mainProg { cfg with umask := u } op r := by
      intro w hw hb
      refine ⟨_, _, rfl, hb, ?_⟩
      cases w <;> simp [Transfer.process, Transfer.main, setPermissions, ofGit, hw, bind, Except.bind, pure, Except.pure]
    rcases bool with eb | (_ | _)
    · rcases str with e | x
      · by_cases he : e.code = .notFound
        · exact .inr (serve none (by simp [wantedPerms, he]) (.unset e eb he))
        · refine .inl ⟨_, .value e eb he, ?_⟩
          rw [← exit_ofGit]
          simp [Transfer.process, Transfer.main, setPermissions, ofGit, wantedPerms, he, bind, Except.bind]
      · refine .inr ?_
        by_cases h1 : x = b!"group"
        · subst h1; exact serve (some 0o660) (by simp [wantedPerms]) (.group _)
        by_cases h2 : x = b!"umask"
        · subst h2; exact serve none (by simp [wantedPerms]) (.umask _)
        by_cases h3 : x = b!"all" ∨ x = b!"world" ∨ x = b!"everybody"
        · exact serve (some 0o664) (by simp [wantedPerms, h1, h2, h3]) (.all _ _ (by simpa using h3))
        have hw : wantedPerms ⟨.ok x, .error eb⟩ = .ok (parseOctal x) := by simp only [wantedPerms, h1, h2, h3, if_false]
        refine serve _ hw ?_
        cases ho : parseOctal x with
        | some n =>
          obtain ⟨h4, h5⟩ := parseOctal_iff.mp ho
          exact .octal _ _ n _ h4 h5 (leaves_umaskFor n)
        | none =>
          refine .other _ _ (by simp only [not_or] at h3; simp [h1, h2, h3]) fun n hn => ?_
          refine Nat.le_of_not_lt fun h => ?_
          rw [parseOctal_iff.mpr ⟨hn, h⟩] at ho
          cases ho
    · refine .inr ?_
      by_cases h1 : str = .ok b!"group"
      · subst h1; exact serve (some 0o660) (by simp [wantedPerms]) (.group _)
      · refine serve none ?_ (.no _ h1)
        cases str with
        | error e => rfl
        | ok x => simp only [Except.ok.injEq] at h1; simp [wantedPerms, h1]
    · exact .inr (serve (some 0o660) rfl (.yes _))

/-- **C63.** What the process does is determined: it cannot both stop and serve, and there is one way to do each. -/
theorem C63_stops_once {repo : Except GitErr (Except GitErr Shared)} {x : Exit} (h : Stops repo x) :
    (∀ x', Stops repo x' → x' = x) ∧ ∀ s u own, repo = .ok (.ok s) → ¬ Begins own s u := by
  cases h with
  | repo e => exact ⟨fun x' h => by cases h; rfl, fun s u own h => by cases h⟩
  | config e => exact ⟨fun x' h => by cases h; rfl, fun s u own h => by cases h⟩
  | value e e' hne =>
    refine ⟨fun x' h => by cases h; rfl, fun s u own h hb => ?_⟩
    cases h
    cases hb with
    | unset _ _ h => exact hne h

theorem leaves_unique {n u u' : Nat} (h : Leaves n u) (h' : Leaves n u') : u = u' :=
  Nat.eq_of_testBit_eq fun i => (h i).trans (h' i).symm

theorem C63_begins_once {own u u' : Nat} {s : Shared} (h : Begins own s u) (h' : Begins own s u') : u = u' := by
  have word : ∀ {x : Bytes} {n : Nat}, OctalNumber x n →
      x ∉ [b!"group", b!"umask", b!"all", b!"world", b!"everybody"] := by
    have : ∀ (a : UInt8) (t : Bytes) (n : Nat), a ≠ 43 → 55 < a → ¬ OctalNumber (a :: t) n := by
      rintro a t n h1 h2 ⟨ds, rfl | h, _, h3, _⟩
      · exact absurd (h3 a (by simp)).2 (UInt8.not_le.mpr h2)
      · injection h with h _; exact h1 h
    intro x n h hx
    simp only [List.mem_cons, List.not_mem_nil, or_false] at hx
    rcases hx with rfl | rfl | rfl | rfl | rfl <;> exact this _ _ _ (by decide) (by decide) h
  have key : ∀ {u}, Begins own s u → setPermissions (.ok s) own = .ok u := by
    intro u h
    cases h with
    | yes s => rfl
    | group b =>
      rcases b with e | (_ | _)
      · simp [setPermissions, wantedPerms, ofGit, bind, Except.bind, pure, Except.pure]; rfl
      · simp [setPermissions, wantedPerms, ofGit, bind, Except.bind, pure, Except.pure]; rfl
      · rfl
    | no s hs =>
      cases s with
      | error e => rfl
      | ok x =>
        simp only [ne_eq, Except.ok.injEq] at hs
        simp [setPermissions, wantedPerms, ofGit, hs, bind, Except.bind, pure, Except.pure]
    | umask e => simp [setPermissions, wantedPerms, ofGit, bind, Except.bind, pure, Except.pure]
    | all e x hx =>
      simp only [List.mem_cons, List.not_mem_nil, or_false] at hx
      rcases hx with rfl | rfl | rfl <;>
      · simp [setPermissions, wantedPerms, ofGit, bind, Except.bind, pure, Except.pure]; rfl
    | octal e x n u h1 h2 h3 =>
      have hx := word h1
      simp only [List.mem_cons, List.not_mem_nil, or_false, not_or] at hx
      simp [setPermissions, wantedPerms, ofGit, hx, parseOctal_iff.mpr ⟨h1, h2⟩, bind, Except.bind, pure, Except.pure]
      exact leaves_unique (leaves_umaskFor n) h3
    | other e x hx hbig =>
      simp only [List.mem_cons, List.not_mem_nil, or_false, not_or] at hx
      have : parseOctal x = none := by
        cases ho : parseOctal x with
        | none => rfl
        | some n =>
          obtain ⟨h1, h2⟩ := parseOctal_iff.mp ho
          exact absurd (hbig n h1) (by omega)
      simp [setPermissions, wantedPerms, ofGit, hx, this, bind, Except.bind, pure, Except.pure]
    | unset e e' he => simp [setPermissions, wantedPerms, ofGit, he, bind, Except.bind, pure, Except.pure]
  have := (key h).symm.trans (key h')
  injection this

/-! ### Cases -/

/-- No repository: exit code 4. -/
example : Stops (.error ⟨.notFound, b!"could not find repository"⟩) ⟨4, b!"could not find repository\n"⟩ := .repo _

/-- A configuration with a syntax error. -/
example : Stops (.ok (.error ⟨.other 1, b!"failed to parse config file"⟩)) ⟨2, b!"fatal: failed to parse config file\n"⟩ :=
  .config _

/-- With the value 0640 read as text, were it not a boolean for libgit2. -/
example : OctalNumber b!"0640" 0o640 ∧ Leaves 0o640 0o027 :=
  ⟨⟨b!"0640", .inl rfl, by decide, by decide, by decide⟩, leaves_umaskFor 0o640⟩

/-- A value that means nothing. -/
example : Begins 0o022 ⟨.ok b!"sometimes", .error ⟨.other 0, b!"failed to parse"⟩⟩ 0o022 := by
  refine .other _ _ (by decide) fun n hn => ?_
  obtain ⟨ds, h | h, _, h3, _⟩ := hn
  · subst h; exact absurd (h3 115 (by decide)).2 (by decide)
  · injection h with h _; exact absurd h (by decide)

/-- In none of the cases that stop has anything happened. -/
example (cfg : Cfg) (r : Rdr) : Transfer.process (.error ⟨.notFound, b!"no"⟩) cfg b!"upload" r = .ret ⟨4, b!"no\n"⟩ := rfl

end Verif
