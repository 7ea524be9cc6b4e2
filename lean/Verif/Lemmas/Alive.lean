import Verif.Spec.Shared
import Verif.Lemmas.Exec
import Verif.Lemmas.Prog
/-! Any execution can be continued so that a given process finishes. -/
namespace Verif
open Spec

/-- The program does not end like a killed one. -/
def Prog.Honest : Prog Exit → Prop
  | .ret x => x ≠ ⟨137, []⟩
  | .call _ k => ∀ x, (k x).Honest

theorem Prog.Honest.bind {α : Type} {p : Prog α} {f : α → Prog Exit} (h : ∀ a, (f a).Honest) : (p.bind f).Honest := by
  induction p with
  | ret a => exact h a
  | call o k ih => exact fun x => ih x

theorem honest_main (cfg : Cfg) (op : Bytes) (r : Rdr) : (mainProg cfg op r).Honest := by
  unfold mainProg
  refine Prog.Honest.bind ?_
  rintro ⟨(a | e | _), r'⟩
  · show (⟨_, _⟩ : Exit) ≠ _
    intro h; injection h with h _; revert h; decide
  · show (⟨_, _⟩ : Exit) ≠ _
    intro h; injection h with h _
    revert h
    cases e.exitStatus <;> decide
  · show (⟨_, _⟩ : Exit) ≠ _
    intro h; injection h with h _; revert h; decide

theorem Step.honest {root : Path} {s s' : Sys} {l : Option (Nat × Event)} (h : Step root s l s') {i : Nat} (hi : (s.procs i).Honest) :
    (s'.procs i).Honest ∨ s'.procs i = .ret ⟨137, []⟩ := by
  cases h with
  | call j o k c hp =>
    by_cases hj : i = j
    · subst hj
      rw [hp] at hi
      simp only [Sys.setProc, if_true]
      exact .inl (hi _)
    · simp only [Sys.setProc, hj, if_false]; exact .inl hi
  | writeSome j ino b n k hp =>
    by_cases hj : i = j
    · subst hj
      rw [hp] at hi
      simp only [Sys.setProc, if_true]
      exact .inl hi
    · simp only [Sys.setProc, hj, if_false]; exact .inl hi
  | mkdirSome => exact .inl hi
  | elsewhere => exact .inl hi
  | kill j =>
    by_cases hj : i = j
    · subst hj; simp [Sys.setProc]
    · simp only [Sys.setProc, hj, if_false]; exact .inl hi

theorem honest_until {ρ : Execution} {i N : Nat} (h0 : ((ρ.st 0).procs i).Honest) (hk : ρ.NotKilled i N) :
    ∀ n ≤ N, ((ρ.st n).procs i).Honest
  | 0, _ => h0
  | n + 1, hn => by
    have ih := honest_until h0 hk n (by omega)
    rcases ρ.step n with h | ⟨h, _⟩
    · exact (h.honest ih).resolve_right (hk (n + 1) hn)
    · rw [h]; exact ih

/-- Only process `i` runs, with the same choice every time. -/
def solo (c : Choice) (i : Nat) : Nat → Sys → Sys
  | 0, s => s
  | k + 1, s => solo c i k (s.exec1 i c).1

theorem solo_succ (c : Choice) (i : Nat) : ∀ (k : Nat) (s : Sys), solo c i (k + 1) s = ((solo c i k s).exec1 i c).1
  | 0, _ => rfl
  | k + 1, s => solo_succ c i k (s.exec1 i c).1

theorem exec1_ret {s : Sys} {i : Nat} {c : Choice} {x : Exit} (h : s.procs i = .ret x) : s.exec1 i c = (s, none) := by
  unfold Sys.exec1; rw [h]

theorem exec1_call {s : Sys} {i : Nat} {c : Choice} {o : Op} {k : Resp o → Prog Exit} (h : s.procs i = .call o k) :
    s.exec1 i c = (⟨(sem c s.fs o).1, s.setProc i (k (sem c s.fs o).2)⟩, some (i, ⟨o, (sem c s.fs o).2⟩)) := by
  unfold Sys.exec1; rw [h]

theorem exec1_step (root : Path) (s : Sys) (i : Nat) (c : Choice) :
    Step root s (s.exec1 i c).2 (s.exec1 i c).1 ∨ ((s.exec1 i c).1 = s ∧ (s.exec1 i c).2 = none) := by
  cases h : s.procs i with
  | ret x => rw [exec1_ret h]; exact .inr ⟨rfl, rfl⟩
  | call o k => rw [exec1_call h]; exact .inl (.call i o k c h)

theorem exec1_honest {s : Sys} {i : Nat} {c : Choice} (h : (s.procs i).Honest) : ((s.exec1 i c).1.procs i).Honest := by
  cases hp : s.procs i with
  | ret x => rw [exec1_ret hp]; exact h
  | call o k =>
    rw [exec1_call hp]
    rw [hp] at h
    simp only [Sys.setProc, if_true]
    exact h _

theorem solo_honest {c : Choice} {i : Nat} : ∀ (k : Nat) {s : Sys}, (s.procs i).Honest → ((solo c i k s).procs i).Honest
  | 0, _, h => h
  | k + 1, _, h => solo_honest k (exec1_honest h)

/-- Programs end. -/
theorem solo_ends (c : Choice) (i : Nat) (p : Prog Exit) : ∀ s : Sys, s.procs i = p → ∃ k x, (solo c i k s).procs i = .ret x := by
  induction p with
  | ret x => exact fun s h => ⟨0, x, h⟩
  | call o k ih =>
    intro s h
    obtain ⟨m, x, hm⟩ := ih (sem c s.fs o).2 (s.exec1 i c).1 (by
      rw [exec1_call h]; simp [Sys.setProc])
    exact ⟨m + 1, x, hm⟩

/-- The execution until moment `N`, and then process `i` alone. -/
def Spec.Execution.then (ρ : Execution) (c : Choice) (i N : Nat) : Execution where
  root := ρ.root
  st n := if n ≤ N then ρ.st n else solo c i (n - N) (ρ.st N)
  lab n := if n < N then ρ.lab n else ((solo c i (n - N) (ρ.st N)).exec1 i c).2
  step n := by
    by_cases h : n < N
    · rw [if_pos (by omega : n ≤ N), if_pos (by omega : n + 1 ≤ N), if_pos h]
      exact ρ.step n
    · have e : (if n ≤ N then ρ.st n else solo c i (n - N) (ρ.st N)) = solo c i (n - N) (ρ.st N) := by
        by_cases h' : n ≤ N
        · rw [if_pos h', show n = N by omega, Nat.sub_self]; rfl
        · rw [if_neg h']
      rw [e, if_neg (by omega : ¬ n + 1 ≤ N), if_neg h, show n + 1 - N = n - N + 1 by omega, solo_succ]
      exact exec1_step _ _ _ _

namespace Spec.Execution
variable {ρ : Execution} {c : Choice} {i N : Nat}

theorem then_st {n : Nat} (h : n ≤ N) : (ρ.then c i N).st n = ρ.st n := if_pos h
theorem then_lab {n : Nat} (h : n < N) : (ρ.then c i N).lab n = ρ.lab n := if_pos h
theorem then_st' {n : Nat} (h : N ≤ n) : (ρ.then c i N).st n = solo c i (n - N) (ρ.st N) := by
  by_cases h' : n ≤ N
  · rw [then_st h', show n = N by omega, Nat.sub_self]; rfl
  · exact if_neg h'

theorem then_noFault (hc : c.fault = none) (h : ρ.NoFault i N) (M : Nat) : (ρ.then c i N).NoFault i M := by
  intro n e _ he
  by_cases hn : n < N
  · rw [then_lab hn] at he
    rw [then_st (by omega), then_st hn]
    exact h n e hn he
  · rw [then_st' (by omega), then_st' (by omega), show n + 1 - N = n - N + 1 by omega, solo_succ]
    have he : ((solo c i (n - N) (ρ.st N)).exec1 i c).2 = some (i, e) := by
      rw [← he]; exact (if_neg hn).symm
    cases hp : (solo c i (n - N) (ρ.st N)).procs i with
    | ret x => rw [exec1_ret hp] at he; cases he
    | call o k =>
      rw [exec1_call hp] at he ⊢
      cases he
      exact ⟨c, hc, rfl⟩

theorem then_notKilled (h0 : ((ρ.st 0).procs i).Honest) (h : ρ.NotKilled i N) (M : Nat) :
    (ρ.then c i N).NotKilled i M := by
  intro n _
  by_cases hn : n ≤ N
  · rw [then_st hn]; exact h n hn
  · rw [then_st' (by omega)]
    have := solo_honest (c := c) (n - N) (honest_until h0 h N (Nat.le_refl _))
    intro e
    rw [e] at this
    exact this rfl

theorem then_ends (ρ : Execution) (c : Choice) (i N : Nat) : ∃ M x, N ≤ M ∧ ((ρ.then c i N).st M).procs i = .ret x := by
  obtain ⟨k, x, h⟩ := solo_ends c i _ (ρ.st N) rfl
  exact ⟨N + k, x, by omega, by rw [then_st' (by omega), Nat.add_sub_cancel_left]; exact h⟩

theorem then_by {n : Nat} (h : n < N) : (ρ.then c i N).By i n ↔ ρ.By i n := by
  unfold By; rw [then_lab h]

theorem then_out {a b : Nat} (h : b ≤ N) : (ρ.then c i N).out i a b = ρ.out i a b := by
  unfold out
  rw [List.flatMap_def, List.flatMap_def]
  congr 1
  refine List.map_congr_left fun n hn => ?_
  rw [List.mem_range'_1] at hn
  unfold printed
  rw [then_lab (by omega)]

theorem then_objects {root : Path} {n : Nat} (h : n ≤ N) : (ρ.then c i N).objectsAt root n = ρ.objectsAt root n := by
  unfold objectsAt; rw [then_st h]

theorem then_leaves {root : Path} {a b : Nat} {e : Option Nat} (h : b ≤ N) (hl : (ρ.then c i N).Leaves root i a b e) :
    ρ.Leaves root i a b e := by
  intro n h1 h2 h3 h4 oid ho
  have := hl n h1 h2 h3 ((then_by (by omega)).mpr h4) oid ho
  rwa [then_objects (by omega), then_objects (by omega)] at this

theorem then_answered {cfg : Cfg} {mode : Mode} {a b : Nat} {q : Request} {ans : Answer} (h : b ≤ N)
    (ha : Answered (ρ.then c i N) i cfg mode a b q ans) : Answered ρ i cfg mode a b q ans := by
  have st : ∀ n, n ≤ N → storeAt (ρ.then c i N) cfg.root n = storeAt ρ cfg.root n := fun n hn => by
    unfold storeAt; rw [then_objects hn]
  cases q with
  | version => exact ⟨ha.1, then_leaves h ha.2⟩
  | quit => exact ⟨ha.1, then_leaves h ha.2⟩
  | batch items =>
    obtain ⟨ms, h1, h2, h3, h4, h5⟩ := ha
    refine ⟨ms, h1, h2, h3, ?_, then_leaves h h5⟩
    rw [h4]
    congr 2
    refine List.ext_getElem (by simp) fun k hk hk' => ?_
    have hkm : k < ms.length := by simp only [List.length_zipWith] at hk; omega
    rw [List.getElem_zipWith, List.getElem_zipWith, st _ (by have := h3 ms[k] (List.getElem_mem _); omega)]
  | put oid size data =>
    obtain ⟨n, h1, h2, h3, h4, h5, h6⟩ := ha
    rw [st n (by omega)] at h4 h5
    rw [then_objects (by omega)] at h5
    exact ⟨n, h1, h2, (then_by (by omega)).mp h3, h4, h5, then_leaves h h6⟩
  | verify oid size =>
    obtain ⟨n, h1, h2, h3, h4⟩ := ha
    rw [st n (by omega)] at h3
    exact ⟨n, h1, h2, h3, then_leaves h h4⟩
  | get oid =>
    obtain ⟨n, h1, h2, h3, h4⟩ := ha
    rw [st n (by omega)] at h3
    exact ⟨n, h1, h2, h3, then_leaves h h4⟩
  | lock => exact ha
  | listLocks => exact ha
  | unlock => exact ha

end Spec.Execution
end Verif
