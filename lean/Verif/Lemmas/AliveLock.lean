import Verif.Lemmas.Alive
import Verif.Lemmas.AmongTurn
/-! What is known of the locks in an execution that was continued, for the part before. -/
namespace Verif
open Spec

namespace Spec.Execution
variable {ρ : Execution} {c : Choice} {i N : Nat} {cfg : Cfg} {mode : Mode}

theorem then_lockAt {root : Path} {n : Nat} (h : n ≤ N) (id : Bytes) :
    (ρ.then c i N).lockAt root n id = ρ.lockAt root n id := by
  unfold lockAt; rw [then_st h]

theorem then_keeps {root : Path} {n : Nat} {id : Bytes} (h : n < N) :
    (ρ.then c i N).Keeps root n id ↔ ρ.Keeps root n id := by
  constructor <;> rintro ⟨h1, h2, h3⟩ <;> refine ⟨?_, ?_, ?_⟩
  all_goals first
    | simpa only [then_st (show n + 1 ≤ N from h), then_st (Nat.le_of_lt h)] using h1
    | simpa only [then_st (show n + 1 ≤ N from h), then_st (Nat.le_of_lt h)] using h2
    | simpa only [then_lockAt (show n + 1 ≤ N from h), then_lockAt (Nat.le_of_lt h)] using h3

/-- Only process `i` goes on. -/
theorem then_alone {n : Nat} (h : N ≤ n) (hn : ¬ (ρ.then c i N).By i n) :
    (ρ.then c i N).st (n + 1) = (ρ.then c i N).st n := by
  rw [then_st' h, then_st' (by omega), show n + 1 - N = n - N + 1 by omega, solo_succ]
  cases hp : (solo c i (n - N) (ρ.st N)).procs i with
  | ret x => rw [exec1_ret hp]
  | call o k =>
    refine absurd ⟨⟨o, (sem c (solo c i (n - N) (ρ.st N)).fs o).2⟩, ?_⟩ hn
    · show (if n < N then ρ.lab n else ((solo c i (n - N) (ρ.st N)).exec1 i c).2) = _
      rw [if_neg (by omega), exec1_call hp]

theorem then_disturbed {root : Path} {a b : Nat} {id : Bytes} (h : (ρ.then c i N).Disturbed root i a b id) :
    ρ.Disturbed root i a (min b N) id := by
  obtain ⟨n, h1, h2, h3, h4⟩ := h
  by_cases hn : n < N
  · exact ⟨n, h1, by omega, fun h => h3 ((then_by hn).mpr h), fun h => h4 ((then_keeps hn).mpr h)⟩
  · have e := then_alone (by omega : N ≤ n) h3
    refine absurd ⟨?_, ?_, ?_⟩ h4
    · rw [e]
    · rw [e]
    · unfold lockAt; rw [e]

theorem then_leavesLocks {root : Path} {a b : Nat} {e : Option (Nat × Bytes)} (h : b ≤ N)
    (hl : (ρ.then c i N).LeavesLocks root i a b e) : ρ.LeavesLocks root i a b e := by
  intro n h1 h2 h3 id hid he
  have := hl n h1 h2 ((then_by (by omega)).mpr h3) id hid he
  rwa [then_lockAt (by omega), then_lockAt (by omega)] at this

theorem then_clockIn {a b : Nat} {t : Int} (h : b ≤ N) (hc : (ρ.then c i N).ClockIn i cfg a b t) :
    ρ.ClockIn i cfg a b t := by
  rcases hc with hc | ⟨h0, n, h1, h2, h3⟩
  · exact .inl hc
  · rw [then_lab (by omega)] at h3
    exact .inr ⟨h0, n, h1, h2, h3⟩

/-- The clock of the continuation is the chosen one. -/
theorem then_clock {a b : Nat} {t : Int} (h : (ρ.then c i N).ClockIn i cfg a b t) :
    ρ.ClockIn i cfg 0 N t ∨ t = c.time := by
  rcases h with h | ⟨h0, n, h1, h2, h3⟩
  · exact .inl (.inl h)
  by_cases hn : n < N
  · rw [then_lab hn] at h3
    exact .inl (.inr ⟨h0, n, by omega, hn, h3⟩)
  · have he : ((solo c i (n - N) (ρ.st N)).exec1 i c).2 = some (i, ⟨.now, t⟩) := by
      rw [← h3]; exact (if_neg hn).symm
    cases hp : (solo c i (n - N) (ρ.st N)).procs i with
    | ret x => rw [exec1_ret hp] at he; cases he
    | call o k =>
      rw [exec1_call hp] at he
      simp only [Option.some.injEq, Prod.mk.injEq, true_and, Sigma.mk.injEq] at he
      obtain ⟨rfl, h⟩ := he
      exact .inr (eq_of_heq h).symm

theorem then_recorded {n : Nat} {id : Bytes} {o : Option Lock} (h : n ≤ N) :
    Recorded (ρ.then c i N) cfg n id o ↔ Recorded ρ cfg n id o := by
  cases o <;> simp only [Recorded, then_lockAt h]

theorem then_lockExcuse {a e : Nat} {q : Request} {id : Bytes} (h : a ≤ N)
    (he : LockExcuse (ρ.then c i N) i cfg a e q id) : LockExcuse ρ i cfg a (min e N) q id := by
  rcases he with he | he | ⟨h1, h2⟩
  · exact .inl (then_disturbed he)
  · exact .inr (.inl fun o ho => he o ((then_recorded h).mpr ho))
  · rw [then_st h] at h2
    exact .inr (.inr ⟨h1, h2⟩)

theorem then_blurred {n m : Nat} {name : Bytes} (hn : n ≤ N) (hm : m ≤ N) (h : Blurred (ρ.then c i N) i cfg n m name) :
    Blurred ρ i cfg n m name := by
  rcases h with h | h | ⟨k, h1, h2, h3, h4⟩
  · exact .inl h
  · exact .inr (.inl fun o ho => h o ((then_recorded hn).mpr ho))
  · rw [then_st (by omega), then_st (by omega), then_lockAt (by omega), then_lockAt (by omega)] at h4
    exact .inr (.inr ⟨k, h1, h2, fun h => h3 ((then_by (by omega)).mpr h), h4⟩)

theorem looked_le {ρ : Execution} {i a e : Nat} {names : List Bytes} {es : List Seen}
    (h : Looked ρ i cfg a names es e) : a ≤ e := by
  induction h with
  | nil h => exact h
  | cons _ _ _ _ _ _ ih => omega

theorem then_looked {a e : Nat} {names : List Bytes} {es : List Seen} (he : e ≤ N)
    (h : Looked (ρ.then c i N) i cfg a names es e) : Looked ρ i cfg a names es e := by
  induction h with
  | nil h => exact .nil h
  | @cons a n m e name names o es h1 h2 h3 h4 h5 hs ih =>
    have := looked_le hs
    refine .cons h1 h2 ((then_by (by omega)).mp h3) ((then_by (by omega)).mp h4) ?_ (ih he)
    rcases h5 with ⟨l, k1, k2⟩ | h5
    · exact .inl ⟨l, (then_recorded (by omega)).mp k1, k2⟩
    · exact .inr (then_blurred (by omega) (by omega) h5)

theorem then_listed {a e : Nat} {cursor : Option Bytes} {limit : Option Nat} {es : List Seen} (he : e ≤ N)
    (h : Listed (ρ.then c i N) i cfg a e cursor limit es) : Listed ρ i cfg a e cursor limit es := by
  obtain ⟨d, names, later, h1, h2, h3, h4, h5⟩ := h
  have := looked_le h4
  refine ⟨d, names, later, h1, (then_by (by omega)).mp h2, ⟨h3.1, fun x => ?_⟩, then_looked he h4, h5⟩
  rw [h3.2, then_lockAt (by omega)]

theorem then_excused {a e : Nat} {q : Request} (h : a ≤ N) (he : e ≤ N) (hq : Excused (ρ.then c i N) i cfg a e q) :
    Excused ρ i cfg a e q := by
  have hl : ∀ {id}, LockExcuse (ρ.then c i N) i cfg a e q id → LockExcuse ρ i cfg a e q id := fun hx => by
    have := then_lockExcuse h hx
    rwa [Nat.min_eq_left he] at this
  unfold Excused at hq ⊢
  split at hq
  · exact hl hq
  · exact hl hq
  · exact hl hq
  · obtain ⟨es, h1, h2⟩ := hq
    exact ⟨es, then_listed he h1, h2⟩
  · exact hq

/-- What excuses a request about one lock is known when the process is alone. -/
theorem then_excused_lock {a e : Nat} {q : Request} (h : a ≤ N) (ho : lockOf cfg q ≠ none)
    (hq : Excused (ρ.then c i N) i cfg a e q) : Excused ρ i cfg a (min e N) q := by
  unfold Excused at hq ⊢
  split at hq
  · exact then_lockExcuse h hq
  · exact then_lockExcuse h hq
  · exact then_lockExcuse h hq
  · exact absurd rfl ho
  · exact hq

theorem then_lockStep {a n : Nat} {q : Request} {id : Bytes} {t t' : Int} {ans : Answer} (h : n < N)
    (hl : LockStep (ρ.then c i N) i cfg mode a n q id t t' ans) : LockStep ρ i cfg mode a n q id t t' ans := by
  obtain ⟨h1, h2, o, o', h3, h4, h5, h6⟩ := hl
  exact ⟨h1, (then_by h).mp h2, o, o', (then_recorded (by omega)).mp h3, (then_recorded (by omega)).mp h4, h5,
    fun k1 k2 => then_clockIn (by omega) (h6 k1 k2)⟩

theorem then_answers {a e : Nat} {q : Request} {ans : Answer} (h : e ≤ N)
    (ha : Answers (ρ.then c i N) i cfg mode a e q ans) : Answers ρ i cfg mode a e q ans := by
  unfold Answers at *
  split at ha
  · refine ⟨?_, then_leavesLocks h ha.2⟩
    have ha := ha.1
    split at ha
    · obtain ⟨h1, es, h2, h3⟩ := ha
      exact ⟨then_leaves h h1, es, then_listed h h2, h3⟩
    · exact then_answered h ha
  · obtain ⟨n, t, t', h1, h2, h3, h4, h5⟩ := ha
    exact ⟨n, t, t', h1, then_lockStep (by omega) h2, fun k => then_clockIn h (h3 k), then_leavesLocks h h4,
      then_leaves h h5⟩

end Spec.Execution

theorem serves_le {ρ : Execution} {i : Nat} {cfg : Cfg} {mode : Mode} {a b : Nat} {qs rest : List Request}
    (h : Serves ρ i cfg mode a qs b rest) : a ≤ b := by
  induction h with
  | nil => exact Nat.le_refl _
  | cons h1 h2 _ _ _ _ _ _ ih => omega
  | excused h1 h2 _ _ _ _ _ _ ih => omega

theorem serves_then {ρ : Execution} {c : Choice} {i N : Nat} {cfg : Cfg} {mode : Mode} {a b : Nat} {qs rest : List Request}
    (h : Serves (ρ.then c i N) i cfg mode a qs b rest) (hb : b ≤ N) : Serves ρ i cfg mode a qs b rest := by
  induction h with
  | nil => exact .nil
  | @cons a e b c q qs rest ans h1 h2 h3 h4 h5 h6 h7 hs ih =>
    have := serves_le hs
    rw [Execution.then_out (by omega)] at h3 h5
    exact .cons h1 h2 h3 (Execution.then_answers (by omega) h4) h5 (Execution.then_leaves (by omega) h6)
      (Execution.then_leavesLocks (by omega) h7) (ih hb)
  | @excused a e b c q qs rest h1 h2 h3 h5 h6 h7 h8 hs ih =>
    have := serves_le hs
    rw [Execution.then_out (by omega)] at h3 h6
    exact .excused h1 h2 h3 (Execution.then_excused (by omega) (by omega) h5) h6 (Execution.then_leaves (by omega) h7)
      (fun h => Execution.then_leavesLocks (by omega) (h8 h)) (ih hb)

theorem serves_trans {ρ : Execution} {i : Nat} {cfg : Cfg} {mode : Mode} {a b c : Nat} {qs rest rest' : List Request}
    (h : Serves ρ i cfg mode a qs b rest) (h' : Serves ρ i cfg mode b rest c rest') :
    Serves ρ i cfg mode a qs c rest' := by
  induction h with
  | nil => exact h'
  | cons h1 h2 h3 h4 h5 h6 h7 _ ih => exact .cons h1 h2 h3 h4 h5 h6 h7 (ih h')
  | excused h1 h2 h3 h4 h5 h6 h7 _ ih => exact .excused h1 h2 h3 h4 h5 h6 h7 (ih h')

end Verif
