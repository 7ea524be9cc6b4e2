import Verif.Model.Stderr
import Verif.Props.Startup
import Verif.Props.Loop
/-!
C83: what becomes of the server when standard error does not take its message.
-/
namespace Verif
open Spec Transfer

variable {repo : Except GitErr (Except GitErr Shared)} {cfg : Cfg} {op : Bytes} {r : Rdr} {errCap : Cap}

/-- **C83, calls.** It makes the same calls and goes on in the same way; only the very end differs: the part of the
message that arrives, and whether the exit code is the one it would be otherwise. -/
theorem C83_calls {tr : List Event} {y : Bytes × Ended} :
    (processErr repo cfg op r errCap).Finished tr y ↔
      ∃ x, (Transfer.process repo cfg op r).Finished tr x ∧ y = reported errCap x := by
  unfold processErr
  rw [Prog.finished_bind]
  constructor
  · rintro ⟨t1, t2, x, rfl, h1, h2⟩
    cases h2
    exact ⟨x, by simpa using h1, rfl⟩
  · rintro ⟨x, h, rfl⟩
    exact ⟨tr, [], x, by simp, h, .ret⟩

/-- **C83, the same run.** With the same answers it leaves the same files and the same output. -/
theorem C83_run (ch : Nat → Choice) (w : World) :
    ((processErr repo cfg op r errCap).run ch w).2 = ((Transfer.process repo cfg op r).run ch w).2 ∧
    ((processErr repo cfg op r errCap).run ch w).1 = reported errCap ((Transfer.process repo cfg op r).run ch w).1 := by
  unfold processErr
  rw [Prog.run_bind]
  exact ⟨rfl, rfl⟩

theorem gitExit_code (e : GitErr) :
    ((gitExit e).code = 1 ∨ (gitExit e).code = 2 ∨ (gitExit e).code = 4) ∧ (gitExit e).stderr ≠ [] := by
  unfold gitExit
  split <;> simp

/-- How the process ends: with code 0 and no message, or with another code. -/
theorem process_code {tr : List Event} {x : Exit} (h : (Transfer.process repo cfg op r).Finished tr x) :
    x = ⟨0, []⟩ ∨ x = ⟨101, []⟩ ∨ ((x.code = 1 ∨ x.code = 2 ∨ x.code = 4) ∧ x.stderr ≠ []) := by
  rcases C63_startup repo cfg op r with ⟨y, hy, he⟩ | ⟨s, u, _, _, he⟩
  · rw [he] at h
    cases h
    cases hy with
    | repo e => simp
    | config e => exact .inr (.inr (gitExit_code e))
    | value e e' _ => exact .inr (.inr (gitExit_code e))
  · rw [he] at h
    obtain ⟨res, r', _, ⟨_, rfl⟩ | ⟨e, _, h1, h2⟩ | ⟨_, rfl⟩⟩ := C43_exit_codes _ _ _ _ _ h
    · simp
    · refine .inr (.inr ⟨?_, by simp [h1]⟩)
      rw [h2]
      split <;> simp
    · simp

/-- **C83, the end.** It exits with code 0 exactly when it would otherwise, and has then written nothing. Any other exit
code of its own (1, 2 or 4) is given only if the whole message has arrived. If it has not, a beginning of it has, and the
process is aborted. -/
theorem C83_end {tr : List Event} {x : Exit} (h : (Transfer.process repo cfg op r).Finished tr x) :
    ((reported errCap x).2 = .exit 0 ↔ x.code = 0) ∧
    (∀ c, (reported errCap x).2 = .exit c → c = x.code ∧ (reported errCap x).1 = x.stderr) ∧
    ((reported errCap x).2 = .aborted → (x.code = 1 ∨ x.code = 2 ∨ x.code = 4) ∧
      ∃ rest, rest ≠ [] ∧ x.stderr = (reported errCap x).1 ++ rest) := by
  have hcode := process_code h
  unfold reported
  cases errCap with
  | none => simp [writeTo]
  | some n =>
    by_cases hn : x.stderr.length ≤ n
    · simp [writeTo, hn, List.take_of_length_le hn]
    · have hne : x.stderr ≠ [] := fun h => by simp [h] at hn
      have hc : x.code = 1 ∨ x.code = 2 ∨ x.code = 4 := by
        rcases hcode with rfl | rfl | h
        · exact absurd rfl hne
        · exact absurd rfl hne
        · exact h.1
      simp only [writeTo, hn, decide_false, Bool.false_eq_true, if_false]
      refine ⟨by constructor <;> intro h <;> simp_all, fun c h => by simp at h, fun _ => ⟨hc, x.stderr.drop n, ?_,
        (List.take_append_drop _ _).symm⟩⟩
      simpa using hn

namespace Tests

/-- A case: the repository cannot be opened, and standard error takes four bytes only … -/
example : (processErr (.error ⟨.notFound, b!"no repository"⟩) Tests.cfg b!"upload" (Rdr.new [] eofErr false) (some 4)).run
    calm ⟨fs0, [], 0⟩ = ((b!"no r", .aborted), ⟨fs0, [], 0⟩) := rfl

/-- … or takes the message. -/
example : (processErr (.error ⟨.notFound, b!"no repository"⟩) Tests.cfg b!"upload" (Rdr.new [] eofErr false) (some 14)).run
    calm ⟨fs0, [], 0⟩ = ((b!"no repository\n", .exit 4), ⟨fs0, [], 0⟩) := rfl

/-- Without a standard error a session that goes well ends with code 0. -/
example : ((processErr (.ok (.ok ⟨.ok [], .ok false⟩)) Tests.cfg b!"upload" (Rdr.new b!"0008quit" eofErr false) (some 0)).run
    calm ⟨fs0, [], 0⟩).1 = ([], .exit 0) := by decide +kernel

/-- One that does not is aborted, after the same output. -/
example : ((processErr (.ok (.ok ⟨.ok [], .ok false⟩)) Tests.cfg b!"upload" (Rdr.new b!"0002" eofErr false) (some 0)).run
    calm ⟨fs0, [], 0⟩).1 = ([], .aborted) ∧
    ((processErr (.ok (.ok ⟨.ok [], .ok false⟩)) Tests.cfg b!"upload" (Rdr.new b!"0002" eofErr false) (some 0)).run
    calm ⟨fs0, [], 0⟩).2.out = b!"000eversion=1\n0000" := by decide +kernel

end Tests
end Verif
