import Verif.Lemmas.Work
import Verif.Tests.States
/-!
C65 and C66: what a client sends bounds what the server makes the operating system do, and how much it writes to disk.
-/
namespace Verif
open Spec Tests

theorem pay_session {P : Price} (cfg : Cfg) (ht : cfg.OnTime P) (op : Bytes) (r : Rdr) (tr : List Event)
    (h : (mainProg cfg op r).Did tr) (hl : ∀ s, (Logic.pay P).LegalTr s tr) :
    paid P tr ≤ 4 * P.a + r.left + 3 * P.a * listed tr := by
  have hw : (mainProg cfg op r).wp (Logic.pay P) (4 * P.a + r.left) (fun _ _ => True) := by
    unfold mainProg
    refine (Prog.wp_bind _ _ _ _).mpr (Prog.wp_mono (pays_runProgram cfg ht op 0 r (4 * P.a + r.left) (by omega)) ?_)
    rintro ⟨(_ | _ | _), _⟩ _ _ <;> trivial
  exact pay_preTr (Prog.wp_did hw h (hl _))

theorem pay_turn {P : Price} (cfg : Cfg) (ht : cfg.OnTime P) (mode : Mode) (r r' : Rdr) (x : Res Turn) (tr : List Event)
    (h : (turn cfg mode r).Finished tr (x, r')) (hl : ∀ s, (Logic.pay P).LegalTr s tr) :
    paid P tr + r'.left ≤ r.left + 3 * P.a * listed tr := by
  have hw := pays_turn cfg ht mode 0 r r.left (by omega)
  have hf := Prog.wp_finished hw h (hl _)
  have := pay_fold (Prog.wp_did hw h.did (hl _))
  simp only at hf
  omega

theorem calls_legal (tr : List Event) (s : Nat) : (Logic.pay .calls).LegalTr s tr :=
  Logic.legalTr_of_forall fun e _ _ => by
    obtain ⟨o, x⟩ := e
    cases o <;> trivial

theorem bytes_legal {tr : List Event} (h : ∀ e ∈ tr, Event.TimeOk e) (s : Nat) : (Logic.pay .bytes).LegalTr s tr :=
  Logic.legalTr_of_forall fun e he _ => by
    have := h e he
    obtain ⟨o, x⟩ := e
    cases o <;> first | exact intDec_length this.1 this.2 | trivial

/-- **C65**, whole sessions. At every moment of a session, whatever the operating system answers, the server has made
at most four calls to the operating system (not counting output to the client), and one for each byte it was sent,
and three for each name that listings of locks have met. -/
theorem C65_session (cfg : Cfg) (op : Bytes) (r : Rdr) (tr : List Event) (h : (mainProg cfg op r).Did tr) :
    work tr ≤ 4 + r.left + 3 * listed tr := by
  have := pay_session (P := .calls) cfg (fun _ _ => trivial) op r tr h (calls_legal tr)
  rw [paid_calls] at this
  exact this

/-- **C65**, one request: the calls made for it are bounded by the bytes it took and the names it listed. -/
theorem C65_request (cfg : Cfg) (mode : Mode) (r r' : Rdr) (x : Res Turn) (tr : List Event)
    (h : (turn cfg mode r).Finished tr (x, r')) : work tr + r'.left ≤ r.left + 3 * listed tr := by
  have := pay_turn (P := .calls) cfg (fun _ _ => trivial) mode r r' x tr h (calls_legal tr)
  rw [paid_calls] at this
  exact this

/-- **C66**, whole sessions. At every moment of a session, the server has written at most as many bytes to files as it
was sent. -/
theorem C66_session (cfg : Cfg) (op : Bytes) (r : Rdr) (tr : List Event) (h : (mainProg cfg op r).Did tr)
    (hc : ∀ t, cfg.timestamp = some t → -2 ^ 63 ≤ t ∧ t < 2 ^ 63) (ht : ∀ e ∈ tr, Event.TimeOk e) :
    bytesWritten tr ≤ r.left := by
  have := pay_session (P := .bytes) cfg (fun t h => intDec_length (hc t h).1 (hc t h).2) op r tr h (bytes_legal ht)
  rw [paid_bytes] at this
  simpa [Price.bytes] using this

/-- **C66**, one request: what it writes is bounded by the bytes it took. -/
theorem C66_request (cfg : Cfg) (mode : Mode) (r r' : Rdr) (x : Res Turn) (tr : List Event)
    (h : (turn cfg mode r).Finished tr (x, r'))
    (hc : ∀ t, cfg.timestamp = some t → -2 ^ 63 ≤ t ∧ t < 2 ^ 63) (ht : ∀ e ∈ tr, Event.TimeOk e) :
    bytesWritten tr + r'.left ≤ r.left := by
  have := pay_turn (P := .bytes) cfg (fun t h => intDec_length (hc t h).1 (hc t h).2) mode r r' x tr h (bytes_legal ht)
  rw [paid_bytes] at this
  simpa [Price.bytes] using this

/-- An upload and a listing that meets two locks. -/
def busy : Rdr := seeing (putA [b!"abc", b!"123"] ++ listAll) []

example : ∃ tr, (mainProg Tests.cfg b!"upload" busy).Did tr ∧ work tr = 18 ∧ listed tr = 2 ∧ busy.left = 130 ∧
    bytesWritten tr = 6 :=
  ⟨(mainProg Tests.cfg b!"upload" busy).events calm ⟨fsL, [], 0⟩, (Prog.run_finished _ _ _).did,
    by decide +kernel, by decide +kernel, by decide +kernel, by decide +kernel⟩

/-- A listing alone: one call to list, and three for each of the two locks. -/
example : ∃ x r' tr, (turn Tests.cfg .upload (seeing listAll [])).Finished tr (x, r') ∧ work tr = 7 ∧ listed tr = 2 ∧
    r'.left = 0 :=
  ⟨_, _, (turn Tests.cfg .upload (seeing listAll [])).events calm ⟨fsL, [], 0⟩, Prog.run_finished _ _ _,
    by decide +kernel, by decide +kernel, by decide +kernel⟩

/-- A lock with a long name, at a late hour. -/
def late : Rdr := seeing (lockOf b!"a/b/c/d.bin") []

def lateCfg : Cfg := { Tests.cfg with timestamp := some (-2 ^ 63) }

example : ∃ x r' tr, (turn lateCfg .upload late).Finished tr (x, r') ∧ (∀ e ∈ tr, Event.TimeOk e) ∧
    (∀ t, lateCfg.timestamp = some t → -2 ^ 63 ≤ t ∧ t < 2 ^ 63) ∧ late.left = 61 ∧ bytesWritten tr = 35 := by
  have hn : ((turn lateCfg .upload late).events calm ⟨fsL, [], 0⟩).all (fun e => decide (e.1 ≠ .now)) = true := by
    decide +kernel
  refine ⟨_, _, (turn lateCfg .upload late).events calm ⟨fsL, [], 0⟩, Prog.run_finished _ _ _, fun e he => ?_,
    fun t h => by cases h; decide, by decide +kernel, by decide +kernel⟩
  have := List.all_eq_true.mp hn e he
  obtain ⟨o, x⟩ := e
  cases o <;> trivial

end Verif
