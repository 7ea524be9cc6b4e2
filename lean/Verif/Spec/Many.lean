import Verif.Spec.Shared
/-!
Servers of several repositories on one file system, as seen from one of the repositories.
-/
namespace Verif.Spec

/-- The system with only the servers of the repository `root`. In place of each of the others there is the program
`idle`, which has not been started. -/
def only (R : Nat → Path) (root : Path) (idle : Prog Exit) (s : Sys) : Sys :=
  ⟨s.fs, fun i => if R i = root then s.procs i else idle⟩

/-- A call, if a server of the repository `root` made it. -/
def onlyCall (R : Nat → Path) (root : Path) (l : Option (Nat × Event)) : Option (Nat × Event) :=
  l.filter fun e => R e.1 = root

/-- The calls of the servers of the repository `root`. -/
def onlyCalls (R : Nat → Path) (root : Path) (tr : List (Nat × Event)) : List (Nat × Event) :=
  tr.filter fun e => R e.1 = root

/-- An execution of servers of several repositories; process `i` serves the directory `dir i`. -/
structure ExecutionMany where
  dir : Nat → Path
  st : Nat → Sys
  lab : Nat → Option (Nat × Event)
  step : ∀ n, StepMany dir (st n) (lab n) (st (n + 1)) ∨ (st (n + 1) = st n ∧ lab n = none)

namespace ExecutionMany
variable (ρ : ExecutionMany)

/-- Process `i` meets no I/O error before moment `N`. -/
def NoFault (i N : Nat) : Prop :=
  ∀ n e, n < N → ρ.lab n = some (i, e) → ∃ c : Choice, c.fault = none ∧ sem c (ρ.st n).fs e.1 = ((ρ.st (n + 1)).fs, e.2)

/-- Process `i` has not been killed at moment `N`. -/
def NotKilled (i N : Nat) : Prop := ∀ n ≤ N, (ρ.st n).procs i ≠ .ret ⟨137, []⟩

/-- The execution `ρ'` is what the repository `root` sees of `ρ`: the same files at all moments, and of the servers those
of the repository. -/
structure Shows (root : Path) (ρ' : Execution) : Prop where
  place : ρ'.root = root
  files : ∀ n, (ρ'.st n).fs = (ρ.st n).fs
  procs : ∀ n i, ρ.dir i = root → (ρ'.st n).procs i = (ρ.st n).procs i
  calls : ∀ n i e, ρ'.lab n = some (i, e) ↔ ρ.lab n = some (i, e) ∧ ρ.dir i = root

end ExecutionMany

end Verif.Spec
