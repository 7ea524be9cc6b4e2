import Verif.Model.System
import Verif.Spec.Ops
/-!
Servers that may be told anything.

In `Model/System.lean` every call is answered according to the file system. Here a call that changes nothing (`stat`,
opening and reading a file, listing a directory, the clock, writing to the client) may moreover be answered in any way
at all, whatever the files are. That includes a listing that was made while the directory changed, attributes and
contents that are out of date as on a network file system, symbolic links, file descriptors that stand for other files,
and clocks that go wrong. Calls that change something are as before.
-/
namespace Verif

/-- One step, in which a server may be told anything (the calls are those of local.rs:53-455, processor.rs:129-171
and git-lfs-transfer.rs:87-94). -/
inductive MisledStep (root : Path) : Sys → Option (Nat × Event) → Sys → Prop
  /-- As before. -/
  | step {s s' : Sys} {l : Option (Nat × Event)} : Step root s l s' → MisledStep root s l s'
  /-- A call that changes nothing is answered with `x`. -/
  | told {s : Sys} (i : Nat) (o : Op) (k : Resp o → Prog Exit) (x : Resp o) :
      s.procs i = .call o k → o.mutates = false →
      MisledStep root s (some (i, ⟨o, x⟩)) ⟨s.fs, s.setProc i (k x)⟩

/-- Any number of such steps, with the completed calls in order (as `MisledStep`). -/
inductive MisledSteps (root : Path) : Sys → List (Nat × Event) → Sys → Prop
  | refl {s} : MisledSteps root s [] s
  | tail {s tr s' l s''} : MisledSteps root s tr s' → MisledStep root s' l s'' → MisledSteps root s (tr ++ l.toList) s''

end Verif
