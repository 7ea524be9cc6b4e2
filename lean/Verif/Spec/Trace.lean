import Verif.Model.Prog
/-!
What a process does, as seen from outside: the sequence of OS calls it makes with the responses it
gets. Responses are unconstrained here, so a statement about all traces of a program covers any
environment: other processes, I/O errors, file system states.
-/
namespace Verif

/-- One OS call and its response. -/
abbrev Event := (o : Op) × Resp o

/-- `p.Did tr`: the process running `p` has performed exactly the calls `tr` so far (and may then
be anywhere: it may go on, have finished, or have been killed). -/
inductive Prog.Did {α : Type} : Prog α → List Event → Prop
  | nil {p} : Did p []
  | call {o k x tr} : Did (k x) tr → Did (.call o k) (⟨o, x⟩ :: tr)

/-- `p.Finished tr a`: the process running `p` has performed the calls `tr` and returned `a`. -/
inductive Prog.Finished {α : Type} : Prog α → List Event → α → Prop
  | ret {a} : Finished (.ret a) [] a
  | call {o k x tr a} : Finished (k x) tr a → Finished (.call o k) (⟨o, x⟩ :: tr) a

/-- The response is possible for the call, whatever the state: a temporary file is created in the
directory and with the prefix asked for. -/
def Event.Possible : Event → Prop
  | ⟨.createTemp dir pre _, x⟩ =>
    match x with
    | .ok (p, _) => ∃ sfx, p = dir ++ [pre ++ sfx]
    | .error _ => True
  | _ => True

end Verif
