import Verif.Spec.Trace
/-!
How much a server makes the operating system do.
-/
namespace Verif.Spec

/-- Anything but writing to the client. -/
def Event.isWork (e : Event) : Bool :=
  match e.1 with
  | .out _ | .flush => false
  | _ => true

/-- The number of calls, without those that write to the client. -/
def work (tr : List Event) : Nat := tr.countP Event.isWork

/-- How many names of files the call brought to light. -/
def Event.names : Event → Nat
  | ⟨.readDir _, .ok ns⟩ => ns.length
  | _ => 0

/-- How many names of files were seen in the directory of locks. -/
def listed (tr : List Event) : Nat := (tr.map Event.names).sum

/-- How many bytes the call was to write to a file. -/
def Event.bytes : Event → Nat
  | ⟨.write _ d, _⟩ => d.length
  | _ => 0

/-- How many bytes were written to files, or tried to. -/
def bytesWritten (tr : List Event) : Nat := (tr.map Event.bytes).sum

/-- The clock shows a number of seconds that has 64 bits. -/
def Event.TimeOk : Event → Prop
  | ⟨.now, t⟩ => -2 ^ 63 ≤ t ∧ t < 2 ^ 63
  | _ => True

end Verif.Spec
