import Verif.Model.System
import Verif.Spec.Shared
/-!
Servers that read files piece by piece.

In `Model/System.lean` reading a file to its end is one call. In the code it is many: `read_to_end` of a lock file
(scutiger-lfs/src/backend/local.rs:374) and `io::copy` from an object (scutiger-lfs/src/processor.rs:169) each call
`read` until it returns nothing or fails. Here every `read` is a step of its own. Between two of them the other servers
work on, and other programs change their files. (`io::copy` moreover sends each piece before it reads the next; here all
are read before the first is sent. An object does not change once it is opened, `C80_object`.)
-/
namespace Verif

/-- The system, and the pieces that each process has got of the file it is reading (local.rs:374, processor.rs:169).
-/
structure Reading where
  sys : Sys
  got : Nat → List Bytes

/-- Replace what process `i` has got (local.rs:374, processor.rs:169). -/
def Reading.setGot (s : Reading) (i : Nat) (ps : List Bytes) : Nat → List Bytes :=
  fun j => if j = i then ps else s.got j

/-- Is this a completed reading of a file (not of a directory)? (local.rs:374, processor.rs:169). -/
def isReading : Option (Nat × Event) → Bool
  | some (_, ⟨.readAll (some _), _⟩) => true
  | _ => false

/-- One step, where each `read` is one (local.rs:374, processor.rs:169). -/
inductive ReadStep (root : Path) : Reading → Option (Nat × Event) → Reading → Prop
  /-- Anything but reading a file is as before. (What is said of `born`, which no call looks at, says that it is what
  its name says; `Elsewhere` does not ask for it where other programs' own files are concerned.) -/
  | other {s : Reading} {l : Option (Nat × Event)} {s' : Sys} :
      Step root s.sys l s' → isReading l = false →
      (∀ j, j < s.sys.fs.next → (s'.fs.inodes j).born = (s.sys.fs.inodes j).born) → ReadStep root s l ⟨s', s.got⟩
  /-- One `read` by process `i`, of at most `n + 1` bytes, from where the one before ended. The file is one of those
  that have been made. -/
  | piece {s : Reading} (i : Nat) (j : Ino) (k : Resp (.readAll (some j)) → Prog Exit) (n : Nat) (d : Bytes) :
      s.sys.procs i = .call (.readAll (some j)) k → j < s.sys.fs.next →
      d = ((s.sys.fs.inodes j).data.drop (s.got i).flatten.length).take (n + 1) → d ≠ [] →
      ReadStep root s none ⟨s.sys, s.setGot i (s.got i ++ [d])⟩
  /-- There is no more: the last `read` returns nothing. -/
  | done {s : Reading} (i : Nat) (j : Ino) (k : Resp (.readAll (some j)) → Prog Exit) :
      s.sys.procs i = .call (.readAll (some j)) k →
      (s.sys.fs.inodes j).data.drop (s.got i).flatten.length = [] →
      ReadStep root s (some (i, ⟨.readAll (some j), (s.got i, none)⟩))
        ⟨⟨s.sys.fs, s.sys.setProc i (k (s.got i, none))⟩, s.setGot i []⟩
  /-- A `read` fails. -/
  | failed {s : Reading} (i : Nat) (j : Ino) (k : Resp (.readAll (some j)) → Prog Exit) (e : IoErr) :
      s.sys.procs i = .call (.readAll (some j)) k →
      ReadStep root s (some (i, ⟨.readAll (some j), (s.got i, some e)⟩))
        ⟨⟨s.sys.fs, s.sys.setProc i (k (s.got i, some e))⟩, s.setGot i []⟩

/-- Any number of such steps, with the completed calls in order (local.rs:374, processor.rs:169). -/
inductive ReadSteps (root : Path) : Reading → List (Nat × Event) → Reading → Prop
  | refl {s} : ReadSteps root s [] s
  | tail {s tr s' l s''} : ReadSteps root s tr s' → ReadStep root s' l s'' → ReadSteps root s (tr ++ l.toList) s''

/-- At first no file is being read (git-lfs-transfer.rs:197-205). -/
def Sys.reading (s : Sys) : Reading := ⟨s, fun _ => []⟩

/-- An execution of such a system, of any length (local.rs:374, processor.rs:169). -/
structure ReadExecution where
  root : Path
  st : Nat → Reading
  lab : Nat → Option (Nat × Event)
  start : ∀ i, (st 0).got i = []
  step : ∀ n, ReadStep root (st n) (lab n) (st (n + 1)) ∨ (st (n + 1) = st n ∧ lab n = none)

end Verif
