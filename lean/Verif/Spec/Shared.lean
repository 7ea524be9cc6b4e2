import Verif.Spec.Server
import Verif.Model.System
/-!
What one server answers while others work on the same repository: each request on objects is
answered as by the simple server, at one moment between its arrival and the first byte of the reply.
-/
namespace Verif.Spec

/-- An execution of the whole system: its states at the moments 0, 1, 2, …, with the call completed
from each moment to the next, if any. Nothing may happen from one moment to the next. -/
structure Execution where
  /-- The lfs directory. -/
  root : Path
  st : Nat → Sys
  lab : Nat → Option (Nat × Event)
  step : ∀ n, Step root (st n) (lab n) (st (n + 1)) ∨ (st (n + 1) = st n ∧ lab n = none)

namespace Execution
variable (ρ : Execution)

/-- At first there are the servers of one repository, at the beginning of their work. -/
structure Begins (root : Path) (sha : Bytes → Bytes) : Prop where
  dir : ρ.root = root
  start : Start root sha (ρ.st 0)

/-- What process `i` prints from moment `n` to the next (in a call that does not fail). -/
def printed (i n : Nat) : Bytes :=
  match ρ.lab n with
  | some (j, ⟨.out b, _⟩) => if j = i then b else []
  | _ => []

/-- What process `i` prints between the moments `a` and `b`. -/
def out (i a b : Nat) : Bytes := (List.range' a (b - a)).flatMap (ρ.printed i)

/-- The objects stored at moment `n`. -/
def objectsAt (root : Path) (n : Nat) : Bytes → Option Bytes :=
  fun oid => (ρ.st n).fs.content (objectFile root oid)

/-- The step from moment `n` is a call of process `i`. -/
def By (i n : Nat) : Prop := ∃ e, ρ.lab n = some (i, e)

/-- The calls process `i` makes between the moments `a` and `b`, except possibly at moment `n`, leave
the objects as they are. -/
def Leaves (root : Path) (i a b : Nat) (except : Option Nat) : Prop :=
  ∀ n, a ≤ n → n < b → except ≠ some n → ρ.By i n →
    ∀ oid, IsOid oid → ρ.objectsAt root (n + 1) oid = ρ.objectsAt root n oid

/-- Process `i` meets no I/O error before moment `N`. -/
def NoFault (i N : Nat) : Prop :=
  ∀ n e, n < N → ρ.lab n = some (i, e) →
    ∃ c : Choice, c.fault = none ∧ sem c (ρ.st n).fs e.1 = ((ρ.st (n + 1)).fs, e.2)

/-- Process `i` has not been killed at moment `N`. -/
def NotKilled (i N : Nat) : Prop := ∀ n ≤ N, (ρ.st n).procs i ≠ .ret ⟨137, []⟩

end Execution

/-- Requests that do not concern locks. -/
def OnObjects : Request → Prop
  | .lock _ | .listLocks _ _ _ | .unlock _ => False
  | _ => True

/-- The simple server with the objects there are at moment `n`. Its locks do not matter. -/
def storeAt (ρ : Execution) (root : Path) (n : Nat) : Store := ⟨ρ.objectsAt root n, []⟩

/-- `Answered ρ i cfg mode a e q ans`: between the moments `a` and `e`, process `i` finds the answer
`ans` to `q`. For `put-object`, `verify-object` and `get-object` there is one moment at which the
simple server gives this answer and goes to the state found at the next moment. Each line of a `batch` is
right at its own moment. Otherwise the process leaves the objects alone. -/
def Answered (ρ : Execution) (i : Nat) (cfg : Cfg) (mode : Mode) (a e : Nat) : Request → Answer → Prop
  | .put oid size data, ans => ∃ n, a ≤ n ∧ n < e ∧ ρ.By i n ∧
      (answer cfg mode (storeAt ρ cfg.root n) 0 0 (.put oid size data)).1 = ans ∧
      (∀ o, IsOid o → ρ.objectsAt cfg.root (n + 1) o =
        (answer cfg mode (storeAt ρ cfg.root n) 0 0 (.put oid size data)).2.objs o) ∧
      ρ.Leaves cfg.root i a e (some n)
  | .batch items, ans => ∃ ms : List Nat, ms.length = items.length ∧ ms.Pairwise (· < ·) ∧
      (∀ n ∈ ms, a ≤ n ∧ n < e) ∧
      ans = ⟨200, [], .lines (List.zipWith (fun n it => batchLine (storeAt ρ cfg.root n) mode it) ms items)⟩ ∧
      ρ.Leaves cfg.root i a e none
  | .verify oid size, ans => ∃ n, a ≤ n ∧ n < e ∧
      (answer cfg mode (storeAt ρ cfg.root n) 0 0 (.verify oid size)).1 = ans ∧ ρ.Leaves cfg.root i a e none
  | .get oid, ans => ∃ n, a ≤ n ∧ n < e ∧
      (answer cfg mode (storeAt ρ cfg.root n) 0 0 (.get oid)).1 = ans ∧ ρ.Leaves cfg.root i a e none
  | .version, ans => ans = ⟨200, [], .lines []⟩ ∧ ρ.Leaves cfg.root i a e none
  | .quit, ans => ans = ⟨200, [], .none⟩ ∧ ρ.Leaves cfg.root i a e none
  | _, _ => False

/-- Between the moments `a` and `c`, process `i` answers the requests, one after the other. Each is
answered first (until `e`), and then the reply is printed. -/
inductive ServedIn (ρ : Execution) (i : Nat) (cfg : Cfg) (mode : Mode) : Nat → List Request → Nat → Prop
  | nil {a : Nat} : ServedIn ρ i cfg mode a [] a
  | cons {a e b c : Nat} {q : Request} {qs : List Request} {ans : Answer} : a ≤ e → e ≤ b →
      ρ.out i a e = [] → Answered ρ i cfg mode a e q ans →
      Sends ans (ρ.out i e b) → ρ.Leaves cfg.root i e b none →
      ServedIn ρ i cfg mode b qs c → ServedIn ρ i cfg mode a (q :: qs) c

/-- What process `i`, which works on request `q` since moment `a`, may have done to the objects until `N`: nothing,
or what the request asks for, in one step. -/
def Working (ρ : Execution) (i : Nat) (cfg : Cfg) (mode : Mode) (a N : Nat) (q : Request) : Prop :=
  ρ.Leaves cfg.root i a N none ∨
  ∃ n, a ≤ n ∧ n < N ∧ ρ.Leaves cfg.root i a N (some n) ∧
    ∀ o, IsOid o → ρ.objectsAt cfg.root (n + 1) o = (answer cfg mode (storeAt ρ cfg.root n) 0 0 q).2.objs o

/-- Between the moments `a` and `N`, process `i` has answered some of the requests and is busy with the next
one: it is looking for the answer, or printing the reply. -/
inductive ServingIn (ρ : Execution) (i : Nat) (cfg : Cfg) (mode : Mode) : Nat → List Request → Nat → Prop
  | finished {a N : Nat} : a ≤ N → ρ.out i a N = [] → ρ.Leaves cfg.root i a N none → ServingIn ρ i cfg mode a [] N
  | working {a N : Nat} {q : Request} {qs : List Request} : a ≤ N → ρ.out i a N = [] →
      Working ρ i cfg mode a N q → ServingIn ρ i cfg mode a (q :: qs) N
  | replying {a e N : Nat} {q : Request} {qs : List Request} {ans : Answer} {more : Bytes} : a ≤ e → e ≤ N →
      ρ.out i a e = [] → Answered ρ i cfg mode a e q ans → Sends ans (ρ.out i e N ++ more) →
      ρ.Leaves cfg.root i e N none → ServingIn ρ i cfg mode a (q :: qs) N
  | cons {a e b N : Nat} {q : Request} {qs : List Request} {ans : Answer} : a ≤ e → e ≤ b →
      ρ.out i a e = [] → Answered ρ i cfg mode a e q ans →
      Sends ans (ρ.out i e b) → ρ.Leaves cfg.root i e b none →
      ServingIn ρ i cfg mode b qs N → ServingIn ρ i cfg mode a (q :: qs) N

/-- Files and directories do not stand in each other's way: no directory is at the path of an object, and
no file at the path of a directory the server makes. -/
structure Tidy (root : Path) (fs : FS) : Prop where
  objFiles : ∀ oid, IsOid oid → objectFile root oid ∉ fs.dirs
  noFile : ∀ d, (d ∈ topDirs root ∨ ∃ oid, IsOid oid ∧ d = objectDir root oid) →
    ∀ q, q <+: d → fs.get q = none

end Verif.Spec
