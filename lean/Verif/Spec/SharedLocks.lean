import Verif.Spec.Shared
import Verif.Spec.Reply
/-!
What one server answers to lock requests while others work on the same repository. The simple server of
`Spec.Server` is asked at one moment. This holds as long as no other process touches the same lock while the
request is served; the server reads and changes lock files in several steps, and nothing is promised otherwise.
-/
namespace Verif.Spec
namespace Execution
variable (ρ : Execution)

/-- The lock file with this ID at moment `n`: its content, and the user who owns it. -/
def lockAt (root : Path) (n : Nat) (id : Bytes) : Option (Bytes × Nat) := held root (ρ.st n).fs id

/-- From moment `n` to the next, the lock file with this ID and the temporary file beside it stay as they are. -/
structure Keeps (root : Path) (n : Nat) (id : Bytes) : Prop where
  file : (ρ.st (n + 1)).fs.get (lockFile root id) = (ρ.st n).fs.get (lockFile root id)
  temp : (ρ.st (n + 1)).fs.get (lockTempFile root id) = (ρ.st n).fs.get (lockTempFile root id)
  lock : ρ.lockAt root (n + 1) id = ρ.lockAt root n id

/-- Between the moments `a` and `b`, one of these files is changed, and not by a call of process `i`. -/
def Disturbed (root : Path) (i a b : Nat) (id : Bytes) : Prop :=
  ∃ n, a ≤ n ∧ n < b ∧ ¬ ρ.By i n ∧ ¬ ρ.Keeps root n id

/-- The calls process `i` makes between the moments `a` and `b`, except possibly the one at moment `n` for the lock
`id`, leave the locks as they are. -/
def LeavesLocks (root : Path) (i a b : Nat) (except : Option (Nat × Bytes)) : Prop :=
  ∀ n, a ≤ n → n < b → ρ.By i n → ∀ id, IsOid id → except ≠ some (n, id) →
    ρ.lockAt root (n + 1) id = ρ.lockAt root n id

/-- `t` is the configured time, or the process read it from the clock between the moments `a` and `b`. -/
def ClockIn (i : Nat) (cfg : Cfg) (a b : Nat) (t : Int) : Prop :=
  cfg.timestamp = some t ∨ (cfg.timestamp = none ∧ ∃ n, a ≤ n ∧ n < b ∧ ρ.lab n = some (i, ⟨.now, t⟩))

end Execution

/-- What the lock file with this ID stands for at moment `n`: no lock, or this one. A file that is no complete
record stands for nothing. -/
def Recorded (ρ : Execution) (cfg : Cfg) (n : Nat) (id : Bytes) : Option Lock → Prop
  | none => ρ.lockAt cfg.root n id = none
  | some l => ρ.lockAt cfg.root n id = some (lockText l, l.uid) ∧ lockName cfg.sha l.path = id ∧ TimeOk cfg l.time

/-- The ID of the lock a request is about. -/
def lockOf (cfg : Cfg) : Request → Option Bytes
  | .lock path | .listLocks (some path) _ _ => some (lockName cfg.sha path)
  | .unlock id => some id
  | _ => none

/-- Why a request about the lock `id`, which came at moment `a`, need not be answered properly: by moment `e` another
process has touched the lock file or the temporary file beside it, or the lock file was no complete record, or (for
`lock`) a temporary file was there already. -/
def LockExcuse (ρ : Execution) (i : Nat) (cfg : Cfg) (a e : Nat) (q : Request) (id : Bytes) : Prop :=
  ρ.Disturbed cfg.root i a e id ∨ (∀ o, ¬ Recorded ρ cfg a id o) ∨
  ((∃ path, q = .lock path) ∧ (ρ.st a).fs.get (lockTempFile cfg.root id) ≠ none)

/-! ### Listings of all locks -/

/-- What a listing says about a lock. -/
structure Seen where
  path : Bytes
  time : Int
  owner : Bytes
  deriving DecidableEq, Repr

def Seen.of (cfg : Cfg) (l : Lock) : Seen := ⟨l.path, l.time, ownerName cfg l.uid⟩

def Seen.id (cfg : Cfg) (e : Seen) : Bytes := lockName cfg.sha e.path

def Seen.lines (cfg : Cfg) (mode : Mode) (e : Seen) : List Bytes :=
  [b!"lock " ++ e.id cfg ++ b!"\n",
   b!"path " ++ e.id cfg ++ b!" " ++ e.path ++ b!"\n",
   b!"locked-at " ++ e.id cfg ++ b!" " ++ timeText cfg e.time ++ b!"\n",
   b!"ownername " ++ e.id cfg ++ b!" " ++ e.owner ++ b!"\n"] ++
  (if mode = .upload then
    [b!"owner " ++ e.id cfg ++ b!" " ++
      (if e.owner = ownerName cfg cfg.uid then b!"ours" else b!"theirs") ++ b!"\n"]
   else [])

/-- The ones from the cursor on. -/
def seenFrom (cfg : Cfg) (cursor : Option Bytes) (es : List Seen) : List Seen :=
  match cursor with
  | some c => es.dropWhile fun e => e.id cfg < c
  | none => es

/-- A page: as many as may be listed and one more. -/
def seenPage (cfg : Cfg) (cursor : Option Bytes) (limit : Option Nat) (es : List Seen) : List Seen :=
  (seenFrom cfg cursor es).take (pageSize limit + 1)

/-- The reply that lists these locks: like that of the simple server (see `listing_of`). -/
def listing (cfg : Cfg) (mode : Mode) (cursor : Option Bytes) (limit : Option Nat) (es : List Seen) : Answer :=
  let page := seenPage cfg cursor limit es
  ⟨200, (page[pageSize limit]?.map fun e => b!"next-cursor=" ++ e.id cfg ++ b!"\n").toList,
    .lines (page.flatMap (Seen.lines cfg mode))⟩

/-- Between the moments `a` and `b`, the lock file with this name is changed, and not by a call of process `i`. -/
def Execution.Touched (ρ : Execution) (root : Path) (i a b : Nat) (name : Bytes) : Prop :=
  ∃ n, a ≤ n ∧ n < b ∧ ¬ ρ.By i n ∧
    ¬ ((ρ.st (n + 1)).fs.get (lockFile root name) = (ρ.st n).fs.get (lockFile root name) ∧
       ρ.lockAt root (n + 1) name = ρ.lockAt root n name)

/-- Why a file in the locks directory, read by process `i` between the moments `n` and `m`, may be listed wrongly: it
is no lock file (but the temporary file of one), or no complete record, or another process changes it meanwhile. -/
def Blurred (ρ : Execution) (i : Nat) (cfg : Cfg) (n m : Nat) (name : Bytes) : Prop :=
  ¬ IsOid name ∨ (∀ o, ¬ Recorded ρ cfg n name o) ∨ ρ.Touched cfg.root i n m name

/-- The names in the locks directory at moment `n`, in increasing order. -/
def LockFiles (ρ : Execution) (cfg : Cfg) (n : Nat) (names : List Bytes) : Prop :=
  names.Pairwise (· < ·) ∧ ∀ name, name ∈ names ↔ ρ.lockAt cfg.root n name ≠ none

/-- Process `i` reads these files one after the other, from moment `a` to moment `e`, and sees these locks. -/
inductive Looked (ρ : Execution) (i : Nat) (cfg : Cfg) : Nat → List Bytes → List Seen → Nat → Prop
  | nil {a e : Nat} : a ≤ e → Looked ρ i cfg a [] [] e
  | cons {a n m e : Nat} {name : Bytes} {names : List Bytes} {o : Option Seen} {es : List Seen} :
      a ≤ n → n ≤ m → ρ.By i n → ρ.By i m →
      ((∃ l : Option Lock, Recorded ρ cfg n name l ∧ o = l.map (Seen.of cfg)) ∨ Blurred ρ i cfg n m name) →
      Looked ρ i cfg (m + 1) names es e → Looked ρ i cfg a (name :: names) (o.toList ++ es) e

/-- Between the moments `a` and `e`, process `i` reads the locks directory and then the files, in order, until it has
seen more locks than it may list. -/
def Listed (ρ : Execution) (i : Nat) (cfg : Cfg) (a e : Nat) (cursor : Option Bytes) (limit : Option Nat)
    (es : List Seen) : Prop :=
  ∃ d names later, a ≤ d ∧ ρ.By i d ∧ LockFiles ρ cfg d (names ++ later) ∧ Looked ρ i cfg (d + 1) names es e ∧
    (later = [] ∨ pageSize limit < (seenFrom cfg cursor es).length)

/-- From moment `a` to moment `b`, nobody changes the lock file with this name. -/
def Execution.Untouched (ρ : Execution) (root : Path) (a b : Nat) (name : Bytes) : Prop :=
  ∀ n, a ≤ n → n < b → (ρ.st (n + 1)).fs.get (lockFile root name) = (ρ.st n).fs.get (lockFile root name) ∧
    ρ.lockAt root (n + 1) name = ρ.lockAt root n name

/-- A lock is held from moment `a` to moment `b`. -/
def Holds (ρ : Execution) (cfg : Cfg) (a b : Nat) (l : Lock) : Prop :=
  Recorded ρ cfg a (lockName cfg.sha l.path) (some l) ∧ ρ.Untouched cfg.root a b (lockName cfg.sha l.path)

/-- All locks are listed, page by page, each page possibly by another process: the first one with this cursor, each
next one with the cursor the page before ended with. Together the pages show these locks. -/
inductive Paged (ρ : Execution) (cfg : Cfg) : Nat → Option Bytes → List Seen → Nat → Prop
  | last {i a e : Nat} {cursor : Option Bytes} {limit : Option Nat} {es : List Seen} :
      Listed ρ i cfg a e cursor limit es → (seenPage cfg cursor limit es)[pageSize limit]? = none →
      Paged ρ cfg a cursor (seenPage cfg cursor limit es) e
  | more {i a e b f : Nat} {cursor : Option Bytes} {limit : Option Nat} {es xs : List Seen} {x : Seen} :
      Listed ρ i cfg a e cursor limit es → (seenPage cfg cursor limit es)[pageSize limit]? = some x → e ≤ b →
      Paged ρ cfg b (some (x.id cfg)) xs f → Paged ρ cfg a cursor (seenPage cfg cursor limit es ++ xs) f

/-- The locks at moment `n` are these, and nothing else is in the locks directory. -/
structure LocksAre (ρ : Execution) (cfg : Cfg) (n : Nat) (ls : List Lock) : Prop where
  sorted : (ls.map fun l => lockName cfg.sha l.path).Pairwise (· < ·)
  files : ∀ name, ρ.lockAt cfg.root n name ≠ none ↔ ∃ l ∈ ls, lockName cfg.sha l.path = name

/-- Why a listing need not be answered properly: a listed lock has a time that cannot be reported. (Such a lock is
`Blurred`.) -/
def ListExcuse (ρ : Execution) (i : Nat) (cfg : Cfg) (a e : Nat) (cursor : Option Bytes) (limit : Option Nat) : Prop :=
  ∃ es, Listed ρ i cfg a e cursor limit es ∧ ∃ x ∈ seenPage cfg cursor limit es, ¬ TimeOk cfg x.time

/-- Why a request, which came at moment `a`, need not be answered properly. -/
def Excused (ρ : Execution) (i : Nat) (cfg : Cfg) (a e : Nat) : Request → Prop
  | .lock path => LockExcuse ρ i cfg a e (.lock path) (lockName cfg.sha path)
  | .listLocks (some path) cursor limit =>
    LockExcuse ρ i cfg a e (.listLocks (some path) cursor limit) (lockName cfg.sha path)
  | .unlock id => LockExcuse ρ i cfg a e (.unlock id) id
  | .listLocks none cursor limit => ListExcuse ρ i cfg a e cursor limit
  | _ => False

/-! ### Answers -/

/-- At moment `n`, by a call of process `i`, the lock `id` goes from one state to another, as the simple server
without other locks would do, answering `ans`. -/
def LockStep (ρ : Execution) (i : Nat) (cfg : Cfg) (mode : Mode) (a n : Nat) (q : Request) (id : Bytes) (t t' : Int)
    (ans : Answer) : Prop :=
  a ≤ n ∧ ρ.By i n ∧ ∃ o o' : Option Lock, Recorded ρ cfg n id o ∧ Recorded ρ cfg (n + 1) id o' ∧
    answer cfg mode ⟨fun _ => none, o.toList⟩ t t' q = (ans, ⟨fun _ => none, o'.toList⟩) ∧
    (o = none → o' ≠ none → ρ.ClockIn i cfg a n t)

/-- Between the moments `a` and `e`, process `i` finds the answer `ans` to `q`. -/
def Answers (ρ : Execution) (i : Nat) (cfg : Cfg) (mode : Mode) (a e : Nat) (q : Request) (ans : Answer) : Prop :=
  match lockOf cfg q with
  | none => (match q with
      | .listLocks none cursor limit => ρ.Leaves cfg.root i a e none ∧
          ∃ es, Listed ρ i cfg a e cursor limit es ∧ ans = listing cfg mode cursor limit es
      | q => Answered ρ i cfg mode a e q ans) ∧ ρ.LeavesLocks cfg.root i a e none
  | some id => ∃ n t t', n < e ∧ LockStep ρ i cfg mode a n q id t t' ans ∧
      (ans.code = 201 → ρ.ClockIn i cfg a e t') ∧
      ρ.LeavesLocks cfg.root i a e (some (n, id)) ∧ ρ.Leaves cfg.root i a e none

/-- Between the moments `a` and `c`, process `i` answers requests, one after the other, up to `rest`. An excused
request gets some reply. -/
inductive Serves (ρ : Execution) (i : Nat) (cfg : Cfg) (mode : Mode) :
    Nat → List Request → Nat → List Request → Prop
  | nil {a : Nat} {qs : List Request} : Serves ρ i cfg mode a qs a qs
  | cons {a e b c : Nat} {q : Request} {qs rest : List Request} {ans : Answer} : a ≤ e → e ≤ b →
      ρ.out i a e = [] → Answers ρ i cfg mode a e q ans →
      Sends ans (ρ.out i e b) → ρ.Leaves cfg.root i e b none → ρ.LeavesLocks cfg.root i e b none →
      Serves ρ i cfg mode b qs c rest → Serves ρ i cfg mode a (q :: qs) c rest
  | excused {a e b c : Nat} {q : Request} {qs rest : List Request} : a ≤ e → e ≤ b →
      ρ.out i a e = [] → Excused ρ i cfg a e q →
      IsReply (ρ.out i e b) → ρ.Leaves cfg.root i a b none →
      (lockOf cfg q = none → ρ.LeavesLocks cfg.root i a b none) →
      Serves ρ i cfg mode b qs c rest → Serves ρ i cfg mode a (q :: qs) c rest

/-- What process `i`, which works on request `q` since moment `a`, may have done until `N`: nothing, or what the
request asks for, in one step. -/
def WorkingOn (ρ : Execution) (i : Nat) (cfg : Cfg) (mode : Mode) (a N : Nat) (q : Request) : Prop :=
  match lockOf cfg q with
  | none => Working ρ i cfg mode a N q ∧ ρ.LeavesLocks cfg.root i a N none
  | some id => ρ.Leaves cfg.root i a N none ∧ (ρ.LeavesLocks cfg.root i a N none ∨
      ∃ n t t' ans, n < N ∧ LockStep ρ i cfg mode a n q id t t' ans ∧
        ρ.LeavesLocks cfg.root i a N (some (n, id)))

/-- What process `i` has been doing between the moments `a` and `N` when these requests are left: nothing; looking
for the answer to the first one, or printing it; or it need not answer properly. -/
inductive Busy (ρ : Execution) (i : Nat) (cfg : Cfg) (mode : Mode) (a N : Nat) : List Request → Prop
  | idle : ρ.out i a N = [] → ρ.Leaves cfg.root i a N none → ρ.LeavesLocks cfg.root i a N none →
      Busy ρ i cfg mode a N []
  | working {q : Request} {qs : List Request} : ρ.out i a N = [] → WorkingOn ρ i cfg mode a N q →
      Busy ρ i cfg mode a N (q :: qs)
  | replying {e : Nat} {q : Request} {qs : List Request} {ans : Answer} {more : Bytes} : a ≤ e → e ≤ N →
      ρ.out i a e = [] → Answers ρ i cfg mode a e q ans → Sends ans (ρ.out i e N ++ more) →
      ρ.Leaves cfg.root i e N none → ρ.LeavesLocks cfg.root i e N none → Busy ρ i cfg mode a N (q :: qs)
  | excused {e : Nat} {q : Request} {qs : List Request} {more : Bytes} : a ≤ e → e ≤ N →
      ρ.out i a e = [] → Excused ρ i cfg a e q →
      IsReply (ρ.out i e N ++ more) → ρ.Leaves cfg.root i a N none →
      (lockOf cfg q = none → ρ.LeavesLocks cfg.root i a N none) → Busy ρ i cfg mode a N (q :: qs)

/-- No directory is at the path of a lock. -/
def NoLockDirs (root : Path) (fs : FS) : Prop := ∀ id, lockFile root id ∉ fs.dirs

/-- No path occurs twice in the list of files, which stands for a finite map. -/
def OneEach (fs : FS) : Prop := (fs.names.map (·.1)).Nodup

end Verif.Spec
