import Verif.Spec.Report
import Verif.Spec.Reply
import Verif.Model.System
/-!
Listings of locks while the directory of locks changes. A listing of a directory is not one moment: a name that comes or
goes meanwhile may be given or not. A name that is there all the time must be given.
-/
namespace Verif.Spec

/-- During `tr`, all that was asked about the file of this lock was answered as its record says, and all listings of the
directory had its name. Nothing is said about other files. -/
structure Steady (cfg : Cfg) (tr : List Event) (l : Shown) : Prop where
  listed : ∀ names, (⟨.readDir (cfg.root ++ [b!"locks"]), .ok names⟩ : Event) ∈ tr → lockName cfg.sha l.path ∈ names
  opened : ∀ e, (⟨.openRead (lockEntry cfg.root (lockName cfg.sha l.path)), .error e⟩ : Event) ∉ tr
  stated : ∀ x, (⟨.stat (lockEntry cfg.root (lockName cfg.sha l.path)), x⟩ : Event) ∈ tr →
    ∃ st, x = .ok st ∧ ownerName cfg st.uid = l.owner
  read : ∀ h, (⟨.openRead (lockEntry cfg.root (lockName cfg.sha l.path)), .ok h⟩ : Event) ∈ tr →
    (∀ e, (⟨.fstat h, .error e⟩ : Event) ∉ tr) ∧
    ∀ x, (⟨.readAll h, x⟩ : Event) ∈ tr → x.2 = none ∧ RecordIs x.1.flatten l.time l.path

/-- A file in the directory of locks was read as a lock that should have another name, later in the order. (The file a
lock is prepared in has the name of the lock with an ending. That is not earlier.) -/
def Misnamed (cfg : Cfg) (tr : List Event) (x : Shown) : Prop :=
  ∃ names m id, (⟨.readDir (cfg.root ++ [b!"locks"]), .ok names⟩ : Event) ∈ tr ∧ m ∈ names ∧ Lossy m id ∧
    SaidLock cfg tr id x ∧ m < lockName cfg.sha x.path

/-- The reply to a listing that shows these locks. -/
def showing (cfg : Cfg) (mode : Mode) (limit : Option Nat) (ls : List Shown) : Answer :=
  ⟨200, (ls[pageSize limit]?.map fun l => b!"next-cursor=" ++ lockName cfg.sha l.path ++ b!"\n").toList,
    .lines (ls.flatMap (shownLines cfg mode))⟩

/-- A server is asked for the locks from `cursor` on and does `tr`. It replies. -/
def PageAsked (cfg : Cfg) (mode : Mode) (cursor : Option Bytes) (tr : List Event) : Prop :=
  ∃ limit ps wire rest r r', Encodes (.listLocks none cursor limit) ps ∧ Frames ps wire ∧ r.input = wire ++ rest ∧
    r.pending = [] ∧ (turn cfg mode r).Finished tr (.ok .again, r') ∧ ∀ e ∈ tr, e.OutOk

/-- The reply is a success, and says where the next page starts, or that there is none. -/
def Pointer (w : Bytes) (next : Option Bytes) : Prop :=
  ∃ r : Reply, r.Ok ∧ Frames r.packets w ∧ r.code = 200 ∧
    r.args = (next.map fun c => b!"next-cursor=" ++ c ++ b!"\n").toList

/-- A client gets all pages from `cursor` on, possibly from several servers, with whatever happening in between. -/
inductive PagesFrom (cfg : Cfg) (mode : Mode) : Option Bytes → List (List Event) → Prop
  | last {cursor : Option Bytes} {tr : List Event} : PageAsked cfg mode cursor tr → Pointer (output tr) none →
      PagesFrom cfg mode cursor [tr]
  | more {cursor : Option Bytes} {c : Bytes} {tr : List Event} {trs : List (List Event)} : PageAsked cfg mode cursor tr →
      Pointer (output tr) (some c) → PagesFrom cfg mode (some c) trs → PagesFrom cfg mode cursor (tr :: trs)

/-! ### Executions in which a listing takes time -/

/-- Process `i` has been listing a directory since moment `m`, and gets the answer at moment `n`: names such that none
is missing that is in the directory all the time. Other names may be left out or added. -/
def Wandered (st : Nat → Sys) (i m n : Nat) (e : Event) : Prop :=
  m ≤ n ∧ ∃ d k names, e = ⟨.readDir d, .ok names⟩ ∧ (∀ j, m ≤ j → j ≤ n → (st j).procs i = .call (.readDir d) k) ∧
    (∀ name, (∀ j, m ≤ j → j ≤ n → name ∈ (st j).fs.entries d) → name ∈ names) ∧
    st (n + 1) = ⟨(st n).fs, (st n).setProc i (k (.ok names))⟩

/-- As `Execution`, but a listing of a directory may take time. -/
structure Ramble where
  root : Path
  st : Nat → Sys
  lab : Nat → Option (Nat × Event)
  step : ∀ n, Step root (st n) (lab n) (st (n + 1)) ∨ (st (n + 1) = st n ∧ lab n = none) ∨
    ∃ i m e, lab n = some (i, e) ∧ Wandered st i m n e

/-- From moment `a` to moment `b` process `i` meets no I/O error. A listing of a directory that it gets was begun at
moment `a` or later. -/
def Ramble.Unhurt (ρ : Ramble) (i a b : Nat) : Prop :=
  ∀ n e, a ≤ n → n < b → ρ.lab n = some (i, e) →
    (∃ c : Choice, c.fault = none ∧ sem c (ρ.st n).fs e.1 = ((ρ.st (n + 1)).fs, e.2)) ∨ ∃ m, a ≤ m ∧ Wandered ρ.st i m n e

/-- All of `tr` is done by process `i` from moment `a` to moment `b`. -/
def Ramble.During (ρ : Ramble) (i a b : Nat) (tr : List Event) : Prop :=
  ∀ e ∈ tr, ∃ n, a ≤ n ∧ n < b ∧ ρ.lab n = some (i, e)

/-- The lock is held from moment `a` to moment `b`, always by the same file. -/
def Ramble.Keeps (ρ : Ramble) (cfg : Cfg) (a b : Nat) (l : Lock) : Prop :=
  TimeOk cfg l.time ∧ ∃ ino, ∀ n, a ≤ n → n ≤ b → (ρ.st n).fs.isDir (cfg.root ++ [b!"locks"]) = true ∧
    (ρ.st n).fs.get (lockFile cfg.root (lockName cfg.sha l.path)) = some ino ∧
    ((ρ.st n).fs.inodes ino).data = lockText l ∧ ((ρ.st n).fs.inodes ino).uid = l.uid

end Verif.Spec
