import Verif.Spec.Aside
/-! C90: servers that are killed, one after the other. -/
namespace Verif.Spec

/-- One server: its mode, its clock, what it is asked, and what it has printed when it ends or is killed. -/
structure Stint where
  mode : Mode
  ch : Nat → Choice
  qs : List Said
  out : Bytes

/-- The path that is to be locked. -/
def Said.toLock : Said → Option Bytes
  | .ask (.lock p) => some p
  | _ => none

/-- The paths that the server is asked to lock. -/
def Stint.locks (l : Stint) : List Bytes := l.qs.filterMap Said.toLock

/-- From the files `fs`, one server after the other is started, and each is killed after some number of calls, unless it has
ended before; no call fails. None is asked to list all locks or to lock a path that an earlier one was to lock. -/
inductive Stints (cfg : Cfg) (fs : FS) : List Stint → FS → Prop
  | none : Stints cfg fs [] fs
  | next {ls : List Stint} {fs' : FS} {l : Stint} {w : World} {r : Rdr} (n : Nat) : Stints cfg fs ls fs' →
      w.fs = fs' → w.out = [] → (∀ n, (l.ch n).fault = .none) → (∀ t, Clock cfg l.ch t → TimeOk cfg t) →
      Talk l.mode l.qs r.input → r.pending = [] → r.fin.kind = .unexpectedEof →
      (∀ path ∈ ls.flatMap Stint.locks, ∀ q ∈ l.qs, Aloof cfg path q) →
      l.out = (stopped l.ch n (mainProg cfg (Mode.operation l.mode) r) w).out →
      Stints cfg fs (ls ++ [l]) (stopped l.ch n (mainProg cfg (Mode.operation l.mode) r) w).fs

/-- The files without those in which these servers may have prepared records of locks. -/
def tidied (cfg : Cfg) (ls : List Stint) (fs : FS) : FS := fs.dels ((ls.flatMap Stint.locks).map (halfLock cfg))

/-- Each server in turn has done some of the requests, from the first on, and has printed replies to those at most. -/
inductive Partly (cfg : Cfg) (s : Store) : List Stint → Store → Prop
  | none : Partly cfg s [] s
  | next {ls : List Stint} {l : Stint} {k : Nat} {ws : List Bytes} {s1 s2 : Store} : Partly cfg s ls s1 →
      Conversation cfg l.mode l.ch s1 (l.qs.take k) ws s2 → l.out <+: b!"000eversion=1\n0000" ++ ws.flatten →
      Partly cfg s (ls ++ [l]) s2

end Verif.Spec
