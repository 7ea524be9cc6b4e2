import Verif.Model.World
/-!
Programs as trees of OS calls. The same program can be run alone (`Prog.run`), or one call at a
time, interleaved with other processes and killed at any point (`System.lean`).
-/
namespace Verif

/-- A program as a tree: it has ended, or makes a call and goes on with the answer (the calls are those of local.rs,
processor.rs and git-lfs-transfer.rs that are listed with `Op`). -/
inductive Prog (α : Type) : Type where
  | ret (a : α)
  | call (o : Op) (k : Resp o → Prog α)

/-- One program after the other (statements in sequence, e.g. local.rs:66-83). -/
def Prog.bind {α β : Type} : Prog α → (α → Prog β) → Prog β
  | .ret a, f => f a
  | .call o k, f => .call o (fun r => (k r).bind f)

/-- State of a process running alone: the file system, what it has written to standard output,
and how many OS calls were made (the index of the next environment choice) (git-lfs-transfer.rs:204). -/
structure World where
  fs : FS
  out : Bytes
  tick : Nat

/-- Run a program alone in an environment `ch` (git-lfs-transfer.rs:197-205). -/
def Prog.run {α : Type} (ch : Nat → Choice) : Prog α → World → α × World
  | .ret a, w => (a, w)
  | .call o k, w =>
    (k (sem (ch w.tick) w.fs o).2).run ch
      ⟨(sem (ch w.tick) w.fs o).1, w.out ++ emitted (ch w.tick) o, w.tick + 1⟩

/-- Code that reads commands from a `Rdr`, may return early with an error (`?`) or panic (the methods of
processor.rs:97-728 and local.rs:22-455). -/
def M (α : Type) : Type := Rdr → Prog (Res α × Rdr)

namespace M

/-- `Ok(a)` (e.g. processor.rs:131, local.rs:105). -/
def pure {α : Type} (a : α) : M α := fun r => .ret (.ok a, r)

/-- Sequencing with `?`: errors and panics end the function (e.g. local.rs:77-78, processor.rs:464-466). -/
def bind {α β : Type} (m : M α) (f : α → M β) : M β := fun r =>
  (m r).bind fun x =>
    match x with
    | (.ok a, r) => f a r
    | (.err e, r) => .ret (.err e, r)
    | (.panic, r) => .ret (.panic, r)

instance : Monad M where
  pure := M.pure
  bind := M.bind

/-- `return Err(e)` (e.g. processor.rs:472-483, local.rs:173). -/
def throw {α : Type} (e : Err) : M α := fun r => .ret (.err e, r)

/-- A panic (pktline.rs:119, local.rs:264). -/
def panic {α : Type} : M α := fun r => .ret (.panic, r)

/-- Inspect a result instead of propagating an error (`match f() { Ok(..) .. Err(e) .. }`).
Panics still propagate (e.g. processor.rs:365, 509, 524, 661, 705; local.rs:111, 368). -/
def attempt {α : Type} (m : M α) : M (Except Err α) := fun r =>
  (m r).bind fun x =>
    match x with
    | (.ok a, r) => .ret (.ok (.ok a), r)
    | (.err e, r) => .ret (.ok (.error e), r)
    | (.panic, r) => .ret (.panic, r)

/-- Run `c` when the scope is left in any way (a Rust destructor): normally, by `?`, or by
unwinding. The destructors modelled ignore their own errors (`Drop for LockFile`, local.rs:195-201). -/
def after {α : Type} (m : M α) (c : M Unit) : M α := fun r =>
  (m r).bind fun x =>
    match x with
    | (res, r) => (c r).bind fun y => .ret (res, y.2)

/-- Run `c` only when the scope is left by an error or panic (the destructor of a value that is
moved out on success) (`NamedTempFile` at local.rs:74-83, 97-104). -/
def onFail {α : Type} (m : M α) (c : M Unit) : M α := fun r =>
  (m r).bind fun x =>
    match x with
    | (.ok a, r) => .ret (.ok a, r)
    | (.err e, r) => (c r).bind fun y => .ret (.err e, y.2)
    | (.panic, r) => (c r).bind fun y => .ret (.panic, y.2)

/-- One OS call (see `Op` for the places). -/
def op (o : Op) : M (Resp o) := fun r => .call o (fun x => .ret (.ok x, r))

/-- `result?` for an `io::Result` (e.g. local.rs:77, 78, 95, 135, 251). -/
def ofIo {α : Type} : Except IoErr α → M α
  | .ok a => M.pure a
  | .error e => M.throw (Err.ofIo e)

/-- A function that only uses the reader (processor.rs:110-127, 336, 661). -/
def rdr {α : Type} (f : Rdr → Res α × Rdr) : M α := fun r => .ret (f r)

end M

end Verif
