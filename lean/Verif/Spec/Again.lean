import Verif.Spec.Meaning
/-! A server that is killed, and a client that starts again. -/
namespace Verif.Spec

/-- The files and the output so far of a process that runs alone and is killed after `n` calls. -/
def stopped {α : Type} (ch : Nat → Choice) : Nat → Prog α → World → World
  | 0, _, w => w
  | _ + 1, .ret _, w => w
  | n + 1, .call o k, w =>
    stopped ch n (k (sem (ch w.tick) w.fs o).2) ⟨(sem (ch w.tick) w.fs o).1, w.out ++ emitted (ch w.tick) o, w.tick + 1⟩

/-- The file in which `lock` prepares the record of a lock. -/
def halfLock (cfg : Cfg) (path : Bytes) : Path := lockFile cfg.root (lockName cfg.sha path ++ b!".lock")

/-- What is in this file: nothing, or the record of a lock of `path`. -/
def HalfDone (cfg : Cfg) (path : Bytes) (fs : FS) : Prop :=
  ∀ i, fs.get (halfLock cfg path) = some i → i < fs.next ∧ ((fs.inodes i).data = [] ∨
    ∃ l : Lock, l.path = path ∧ TimeOk cfg l.time ∧ (fs.inodes i).data = lockText l ∧ (fs.inodes i).uid = l.uid)

/-- The files represent `s`, but for the file that a `lock` of `path` has left. -/
def RepBut (cfg : Cfg) (s : Store) (path : Bytes) (fs : FS) : Prop :=
  (fs.get (halfLock cfg path)).isSome ∧ Rep cfg s (fs.delName (halfLock cfg path)) ∧ (fs.names.map (·.1)).Nodup ∧
    HalfDone cfg path fs

/-- `Progress cfg mode ch s qs out w`: in `w`, some of `qs` have been done, the others have not been begun or have left no
trace, and the replies after `out` are to those that have been done. A `lock` under way may have left a file. -/
def Progress (cfg : Cfg) (mode : Mode) (ch : Nat → Choice) (s : Store) (qs : List Said) (out : Bytes) (w : World) : Prop :=
  ∃ k ws s', Conversation cfg mode ch s (qs.take k) ws s' ∧ w.out <+: out ++ ws.flatten ∧
    (Rep cfg s' w.fs ∨ ∃ path, (qs[k]? = some (.ask (.lock path)) ∨ (qs.take k).getLast? = some (.ask (.lock path))) ∧
      RepBut cfg s' path w.fs)

/-- Two stores with the same objects, in which the same files are locked. -/
def SameStore (cfg : Cfg) (s s' : Store) : Prop :=
  s.objs = s'.objs ∧ ∀ id, (s.find cfg id).isSome = (s'.find cfg id).isSome

end Verif.Spec
