import Verif.Spec.Faulty
import Verif.Spec.Again
/-! What any bytes at all may do to the store. -/
namespace Verif.Spec

/-- A request to release what is no ID of a lock. -/
def NoLockId (q : Said) : Prop := ∃ id, q = .ask (.unlock id) ∧ ¬ IsOid id

/-- The lock of the file `path` is released. -/
def Store.release (cfg : Cfg) (s : Store) (path : Bytes) : Store :=
  { s with locks := s.locks.filter fun m => lockName cfg.sha m.path ≠ lockName cfg.sha path }

/-- `ServedAs cfg mode ch s q a s'`: `a` is a proper answer to `q`, and `s'` the store after it. That is the answer of the
simple server; but a request to release what is no ID either fails, or releases one lock that is held. It reports then
what it has read in the file of this name, which need not be the record of this lock. -/
inductive ServedAs (cfg : Cfg) (mode : Mode) (ch : Nat → Choice) (s : Store) (q : Said) : Answer → Store → Prop
  | usual {t t' : Int} : ¬ NoLockId q → Clock cfg ch t → Clock cfg ch t' →
      ServedAs cfg mode ch s q (reply cfg mode s t t' q).1 (reply cfg mode s t t' q).2
  | refused {code : Nat} {msg : Bytes} : NoLockId q → mode = .upload → code ∈ [400, 404, 500] →
      ServedAs cfg mode ch s q (denial code msg) s
  | released {l held : Lock} : NoLockId q → mode = .upload → s.find cfg (lockName cfg.sha l.path) = some held →
      (cfg.fmtTime l.time).isSome → ServedAs cfg mode ch s q ⟨200, lockFields cfg l, .none⟩ (s.release cfg l.path)

/-- `Dealt cfg mode ch s qs ws s'`: each of `ws` is a proper answer to one of `qs`. -/
inductive Dealt (cfg : Cfg) (mode : Mode) (ch : Nat → Choice) : Store → List Said → List Bytes → Store → Prop
  | nil {s : Store} : Dealt cfg mode ch s [] [] s
  | cons {s s' s'' : Store} {q : Said} {qs : List Said} {a : Answer} {w : Bytes} {ws : List Bytes} :
      ServedAs cfg mode ch s q a s' → Sends a w → Dealt cfg mode ch s' qs ws s'' → Dealt cfg mode ch s (q :: qs) (w :: ws) s''

/-- `Partway cfg mode ch s qs out w`: in `w`, some of `qs` have been done, the others have not been begun or have left no
trace, and the replies after `out` are to those that have been done. A `lock` under way may have left a file. -/
def Partway (cfg : Cfg) (mode : Mode) (ch : Nat → Choice) (s : Store) (qs : List Said) (out : Bytes) (w : World) : Prop :=
  ∃ k ws s', Dealt cfg mode ch s (qs.take k) ws s' ∧ w.out <+: out ++ ws.flatten ∧
    (Rep cfg s' w.fs ∨ ∃ path, (qs[k]? = some (.ask (.lock path)) ∨ (qs.take k).getLast? = some (.ask (.lock path))) ∧
      RepBut cfg s' path w.fs)

/-- `CourseOf cfg mode ch s qs e ws s' x`: the server deals with all of `qs` and ends in the way `e`; or it panics when it is
asked to release what is no ID, and has dealt with those before. -/
def CourseOf (cfg : Cfg) (mode : Mode) (ch : Nat → Choice) (s : Store) (qs : List Said) (e : Ending) (ws : List Bytes) (s' : Store)
    (x : Exit) : Prop :=
  Dealt cfg mode ch s qs ws s' ∧ x = e.exit ∨
  ∃ k q, qs[k]? = some q ∧ NoLockId q ∧ mode = .upload ∧ Dealt cfg mode ch s (qs.take k) ws s' ∧ x = ⟨101, []⟩

end Verif.Spec
