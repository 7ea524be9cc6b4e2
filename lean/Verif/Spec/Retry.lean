import Verif.Spec.Again
/-! C87: a client that asks again and again for a lock, and servers that are killed. -/
namespace Verif.Spec

/-- The store `s'` is `s`, perhaps with a lock of `path` in addition. -/
def Taken (cfg : Cfg) (s : Store) (path : Bytes) (s' : Store) : Prop :=
  s'.objs = s.objs ∧ (∀ id, id ≠ lockName cfg.sha path → s'.find cfg id = s.find cfg id) ∧
  (s'.find cfg (lockName cfg.sha path) = s.find cfg (lockName cfg.sha path) ∨
    s.find cfg (lockName cfg.sha path) = none ∧
      ∃ l, s'.find cfg (lockName cfg.sha path) = some l ∧ l.path = path)

/-- From the files `fs`, any number of servers are started with the input `r`, one after the other, and each is killed
after some number of calls, none of which fails. -/
inductive Attempts (cfg : Cfg) (r : Rdr) (fs : FS) : FS → Prop
  | none : Attempts cfg r fs fs
  | again {fs' : FS} {ch : Nat → Choice} {w : World} (n : Nat) : Attempts cfg r fs fs' → (∀ n, (ch n).fault = .none) →
      (∀ t, Clock cfg ch t → TimeOk cfg t) → w.fs = fs' →
      Attempts cfg r fs (stopped ch n (mainProg cfg b!"upload" r) w).fs

end Verif.Spec
