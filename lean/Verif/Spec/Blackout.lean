import Verif.Spec.Power
import Verif.Spec.Report
import Verif.Spec.LockFile
import Verif.Model.System
/-!
Locks and power failures.
-/
namespace Verif.Spec

/-- The servers work, the power fails, servers are started again, and so on. `tr` are the calls of all of them; `s` is
the present state. In a power failure any file may lose its end (`PowerLoss`), whatever had been written to disk. -/
inductive Lives (root : Path) (sha : Bytes → Bytes) (fs : FS) : List (Nat × Event) → Sys → Prop
  | first {s0 s : Sys} {tr : List (Nat × Event)} : Start root sha s0 → s0.fs = fs → Steps root s0 tr s → Lives root sha fs tr s
  | again {s s1 s2 : Sys} {tr tr' : List (Nat × Event)} {synced : FS} : Lives root sha fs tr s →
      PowerLoss synced s.fs s1.fs → Start root sha s1 → Steps root s1 tr' s2 → Lives root sha fs (tr ++ tr') s2

/-- During `tr`, the file of a lock was there and could be read, but was no record of a lock. -/
structure Damaged (root : Path) (tr : List Event) (id : Bytes) : Prop where
  stated : ∀ e, (⟨.stat (lockEntry root id), .error e⟩ : Event) ∉ tr
  opened : ∀ e, (⟨.openRead (lockEntry root id), .error e⟩ : Event) ∉ tr
  read : ∀ h, (⟨.openRead (lockEntry root id), .ok h⟩ : Event) ∈ tr →
    (∀ e, (⟨.fstat h, .error e⟩ : Event) ∉ tr) ∧
    ∀ x, (⟨.readAll h, x⟩ : Event) ∈ tr → ∀ t path, ¬ RecordIs x.1.flatten t path
  /-- A file that is there is not replaced. -/
  linked : ∀ src, (⟨.link src (lockFile root id), .ok ()⟩ : Event) ∉ tr

/-- The request is about the lock with this ID alone. -/
def AboutLock (sha : Bytes → Bytes) (id : Bytes) : Request → Prop
  | .lock path | .listLocks (some path) _ _ => lockName sha path = id
  | .unlock id' => id' = id
  | _ => False

end Verif.Spec
