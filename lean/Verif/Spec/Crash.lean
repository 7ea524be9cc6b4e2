import Verif.Spec.Paths
import Verif.Model.Server
/-! When the server may crash. -/
namespace Verif.Spec

/-- Decimal notation of an integer, with an optional sign. -/
def IntText (s : Bytes) (t : Int) : Prop :=
  ∃ (ds : Bytes) (n : Nat), Dec ds n ∧ ((s = ds ∨ s = b!"+" ++ ds) ∧ t = n ∨ s = b!"-" ++ ds ∧ t = -n)

/-- A lock file with this content says the lock was taken at `t`. -/
def SaysTime (data : Bytes) (t : Int) : Prop :=
  ∃ ts p, data = b!"v1:" ++ ts ++ b!":" ++ p ∧ IntText ts t

/-- The process has learnt the time `t`: it was told at start, read the clock, or read a lock file. -/
def Learnt (fixed : Option Int) (tr : List Event) (t : Int) : Prop :=
  fixed = some t ∨ (⟨.now, t⟩ : Event) ∈ tr ∨
    ∃ h cs, (⟨.readAll h, (cs, none)⟩ : Event) ∈ tr ∧ SaysTime cs.flatten t

/-- A call found that the lock `id`, or its temporary file, exists. -/
inductive Found (root : Path) (id : Bytes) : Event → Prop
  | temp {uid : Nat} {e : IoErr} : e.kind = .alreadyExists →
      Found root id ⟨.createNew (lockTempFile root id) uid, .error e⟩
  | lock {e : IoErr} : e.kind = .alreadyExists →
      Found root id ⟨.link (lockTempFile root id) (lockFile root id), .error e⟩

/-- A call found that the lock `id` does not exist. -/
inductive Gone (root : Path) (id : Bytes) : Event → Prop
  | mk {e : IoErr} : e.kind = .notFound → Gone root id ⟨.openRead (.join (root ++ [b!"locks"]) id), .error e⟩

/-- A lock existed and then did not. -/
def Vanished (root : Path) (tr : List Event) : Prop :=
  ∃ id a x b y c, tr = a ++ x :: b ++ y :: c ∧ Found root id x ∧ Gone root id y

end Verif.Spec
