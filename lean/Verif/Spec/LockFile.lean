import Verif.Spec.Server
/-! What a lock file must contain, and when requests for the same lock do not overlap. -/
namespace Verif.Spec

/-- `c` is the complete record of a lock with this ID. -/
def IsRecord (sha : Bytes → Bytes) (id c : Bytes) : Prop := ∃ l : Lock, lockName sha l.path = id ∧ c = lockText l

/-- `c` is the beginning of such a record. -/
def StartsRecord (sha : Bytes → Bytes) (id c : Bytes) : Prop :=
  ∃ l : Lock, lockName sha l.path = id ∧ c <+: lockText l

/-- A process uses the temporary lock file from the moment it asks for its creation until it asks for its
removal. `Apart`: in the calls `tr`, two processes use the temporary file of `id` at the same time only if both
have succeeded in creating it. -/
def Apart (root : Path) (id : Bytes) (tr : List (Nat × Event)) : Prop :=
  ∀ a i uid x b k uid' y c,
    tr = a ++ (i, (⟨.createNew (lockTempFile root id) uid, x⟩ : Event)) ::
      (b ++ (k, (⟨.createNew (lockTempFile root id) uid', y⟩ : Event)) :: c) →
    i ≠ k → (∃ j j', x = .ok j ∧ y = .ok j') ∨ ∃ z, (i, (⟨.unlink (lockTempFile root id), z⟩ : Event)) ∈ b

end Verif.Spec
