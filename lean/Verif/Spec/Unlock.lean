import Verif.Spec.Trace
import Verif.Spec.Paths
import Verif.Spec.Ops
/-! What an `unlock` request may remove. -/
namespace Verif.Spec

/-- The process has read a lock record for `path` from the file `id` of the directory of locks. -/
def Told (root : Path) (tr : List Event) (id path : Bytes) : Prop :=
  ∃ k cs t, (⟨.openRead (.join (root ++ [b!"locks"]) id), .ok k⟩ : Event) ∈ tr ∧
    (⟨.readAll k, (cs, none)⟩ : Event) ∈ tr ∧
    cs.flatten = b!"v1:" ++ t ++ b!":" ++ path ∧ (58 : UInt8) ∉ t

theorem Told.mono {root : Path} {tr tr' : List Event} {id path : Bytes} (h : Told root tr id path)
    (hs : ∀ e ∈ tr, e ∈ tr') : Told root tr' id path := by
  obtain ⟨k, cs, t, h1, h2, h3⟩ := h
  exact ⟨k, cs, t, hs _ h1, hs _ h2, h3⟩

/-- A call that serving `unlock id` may make after the calls of `tr`, if it changes anything. -/
def Removes (root : Path) (sha : Bytes → Bytes) (id : Bytes) (tr : List Event) (o : Op) : Prop :=
  ∃ path, o = .unlink (lockFile root (lockName sha path)) ∧ Told root tr id path ∧ ∀ e ∈ tr, e.1.mutates = false

end Verif.Spec
