import Verif.Spec.Trace
import Verif.Spec.Lax
/-! A build that panics when an integer overflows. -/
namespace Verif.Spec

/-- Somewhere in the input are four bytes that, taken for the length of a packet, overflow 16 bits. -/
def Overflowing (i : Bytes) : Prop :=
  ∃ h a b c d, h <:+: i ∧ LaxHeader h a b c d ∧ 65536 ≤ laxSum a b c d

/-- `Tidied root t u`: after the calls `t`, the calls `u` are no more than what is right to do when the process gives up: remove
the file of an upload that is being received, that is, to which nothing has been done since it was made except writing. -/
def Tidied (root : Path) (t u : List Event) : Prop :=
  u = [] ∨ ∃ pre uid p ino t0 ws x, u = [⟨.unlink p, x⟩] ∧
    t = t0 ++ ⟨.createTemp (root ++ [b!"incomplete"]) pre uid, .ok (p, ino)⟩ :: ws ∧
    ∀ e ∈ ws, ∃ d, e.1 = .write ino d

end Verif.Spec
