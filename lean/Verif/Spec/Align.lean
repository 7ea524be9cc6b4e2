import Verif.Spec.Wire
/-! Packets that every part of the server can read, and inputs made of them. -/
namespace Verif.Spec

/-- A packet of at most 65520 bytes, its header included. -/
def Fits : Packet → Prop
  | .data d => d.length ≤ 65516
  | _ => True

/-- What is left of a packet that breaks off; perhaps nothing. -/
def CutOff (t : Bytes) : Prop := ∃ p v, Frame p v ∧ Fits p ∧ t <+: v ∧ t ≠ v

/-- Whole packets, and possibly one that breaks off. -/
def Client (ps : List Packet) (tail input : Bytes) : Prop :=
  (∀ p ∈ ps, Fits p) ∧ CutOff tail ∧ ∃ w, Frames ps w ∧ input = w ++ tail

end Verif.Spec
