import Verif.Spec.Wire
/-! The packet headers that the code accepts, which are more than those of the format. -/
namespace Verif
open Spec

/-- The digits of the code: those of hexadecimal numbers, and besides `:` for 10 and `g` for 16. -/
def laxDigit (x : UInt8) : Option Nat :=
  if x = 58 then some 10 else if x = 103 then some 16 else hexDigits.idxOf? x

/-- `h` consists of four of these digits. -/
def LaxHeader (h : Bytes) (a b c d : Nat) : Prop := h.map laxDigit = [some a, some b, some c, some d]

/-- The sum made of them; a `g` in front is shifted out of 16 bits. -/
def laxSum (a b c d : Nat) : Nat := (if a = 16 then 0 else 4096 * a) + 256 * b + 16 * c + d

end Verif
