import Verif.Model.Pktline
/-!
The pkt-line format, stated without reference to the functions of the model: a packet is four
lower-case hexadecimal digits giving the total length, followed by the payload; `0000` is a flush
and `0001` a delimiter.
-/
namespace Verif.Spec

def hexDigits : Bytes := b!"0123456789abcdef"

/-- The number denoted by a string of lower-case hexadecimal digits. -/
def hexValue? (h : Bytes) : Option Nat :=
  h.foldl (fun acc x =>
    match acc, hexDigits.idxOf? x with
    | some a, some v => some (16 * a + v)
    | _, _ => none) (some 0)

/-- `h` is a pkt-line header denoting `n`. -/
def IsHeader (h : Bytes) (n : Nat) : Prop := h.length = 4 ∧ hexValue? h = some n

/-- `w` is the wire form of packet `p`. -/
inductive Frame : Packet → Bytes → Prop
  | flush : Frame .flush b!"0000"
  | delim : Frame .delim b!"0001"
  | data (h d : Bytes) : IsHeader h (d.length + 4) → Frame (.data d) (h ++ d)

/-- `w` is the wire form of the packets `ps` one after the other. -/
inductive Frames : List Packet → Bytes → Prop
  | nil : Frames [] []
  | cons {p ps w ws} : Frame p w → Frames ps ws → Frames (p :: ps) (w ++ ws)

/-- Calling `read` `k` times with buffer lengths `sizes 0, sizes 1, ..`: the pieces returned and
the reader afterwards, provided every call succeeds. -/
def reads (sizes : Nat → Nat) : Nat → Rdr → Option (List Bytes × Rdr)
  | 0, r => some ([], r)
  | k + 1, r =>
    match r.read (sizes 0) with
    | (.ok d, r) => (reads (fun i => sizes (i + 1)) k r).map (fun x => (d :: x.1, x.2))
    | _ => none

end Verif.Spec
