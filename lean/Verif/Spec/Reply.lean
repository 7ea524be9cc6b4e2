import Verif.Spec.Wire
import Verif.Spec.Text
import Verif.Spec.Trace
/-! What a well-formed reply and a well-formed output stream are. -/
namespace Verif
open Spec

/-- What a sequence of calls wrote to standard output (when no write failed). -/
def output : List Event → Bytes
  | [] => []
  | ⟨.out b, _⟩ :: tr => b ++ output tr
  | _ :: tr => output tr

/-- No write to standard output failed in this event. -/
def Event.OutOk : Event → Prop
  | ⟨.out _, x⟩ => x = .ok ()
  | ⟨.flush, x⟩ => x = .ok ()
  | _ => True

/-- No read of a file's contents failed in this event. -/
def Event.ReadOk : Event → Prop
  | ⟨.readAll _, x⟩ => x.2 = none
  | _ => True

namespace Spec

/-- A reply: status code, argument packets, and possibly data packets. -/
structure Reply where
  code : Nat
  digits : Bytes
  args : List Bytes
  data : Option (List Bytes)

def Reply.packets (r : Reply) : List Packet :=
  .data (b!"status " ++ r.digits ++ b!"\n") :: r.args.map .data ++
    (match r.data with
      | none => []
      | some ds => .delim :: ds.map .data) ++ [.flush]

/-- The payloads of packets: never empty, never longer than the limit. -/
def PayloadsOk (ds : List Bytes) : Prop := ∀ d ∈ ds, 1 ≤ d.length ∧ d.length ≤ 65516

structure Reply.Ok (r : Reply) : Prop where
  code : r.code ∈ [200, 201, 400, 403, 404, 409, 500]
  digits : r.digits.length = 3 ∧ Dec r.digits r.code
  args : PayloadsOk r.args
  data : ∀ ds, r.data = some ds → PayloadsOk ds

/-- `w` is the wire form of one complete reply. -/
def IsReply (w : Bytes) : Prop := ∃ r : Reply, r.Ok ∧ Frames r.packets w

/-- The advertisement followed by complete replies. -/
def IsStream (w : Bytes) : Prop :=
  ∃ (cap : Bytes) (replies : List Bytes), Frames [.data b!"version=1\n", .flush] cap ∧ (∀ x ∈ replies, IsReply x) ∧
    w = cap ++ replies.flatten

end Spec
end Verif
