import Verif.Spec.Server
/-! The outer shape of requests, whether or not their content makes sense. -/
namespace Verif.Spec

/-- Words separated by single spaces. -/
inductive Words : Bytes → List Bytes → Prop
  | one {x : Bytes} : (32 : UInt8) ∉ x → Words x [x]
  | cons {x w : Bytes} {ws : List Bytes} : (32 : UInt8) ∉ x → Words w ws → Words (x ++ b!" " ++ w) (x :: ws)

/-- A command line: words, and possibly a newline. -/
def CommandLine (l : Bytes) (ws : List Bytes) : Prop :=
  ∃ w, Words w ws ∧ w ≠ [] ∧ (l = w ++ b!"\n" ∨ l = w ∧ w.getLast? ≠ some 10)

/-- The commands that are followed by arguments and a flush. -/
inductive ArgCommand : Mode → List Bytes → Prop
  | version {mode : Mode} {more : List Bytes} : ArgCommand mode (b!"version" :: b!"1" :: more)
  | verify {x : Bytes} {more : List Bytes} : ArgCommand .upload (b!"verify-object" :: x :: more)
  | get {x : Bytes} {more : List Bytes} : ArgCommand .download (b!"get-object" :: x :: more)
  | lock : ArgCommand .upload [b!"lock"]
  | listLocks {mode : Mode} : ArgCommand mode [b!"list-lock"]
  | unlock {x : Bytes} {more : List Bytes} : ArgCommand .upload (b!"unlock" :: x :: more)

/-- Requests that are framed as they should be. The arguments of the first kind, and the lines of a
batch, may be anything. -/
inductive Shaped (mode : Mode) : List Packet → Prop
  | args {l : Bytes} {ws items : List Bytes} : CommandLine l ws → ArgCommand mode ws →
      Shaped mode (.data l :: items.map .data ++ [.flush])
  | batch {l : Bytes} {kv : List (Bytes × Bytes)} {items : List Bytes} : CommandLine l [b!"batch"] → ArgsOk kv →
      Shaped mode (.data l :: argPackets kv ++ .delim :: items.map .data ++ [.flush])

end Verif.Spec

namespace Verif
open Spec

/-- The call did not fail while an upload was being received. -/
def Event.CopyOk : Event → Prop
  | ⟨.createTemp _ _ _, x⟩ => ∃ a, x = .ok a
  | ⟨.write _ _, x⟩ => x = .ok ()
  | _ => True

end Verif
