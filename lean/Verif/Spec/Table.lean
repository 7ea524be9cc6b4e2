import Verif.Spec.Interactive
/-! The packets that are no command of the mode, and what is said to each. -/
namespace Verif.Spec

/-- Commands with an argument that belong to the other mode. -/
inductive OtherMode : Mode → Bytes → Prop
  | put : OtherMode .download b!"put-object"
  | verify : OtherMode .download b!"verify-object"
  | get : OtherMode .upload b!"get-object"

/-- Packet `p`, where a command is expected, is refused with this status and message. -/
inductive Refused (mode : Mode) : Packet → Nat → Bytes → Prop
  | flush : Refused mode .flush 400 b!"unknown command\n"
  | delim : Refused mode .delim 400 b!"unknown command\n"
  | empty : Refused mode (.data []) 400 b!"no command provided\n"
  | blank : Refused mode (.data b!"\n") 400 b!"unknown command\n"
  | version {l : Bytes} {ws : List Bytes} : CommandLine l (b!"version" :: ws) → ws.head? ≠ some b!"1" →
      Refused mode (.data l) 400 b!"unknown version\n"
  | notAllowed {l cmd x : Bytes} {more : List Bytes} : CommandLine l (cmd :: x :: more) → OtherMode mode cmd →
      Refused mode (.data l) 403 b!"not allowed\n"
  | unknown {l cmd : Bytes} {args : List Bytes} : CommandLine l (cmd :: args) → ¬ NeedsMore mode (cmd :: args) →
      cmd ≠ b!"version" → ¬ (args ≠ [] ∧ OtherMode mode cmd) → Refused mode (.data l) 400 b!"unknown command\n"

end Verif.Spec
