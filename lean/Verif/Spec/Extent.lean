import Verif.Spec.Request
/-! How far a request extends, whatever packets the client sends. -/
namespace Verif.Spec

/-- The command lines after which the server expects more packets, or ends. -/
inductive NeedsMore : Mode → List Bytes → Prop
  | args {mode : Mode} {ws : List Bytes} : ArgCommand mode ws → NeedsMore mode ws
  | batch {mode : Mode} : NeedsMore mode [b!"batch"]
  | put {x : Bytes} {more : List Bytes} : NeedsMore .upload (b!"put-object" :: x :: more)
  | quit {mode : Mode} : NeedsMore mode [b!"quit"]

/-- Packet `p` begins a request of this mode. -/
def Opens (mode : Mode) (p : Packet) : Prop := ∃ l ws, p = .data l ∧ CommandLine l ws ∧ NeedsMore mode ws

/-- Packets that are arguments. -/
def AreArgs (items : List Packet) : Prop := ∃ kv, ArgsOk kv ∧ items = argPackets kv

/-- Packets that are arguments, with a size among them. -/
def AreSized (items : List Packet) : Prop :=
  ∃ kv s n, ArgsOk kv ∧ items = argPackets kv ∧ lookup kv b!"size" = some s ∧ Num s n

/-- The packets that the server takes together as one request, sensible or not.

Commands with arguments extend to the next flush, whatever is in between. A packet that is no command is a request by
itself. A batch extends to the flush after its delimiter, but if its arguments are wrong, only to the delimiter. An
upload extends to the first flush or delimiter after its data; if its arguments are wrong, to the delimiter before the
data; and if its object ID is wrong, it is the command alone. -/
inductive Extent (mode : Mode) : List Packet → Prop
  | single {p : Packet} : ¬ Opens mode p → Extent mode [p]
  | args {l : Bytes} {ws : List Bytes} {items : List Packet} : CommandLine l ws → ArgCommand mode ws → .flush ∉ items →
      Extent mode (.data l :: items ++ [.flush])
  | batch {l : Bytes} {as items : List Packet} : CommandLine l [b!"batch"] → AreArgs as → .flush ∉ items →
      Extent mode (.data l :: as ++ .delim :: items ++ [.flush])
  | batchArgs {l : Bytes} {as : List Packet} : CommandLine l [b!"batch"] → .delim ∉ as → ¬ AreArgs as →
      Extent mode (.data l :: as ++ [.delim])
  | put {l oid : Bytes} {more ds : List Bytes} {as : List Packet} {t : Packet} : mode = .upload →
      CommandLine l (b!"put-object" :: oid :: more) → IsOid oid → AreSized as → (∀ d ∈ ds, d.length ≤ 65516) →
      t = .flush ∨ t = .delim →
      Extent mode (.data l :: as ++ .delim :: ds.map .data ++ [t])
  | putArgs {l oid : Bytes} {more : List Bytes} {as : List Packet} : mode = .upload →
      CommandLine l (b!"put-object" :: oid :: more) → IsOid oid → .delim ∉ as → ¬ AreSized as →
      Extent mode (.data l :: as ++ [.delim])
  | putOid {l oid : Bytes} {more : List Bytes} : mode = .upload →
      CommandLine l (b!"put-object" :: oid :: more) → ¬ IsOid oid → Extent mode [.data l]

end Verif.Spec
