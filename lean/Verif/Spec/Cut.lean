import Verif.Spec.Meaning
import Verif.Spec.Align
/-! What a request means that breaks off, because the connection does. -/
namespace Verif.Spec

/-- Some of a packet, perhaps nothing, but not all. -/
def Part (t : Bytes) : Prop := ∃ p v, Frame p v ∧ t <+: v ∧ t ≠ v

/-- What the packets say. -/
def Heard (mode : Mode) (ps : List Packet) : Said → Prop
  | .ask q => Means mode ps q
  | .nonsense code msg => Denied mode ps code msg

/-- `Completed mode ps ps'`: if nothing follows `ps`, the server goes on as if it had received `ps'`. The end of the
input stands for the flush that is missing, and also for a delimiter that is missing. -/
inductive Completed (mode : Mode) : List Packet → List Packet → Prop
  | args {l : Bytes} {ws : List Bytes} {items : List Packet} : CommandLine l ws → ArgCommand mode ws → .flush ∉ items →
      Completed mode (.data l :: items) (.data l :: items ++ [.flush])
  | batch {l : Bytes} {as items : List Packet} : CommandLine l [b!"batch"] → AreArgs as → .flush ∉ items →
      Completed mode (.data l :: as ++ .delim :: items) (.data l :: as ++ .delim :: items ++ [.flush])
  | batchNone {l : Bytes} {as : List Packet} : CommandLine l [b!"batch"] → AreArgs as →
      Completed mode (.data l :: as) (.data l :: as ++ [.delim, .flush])
  | batchArgs {l : Bytes} {as : List Packet} : CommandLine l [b!"batch"] → .delim ∉ as → ¬ AreArgs as →
      Completed mode (.data l :: as) (.data l :: as ++ [.delim])
  | putArgs {l oid : Bytes} {more : List Bytes} {as : List Packet} : mode = .upload →
      CommandLine l (b!"put-object" :: oid :: more) → IsOid oid → .delim ∉ as → ¬ AreSized as →
      Completed mode (.data l :: as) (.data l :: as ++ [.delim])

/-- What the client is told whose upload breaks off; `text` is what the OS says at the end of the input. -/
def cutMessage (text : Bytes) : Bytes :=
  b!"internal error: fatal: I/O error: fatal: I/O error: " ++ text ++ b!"\n"

/-- `BreaksOff mode text ps part q`: a request of which the packets `ps` have arrived, and `part` of the next one, is taken
for `q`. An upload whose arguments are fine is not taken for an upload. -/
inductive BreaksOff (mode : Mode) (text : Bytes) : List Packet → Bytes → Said → Prop
  | heard {ps ps' : List Packet} {part : Bytes} {q : Said} : Completed mode ps ps' → Heard mode ps' q → Part part →
      BreaksOff mode text ps part q
  | putArgs {l oid part : Bytes} {more : List Bytes} {as : List Packet} : mode = .upload →
      CommandLine l (b!"put-object" :: oid :: more) → IsOid oid → AreSized as → Part part →
      BreaksOff mode text (.data l :: as) part (.nonsense 500 (cutMessage text))
  | putData {l oid part : Bytes} {more ds : List Bytes} {as : List Packet} : mode = .upload →
      CommandLine l (b!"put-object" :: oid :: more) → IsOid oid → AreSized as → (∀ d ∈ ds, d.length ≤ 65516) →
      CutOff part →
      BreaksOff mode text (.data l :: as ++ .delim :: ds.map .data) part (.nonsense 500 (cutMessage text))

/-- The bytes are requests, sensible or not, of which the last may be incomplete. -/
inductive CutTalk (mode : Mode) (text : Bytes) : List Said → Bytes → Prop
  | eof {part : Bytes} : Part part → CutTalk mode text [] part
  | quit {l w rest : Bytes} : CommandLine l [b!"quit"] → Frames [.data l] w → CutTalk mode text [.ask .quit] (w ++ rest)
  | heard {q : Said} {qs : List Said} {ps : List Packet} {w ws : Bytes} :
      Heard mode ps q → Frames ps w → CutTalk mode text qs ws → CutTalk mode text (q :: qs) (w ++ ws)
  | broken {q : Said} {ps : List Packet} {w part : Bytes} :
      BreaksOff mode text ps part q → Frames ps w → CutTalk mode text [q] (w ++ part)

end Verif.Spec
