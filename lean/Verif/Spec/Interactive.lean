import Verif.Spec.Extent
/-! A client that waits for the reply to each request before it sends the next. -/
namespace Verif.Spec

/-- What is sure to have reached the client: the bytes written before a flush. Those written after the
last flush may still be in the buffer of standard output, given as the first argument. -/
def receivedAfter : Bytes → List Event → Bytes
  | _, [] => []
  | buf, ⟨.out b, .ok _⟩ :: tr => receivedAfter (buf ++ b) tr
  | buf, ⟨.flush, .ok _⟩ :: tr => buf ++ receivedAfter [] tr
  | buf, _ :: tr => receivedAfter buf tr

def received (tr : List Event) : Bytes := receivedAfter [] tr

/-- `Sent mode n u`: the bytes `u` are `n` complete requests, sensible or not. -/
inductive Sent (mode : Mode) : Nat → Bytes → Prop
  | nil : Sent mode 0 []
  | cons {n : Nat} {ps : List Packet} {w u : Bytes} : Extent mode ps → Frames ps w → Sent mode n u → Sent mode (n + 1) (w ++ u)

/-- The operation a server of this mode is started with. -/
def modeWord : Mode → Bytes
  | .upload => b!"upload"
  | .download => b!"download"

/-- The program when the client has sent `u` and will send `v`, after which reading fails with
`fin`. -/
def onInput (cfg : Cfg) (mode : Mode) (checked : Bool) (u v : Bytes) (fin : IoErr) : Prog Exit :=
  mainProg cfg (modeWord mode) (.new (u ++ v) fin checked)

/-- The server, sent `u` so far, has made the calls `tr` and goes on only when it knows what comes
next: what it does then is not the same for every continuation. -/
structure Waiting (cfg : Cfg) (mode : Mode) (checked : Bool) (u : Bytes) (tr : List Event) : Prop where
  did : ∀ v fin, (onInput cfg mode checked u v fin).Did tr
  call : ¬ ∃ o, ∀ v fin, ∃ x, (onInput cfg mode checked u v fin).Did (tr ++ [⟨o, x⟩])
  ends : ¬ ∃ x, ∀ v fin, (onInput cfg mode checked u v fin).Finished tr x

end Verif.Spec
