import Verif.Spec.Cut
import Verif.Spec.Lax
/-! What any bytes whatever mean. -/
namespace Verif.Spec

/-- Four bytes that are taken for the number `n` (in a program without overflow checks). -/
def Lax (h : Bytes) (n : Nat) : Prop := ∃ a b c d, LaxHeader h a b c d ∧ n = laxSum a b c d % 65536

/-- `Frame`, with the headers that the code accepts. -/
inductive LaxFrame : Packet → Bytes → Prop
  | flush {h : Bytes} : Lax h 0 → LaxFrame .flush h
  | delim {h : Bytes} : Lax h 1 → LaxFrame .delim h
  | data {h d : Bytes} : Lax h (d.length + 4) → LaxFrame (.data d) (h ++ d)

inductive LaxFrames : List Packet → Bytes → Prop
  | nil : LaxFrames [] []
  | cons {p : Packet} {ps : List Packet} {w ws : Bytes} : LaxFrame p w → LaxFrames ps ws → LaxFrames (p :: ps) (w ++ ws)

/-- Less than a packet; perhaps nothing. -/
def LaxPart (t : Bytes) : Prop := t.length < 4 ∨ ∃ h d n, t = h ++ d ∧ Lax h n ∧ d.length + 4 < n

/-- Four bytes with which no packet can begin. -/
def BadHeader (h : Bytes) : Prop := h.length = 4 ∧ ∀ n, Lax h n → n = 2 ∨ n = 3

/-- The bytes begin with the header of a packet that is longer than 65520 bytes. -/
def TooLong (t : Bytes) : Prop := ∃ h n rest, t = h ++ rest ∧ Lax h n ∧ 65520 < n

/-- An upload of which the arguments have arrived, and some data. -/
def Uploading (mode : Mode) (ps : List Packet) : Prop :=
  ∃ (l oid : Bytes) (more : List Bytes) (as : List Packet) (ds : List Bytes), ps = .data l :: as ++ .delim :: ds.map .data ∧ mode = .upload ∧
    CommandLine l (b!"put-object" :: oid :: more) ∧ IsOid oid ∧ AreSized as ∧ ∀ d ∈ ds, d.length ≤ 65516

def badHeader : Bytes := b!"malformed or unknown pkt-line header"

/-- `Garbled mode ps code msg`: the packets `ps` have arrived, which do not make a request yet, and what follows them is no
packet. The client is told `code` and `msg`. -/
inductive Garbled (mode : Mode) : List Packet → Nat → Bytes → Prop
  | args {l : Bytes} {ws : List Bytes} {items : List Packet} : CommandLine l ws → ArgCommand mode ws →
      ws ≠ [b!"lock"] → ws ≠ [b!"list-lock"] → .flush ∉ items →
      Garbled mode (.data l :: items) 400 (b!"error: " ++ badHeader ++ b!"\n")
  | parse {l : Bytes} {ws : List Bytes} {items : List Packet} : CommandLine l ws → ArgCommand mode ws →
      ws = [b!"lock"] ∨ ws = [b!"list-lock"] → .flush ∉ items →
      Garbled mode (.data l :: items) 500 b!"internal error: parse error\n"
  | batchArgs {l : Bytes} {as : List Packet} : CommandLine l [b!"batch"] → .delim ∉ as →
      Garbled mode (.data l :: as) 400 (b!"error: " ++ badHeader ++ b!"\n")
  | batch {l : Bytes} {as items : List Packet} : CommandLine l [b!"batch"] → AreArgs as → .flush ∉ items →
      Garbled mode (.data l :: as ++ .delim :: items) 500 b!"internal error: parse error\n"
  | putArgs {l oid : Bytes} {more : List Bytes} {as : List Packet} : mode = .upload →
      CommandLine l (b!"put-object" :: oid :: more) → IsOid oid → .delim ∉ as →
      Garbled mode (.data l :: as) 400 (b!"error: " ++ badHeader ++ b!"\n")
  | putData {ps : List Packet} : Uploading mode ps →
      Garbled mode ps 500 (b!"internal error: fatal: I/O error: " ++ badHeader ++ b!"\n")

/-- How a session ends. -/
inductive Ending
  | fine | bad

/-- `Any mode text qs e b`: what the server makes of the bytes `b`: it takes them for the requests `qs`, and then ends
in the way `e`. After bytes that are no header it goes on with the next byte, as if there began a request, unless it
was waiting for a request: then it gives up. The data of an upload may not contain packets of more than 65520 bytes; the
server goes on with the content of such a packet as if it were requests. -/
inductive Any (mode : Mode) (text : Bytes) : List Said → Ending → Bytes → Prop
  | eof {t : Bytes} : LaxPart t → Any mode text [] .fine t
  | bad {h rest : Bytes} : BadHeader h → Any mode text [] .bad (h ++ rest)
  | quit {l w rest : Bytes} : CommandLine l [b!"quit"] → LaxFrame (.data l) w → Any mode text [.ask .quit] .fine (w ++ rest)
  | heard {q : Said} {qs : List Said} {e : Ending} {ps : List Packet} {w rest : Bytes} :
      Heard mode ps q → LaxFrames ps w → Any mode text qs e rest → Any mode text (q :: qs) e (w ++ rest)
  | broken {q : Said} {ps : List Packet} {w t : Bytes} :
      BreaksOff mode text ps [] q → LaxFrames ps w → LaxPart t → (Uploading mode ps → ¬ TooLong t) →
      Any mode text [q] .fine (w ++ t)
  | garbled {code : Nat} {msg : Bytes} {qs : List Said} {e : Ending} {ps : List Packet} {w h rest : Bytes} :
      Garbled mode ps code msg → LaxFrames ps w → BadHeader h → Any mode text qs e rest →
      Any mode text (.nonsense code msg :: qs) e (w ++ (h ++ rest))
  | tooLong {qs : List Said} {e : Ending} {ps : List Packet} {n : Nat} {w h rest : Bytes} :
      Uploading mode ps → LaxFrames ps w → Lax h n → 65520 < n → Any mode text qs e rest →
      Any mode text (.nonsense 500 (b!"internal error: fatal: I/O error: " ++ badHeader ++ b!"\n") :: qs) e (w ++ (h ++ rest))

/-- The exit code and the message. -/
def Ending.exit : Ending → Exit
  | .fine => ⟨0, []⟩
  | .bad => ⟨2, badHeader ++ b!"\n"⟩

/-- Somewhere in the bytes there is an `unlock` whose argument is text, but no ID of a lock. -/
def OddAt (b : Bytes) : Prop :=
  ∃ (a h l c id : Bytes) (more : List Bytes), b = a ++ (h ++ (l ++ c)) ∧ Lax h (l.length + 4) ∧
    CommandLine l (b!"unlock" :: id :: more) ∧ Text id ∧ ¬ IsOid id

end Verif.Spec
