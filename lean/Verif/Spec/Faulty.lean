import Verif.Spec.Any
import Verif.Spec.Report
/-! What the server may say to any bytes, whatever the OS answers. -/
namespace Verif.Spec

/-- `Takes mode text q b rest`: at the bytes `b` the server finds the request `q`, and goes on with `rest`. -/
inductive Takes (mode : Mode) (text : Bytes) : Said → Bytes → Bytes → Prop
  | heard {q : Said} {ps : List Packet} {w rest : Bytes} : Heard mode ps q → LaxFrames ps w → Takes mode text q (w ++ rest) rest
  | broken {q : Said} {ps : List Packet} {w t : Bytes} :
      BreaksOff mode text ps [] q → LaxFrames ps w → LaxPart t → (Uploading mode ps → ¬ TooLong t) → Takes mode text q (w ++ t) []
  | garbled {code : Nat} {msg : Bytes} {ps : List Packet} {w h rest : Bytes} :
      Garbled mode ps code msg → LaxFrames ps w → BadHeader h → Takes mode text (.nonsense code msg) (w ++ (h ++ rest)) rest
  | tooLong {ps : List Packet} {n : Nat} {w h rest : Bytes} : Uploading mode ps → LaxFrames ps w → Lax h n → 65520 < n →
      Takes mode text (.nonsense 500 (b!"internal error: fatal: I/O error: " ++ badHeader ++ b!"\n")) (w ++ (h ++ rest)) rest

/-- An `unlock` whose argument `id` is text, but no ID of a lock. -/
inductive OddAsks (id : Bytes) : List Packet → Prop
  | mk {l : Bytes} {more : List Bytes} {items : List Packet} : CommandLine l (b!"unlock" :: id :: more) → ¬ IsOid id → Text id →
      .flush ∉ items → OddAsks id (.data l :: items ++ [.flush])

/-- `Finds mode text q b rest`: the same for all bytes. An `unlock` with an argument that is no ID is a request to release
the lock in the file of this name. -/
inductive Finds (mode : Mode) (text : Bytes) : Said → Bytes → Bytes → Prop
  | takes {q : Said} {b rest : Bytes} : Takes mode text q b rest → Finds mode text q b rest
  | odd {id : Bytes} {ps : List Packet} {w rest : Bytes} : mode = .upload → OddAsks id ps → LaxFrames ps w →
      Finds mode text (.ask (.unlock id)) (w ++ rest) rest
  | oddCut {id : Bytes} {ps ps' : List Packet} {w t : Bytes} : mode = .upload → Completed mode ps ps' → OddAsks id ps' →
      LaxFrames ps w → LaxPart t → Finds mode text (.ask (.unlock id)) (w ++ t) []

/-- `Sense mode text qs e b`: the server takes the bytes `b` for the requests `qs`, and then ends in the way `e`. -/
inductive Sense (mode : Mode) (text : Bytes) : List Said → Ending → Bytes → Prop
  | eof {b : Bytes} : LaxPart b → Sense mode text [] .fine b
  | bad {h rest : Bytes} : BadHeader h → Sense mode text [] .bad (h ++ rest)
  | quit {l w rest : Bytes} : CommandLine l [b!"quit"] → LaxFrame (.data l) w → Sense mode text [.ask .quit] .fine (w ++ rest)
  | next {q : Said} {qs : List Said} {e : Ending} {b rest : Bytes} : Finds mode text q b rest → Sense mode text qs e rest →
      Sense mode text (q :: qs) e b

/-- The bytes `left` of an earlier upload are taken for the beginning of the data. -/
def Said.after (left : Bytes) : Said → Said
  | .ask (.put oid n data) => .ask (.put oid n (left ++ data))
  | q => q

/-- Nothing is changed but temporary files of uploads. -/
def OnlyTemps (tr : List Event) : Prop :=
  ∀ e ∈ tr, match e.1 with
    | .createTemp _ _ _ | .out _ | .flush => True
    | .write i _ => ∃ dir name uid p, (⟨.createTemp dir name uid, .ok (p, i)⟩ : Event) ∈ tr
    | .unlink p => ∃ dir name uid i, (⟨.createTemp dir name uid, .ok (p, i)⟩ : Event) ∈ tr
    | _ => False

/-- The reply written during `tr` is an honest answer. Nonsense is denied; but if it is an upload that breaks off and
that cannot be written either, there is an internal error in place of the denial. -/
def HonestSaid (cfg : Cfg) (mode : Mode) (tr : List Event) : Said → Prop
  | .ask q => HonestReply cfg mode q tr
  | .nonsense code msg => OnlyTemps tr ∧ ∃ a, Sends a (output tr) ∧
      (a = denial code msg ∨ (∃ e ∈ tr, ¬ e.CopyOk) ∧ ∃ ls, a = ⟨500, [], .lines ls⟩)

/-- What is left over for the next upload, if all goes well. -/
def NextLeft (left left' : Bytes) : Said → Prop
  | .ask (.put _ _ _) => left' = []
  | .ask _ => left' = left
  | .nonsense _ _ => left' = left ∨ left' = []

/-- An upload, or one that makes no sense. -/
def MayUpload : Said → Prop
  | .ask (.put _ _ _) => True
  | .ask _ => False
  | .nonsense code _ => code = 500

/-- `Honestly cfg mode text left b tr code`: during `tr` a server is sent the bytes `b`, and ends with this exit code;
`left` are bytes left over from an upload. -/
inductive Honestly (cfg : Cfg) (mode : Mode) (text : Bytes) : Bytes → Bytes → List Event → Nat → Prop
  | eof {left b : Bytes} : LaxPart b → Honestly cfg mode text left b [] 0
  | bad {left h rest : Bytes} : BadHeader h → Honestly cfg mode text left (h ++ rest) [] 2
  | quit {left l w rest : Bytes} {t : List Event} : CommandLine l [b!"quit"] → LaxFrame (.data l) w →
      HonestReply cfg mode .quit t → Honestly cfg mode text left (w ++ rest) t 0
  | next {left left' b rest : Bytes} {q : Said} {t tr : List Event} {code : Nat} : Finds mode text q b rest →
      HonestSaid cfg mode t (q.after left) → NextLeft left left' q → Honestly cfg mode text left' rest tr code →
      Honestly cfg mode text left b (t ++ tr) code
  /-- It panics. -/
  | crash {left b rest : Bytes} {q : Request} {tr : List Event} : Finds mode text (.ask q) b rest →
      Honestly cfg mode text left b tr 101
  /-- Reading a file fails while it is being sent. There is no complete reply then. -/
  | cut {left b rest oid : Bytes} {tr : List Event} {h : Option Ino} {cs : List Bytes} {e : IoErr} {code : Nat} :
      Finds mode text (.ask (.get oid)) b rest → (⟨.readAll h, (cs, some e)⟩ : Event) ∈ tr → code ≠ 0 →
      Honestly cfg mode text left b tr code
  /-- After an upload that could not be written, the server goes on somewhere in its data (C52), and bytes that it has read
  but not written are taken for the beginning of the next upload (C54). -/
  | lost {left left' b rest rest' : Bytes} {q : Said} {t tr : List Event} {e : Event} {code : Nat} : Finds mode text q b rest →
      MayUpload q → HonestSaid cfg mode t (q.after left) → e ∈ t → ¬ e.CopyOk →
      rest' <:+ b → rest'.length < b.length → left' <:+ left ∨ left' <:+: b →
      Honestly cfg mode text left' rest' tr code → Honestly cfg mode text left b (t ++ tr) code

/-- `HonestCourse cfg mode qs e tr code`: during `tr` a server takes what it is sent for the requests `qs` and then ends in
the way `e`, unless it ends earlier; `code` is its exit code. -/
inductive HonestCourse (cfg : Cfg) (mode : Mode) : List Said → Ending → List Event → Nat → Prop
  | done {e : Ending} : HonestCourse cfg mode [] e [] e.exit.code
  | next {q : Said} {qs : List Said} {e : Ending} {t tr : List Event} {code : Nat} : HonestSaid cfg mode t q →
      HonestCourse cfg mode qs e tr code → HonestCourse cfg mode (q :: qs) e (t ++ tr) code
  /-- It panics. -/
  | crash {q : Request} {qs : List Said} {e : Ending} {tr : List Event} : HonestCourse cfg mode (.ask q :: qs) e tr 101
  /-- Reading a file fails while it is being sent. There is no complete reply then. -/
  | cut {oid : Bytes} {qs : List Said} {e : Ending} {tr : List Event} {h : Option Ino} {cs : List Bytes} {er : IoErr} {code : Nat} :
      (⟨.readAll h, (cs, some er)⟩ : Event) ∈ tr → code ≠ 0 → HonestCourse cfg mode (.ask (.get oid) :: qs) e tr code

end Verif.Spec
