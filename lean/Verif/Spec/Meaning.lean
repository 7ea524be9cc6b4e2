import Verif.Spec.Extent
import Verif.Spec.Table
import Verif.Spec.Utf8
/-!
What every request means, sensible or not: which request of the simple server the packets are, or with
what words they are refused.
-/
namespace Verif.Spec

/-- What a packet carries. -/
def payload : Packet → Bytes
  | .data d => d
  | _ => []

/-- `Means mode ps q`: the server takes the packets `ps` as the request `q`. This is `Encodes` made lenient: words after
the argument of a command do not matter, nor do the packets between `version` or `unlock` and the flush, and the data of an
upload may end with a delimiter. -/
inductive Means : Mode → List Packet → Request → Prop
  | version {mode : Mode} {l : Bytes} {more : List Bytes} {items : List Packet} :
      CommandLine l (b!"version" :: b!"1" :: more) → .flush ∉ items →
      Means mode (.data l :: items ++ [.flush]) .version
  | batch {mode : Mode} {l : Bytes} {kv : List (Bytes × Bytes)} {items : List (Bytes × Nat)} {ls : List Bytes} :
      CommandLine l [b!"batch"] → ArgsOk kv → (∀ a, lookup kv b!"hash-algo" = some a → a = b!"sha256") →
      BatchLines items ls →
      Means mode (.data l :: argPackets kv ++ .delim :: ls.map .data ++ [.flush]) (.batch items)
  | put {l : Bytes} {more : List Bytes} {kv : List (Bytes × Bytes)} {oid s : Bytes} {n : Nat} {ds : List Bytes}
      {t : Packet} :
      CommandLine l (b!"put-object" :: oid :: more) → IsOid oid → ArgsOk kv → lookup kv b!"size" = some s → Num s n →
      (∀ d ∈ ds, d.length ≤ 65516) → t = .flush ∨ t = .delim →
      Means .upload (.data l :: argPackets kv ++ .delim :: ds.map .data ++ [t]) (.put oid n ds.flatten)
  | verify {l : Bytes} {more : List Bytes} {kv : List (Bytes × Bytes)} {oid s : Bytes} {n : Nat} :
      CommandLine l (b!"verify-object" :: oid :: more) → IsOid oid → ArgsOk kv → lookup kv b!"size" = some s → Num s n →
      Means .upload (.data l :: argPackets kv ++ [.flush]) (.verify oid n)
  | get {l : Bytes} {more : List Bytes} {kv : List (Bytes × Bytes)} {oid : Bytes} :
      CommandLine l (b!"get-object" :: oid :: more) → IsOid oid → ArgsOk kv →
      Means .download (.data l :: argPackets kv ++ [.flush]) (.get oid)
  | lock {l : Bytes} {kv : List (Bytes × Bytes)} {path ref : Bytes} :
      CommandLine l [b!"lock"] → ArgsOk kv → lookup kv b!"path" = some path → lookup kv b!"refname" = some ref →
      Means .upload (.data l :: argPackets kv ++ [.flush]) (.lock path)
  | listLocks {mode : Mode} {l : Bytes} {kv : List (Bytes × Bytes)} {limit : Option Nat} :
      CommandLine l [b!"list-lock"] → ArgsOk kv → LimitArg kv limit →
      Means mode (.data l :: argPackets kv ++ [.flush])
        (.listLocks (lookup kv b!"path") (lookup kv b!"cursor") limit)
  | unlock {l id : Bytes} {more : List Bytes} {items : List Packet} :
      CommandLine l (b!"unlock" :: id :: more) → IsOid id → .flush ∉ items →
      Means .upload (.data l :: items ++ [.flush]) (.unlock id)

/-- An `unlock` whose argument is text, but no ID of a lock. The server looks for a file of this name
(`C23_refuted`). -/
inductive OddUnlock : List Packet → Prop
  | mk {l id : Bytes} {more : List Bytes} {items : List Packet} :
      CommandLine l (b!"unlock" :: id :: more) → ¬ IsOid id → Text id → .flush ∉ items →
      OddUnlock (.data l :: items ++ [.flush])

/-! ### Refusals -/

/-- One byte as Rust prints it in a byte string. -/
def escape (c : UInt8) : Bytes :=
  if c = 10 then b!"\\n" else if c = 13 then b!"\\r" else if c = 9 then b!"\\t" else if c = 0 then b!"\\0"
  else if c = 92 then b!"\\\\" else if c = 34 then b!"\\\""
  else if 32 ≤ c ∧ c ≤ 126 then [c] else b!"\\x" ++ hex [c]

def quote (s : Bytes) : Bytes := b!"b\"" ++ s.flatMap escape ++ b!"\""

/-- The first packet that is not an argument decides the error. -/
inductive BadArgs : List Packet → Nat → Bytes → Prop
  | equals {kv : List (Bytes × Bytes)} {p : Packet} {rest : List Packet} : ArgsOk kv → (61 : UInt8) ∉ payload p →
      BadArgs (argPackets kv ++ p :: rest) 500
        b!"internal error: parse error: unexpected value parsing argument (missing equals)\n"
  | newline {kv : List (Bytes × Bytes)} {p : Packet} {rest : List Packet} : ArgsOk kv → (61 : UInt8) ∈ payload p →
      (payload p).getLast? ≠ some 10 →
      BadArgs (argPackets kv ++ p :: rest) 500
        b!"internal error: parse error: unexpected value parsing argument (missing newline)\n"
  | twice {kv : List (Bytes × Bytes)} {k v : Bytes} {rest : List Packet} : ArgsOk kv → (61 : UInt8) ∉ k →
      k ∈ kv.map (·.1) →
      BadArgs (argPackets kv ++ .data (argLine k v) :: rest) 400 b!"error: extra data: unexpected duplicate key\n"

/-- A number is expected here, and there is none. -/
inductive BadSize (missing : Bytes) : Option Bytes → Bytes → Prop
  | missing : BadSize missing none (b!"error: incomplete or missing data: " ++ missing ++ b!"\n")
  | wrong {s : Bytes} : (¬ ∃ n, Num s n) → BadSize missing (some s)
      (b!"error: invalid or malformed integer or size value: unexpected value parsing integer: " ++ quote s ++ b!"\n")

/-- A packet that is no line of a batch. -/
inductive BadLine : Bytes → Nat → Bytes → Prop
  | newline {x : Bytes} : x.getLast? ≠ some 10 → BadLine x 400 b!"error: invalid or malformed packet\n"
  | words {x : Bytes} {ws : List Bytes} : Words (x ++ b!"\n") ws → ws.length ≠ 2 →
      BadLine (x ++ b!"\n") 500 b!"internal error: parse error\n"
  | number {oid s : Bytes} : (32 : UInt8) ∉ oid → (32 : UInt8) ∉ s → (¬ ∃ n, Num s n) →
      BadLine (oid ++ b!" " ++ s ++ b!"\n") 400
        (b!"error: invalid or malformed integer or size value: got " ++ quote (s ++ b!"\n") ++ b!"\n")
  | oid {oid s : Bytes} {n : Nat} : (32 : UInt8) ∉ oid → Num s n → ¬ IsOid oid →
      BadLine (oid ++ b!" " ++ s ++ b!"\n") 400 b!"error: invalid or malformed LFS oid\n"

/-- The commands whose arguments are read. -/
def ReadsArgs (ws : List Bytes) : Prop := ws.head? ≠ some b!"version" ∧ ws.head? ≠ some b!"unlock"

/-- `Denied mode ps code msg`: the packets `ps` are a request that makes no sense, for which the client gets `code` and
`msg`. -/
inductive Denied (mode : Mode) : List Packet → Nat → Bytes → Prop
  | single {p : Packet} {code : Nat} {msg : Bytes} : Refused mode p code msg → Denied mode [p] code msg
  | args {l : Bytes} {ws : List Bytes} {items : List Packet} {code : Nat} {msg : Bytes} :
      CommandLine l ws → ArgCommand mode ws → ReadsArgs ws → .flush ∉ items → BadArgs items code msg →
      Denied mode (.data l :: items ++ [.flush]) code msg
  | oid {l cmd x : Bytes} {more : List Bytes} {kv : List (Bytes × Bytes)} :
      CommandLine l (cmd :: x :: more) → (mode = .upload ∧ cmd = b!"verify-object" ∨ mode = .download ∧ cmd = b!"get-object") →
      ¬ IsOid x → ArgsOk kv →
      Denied mode (.data l :: argPackets kv ++ [.flush]) 400 b!"error: invalid or malformed LFS oid\n"
  | verify {l oid msg : Bytes} {more : List Bytes} {kv : List (Bytes × Bytes)} : mode = .upload →
      CommandLine l (b!"verify-object" :: oid :: more) → IsOid oid → ArgsOk kv →
      BadSize b!"missing required header" (lookup kv b!"size") msg →
      Denied mode (.data l :: argPackets kv ++ [.flush]) 400 msg
  | lock {l : Bytes} {kv : List (Bytes × Bytes)} : mode = .upload → CommandLine l [b!"lock"] → ArgsOk kv →
      lookup kv b!"path" = none ∨ lookup kv b!"refname" = none →
      Denied mode (.data l :: argPackets kv ++ [.flush]) 400
        b!"error: incomplete or missing data: both path and refname required\n"
  | limit {l s : Bytes} {kv : List (Bytes × Bytes)} : CommandLine l [b!"list-lock"] → ArgsOk kv →
      lookup kv b!"limit" = some s → (¬ ∃ n, Num s n) →
      Denied mode (.data l :: argPackets kv ++ [.flush]) 400
        (b!"error: invalid or malformed integer or size value: unexpected value parsing integer: " ++ quote s ++ b!"\n")
  | noLimit {l s : Bytes} {kv : List (Bytes × Bytes)} : CommandLine l [b!"list-lock"] → ArgsOk kv →
      lookup kv b!"limit" = some s → Num s 0 →
      Denied mode (.data l :: argPackets kv ++ [.flush]) 400
        b!"error: not allowed: bizarre request for no data\n"
  | unlock {l id : Bytes} {more : List Bytes} {items : List Packet} : mode = .upload →
      CommandLine l (b!"unlock" :: id :: more) → ¬ Text id → .flush ∉ items →
      Denied mode (.data l :: items ++ [.flush]) 400 b!"error: corrupt data: invalid or corrupt ID\n"
  | batchArgs {l : Bytes} {as : List Packet} {code : Nat} {msg : Bytes} : CommandLine l [b!"batch"] → .delim ∉ as →
      BadArgs as code msg → Denied mode (.data l :: as ++ [.delim]) code msg
  | hashAlgo {l a t : Bytes} {kv : List (Bytes × Bytes)} {items : List Packet} : CommandLine l [b!"batch"] → ArgsOk kv →
      lookup kv b!"hash-algo" = some a → a ≠ b!"sha256" → Lossy a t → .flush ∉ items →
      Denied mode (.data l :: argPackets kv ++ .delim :: items ++ [.flush]) 400
        (b!"error: not allowed: " ++ t ++ b!" is not a permitted hash algorithm\n")
  | batchLine {l : Bytes} {kv : List (Bytes × Bytes)} {its : List (Bytes × Nat)} {ls : List Bytes} {p : Packet}
      {rest : List Packet} {code : Nat} {msg : Bytes} : CommandLine l [b!"batch"] → ArgsOk kv →
      (∀ a, lookup kv b!"hash-algo" = some a → a = b!"sha256") → BatchLines its ls → p ≠ .flush →
      BadLine (payload p) code msg → .flush ∉ rest →
      Denied mode (.data l :: argPackets kv ++ .delim :: ls.map .data ++ p :: rest ++ [.flush]) code msg
  | putOid {l oid : Bytes} {more : List Bytes} : mode = .upload → CommandLine l (b!"put-object" :: oid :: more) →
      ¬ IsOid oid → Denied mode [.data l] 400 b!"error: invalid or malformed LFS oid\n"
  | putArgs {l oid : Bytes} {more : List Bytes} {as : List Packet} {code : Nat} {msg : Bytes} : mode = .upload →
      CommandLine l (b!"put-object" :: oid :: more) → IsOid oid → .delim ∉ as → BadArgs as code msg →
      Denied mode (.data l :: as ++ [.delim]) code msg
  | putSize {l oid msg : Bytes} {more : List Bytes} {kv : List (Bytes × Bytes)} : mode = .upload →
      CommandLine l (b!"put-object" :: oid :: more) → IsOid oid → ArgsOk kv →
      BadSize b!"missing required size header" (lookup kv b!"size") msg →
      Denied mode (.data l :: argPackets kv ++ [.delim]) 400 msg

/-- The answer to a request that makes no sense. -/
def denial (code : Nat) (msg : Bytes) : Answer := ⟨code, [], .lines [msg]⟩

/-! ### Sessions of any requests -/

/-- What a client said: a request, or packets that are denied with `code` and `msg`. -/
inductive Said
  | ask (q : Request)
  | nonsense (code : Nat) (msg : Bytes)

/-- The bytes `w` are any requests, one after the other, ended by the end of input or by `quit` (and then anything). -/
inductive Talk (mode : Mode) : List Said → Bytes → Prop
  | eof : Talk mode [] []
  | quit {l w rest : Bytes} : CommandLine l [b!"quit"] → Frames [.data l] w → Talk mode [.ask .quit] (w ++ rest)
  | ask {q : Request} {qs : List Said} {ps : List Packet} {w ws : Bytes} :
      Means mode ps q → Frames ps w → Talk mode qs ws → Talk mode (.ask q :: qs) (w ++ ws)
  | nonsense {code : Nat} {msg : Bytes} {qs : List Said} {ps : List Packet} {w ws : Bytes} :
      Denied mode ps code msg → Frames ps w → Talk mode qs ws → Talk mode (.nonsense code msg :: qs) (w ++ ws)

/-- The answer of the simple server to anything, and its new state. -/
def reply (cfg : Cfg) (mode : Mode) (s : Store) (t t' : Int) : Said → Answer × Store
  | .ask q => answer cfg mode s t t' q
  | .nonsense code msg => (denial code msg, s)

/-- `Conversation cfg mode ch s qs ws s'`: each of `ws` is the simple server's answer to one of `qs`. -/
inductive Conversation (cfg : Cfg) (mode : Mode) (ch : Nat → Choice) : Store → List Said → List Bytes → Store → Prop
  | nil {s : Store} : Conversation cfg mode ch s [] [] s
  | cons {s s' s'' : Store} {q : Said} {qs : List Said} {t t' : Int} {a : Answer} {w : Bytes} {ws : List Bytes} :
      Clock cfg ch t → Clock cfg ch t' → reply cfg mode s t t' q = (a, s') → Sends a w →
      Conversation cfg mode ch s' qs ws s'' → Conversation cfg mode ch s (q :: qs) (w :: ws) s''

end Verif.Spec
