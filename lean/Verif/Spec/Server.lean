import Verif.Spec.Paths
import Verif.Spec.Reply
import Verif.Model.Server
/-!
A simple server: a map of objects and a list of locks, and the answer to each request. Nothing here
uses the functions of the model (only its parameters `Cfg` and its `Mode`).
-/
namespace Verif.Spec

/-- Decimal digits of a number, as ASCII. -/
def decimal (n : Nat) : Bytes := (Nat.toDigits 10 n).map fun c => UInt8.ofNat c.toNat
def decimalInt (i : Int) : Bytes := if i < 0 then b!"-" ++ decimal i.natAbs else decimal i.natAbs

structure Lock where
  path : Bytes
  time : Int
  uid : Nat
  deriving DecidableEq, Repr

/-- The stored objects by ID, and the held locks in increasing order of their IDs. -/
structure Store where
  objs : Bytes → Option Bytes
  locks : List Lock

inductive Request
  | version
  | batch (items : List (Bytes × Nat))
  | put (oid : Bytes) (size : Nat) (data : Bytes)
  | verify (oid : Bytes) (size : Nat)
  | get (oid : Bytes)
  | lock (path : Bytes)
  | listLocks (path cursor : Option Bytes) (limit : Option Nat)
  | unlock (id : Bytes)
  | quit

/-- The data part of an answer: absent, lines, or the content of a file. -/
inductive Body
  | none
  | lines (ls : List Bytes)
  | raw (b : Bytes)

structure Answer where
  code : Nat
  args : List Bytes
  body : Body

/-- Name of a user: from the user database, else `uid <number>`. -/
def ownerName (cfg : Cfg) (uid : Nat) : Bytes := (cfg.passwd uid).getD (b!"uid " ++ decimal uid)

/-- RFC 3339 form of a time (of the times for which there is one). -/
def timeText (cfg : Cfg) (t : Int) : Bytes := (cfg.fmtTime t).getD []

def lockFields (cfg : Cfg) (l : Lock) : List Bytes :=
  [b!"id=" ++ lockName cfg.sha l.path ++ b!"\n", b!"path=" ++ l.path ++ b!"\n",
   b!"locked-at=" ++ timeText cfg l.time ++ b!"\n", b!"ownername=" ++ ownerName cfg l.uid ++ b!"\n"]

/-- The lines describing one lock in a listing; the last one only in upload mode. -/
def lockLines (cfg : Cfg) (mode : Mode) (l : Lock) : List Bytes :=
  let id := lockName cfg.sha l.path
  [b!"lock " ++ id ++ b!"\n", b!"path " ++ id ++ b!" " ++ l.path ++ b!"\n",
   b!"locked-at " ++ id ++ b!" " ++ timeText cfg l.time ++ b!"\n",
   b!"ownername " ++ id ++ b!" " ++ ownerName cfg l.uid ++ b!"\n"] ++
  (if mode = .upload then
    [b!"owner " ++ id ++ b!" " ++
      (if ownerName cfg l.uid = ownerName cfg cfg.uid then b!"ours" else b!"theirs") ++ b!"\n"]
   else [])

/-- The lock with an ID. -/
def Store.find (cfg : Cfg) (s : Store) (id : Bytes) : Option Lock :=
  s.locks.find? fun l => lockName cfg.sha l.path = id

/-- Insertion before the first lock with a greater ID. -/
def insertLock (cfg : Cfg) (l : Lock) (ls : List Lock) : List Lock :=
  ls.takeWhile (fun m => lockName cfg.sha m.path < lockName cfg.sha l.path) ++
    l :: ls.dropWhile (fun m => lockName cfg.sha m.path < lockName cfg.sha l.path)

/-- The locks from a cursor on. -/
def fromCursor (cfg : Cfg) (cursor : Option Bytes) (ls : List Lock) : List Lock :=
  match cursor with
  | some c => ls.dropWhile fun l => lockName cfg.sha l.path < c
  | none => ls

/-- Locks per page: 100 unless fewer are asked for. -/
def pageSize (limit : Option Nat) : Nat := min (limit.getD 100) 100

def notFound : Answer := ⟨404, [], .lines [b!"not found\n"]⟩
def badRequest (m : Bytes) : Answer := ⟨400, [], .lines [b!"error: " ++ m ++ b!"\n"]⟩
/-- Two paths whose locks have the same ID. -/
def clash : Answer := badRequest b!"corrupt data: unexpected filename in parsed lock"

/-- One line of a batch reply. -/
def batchLine (s : Store) (mode : Mode) (it : Bytes × Nat) : Bytes :=
  match s.objs it.1, mode with
  | some d, .upload => it.1 ++ b!" " ++ decimal d.length ++ b!" noop\n"
  | none, .upload => it.1 ++ b!" " ++ decimal it.2 ++ b!" upload\n"
  | some d, .download => it.1 ++ b!" " ++ decimal d.length ++ b!" download\n"
  | none, .download => it.1 ++ b!" " ++ decimal it.2 ++ b!" noop\n"

/-- Why an upload is refused, if it is. -/
def putError (cfg : Cfg) (oid : Bytes) (size : Nat) (data : Bytes) : Option Bytes :=
  let sizes := b!"expected " ++ decimal size ++ b!" bytes, got " ++ decimal data.length
  if data.length < size then some (b!"incomplete or missing data: " ++ sizes)
  else if size < data.length then some (b!"extra data: " ++ sizes)
  else if hex (cfg.sha data) = oid then none
  else some (b!"corrupt data: expected oid " ++ oid ++ b!", got " ++ hex (cfg.sha data))

/-- The answer of the simple server, and its new state. A new lock is recorded with time `t` and
reported with time `t'` (the implementation reads the clock twice). -/
def answer (cfg : Cfg) (mode : Mode) (s : Store) (t t' : Int) : Request → Answer × Store
  | .version => (⟨200, [], .lines []⟩, s)
  | .quit => (⟨200, [], .none⟩, s)
  | .batch items => (⟨200, [], .lines (items.map (batchLine s mode))⟩, s)
  | .put oid size data =>
    match putError cfg oid size data with
    | some m => (badRequest m, s)
    | none => (⟨200, [], .none⟩, { s with objs := fun o => if o = oid then some data else s.objs o })
  | .verify oid size =>
    match s.objs oid with
    | none => (⟨404, [], .lines [b!"not found"]⟩, s)
    | some d =>
      if d.length = size then (⟨200, [], .none⟩, s)
      else (⟨409, [], .lines [b!"mismatched size or cryptographic collision"]⟩, s)
  | .get oid =>
    match s.objs oid with
    | none => (notFound, s)
    | some d => (⟨200, [b!"size=" ++ decimal d.length ++ b!"\n"], .raw d⟩, s)
  | .lock path =>
    match s.find cfg (lockName cfg.sha path) with
    | none => (⟨201, lockFields cfg ⟨path, t', cfg.uid⟩, .none⟩,
        { s with locks := insertLock cfg ⟨path, t, cfg.uid⟩ s.locks })
    | some l =>
      if l.path = path then (⟨409, lockFields cfg l, .lines [b!"conflict\n"]⟩, s) else (clash, s)
  | .listLocks (some path) cursor _ =>
    match s.find cfg (lockName cfg.sha path) with
    | none => (notFound, s)
    | some l =>
      if l.path ≠ path then (clash, s)
      else if ∃ c ∈ cursor, lockName cfg.sha path < c then (notFound, s)
      else (⟨200, [], .lines (lockLines cfg mode l)⟩, s)
  | .listLocks none cursor limit =>
    let page := (fromCursor cfg cursor s.locks).take (pageSize limit + 1)
    (⟨200, (page[pageSize limit]?.map fun l =>
        b!"next-cursor=" ++ lockName cfg.sha l.path ++ b!"\n").toList,
      .lines (page.flatMap (lockLines cfg mode))⟩, s)
  | .unlock id =>
    match s.find cfg id with
    | none => (notFound, s)
    | some l => (⟨200, lockFields cfg l, .none⟩,
        { s with locks := s.locks.filter fun m => lockName cfg.sha m.path ≠ id })

/-! ### Requests on the wire -/

/-- A command line, with or without the final newline. -/
def IsLine (s l : Bytes) : Prop := l = s ∨ l = s ++ b!"\n"

/-- A number as the protocol writes it: digits, possibly after a `+`, fitting 64 bits. -/
def Num (s : Bytes) (n : Nat) : Prop := n < 2 ^ 64 ∧ (Dec s n ∨ ∃ t, s = 43 :: t ∧ Dec t n)

def argPackets (kv : List (Bytes × Bytes)) : List Packet := kv.map fun e => .data (argLine e.1 e.2)

/-- The lines of a batch request. -/
inductive BatchLines : List (Bytes × Nat) → List Bytes → Prop
  | nil : BatchLines [] []
  | cons {oid n s its ls} : IsOid oid → Num s n → BatchLines its ls →
      BatchLines ((oid, n) :: its) ((oid ++ b!" " ++ s ++ b!"\n") :: ls)

/-- A `limit` argument. -/
def LimitArg (kv : List (Bytes × Bytes)) : Option Nat → Prop
  | none => lookup kv b!"limit" = none
  | some n => 0 < n ∧ ∃ s, lookup kv b!"limit" = some s ∧ Num s n

/-- `Encodes q ps`: the packets `ps` are a well-formed request `q`. Any further arguments are
allowed. -/
inductive Encodes : Request → List Packet → Prop
  | version {l : Bytes} {kv : List (Bytes × Bytes)} :
      IsLine b!"version 1" l → Encodes .version (.data l :: argPackets kv ++ [.flush])
  | quit {l : Bytes} : IsLine b!"quit" l → Encodes .quit [.data l]
  | batch {l : Bytes} {kv : List (Bytes × Bytes)} {items : List (Bytes × Nat)} {ls : List Bytes} :
      IsLine b!"batch" l → ArgsOk kv →
      (∀ a, lookup kv b!"hash-algo" = some a → a = b!"sha256") → BatchLines items ls →
      Encodes (.batch items) (.data l :: argPackets kv ++ .delim :: ls.map .data ++ [.flush])
  | put {l : Bytes} {kv : List (Bytes × Bytes)} {oid s data : Bytes} {n : Nat} {ds : List Bytes} :
      IsOid oid → IsLine (b!"put-object " ++ oid) l → ArgsOk kv →
      lookup kv b!"size" = some s → Num s n → (∀ d ∈ ds, d.length ≤ 65516) → data = ds.flatten →
      Encodes (.put oid n data) (.data l :: argPackets kv ++ .delim :: ds.map .data ++ [.flush])
  | verify {l : Bytes} {kv : List (Bytes × Bytes)} {oid s : Bytes} {n : Nat} :
      IsOid oid → IsLine (b!"verify-object " ++ oid) l → ArgsOk kv →
      lookup kv b!"size" = some s → Num s n →
      Encodes (.verify oid n) (.data l :: argPackets kv ++ [.flush])
  | get {l : Bytes} {kv : List (Bytes × Bytes)} {oid : Bytes} :
      IsOid oid → IsLine (b!"get-object " ++ oid) l → ArgsOk kv →
      Encodes (.get oid) (.data l :: argPackets kv ++ [.flush])
  | lock {l : Bytes} {kv : List (Bytes × Bytes)} {path ref : Bytes} :
      IsLine b!"lock" l → ArgsOk kv → lookup kv b!"path" = some path →
      lookup kv b!"refname" = some ref → Encodes (.lock path) (.data l :: argPackets kv ++ [.flush])
  | listLocks {l : Bytes} {kv : List (Bytes × Bytes)} {path cursor : Option Bytes} {limit : Option Nat} :
      IsLine b!"list-lock" l → ArgsOk kv → LimitArg kv limit →
      lookup kv b!"path" = path → lookup kv b!"cursor" = cursor →
      Encodes (.listLocks path cursor limit) (.data l :: argPackets kv ++ [.flush])
  | unlock {l : Bytes} {kv : List (Bytes × Bytes)} {id : Bytes} :
      IsOid id → IsLine (b!"unlock " ++ id) l →
      Encodes (.unlock id) (.data l :: argPackets kv ++ [.flush])

/-- Which requests each mode serves. -/
def Allowed (mode : Mode) : Request → Prop
  | .put _ _ _ | .verify _ _ | .lock _ | .unlock _ => mode = .upload
  | .get _ => mode = .download
  | _ => True

/-! ### Answers on the wire -/

/-- The packets of a line: a line that fits is one packet; longer ones are cut every 65516 bytes. -/
inductive LinePackets : Bytes → List Bytes → Prop
  | short {l : Bytes} : l.length ≤ 65516 → LinePackets l [l]
  | long {a b : Bytes} {ps : List Bytes} : a.length = 65516 → b ≠ [] → LinePackets b ps →
      LinePackets (a ++ b) (a :: ps)

inductive LinesPackets : List Bytes → List Bytes → Prop
  | nil : LinesPackets [] []
  | cons {l ls ps qs} : LinePackets l ps → LinesPackets ls qs → LinesPackets (l :: ls) (ps ++ qs)

def BodyPackets : Body → Option (List Bytes) → Prop
  | .none, d => d = Option.none
  | .lines ls, d => ∃ ps, d = some ps ∧ LinesPackets ls ps
  | .raw b, d => ∃ ps, d = some ps ∧ ps.flatten = b

/-- `w` is the wire form of answer `a`, a well-formed reply. -/
def Sends (a : Answer) (w : Bytes) : Prop :=
  ∃ r : Reply, r.Ok ∧ Frames r.packets w ∧ r.code = a.code ∧ LinesPackets a.args r.args ∧
    BodyPackets a.body r.data

/-! ### Files -/

/-- Content of a lock file. -/
def lockText (l : Lock) : Bytes := b!"v1:" ++ decimalInt l.time ++ b!":" ++ l.path

/-- Times that can be recorded and reported: 64-bit, and with an RFC 3339 form. -/
def TimeOk (cfg : Cfg) (t : Int) : Prop :=
  -9223372036854775808 ≤ t ∧ t ≤ 9223372036854775807 ∧ (cfg.fmtTime t).isSome

/-- The file system represents the store `s`; in particular no lock temporary file is there. -/
structure Rep (cfg : Cfg) (s : Store) (fs : FS) : Prop where
  /-- Objects: exactly the files at object paths. -/
  objs : ∀ oid, IsOid oid → fs.content (objectFile cfg.root oid) = s.objs oid
  /-- Locks: exactly the files in the locks directory. -/
  locks : ∀ l ∈ s.locks, ∃ i, fs.get (lockFile cfg.root (lockName cfg.sha l.path)) = some i ∧
    (fs.inodes i).data = lockText l ∧ (fs.inodes i).uid = l.uid
  only : ∀ n, (fs.get (lockFile cfg.root n)).isSome → ∃ l ∈ s.locks, n = lockName cfg.sha l.path
  sorted : s.locks.Pairwise fun l m => lockName cfg.sha l.path < lockName cfg.sha m.path
  times : ∀ l ∈ s.locks, TimeOk cfg l.time
  /-- No directory is where a file should be, and no file where a directory should be. -/
  objFiles : ∀ oid, IsOid oid → objectFile cfg.root oid ∉ fs.dirs
  lockFiles : ∀ n, lockFile cfg.root n ∉ fs.dirs
  noFile : ∀ d, (d ∈ topDirs cfg.root ∨ ∃ oid, IsOid oid ∧ d = objectDir cfg.root oid) →
    ∀ q, q <+: d → fs.get q = none
  /-- Sanity of the file system: names are listed once, inode numbers were allocated. -/
  nodup : (fs.names.map (·.1)).Nodup
  bound : ∀ p i, fs.get p = some i → i < fs.next

/-- The directories made at start-up exist. -/
def Ready (cfg : Cfg) (fs : FS) : Prop :=
  ∀ d ∈ topDirs cfg.root, d ∈ fs.dirs

/-! ### Sessions -/

/-- The times the server may see: the configured one, or what the clock says at some call. -/
def Clock (cfg : Cfg) (ch : Nat → Choice) (t : Int) : Prop :=
  cfg.timestamp = some t ∨ (cfg.timestamp = none ∧ ∃ n, t = (ch n).time)

/-- `Session mode qs w`: the bytes `w` are the well-formed requests `qs`, one after the other, ended
by the end of input or by `quit` (and then anything). -/
inductive Session (mode : Mode) : List Request → Bytes → Prop
  | eof : Session mode [] []
  | quit {ps : List Packet} {w rest : Bytes} : Encodes .quit ps → Frames ps w → Session mode [.quit] (w ++ rest)
  | cons {q : Request} {qs : List Request} {ps : List Packet} {w ws : Bytes} :
      Encodes q ps → Frames ps w → Allowed mode q → q ≠ .quit → Session mode qs ws →
      Session mode (q :: qs) (w ++ ws)

/-- `Served cfg mode ch s qs w s'`: the bytes `w` are one answer for each request, in order, given by
the simple server started in `s`, which ends in `s'`. -/
inductive Served (cfg : Cfg) (mode : Mode) (ch : Nat → Choice) : Store → List Request → Bytes → Store → Prop
  | nil {s : Store} : Served cfg mode ch s [] [] s
  | cons {s s' s'' : Store} {q : Request} {qs : List Request} {t t' : Int} {a : Answer} {w ws : Bytes} :
      Clock cfg ch t → Clock cfg ch t' → answer cfg mode s t t' q = (a, s') → Sends a w →
      Served cfg mode ch s' qs ws s'' → Served cfg mode ch s (q :: qs) (w ++ ws) s''

/-- The server waits for a request, `q` is what comes next on its input, the files represent `s`, and
no call fails. -/
structure Next (cfg : Cfg) (mode : Mode) (ch : Nat → Choice) (s : Store) (q : Request) (rest : Bytes)
    (r : Rdr) (w : World) : Prop where
  calm : ∀ n, (ch n).fault = none
  sha : ∀ b, (cfg.sha b).length = 32
  clock : ∀ t, Clock cfg ch t → TimeOk cfg t
  wire : ∃ ps u, Encodes q ps ∧ Frames ps u ∧ r.input = u ++ rest
  pending : r.pending = []
  allowed : Allowed mode q
  rep : Rep cfg s w.fs
  ready : Ready cfg w.fs

/-- One turn of the command loop consumes exactly one request and sends exactly one well-formed reply;
`P` holds of the reply and of the files afterwards. -/
def OneReply (cfg : Cfg) (mode : Mode) (ch : Nat → Choice) (rest : Bytes) (r : Rdr) (w : World)
    (P : Reply → FS → Prop) : Prop :=
  ((turn cfg mode r).run ch w).1 = (.ok .again, { r with input := rest }) ∧
  ∃ (reply : Reply) (b : Bytes), reply.Ok ∧ Frames reply.packets b ∧
    ((turn cfg mode r).run ch w).2.out = w.out ++ b ∧ P reply ((turn cfg mode r).run ch w).2.fs

/-- A lock file: its content and its owner. -/
def held (root : Path) (fs : FS) (id : Bytes) : Option (Bytes × Nat) :=
  (fs.get (lockFile root id)).map fun i => ((fs.inodes i).data, (fs.inodes i).uid)

/-- The stored objects are the same. -/
def SameObjs (root : Path) (fs fs' : FS) : Prop :=
  ∀ o, IsOid o → fs'.content (objectFile root o) = fs.content (objectFile root o)

/-- The locks are the same. -/
def SameLocks (root : Path) (fs fs' : FS) : Prop := ∀ id, held root fs' id = held root fs id

/-- The argument selecting a mode. -/
def Mode.operation : Mode → Bytes
  | .upload => b!"upload"
  | .download => b!"download"

end Verif.Spec
