import Verif.Model.Prog
/-!
Model of `scutiger-lfs`: `processor.rs`, `backend.rs`, `backend/local.rs` and the program
`git-lfs-transfer.rs`, function by function. The only `Backend` is `LocalBackend`, so trait calls
are resolved to it.
-/
namespace Verif

/-- processor.rs:176-180 `Mode`. -/
inductive Mode
  | upload | download
  deriving DecidableEq, Repr

/-- What a server process is started with and the external functions it uses.

* `sha`: SHA-256 (crate `sha2`);
* `root`: `lfs_path` (git-lfs-transfer.rs:48-49);
* `umask`, `timestamp`: fields of `LocalBackend` (local.rs:16-20);
* `uid`: `getuid()`; `passwd`: the user database (crate `passwd`);
* `fmtTime`: `Utc.timestamp_opt(t, 0).unwrap().to_rfc3339()` (local.rs:264), `none` where the
  `unwrap` panics;
* `copyBuf i + 1`: the buffer size of the `i`-th read of `io::copy` (std). -/
structure Cfg where
  sha : Bytes → Bytes
  root : Path
  umask : Nat
  timestamp : Option Int
  uid : Nat
  passwd : Nat → Option Bytes
  fmtTime : Int → Option Bytes
  copyBuf : Nat → Nat

/-- processor.rs:19-24 `Status`. The reader is represented by the open handle it reads. -/
structure Status where
  code : Nat
  args : Option (List Bytes)
  messages : Option (List Bytes)
  reader : Option (Option Ino)
  deriving DecidableEq, Repr

namespace Status
/-- processor.rs:27-34. -/
def success : Status := ⟨200, none, none, none⟩
/-- processor.rs:36-43. -/
def newSuccess (ms : List Bytes) : Status := ⟨200, none, some ms, none⟩
/-- processor.rs:45-52. -/
def successWithCode (code : Nat) (args : List Bytes) : Status := ⟨code, some args, none, none⟩
/-- processor.rs:54-61. -/
def successWithData (code : Nat) (args ms : List Bytes) : Status :=
  ⟨code, some args, some ms, none⟩
/-- processor.rs:63-70. -/
def newReader (args : List Bytes) (h : Option Ino) : Status := ⟨200, some args, none, some h⟩
/-- processor.rs:72-79. -/
def failure (code : Nat) (m : Bytes) : Status := ⟨code, none, some [m], none⟩
/-- processor.rs:81-88. -/
def failureWithArgs (code : Nat) (args : List Bytes) (m : Bytes) : Status :=
  ⟨code, some args, some [m], none⟩
end Status

/-! ### PktLineHandler (processor.rs:97-174) -/

/-- processor.rs:110-119 `read_to_type`: packets up to one of the given type; a packet without
data contributes `b""`; the first error ends the collection; the end of input ends it normally
(`ReaderIterator::next`). Each packet consumes at least four bytes, so the fuel of `readToType`
suffices (`readToTypeF_fuel`). -/
def readToTypeF (typ : Packet) : Nat → Rdr → Res (List Bytes) × Rdr
  | 0, r => (.panic, r)
  | f + 1, r =>
    match r.next with
    | (none, r) => (.ok [], r)
    | (some (.err e), r) => (.err e, r)
    | (some .panic, r) => (.panic, r)
    | (some (.ok p), r) =>
      if p = typ then (.ok [], r)
      else match readToTypeF typ f r with
        | (.ok ps, r) => (.ok (p.data?.getD [] :: ps), r)
        | (.err e, r) => (.err e, r)
        | (.panic, r) => (.panic, r)

/-- processor.rs:110-119 `read_to_type`, with enough fuel. -/
def readToType (typ : Packet) (r : Rdr) : Res (List Bytes) × Rdr :=
  readToTypeF typ (r.input.length + 1) r

/-- processor.rs:121-123. -/
def readToDelim : M (List Bytes) := M.rdr (readToType .delim)
/-- processor.rs:125-127. -/
def readToFlush : M (List Bytes) := M.rdr (readToType .flush)

/-- `write_all` on standard output (pktline.rs:178-179, 186, 191). -/
def outBytes (b : Bytes) : M Unit := do
  let r ← M.op (.out b)
  M.ofIo r

/-- pktline.rs:176-181 `write_one`: header, then data. -/
def writeOne (b : Bytes) : M Unit := do
  outBytes (hex4 (b.length + 4))
  outBytes b

/-- pktline.rs:206-211, the loop of `Write::write`. -/
def writeChunks : List Bytes → M Unit
  | [] => pure ()
  | c :: cs => do
    writeOne c
    writeChunks cs

/-- processor.rs:129-132 `send`: `write_all` on the pkt-line writer, which writes the whole buffer
in one `write` call (pktline.rs:204-213), or nothing if it is empty. -/
def send (msg : Bytes) : M Unit := writeChunks (chunks maxPacketLen msg)

/-- processor.rs:134-138; pktline.rs:185-189. -/
def sendFlush : M Unit := do
  outBytes b!"0000"
  let r ← M.op .flush
  M.ofIo r

/-- processor.rs:140-144; pktline.rs:190-193. -/
def sendDelim : M Unit := outBytes b!"0001"

/-- Several packets (the loops of processor.rs:158-160, 164-166). -/
def sendAll : List Bytes → M Unit
  | [] => pure ()
  | m :: ms => do
    send m
    sendAll ms

/-- processor.rs:146-152 `send_error`. -/
def sendError (code : Nat) (msg : Bytes) : M Unit := do
  send (b!"status " ++ dec3 code ++ b!"\n")
  sendDelim
  send (msg ++ b!"\n")
  sendFlush

/-- processor.rs:169 `io::copy(reader, &mut self.wrtr)`: each chunk read is written before the next
is read; a read error ends the copy. Simplification: the reads are taken as one call (the
content of an object file does not change once it has its name, see `Props`). -/
def copyOut (h : Option Ino) : M Unit := do
  let (cs, e) ← M.op (.readAll h)
  sendAll cs
  match e with
  | none => pure ()
  | some e => M.throw (Err.ofIo e)

/-- processor.rs:154-173 `send_status`. -/
def sendStatus (st : Status) : M Unit := do
  send (b!"status " ++ dec3 st.code ++ b!"\n")
  match st.args with
  | some args => sendAll args
  | none => pure ()
  match st.messages with
  | some ms => do
    sendDelim
    sendAll ms
  | none =>
    match st.reader with
    | some h => do
      sendDelim
      copyOut h
    | none => pure ()
  sendFlush

/-! ### Oid (processor.rs:182-243) -/

/-- `b'a'..=b'f'` or an ASCII digit (processor.rs:212). -/
def isLowerHex (x : UInt8) : Bool := isDigit x || (97 ≤ x && x ≤ 102)

/-- processor.rs:209-213 `Oid::valid`. -/
def oidValid (b : Bytes) : Bool := b.length = 64 && b.all isLowerHex

/-- processor.rs:189-199 `Oid::new`; an `Oid` is represented by its string. -/
def oidNew (b : Bytes) : M Bytes :=
  if oidValid b then pure b else M.throw (Err.simple .invalidLFSOid)

/-- processor.rs:217-224 `expected_path`. -/
def objPath (root : Path) (oid : Bytes) : Path :=
  root ++ [b!"objects", oid.take 2, (oid.drop 2).take 2, oid]

/-- local.rs:72-73. -/
def incompleteDir (root : Path) : Path := root ++ [b!"incomplete"]

/-- local.rs:141-142. -/
def locksDir (root : Path) : Path := root ++ [b!"locks"]

/-! ### ArgumentParser (processor.rs:251-312) -/

/-- The `BTreeMap<Bytes, Bytes>` of arguments, as an association list (only `get` is used) (processor.rs:255). -/
abbrev Args := List (Bytes × Bytes)

/-- `BTreeMap::get` (e.g. processor.rs:292, 451). -/
def Args.get (a : Args) (k : Bytes) : Option Bytes :=
  match a with
  | [] => none
  | (k', v) :: rest => if k' = k then some v else Args.get rest k

/-- `item.iter().position(|&x| x == b'=')`, returning the parts before and after (processor.rs:257). -/
def splitEq : Bytes → Option (Bytes × Bytes)
  | [] => none
  | b :: bs => if b = EQ then some ([], bs) else (splitEq bs).map (fun p => (b :: p.1, p.2))

/-- processor.rs:254-286 `ArgumentParser::parse`, with `map` the entries so far. `rest` is
`item[equals + 1 ..]`; since the last byte is a newline (not `=`), `rest` is not empty and
`item[equals + 1 .. len - 1]` is `rest` without its last byte. -/
def parseArgsAux : Args → List Bytes → Res Args
  | map, [] => .ok map
  | map, item :: items =>
    match splitEq item with
    | none => .err (Err.withMsg .parseError b!"unexpected value parsing argument (missing equals)")
    | some (k, rest) =>
      if item.getLast? ≠ some NL then
        .err (Err.withMsg .parseError b!"unexpected value parsing argument (missing newline)")
      else if (Args.get map k).isSome then
        .err (Err.withMsg .extraData b!"unexpected duplicate key")
      else parseArgsAux ((k, rest.dropLast) :: map) items

/-- processor.rs:254-286 `ArgumentParser::parse`. -/
def parseArgs (items : List Bytes) : Res Args := parseArgsAux [] items

/-- Lift a pure result (e.g. `ArgumentParser::parse(..)?`, processor.rs:464, 501, 507). -/
def M.ofRes {α : Type} (x : Res α) : M α := fun r => .ret (x, r)

/-- processor.rs:301-311 `parse_integer::<u64>` (also `usize` on 64-bit platforms). The lossy
UTF-8 conversion does not matter: a byte that is not a digit makes both fail. -/
def parseInteger (item : Bytes) : Res Nat :=
  match parseNat u64Max item with
  | some x => .ok x
  | none => .err (Err.withMsg .invalidInteger
      (b!"unexpected value parsing integer: " ++ bytesDebug item))

/-! ### Uploads (processor.rs:314-342, 463-498; local.rs:66-106) -/

/-- local.rs:78 `io::copy(rdr, tempfile)` where `rdr` is the `HashingReader`
(processor.rs:335-342) over the pkt-line reader: read with the next buffer size, hash, write to
the file, until a read returns 0. Returns everything that was hashed (its length is
`HashingReader::size`). Every successful read consumes input or pending bytes, so the fuel of
`copyIn` suffices (`copyInF_fuel`). -/
def copyInF (bufs : Nat → Nat) (ino : Ino) : Nat → Nat → Bytes → M Bytes
  | 0, _, _ => M.panic
  | f + 1, i, acc => do
    let d ← M.rdr (Rdr.read (bufs i + 1))
    if d = [] then pure acc
    else do
      let w ← M.op (.write ino d)
      M.ofIo w
      copyInF bufs ino f (i + 1) (acc ++ d)

/-- local.rs:78 `io::copy(rdr, tempfile)`, with enough fuel. -/
def copyIn (bufs : Nat → Nat) (ino : Ino) : M Bytes := fun r =>
  copyInF bufs ino (r.input.length + r.pending.length + 1) 0 [] r

/-- Destructor of a `NamedTempFile`/`TempPath`/`LockFile`: remove the file, ignoring errors (local.rs:195-201;
`NamedTempFile` of local.rs:49, 74). -/
def dropFile (p : Path) : M Unit := do
  let _ ← M.op (.unlink p)
  pure ()

/-- local.rs:66-83 `start_upload`. Returns the temporary file's path and the bytes that went
through the hashing reader. The temporary file is removed if copying fails. -/
def startUpload (cfg : Cfg) (oid : Bytes) : M (Path × Bytes) := do
  let t ← M.op (.createTemp (incompleteDir cfg.root) oid cfg.uid)
  let (path, ino) ← M.ofIo t
  M.onFail (do
    let data ← copyIn cfg.copyBuf ino
    pure (path, data)) (dropFile path)

/-- `0o777 & !umask` on `u32` (local.rs:36). -/
def objMode (umask : Nat) : Nat := 0o777 &&& (0xFFFFFFFF ^^^ umask)

/-- local.rs:32-39 `fix_permissions` (unix). -/
def fixPermissions (cfg : Cfg) (p : Path) : M Unit := do
  let s ← M.op (.stat (.exact p))
  let _ ← M.ofIo s
  let c ← M.op (.chmod p (objMode cfg.umask))
  M.ofIo c

/-- local.rs:103: the error of a failed `persist` is not an `io::Error`, so its I/O kind is lost. -/
def persistErr (e : IoErr) : Err :=
  Err.wrapOther .ioError (b!"failed to persist temporary file path: " ++ e.text)

/-- local.rs:85-106 `finish_upload`. If `create_dir_all` fails the temporary file is dropped with
the state. If the rename fails it is dropped with the error value (in the code after the reply
was sent; here, before; `Model/Late.lean` has the order of the code, and `order_immaterial` shows that
it makes no difference to the file system). -/
def finishUpload (cfg : Cfg) (oid : Bytes) (tmp : Path) : M Unit := do
  M.onFail (do
    let d ← M.op (.mkdirAll (objPath cfg.root oid).dropLast)
    M.ofIo d
    match (← M.op (.rename tmp (objPath cfg.root oid))) with
    | .ok _ => pure ()
    | .error e => M.throw (persistErr e)) (dropFile tmp)
  fixPermissions cfg (objPath cfg.root oid)

/-- processor.rs:450-461 `size_from_arguments`. -/
def sizeFromArgs (args : Args) : Res Nat :=
  match Args.get args b!"size" with
  | some x => parseInteger x
  | none => .err (Err.withMsg .missingData b!"missing required size header")

/-- processor.rs:474, 480. -/
def sizeMsg (expected actual : Nat) : Bytes :=
  b!"expected " ++ natDec expected ++ b!" bytes, got " ++ natDec actual

/-- processor.rs:470-495: the checks between receiving and keeping the data. -/
def checkUpload (cfg : Cfg) (oid : Bytes) (expected : Nat) (data : Bytes) : M Unit :=
  if data.length < expected then
    M.throw (Err.withMsg .missingData (sizeMsg expected data.length))
  else if expected < data.length then
    M.throw (Err.withMsg .extraData (sizeMsg expected data.length))
  else do
    let actual ← oidNew (hexEncode (cfg.sha data))
    if actual ≠ oid then
      M.throw (Err.withMsg .corruptData (b!"expected oid " ++ oid ++ b!", got " ++ actual))
    else pure ()

/-- processor.rs:463-498 `put_object`. -/
def putObject (cfg : Cfg) (oid : Bytes) : M Status := do
  let oid ← oidNew oid
  let items ← readToDelim
  let args ← M.ofRes (parseArgs items)
  let expected ← M.ofRes (sizeFromArgs args)
  let (tmp, data) ← startUpload cfg oid
  M.onFail (checkUpload cfg oid expected data) (dropFile tmp)
  finishUpload cfg oid tmp
  pure Status.success

/-! ### Batch, verify, download -/

/-- processor.rs:245-249 `BatchItem`. -/
structure BatchItem where
  oid : Bytes
  size : Nat
  present : Bool
  deriving DecidableEq, Repr

/-- processor.rs:385-406: one line of a batch request. -/
def parseBatchLine (line : Bytes) : Res (Bytes × Nat) :=
  if line.getLast? ≠ some NL then .err (Err.simple .invalidPacket)
  else
    match splitOn SP line with
    | [o, s] =>
      if s = [] then .err (Err.simple .parseError)
      else match parseNat u64Max s.dropLast with
        | none => .err (Err.withMsg .invalidInteger (b!"got " ++ bytesDebug s))
        | some n =>
          if oidValid o then .ok (o, n) else .err (Err.simple .invalidLFSOid)
    | _ => .err (Err.simple .parseError)

/-- processor.rs:383-408: all lines, first error wins. -/
def parseBatchLines : List Bytes → Res (List (Bytes × Nat))
  | [] => .ok []
  | l :: ls =>
    match parseBatchLine l with
    | .err e => .err e
    | .panic => .panic
    | .ok x =>
      match parseBatchLines ls with
      | .ok xs => .ok (x :: xs)
      | .err e => .err e
      | .panic => .panic

/-- local.rs:53-64 `batch`; processor.rs:234-236 `size_at_path` (any error means absent). -/
def backendBatch (cfg : Cfg) : List (Bytes × Nat) → M (List BatchItem)
  | [] => pure []
  | (oid, n) :: rest => do
    let st ← M.op (.stat (.exact (objPath cfg.root oid)))
    let item : BatchItem := match st with
      | .ok s => ⟨oid, s.len, true⟩
      | .error _ => ⟨oid, n, false⟩
    let items ← backendBatch cfg rest
    pure (item :: items)

/-- `match self.handler.read_to_flush() { Ok(v) => v, Err(e) => return Err(Error::new(ParseError,
Some(e))) }` (processor.rs:365-368, 524-527, 583-586). -/
def readToFlushParse : M (List Bytes) := do
  match (← M.attempt readToFlush) with
  | .ok v => pure v
  | .error e => M.throw (Err.wrapOther .parseError e.display)

/-- processor.rs:363-410 `read_batch`. -/
def readBatch (cfg : Cfg) : M (List BatchItem) := do
  let items ← readToDelim
  let args ← M.ofRes (parseArgs items)
  let data ← readToFlushParse
  match Args.get args b!"hash-algo" with
  | some x =>
    if x = b!"sha256" then pure ()
    else M.throw (Err.withMsg .notAllowed (utf8Lossy x ++ b!" is not a permitted hash algorithm"))
  | none => pure ()
  let oids ← M.ofRes (parseBatchLines data)
  backendBatch cfg oids

/-- processor.rs:412-440 `batch_data`; 442-448 `upload_batch`, `download_batch`. -/
def batchCmd (cfg : Cfg) (present missing : Bytes) : M Status := do
  let batch ← readBatch cfg
  pure (Status.newSuccess (batch.map (fun it =>
    it.oid ++ b!" " ++ natDec it.size ++ b!" " ++ (if it.present then present else missing) ++
      b!"\n")))

/-- local.rs:108-127 `verify`. -/
def backendVerify (cfg : Cfg) (oid : Bytes) (args : Args) : M Status := do
  let expected ← M.ofRes (match Args.get args b!"size" with
    | some x => parseInteger x
    | none => .err (Err.withMsg .missingData b!"missing required header"))
  match (← M.op (.stat (.exact (objPath cfg.root oid)))) with
  | .ok s =>
    if s.len = expected then pure Status.success
    else pure (Status.failure 409 b!"mismatched size or cryptographic collision")
  | .error e =>
    if e.kind = .notFound then pure (Status.failure 404 b!"not found")
    else M.throw (Err.ofIo e)

/-- processor.rs:500-504 `verify_object`. -/
def verifyObject (cfg : Cfg) (oid : Bytes) : M Status := do
  let items ← readToFlush
  let args ← M.ofRes (parseArgs items)
  let oid ← oidNew oid
  backendVerify cfg oid args

/-- local.rs:129-138 `download`. -/
def backendDownload (cfg : Cfg) (oid : Bytes) : M (Option Ino × Nat) := do
  let h ← M.op (.openRead (.exact (objPath cfg.root oid)))
  let h ← M.ofIo h
  let s ← M.op (.fstat h)
  let s ← M.ofIo s
  pure (h, s.len)

/-- processor.rs:506-521 `get_object`. -/
def getObject (cfg : Cfg) (oid : Bytes) : M Status := do
  let items ← readToFlush
  let _ ← M.ofRes (parseArgs items)
  let oid ← oidNew oid
  match (← M.attempt (backendDownload cfg oid)) with
  | .ok (h, size) => pure (Status.newReader [b!"size=" ++ natDec size ++ b!"\n"] h)
  | .error e =>
    if e.ioKind = .notFound then pure (Status.failure 404 b!"not found\n")
    else M.throw e

/-! ### Locks (local.rs:150-455, backend.rs:30-48) -/

/-- local.rs:203-208 `LocalBackendLock` (without `root`, which is always the locks directory). -/
structure LockInfo where
  path : Bytes
  time : Int
  owner : Bytes
  deriving DecidableEq, Repr

/-- local.rs:213-219 `hash_for`. -/
def lockId (cfg : Cfg) (path : Bytes) : Bytes :=
  hexEncode (cfg.sha (b!"v1" ++ b!":" ++ path))

/-- local.rs:221-229 `parse`. `String::from_utf8(..).ok()?` then `parse().ok()?`: a string accepted
by the integer parser is ASCII, so the UTF-8 check is implied. -/
def parseLock (data : Bytes) : Option (Int × Bytes) :=
  match splitN COLON 2 data with
  | [v, t, p] => if v = b!"v1" then (parseI64 t).map (fun t => (t, p)) else none
  | _ => none

/-- local.rs:332-333: the record written to a lock file. -/
def lockRecord (time : Int) (path : Bytes) : Bytes :=
  b!"v1" ++ b!":" ++ intDec time ++ b!":" ++ path

/-- local.rs:334-335. -/
def lockPath (cfg : Cfg) (path : Bytes) : Path := locksDir cfg.root ++ [lockId cfg path]

/-- local.rs:157-158 `temp.set_extension("lock")`: the file name is a hexadecimal string without a
dot, so the extension is appended. -/
def lockTemp (cfg : Cfg) (path : Bytes) : Path := locksDir cfg.root ++ [lockId cfg path ++ b!".lock"]

/-- local.rs:304-311 `timestamp`. -/
def timestamp (cfg : Cfg) : M Int :=
  match cfg.timestamp with
  | some t => pure t
  | none => M.op .now

/-- local.rs:239-242, 322-325: name of a user, or `uid N`. -/
def userName (cfg : Cfg) (uid : Nat) : Bytes :=
  match cfg.passwd uid with
  | some n => n
  | none => b!"uid " ++ natDec uid

/-- local.rs:319-326 `user_for_file(..).unwrap_or_else(|_| "unknown")`. -/
def userForFile (cfg : Cfg) (p : FPath) : M Bytes := do
  match (← M.op (.stat p)) with
  | .ok s => pure (userName cfg s.uid)
  | .error _ => pure b!"unknown"

/-- local.rs:165-181 `LockFile::write`. -/
def lockWrite (cfg : Cfg) (tmp : Path) (data : Bytes) : M Unit := do
  match (← M.op (.createNew tmp cfg.uid)) with
  | .error e =>
    if e.kind = .alreadyExists then M.throw (Err.simple .conflict) else M.throw (Err.ofIo e)
  | .ok ino => do
    let w ← M.op (.write ino data)
    M.ofIo w

/-- local.rs:184-192 `LockFile::persist` without the destructor. -/
def lockPersist (tmp dst : Path) : M Unit := do
  match (← M.op (.link tmp dst)) with
  | .ok _ => pure ()
  | .error e =>
    if e.kind = .alreadyExists then M.throw (Err.simple .conflict) else M.throw (Err.ofIo e)

/-- local.rs:330-346 `create`. The `LockFile` is dropped (removing the temp file, local.rs:195-201)
at the end of `persist`, or when `write` fails. The clock is read a second time for the returned
lock. -/
def lockCreate (cfg : Cfg) (path : Bytes) : M LockInfo := do
  let t ← timestamp cfg
  M.after (do
    lockWrite cfg (lockTemp cfg path) (lockRecord t path)
    lockPersist (lockTemp cfg path) (lockPath cfg path)) (dropFile (lockTemp cfg path))
  let user ← userForFile cfg (.exact (lockPath cfg path))
  let t2 ← timestamp cfg
  pure ⟨path, t2, user⟩

/-- local.rs:365-391 `from_id`. `id` may be any string sent by the client. -/
def lockFromId (cfg : Cfg) (id : Bytes) : M (Option LockInfo) := do
  match (← M.op (.openRead (.join (locksDir cfg.root) id))) with
  | .error e => if e.kind = .notFound then pure none else M.throw (Err.ofIo e)
  | .ok h => do
    let (cs, e) ← M.op (.readAll h)
    match e with
    | some e => M.throw (Err.ofIo e)
    | none => do
      let user ← userForFile cfg (.join (locksDir cfg.root) id)
      match parseLock cs.flatten with
      | none => M.throw (Err.withMsg .corruptData b!"invalid parsed lock")
      | some (t, p) => pure (some ⟨p, t, user⟩)

/-- local.rs:348-363 `from_path`. -/
def lockFromPath (cfg : Cfg) (path : Bytes) : M (Option LockInfo) := do
  match (← lockFromId cfg (lockId cfg path)) with
  | none => pure none
  | some l =>
    if l.path ≠ path then
      M.throw (Err.withMsg .corruptData b!"unexpected filename in parsed lock")
    else pure (some l)

/-- local.rs:263-265 `formatted_timestamp`. -/
def fmtTimestamp (cfg : Cfg) (l : LockInfo) : M Bytes :=
  match cfg.fmtTime l.time with
  | some s => pure s
  | none => M.panic

/-- backend.rs:37-48 `as_arguments`. -/
def lockArgs (cfg : Cfg) (l : LockInfo) : M (List Bytes) := do
  let ts ← fmtTimestamp cfg l
  pure [b!"id=" ++ lockId cfg l.path ++ b!"\n",
    b!"path=" ++ l.path ++ b!"\n",
    b!"locked-at=" ++ ts ++ b!"\n",
    b!"ownername=" ++ l.owner ++ b!"\n"]

/-- local.rs:271-295 `as_lock_spec`; local.rs:237-243 `current_user`. -/
def lockSpec (cfg : Cfg) (ownerId : Bool) (l : LockInfo) : M (List Bytes) := do
  let id := lockId cfg l.path
  let ts ← fmtTimestamp cfg l
  let v := [b!"lock " ++ id ++ b!"\n",
    b!"path " ++ id ++ b!" " ++ l.path ++ b!"\n",
    b!"locked-at " ++ id ++ b!" " ++ ts ++ b!"\n",
    b!"ownername " ++ id ++ b!" " ++ l.owner ++ b!"\n"]
  if ownerId then
    let who := if userName cfg cfg.uid = l.owner then b!"ours" else b!"theirs"
    pure (v ++ [b!"owner " ++ id ++ b!" " ++ who ++ b!"\n"])
  else pure v

/-- local.rs:246-253 `Lock::unlock`: removes the file named after the hash of the *recorded* path. -/
def lockUnlock (cfg : Cfg) (l : LockInfo) : M Unit := do
  let r ← M.op (.unlink (lockPath cfg l.path))
  M.ofIo r

/-- processor.rs:541-565: the retry loop. When `create` reports a conflict and the lock cannot be
found, `retried` is set and `continue` leaves the loop, reaching `unreachable!()`. -/
def lockLoop (cfg : Cfg) (path : Bytes) : M Status := do
  match (← M.attempt (lockCreate cfg path)) with
  | .ok l => do
    let a ← lockArgs cfg l
    pure (Status.successWithCode 201 a)
  | .error e =>
    if e.kind = .conflict then
      match (← lockFromPath cfg path) with
      | some l => do
        let a ← lockArgs cfg l
        pure (Status.failureWithArgs 409 a b!"conflict\n")
      | none => M.panic
    else M.throw e

/-- processor.rs:523-566 `lock`. -/
def lockCmd (cfg : Cfg) : M Status := do
  let data ← readToFlushParse
  let args ← M.ofRes (parseArgs data)
  match Args.get args b!"path", Args.get args b!"refname" with
  | some path, some _ => lockLoop cfg path
  | _, _ => M.throw (Err.withMsg .missingData b!"both path and refname required")

/-- processor.rs:359-361 `error`. -/
def errStatus (code : Nat) (msg : Bytes) : Status := Status.failure code (msg ++ b!"\n")

/-- processor.rs:568-580 `list_locks_for_path`. -/
def listLocksForPath (cfg : Cfg) (path : Bytes) (cursor : Option Bytes) (ownerId : Bool) :
    M Status := do
  match (← lockFromPath cfg path) with
  | none => pure (errStatus 404 b!"not found")
  | some l =>
    let skip := match cursor with
      | some id => bytesLt (lockId cfg l.path) id
      | none => false
    if skip then pure (errStatus 404 b!"not found")
    else do
      let s ← lockSpec cfg ownerId l
      pure (Status.newSuccess s)

/-- Insertion into a list sorted by name (local.rs:414). -/
def insertName (n : Bytes) : List Bytes → List Bytes
  | [] => [n]
  | m :: ms => if bytesLt m n then m :: insertName n ms else n :: m :: ms

/-- local.rs:414 `v.sort_by_key(fs::DirEntry::file_name)` (names in a directory are distinct). -/
def sortNames : List Bytes → List Bytes
  | [] => []
  | n :: ns => insertName n (sortNames ns)

/-- local.rs:432-454 `LockSetIterator::next` under `skip_while(id < cursor)` and `take(k)`
(processor.rs:605-615): entries that cannot be read or parsed are skipped; once an item passed
`skip_while` no more are skipped; no entry is opened after `k` items were produced. -/
def collectLocks (cfg : Cfg) (cursor : Option Bytes) :
    (skipping : Bool) → (k : Nat) → List Bytes → M (List LockInfo)
  | _, 0, _ => pure []
  | _, _ + 1, [] => pure []
  | skipping, k + 1, n :: ns => do
    match (← M.attempt (lockFromId cfg (utf8Lossy n))) with
    | .ok (some l) =>
      let skip := skipping && (match cursor with
        | some c => bytesLt (lockId cfg l.path) c
        | none => false)
      if skip then collectLocks cfg cursor true (k + 1) ns
      else do
        let ls ← collectLocks cfg cursor false k ns
        pure (l :: ls)
    | _ => collectLocks cfg cursor skipping (k + 1) ns

/-- local.rs:407-426 `LockSetIterator::new` and processor.rs:605-616. -/
def iterLocks (cfg : Cfg) (cursor : Option Bytes) (k : Nat) : M (List LockInfo) := do
  let d ← M.op (.readDir (locksDir cfg.root))
  let names ← M.ofIo d
  collectLocks cfg cursor true k (sortNames names)

/-- processor.rs:617-619. -/
def lockSpecs (cfg : Cfg) (ownerId : Bool) : List LockInfo → M (List Bytes)
  | [] => pure []
  | l :: ls => do
    let s ← lockSpec cfg ownerId l
    let rest ← lockSpecs cfg ownerId ls
    pure (s ++ rest)

/-- processor.rs:588-600: the `limit` argument. -/
def parseLimit (args : Args) : Res Nat :=
  match (match Args.get args b!"limit" with
    | some x => parseInteger x
    | none => .ok 100) with
  | .err e => .err e
  | .panic => .panic
  | .ok limit =>
    if limit = 0 then .err (Err.withMsg .notAllowed b!"bizarre request for no data")
    else if limit > 100 then .ok 100 else .ok limit

/-- processor.rs:582-626 `list_locks`. -/
def listLocks (cfg : Cfg) (ownerId : Bool) : M Status := do
  let items ← readToFlushParse
  let args ← M.ofRes (parseArgs items)
  let limit ← M.ofRes (parseLimit args)
  let cursor := Args.get args b!"cursor"
  match Args.get args b!"path" with
  | some path => listLocksForPath cfg path cursor ownerId
  | none => do
    let items ← iterLocks cfg cursor (limit + 1)
    let specs ← lockSpecs cfg ownerId items
    let next : List Bytes := match items[limit]? with
      | some l => [b!"next-cursor=" ++ lockId cfg l.path ++ b!"\n"]
      | none => []
    pure (Status.successWithData 200 next specs)

/-- processor.rs:628-657 `unlock`. -/
def unlockCmd (cfg : Cfg) (id : Bytes) : M Status := do
  let _ ← readToFlush
  if !utf8Valid id then M.throw (Err.withMsg .corruptData b!"invalid or corrupt ID")
  else do
    match (← lockFromId cfg id) with
    | none => pure (errStatus 404 b!"not found")
    | some l => do
      let args ← lockArgs cfg l
      match (← M.attempt (lockUnlock cfg l)) with
      | .ok _ => pure (Status.successWithCode 200 args)
      | .error e =>
        if e.ioKind = .notFound then pure (errStatus 404 b!"not found")
        else if e.ioKind = .permissionDenied then pure (errStatus 403 b!"forbidden")
        else M.throw e

/-- processor.rs:354-357 `version`. -/
def versionCmd : M Status := do
  let _ ← readToFlush
  pure (Status.newSuccess [])

/-! ### The command loop (processor.rs:659-728) -/

/-- processor.rs:666-683: the words of a command line; `none` for a packet without data. -/
def commandWords (bs : Bytes) : List Bytes :=
  splitOn SP (if bs.getLast? = some NL then bs.dropLast else bs)

/-- processor.rs:684-704: the dispatch, except `quit`. -/
def dispatch (cfg : Cfg) (mode : Mode) (cmd : Bytes) (arg : Option Bytes) : M Status :=
  if cmd = b!"version" then
    (if arg = some b!"1" then versionCmd else pure (errStatus 400 b!"unknown version"))
  else if cmd = b!"batch" ∧ arg = none then
    (match mode with
      | .upload => batchCmd cfg b!"noop" b!"upload"
      | .download => batchCmd cfg b!"download" b!"noop")
  else match arg with
    | some a =>
      if cmd = b!"put-object" then
        (if mode = .upload then putObject cfg a else pure (errStatus 403 b!"not allowed"))
      else if cmd = b!"verify-object" then
        (if mode = .upload then verifyObject cfg a else pure (errStatus 403 b!"not allowed"))
      else if cmd = b!"get-object" then
        (if mode = .download then getObject cfg a else pure (errStatus 403 b!"not allowed"))
      else if cmd = b!"unlock" ∧ mode = .upload then unlockCmd cfg a
      else pure (errStatus 400 b!"unknown command")
    | none =>
      if cmd = b!"lock" ∧ mode = .upload then lockCmd cfg
      else if cmd = b!"list-lock" then listLocks cfg (mode = .upload)
      else pure (errStatus 400 b!"unknown command")

/-- processor.rs:707-717: the error kinds answered with 400. -/
def clientError : ErrorKind → Bool
  | .badPktlineHeader | .invalidPacket | .unexpectedPacket | .invalidLFSOid | .invalidInteger
  | .missingData | .extraData | .corruptData | .notAllowed | .unknownCommand => true
  | _ => false

/-- processor.rs:707-725. -/
def errorStatus (e : Err) : Status :=
  if clientError e.kind then Status.failure 400 (b!"error: " ++ e.display ++ b!"\n")
  else Status.failure 500 (b!"internal error: " ++ e.display ++ b!"\n")

/-- What one turn of the command loop decides (the `return`s and `continue`s of processor.rs:660-727). -/
inductive Turn
  | again | done
  deriving DecidableEq, Repr

/-- One iteration of the loop of processor.rs:660-727. -/
def turn (cfg : Cfg) (mode : Mode) : M Turn := do
  match (← M.attempt (M.rdr Rdr.readPacket)) with
  | .error e => if e.ioKind = .unexpectedEof then pure .done else M.throw e
  | .ok pkt =>
    match pkt.data? with
    | none => do
      sendError 400 b!"unknown command"
      pure .again
    | some bs =>
      if bs = [] then do
        sendError 400 b!"no command provided"
        pure .again
      else
        let words := commandWords bs
        let cmd := words.head?.getD []
        let arg := words.tail.head?
        if cmd = b!"quit" ∧ arg = none then do
          sendStatus Status.success
          pure .done
        else do
          match (← M.attempt (dispatch cfg mode cmd arg)) with
          | .ok st => sendStatus st
          | .error e => sendStatus (errorStatus e)
          pure .again

/-- processor.rs:659-728 `process_commands`. Every iteration that continues consumed at least four
bytes, so the fuel of `processCommands` suffices (`processF_fuel`). -/
def processF (cfg : Cfg) (mode : Mode) : Nat → M Unit
  | 0 => M.panic
  | f + 1 => do
    match (← turn cfg mode) with
    | .done => pure ()
    | .again => processF cfg mode f

/-- processor.rs:659-728 `process_commands`, with enough fuel. -/
def processCommands (cfg : Cfg) (mode : Mode) : M Unit := fun r =>
  processF cfg mode (r.input.length + 1) r

/-! ### The program (git-lfs-transfer.rs) -/

/-- The loop of git-lfs-transfer.rs:88-92. -/
def mkdirs : List Path → M Unit
  | [] => pure ()
  | p :: ps => do
    let r ← M.op (.mkdirAll p)
    M.ofIo r
    mkdirs ps

/-- git-lfs-transfer.rs:87-94 `create_directories`. -/
def createDirectories (cfg : Cfg) : M Unit :=
  mkdirs [cfg.root ++ [b!"objects"], cfg.root ++ [b!"incomplete"], cfg.root ++ [b!"tmp"],
    cfg.root ++ [b!"locks"]]

/-- git-lfs-transfer.rs:78-85 `send_capabilities`. -/
def sendCapabilities : M Unit := do
  send b!"version=1\n"
  sendFlush

/-- git-lfs-transfer.rs:59-76 `run`. -/
def runProgram (cfg : Cfg) (operation : Bytes) : M Unit := do
  createDirectories cfg
  sendCapabilities
  if operation = b!"upload" then processCommands cfg .upload
  else if operation = b!"download" then processCommands cfg .download
  else M.throw (Err.simple .unknownCommand)

/-- How a process ends: exit code and the line on standard error (git-lfs-transfer.rs:149-162, 204). -/
structure Exit where
  code : Nat
  stderr : Bytes
  deriving DecidableEq, Repr

/-- git-lfs-transfer.rs:149-162 `main`, for a successful `set_permissions`. A panic ends the
process with code 101 (its message is not modelled). -/
def mainProg (cfg : Cfg) (operation : Bytes) (r : Rdr) : Prog Exit :=
  (runProgram cfg operation r).bind fun x =>
    match x.1 with
    | .ok _ => .ret ⟨ExitStatus.success.code, []⟩
    | .err e => .ret ⟨e.exitStatus.code, e.display ++ b!"\n"⟩
    | .panic => .ret ⟨101, []⟩

end Verif
