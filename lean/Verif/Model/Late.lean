import Verif.Model.System
/-!
When the temporary file of an upload is removed after a failed rename.

`TempPath::persist` returns the `TempPath` inside the error (local.rs:97-103). The error is wrapped
and returned from `finish_upload` and `put_object`, and dropped, removing the file, at the end of
`Err(e) => ..` in `process_commands` (processor.rs:709-725), that is after the reply was sent.
`Model/Server.lean` removes the file before the reply is sent. Here are the definitions with the order
of the code; `Props/Late.lean` shows that the difference does not matter.
-/
namespace Verif

/-- local.rs:85-106 `finish_upload`; `some e` if the rename failed, with the temporary file still there. -/
def finishUploadLate (cfg : Cfg) (oid : Bytes) (tmp : Path) : M (Option Err) := do
  M.onFail (do
    let d ← M.op (.mkdirAll (objPath cfg.root oid).dropLast)
    M.ofIo d) (dropFile tmp)
  match (← M.op (.rename tmp (objPath cfg.root oid))) with
  | .ok _ => do
    fixPermissions cfg (objPath cfg.root oid)
    pure none
  | .error e => pure (some (persistErr e))

/-- processor.rs:463-498 `put_object`; an error may own a temporary file. -/
def putObjectLate (cfg : Cfg) (oid : Bytes) : M (Except (Err × Path) Status) := do
  let oid ← oidNew oid
  let items ← readToDelim
  let args ← M.ofRes (parseArgs items)
  let expected ← M.ofRes (sizeFromArgs args)
  let (tmp, data) ← startUpload cfg oid
  M.onFail (checkUpload cfg oid expected data) (dropFile tmp)
  match (← finishUploadLate cfg oid tmp) with
  | none => pure (.ok Status.success)
  | some e => pure (.error (e, tmp))

/-- processor.rs:707-726: the reply to an upload. An error that owns a file is dropped after the reply. -/
def replyLate : Except Err (Except (Err × Path) Status) → M Turn
  | .ok (.ok st) => do
    sendStatus st
    pure .again
  | .ok (.error (e, tmp)) => do
    M.after (sendStatus (errorStatus e)) (dropFile tmp)
    pure .again
  | .error e => do
    sendStatus (errorStatus e)
    pure .again

/-- The object ID if the packet is an upload (processor.rs:666-690). -/
def putArg (mode : Mode) (d : Bytes) : Option Bytes :=
  if (commandWords d).head?.getD [] = b!"put-object" ∧ mode = .upload then (commandWords d).tail.head? else none

/-- One iteration of the loop of processor.rs:660-727: as `turn`, except for uploads. -/
def turnLate (cfg : Cfg) (mode : Mode) : M Turn := fun r =>
  match r.readPacket with
  | (.ok (.data d), r') =>
    match putArg mode d with
    | some oid => (M.attempt (putObjectLate cfg oid) >>= replyLate) r'
    | none => turn cfg mode r
  | _ => turn cfg mode r

/-- processor.rs:659-728 `process_commands`, as `processF`. -/
def processLateF (cfg : Cfg) (mode : Mode) : Nat → M Unit
  | 0 => M.panic
  | f + 1 => do
    match (← turnLate cfg mode) with
    | .done => pure ()
    | .again => processLateF cfg mode f

/-- processor.rs:659-728 `process_commands`. -/
def processLate (cfg : Cfg) (mode : Mode) : M Unit := fun r =>
  processLateF cfg mode (r.input.length + 1) r

/-- git-lfs-transfer.rs:59-76 `run`. -/
def runLate (cfg : Cfg) (operation : Bytes) : M Unit := do
  createDirectories cfg
  sendCapabilities
  if operation = b!"upload" then processLate cfg .upload
  else if operation = b!"download" then processLate cfg .download
  else M.throw (Err.simple .unknownCommand)

/-- git-lfs-transfer.rs:149-162 `main`, as `mainProg`. -/
def mainLate (cfg : Cfg) (operation : Bytes) (r : Rdr) : Prog Exit :=
  (runLate cfg operation r).bind fun x =>
    match x.1 with
    | .ok _ => .ret ⟨ExitStatus.success.code, []⟩
    | .err e => .ret ⟨e.exitStatus.code, e.display ++ b!"\n"⟩
    | .panic => .ret ⟨101, []⟩

end Verif
