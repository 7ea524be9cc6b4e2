import Verif.Spec.Ops
import Verif.Lemmas.Prog
/-! Which kinds of OS calls each command makes. -/
namespace Verif

abbrev Looks (o : Op) : Prop := o.looks = true
abbrev Quiet (o : Op) : Prop := o.outputs = false

theorem Looks.quiet {o : Op} (h : Looks o) : Quiet o := by
  cases o <;> simp_all [Looks, Quiet, Op.looks, Op.outputs]
theorem Looks.not_mutates {o : Op} (h : Looks o) : o.mutates = false := by
  cases o <;> simp_all [Looks, Op.mutates, Op.looks]

theorem looks_readToFlushParse : readToFlushParse.All Looks := by
  unfold readToFlushParse readToFlush; all_ops
theorem looks_oidNew (b : Bytes) : (oidNew b).All Looks := by unfold oidNew; all_ops

theorem looks_backendBatch (cfg : Cfg) : ∀ l, (backendBatch cfg l).All Looks
  | [] => .pure _
  | (oid, n) :: rest => by
    unfold backendBatch
    have := looks_backendBatch cfg rest
    refine .bind (.op rfl) fun _ => ?_
    all_ops

theorem looks_batchCmd (cfg : Cfg) (p m : Bytes) : (batchCmd cfg p m).All Looks := by
  unfold batchCmd readBatch readToDelim
  have h2 := looks_readToFlushParse
  have h3 := looks_backendBatch cfg
  refine .bind ?_ fun _ => .pure _
  refine .bind (.rdr _) fun _ => .bind (.ofRes _) fun _ => .bind h2 fun _ => ?_
  split <;> (try split) <;> simp only [] <;>
    first
    | exact .bind (.ofRes _) fun _ => h3 _
    | exact .bind (.pure _) fun _ => .bind (.ofRes _) fun _ => h3 _
    | exact .bind (.throw _) fun _ => .bind (.ofRes _) fun _ => h3 _

theorem looks_verifyObject (cfg : Cfg) (oid : Bytes) : (verifyObject cfg oid).All Looks := by
  unfold verifyObject backendVerify readToFlush
  refine .bind (.rdr _) fun _ => .bind (.ofRes _) fun _ => .bind (looks_oidNew _) fun _ =>
    .bind (.ofRes _) fun _ => .bind (.op rfl) fun _ => ?_
  all_ops

theorem looks_getObject (cfg : Cfg) (oid : Bytes) : (getObject cfg oid).All Looks := by
  unfold getObject backendDownload readToFlush
  refine .bind (.rdr _) fun _ => .bind (.ofRes _) fun _ => .bind (looks_oidNew _) fun _ =>
    .bind (.attempt (.bind (.op rfl) fun _ => .bind (.ofIo _) fun _ => .bind (.op rfl) fun _ =>
      .bind (.ofIo _) fun _ => .pure _)) fun _ => ?_
  all_ops

theorem looks_timestamp (cfg : Cfg) : (timestamp cfg).All Looks := by
  unfold timestamp
  split
  · exact .pure _
  · exact .op rfl
theorem looks_userForFile (cfg : Cfg) (p : FPath) : (userForFile cfg p).All Looks := by
  unfold userForFile
  refine .bind (.op rfl) fun _ => ?_
  all_ops
theorem looks_lockFromId (cfg : Cfg) (id : Bytes) : (lockFromId cfg id).All Looks := by
  unfold lockFromId
  have h2 := looks_userForFile cfg (.join (locksDir cfg.root) id)
  refine .bind (.op rfl) fun x => ?_
  split
  · all_ops
  · refine .bind (.op rfl) fun _ => ?_
    all_ops
theorem looks_lockFromPath (cfg : Cfg) (p : Bytes) : (lockFromPath cfg p).All Looks := by
  unfold lockFromPath
  have := looks_lockFromId cfg (lockId cfg p)
  all_ops
theorem looks_fmtTimestamp (cfg : Cfg) (l : LockInfo) : (fmtTimestamp cfg l).All Looks := by
  unfold fmtTimestamp; all_ops
theorem looks_lockArgs (cfg : Cfg) (l : LockInfo) : (lockArgs cfg l).All Looks := by
  unfold lockArgs
  exact .bind (looks_fmtTimestamp _ _) fun _ => .pure _
theorem looks_lockSpec (cfg : Cfg) (o : Bool) (l : LockInfo) : (lockSpec cfg o l).All Looks := by
  unfold lockSpec
  refine .bind (looks_fmtTimestamp _ _) fun _ => ?_
  simp only []
  all_ops
theorem looks_listLocksForPath (cfg : Cfg) (p : Bytes) (c : Option Bytes) (o : Bool) :
    (listLocksForPath cfg p c o).All Looks := by
  unfold listLocksForPath
  refine .bind (looks_lockFromPath _ _) fun x => ?_
  cases x with
  | none => exact .pure _
  | some l =>
    simp only []
    have := looks_lockSpec cfg o l
    repeat' (first | split | exact .pure _ | exact .bind this fun _ => .pure _)
theorem looks_collectLocks (cfg : Cfg) (c : Option Bytes) :
    ∀ ns sk k, (collectLocks cfg c sk k ns).All Looks
  | _, _, 0 => by cases ‹List Bytes› <;> exact .pure _
  | [], _, _ + 1 => .pure _
  | n :: ns, sk, k + 1 => by
    unfold collectLocks
    have h1 := looks_lockFromId cfg (utf8Lossy n)
    refine .bind (.attempt h1) fun x => ?_
    have a := looks_collectLocks cfg c ns true (k + 1)
    have b := looks_collectLocks cfg c ns false k
    have d := looks_collectLocks cfg c ns sk (k + 1)
    split
    · simp only []
      generalize (sk && _) = q
      cases q
      · exact .bind b fun _ => .pure _
      · exact a
    · exact d
theorem looks_lockSpecs (cfg : Cfg) (o : Bool) : ∀ ls, (lockSpecs cfg o ls).All Looks
  | [] => .pure _
  | l :: ls => by
    unfold lockSpecs
    exact .bind (looks_lockSpec _ _ _) fun _ => .bind (looks_lockSpecs cfg o ls) fun _ => .pure _
theorem looks_listLocks (cfg : Cfg) (o : Bool) : (listLocks cfg o).All Looks := by
  unfold listLocks iterLocks
  refine .bind looks_readToFlushParse fun _ => .bind (.ofRes _) fun _ => .bind (.ofRes _) fun _ => ?_
  simp only []
  split
  · exact looks_listLocksForPath _ _ _ _
  · refine .bind (.bind (.op rfl) fun _ => .bind (.ofIo _) fun _ => looks_collectLocks _ _ _ _ _) fun _ =>
      .bind (looks_lockSpecs _ _ _) fun _ => .pure _
theorem looks_versionCmd : versionCmd.All Looks := by
  unfold versionCmd
  exact .bind (.rdr _) fun _ => .pure _

/-- In download mode commands only look. -/
theorem looks_dispatch_download (cfg : Cfg) (cmd : Bytes) (arg : Option Bytes) :
    (dispatch cfg .download cmd arg).All Looks := by
  unfold dispatch
  simp only [if_false, reduceCtorEq, and_false]
  repeat' first
    | split
    | exact looks_versionCmd
    | exact looks_batchCmd _ _ _
    | exact looks_getObject _ _
    | exact looks_listLocks _ _
    | exact .pure _

/-! Commands write no output themselves. -/

theorem quiet_dropFile (p : Path) : (dropFile p).All Quiet := by
  unfold dropFile
  exact .bind (.op rfl) fun _ => .pure _
theorem quiet_copyInF (bufs : Nat → Nat) (ino : Ino) : ∀ f i acc, (copyInF bufs ino f i acc).All Quiet
  | 0, _, _ => .panic
  | f + 1, i, acc => by
    unfold copyInF
    refine .bind (.rdr _) (fun d => ?_)
    have ih := quiet_copyInF bufs ino f (i + 1) (acc ++ d)
    split
    · exact .pure _
    · exact .bind (.op rfl) fun _ => .bind (.ofIo _) fun _ => ih
theorem quiet_startUpload (cfg : Cfg) (oid : Bytes) : (startUpload cfg oid).All Quiet := by
  unfold startUpload
  refine .bind (.op rfl) (fun _ => .bind (.ofIo _) (fun _ => ?_))
  split
  refine .onFail (.bind (fun r => quiet_copyInF _ _ _ _ _ r) (fun _ => .pure _)) (quiet_dropFile _)
theorem quiet_finishUpload (cfg : Cfg) (oid : Bytes) (p : Path) :
    (finishUpload cfg oid p).All Quiet := by
  unfold finishUpload fixPermissions
  refine .bind (.onFail (.bind (.op rfl) fun _ => .bind (.ofIo _) fun _ => .bind (.op rfl) fun _ => ?_)
    (quiet_dropFile p)) fun _ => .bind (.op rfl) fun _ => .bind (.ofIo _) fun _ => .bind (.op rfl) fun _ => .ofIo _
  all_ops
theorem quiet_checkUpload (cfg : Cfg) (oid : Bytes) (n : Nat) (d : Bytes) :
    (checkUpload cfg oid n d).All Quiet := by
  unfold checkUpload oidNew
  all_ops
theorem quiet_putObject (cfg : Cfg) (oid : Bytes) : (putObject cfg oid).All Quiet := by
  unfold putObject readToDelim
  refine .bind ((looks_oidNew _).mono fun _ => Looks.quiet) fun _ => .bind (.rdr _) fun _ =>
    .bind (.ofRes _) fun _ => .bind (.ofRes _) fun _ => .bind (quiet_startUpload _ _) fun _ => ?_
  split
  exact .bind (.onFail (quiet_checkUpload _ _ _ _) (quiet_dropFile _)) fun _ =>
    .bind (quiet_finishUpload _ _ _) fun _ => .pure _
theorem quiet_lockCreate (cfg : Cfg) (p : Bytes) : (lockCreate cfg p).All Quiet := by
  unfold lockCreate lockWrite lockPersist
  have h1 := (looks_timestamp cfg).mono fun _ => Looks.quiet
  have h2 := (looks_userForFile cfg (.exact (lockPath cfg p))).mono fun _ => Looks.quiet
  have h3 := quiet_dropFile (lockTemp cfg p)
  refine .bind h1 fun _ => .bind (.after (.bind (.bind (.op rfl) fun x => ?_) fun _ =>
    .bind (.op rfl) fun _ => ?_) h3) fun _ => .bind h2 fun _ => .bind h1 fun _ => .pure _
  · split
    · all_ops
    · exact .bind (.op rfl) fun _ => .ofIo _
  · all_ops
theorem quiet_lockCmd (cfg : Cfg) : (lockCmd cfg).All Quiet := by
  unfold lockCmd lockLoop
  have h1 := looks_readToFlushParse.mono fun _ => Looks.quiet
  have h2 := quiet_lockCreate cfg
  have h3 := fun p => (looks_lockFromPath cfg p).mono fun _ => Looks.quiet
  have h4 := fun p => (looks_lockArgs cfg p).mono fun _ => Looks.quiet
  repeat first
    | exact h2 _
    | exact h3 _
    | exact h4 _
    | all_op
theorem quiet_unlockCmd (cfg : Cfg) (id : Bytes) : (unlockCmd cfg id).All Quiet := by
  unfold unlockCmd readToFlush
  have h2 := (looks_lockFromId cfg id).mono fun _ => Looks.quiet
  have h4 := fun p => (looks_lockArgs cfg p).mono fun _ => Looks.quiet
  have h5 : ∀ l, (lockUnlock cfg l).All Quiet := fun l => by
    unfold lockUnlock
    exact .bind (.op rfl) fun _ => .ofIo _
  repeat first
    | exact h4 _
    | exact h5 _
    | all_op

theorem quiet_dispatch (cfg : Cfg) (mode : Mode) (cmd : Bytes) (arg : Option Bytes) :
    (dispatch cfg mode cmd arg).All Quiet := by
  unfold dispatch
  repeat' first
    | split
    | exact looks_versionCmd.mono fun _ => Looks.quiet
    | exact (looks_batchCmd _ _ _).mono fun _ => Looks.quiet
    | exact quiet_putObject _ _
    | exact (looks_verifyObject _ _).mono fun _ => Looks.quiet
    | exact (looks_getObject _ _).mono fun _ => Looks.quiet
    | exact quiet_unlockCmd _ _
    | exact quiet_lockCmd _
    | exact (looks_listLocks _ _).mono fun _ => Looks.quiet
    | exact .pure _

/-! Replying: only output and reading. -/

abbrev Replies (o : Op) : Prop := o.mutates = false

theorem replies_outBytes (b : Bytes) : (outBytes b).All Replies := by
  unfold outBytes
  exact .bind (.op rfl) fun _ => .ofIo _
theorem replies_writeChunks : ∀ cs, (writeChunks cs).All Replies
  | [] => .pure _
  | _ :: cs => .bind (.bind (replies_outBytes _) fun _ => replies_outBytes _) (fun _ => replies_writeChunks cs)
theorem replies_send (m : Bytes) : (send m).All Replies := replies_writeChunks _
theorem replies_sendFlush : sendFlush.All Replies := by
  unfold sendFlush
  exact .bind (replies_outBytes _) fun _ => .bind (.op rfl) fun _ => .ofIo _
theorem replies_sendAll : ∀ ms, (sendAll ms).All Replies
  | [] => .pure _
  | m :: ms => .bind (replies_send m) (fun _ => replies_sendAll ms)
theorem replies_sendError (c : Nat) (m : Bytes) : (sendError c m).All Replies := by
  unfold sendError sendDelim
  exact .bind (replies_send _) fun _ => .bind (replies_outBytes _) fun _ => .bind (replies_send _) fun _ =>
    replies_sendFlush
theorem replies_copyOut (h : Option Ino) : (copyOut h).All Replies := by
  unfold copyOut
  refine .bind (.op rfl) (fun _ => ?_)
  split
  refine .bind (replies_sendAll _) (fun _ => ?_)
  all_ops
theorem replies_sendStatus (st : Status) : (sendStatus st).All Replies := by
  unfold sendStatus sendDelim
  refine .bind (replies_send _) (fun _ => ?_)
  split <;> split <;> (try split) <;> simp only [] <;>
    repeat first
    | exact replies_sendFlush
    | exact replies_outBytes _
    | exact replies_sendAll _
    | exact replies_copyOut _
    | exact .pure _
    | refine M.All.bind ?_ (fun _ => ?_)

/-- A turn of the command loop does what its command does, and replies. -/
theorem all_turn {P : Op → Prop} (cfg : Cfg) (mode : Mode)
    (hd : ∀ cmd arg, (dispatch cfg mode cmd arg).All P) (hr : ∀ o, o.mutates = false → P o) :
    (turn cfg mode).All P := by
  unfold turn
  have h1 := fun c m => (replies_sendError c m).mono hr
  have h2 := fun st => (replies_sendStatus st).mono hr
  refine .bind (.attempt (.rdr _)) fun x => ?_
  split
  · all_ops
  · split
    · exact .bind (h1 _ _) fun _ => .pure _
    · split
      · exact .bind (h1 _ _) fun _ => .pure _
      · simp only []
        split
        · exact .bind (h2 _) fun _ => .pure _
        · refine .bind (.attempt (hd _ _)) fun y => ?_
          split <;> exact .bind (h2 _) fun _ => .pure _

theorem all_processF {P : Op → Prop} (cfg : Cfg) (mode : Mode) (h : (turn cfg mode).All P) :
    ∀ f, (processF cfg mode f).All P
  | 0 => .panic
  | f + 1 => by
    unfold processF
    have := all_processF cfg mode h f
    refine .bind h fun x => ?_
    split
    · exact .pure _
    · exact this

theorem all_processCommands {P : Op → Prop} (cfg : Cfg) (mode : Mode) (h : (turn cfg mode).All P) :
    (processCommands cfg mode).All P := fun r => all_processF cfg mode h _ r

end Verif
