import Verif.Lemmas.OpsUsed
/-! Programs that do not read from the client leave the reader as it is, whatever the OS answers. -/
namespace Verif

/-- The logic that follows the executions all of whose events satisfy `P`. -/
def Logic.only (P : Event → Prop) : Logic Unit := ⟨fun _ _ => True, fun s _ _ => s, fun _ o x => P ⟨o, x⟩⟩

theorem Logic.only_finished {P : Event → Prop} {α : Type} {m : M α} {r : Rdr} {Q : Res α → Rdr → Prop}
    (h : m.wp (Logic.only P) r () (fun x r' _ => Q x r')) {tr x r'} (hf : (m r).Finished tr (x, r'))
    (ht : ∀ e ∈ tr, P e) : Q x r' :=
  Prog.wp_finished (L := Logic.only P) (p := m r) (s := ()) (a := (x, r'))
    (Q := fun x _ => Q x.1 x.2) h hf (Logic.legalTr_of_forall fun e he _ => ht e he)

/-- On every execution the reader is the same afterwards. -/
def M.Still {α : Type} (m : M α) : Prop :=
  ∀ P r, m.wp (Logic.only P) r () (fun _ r' _ => r' = r)

namespace M.Still
variable {α β : Type}

theorem pure (a : α) : (Pure.pure a : M α).Still := fun _ _ => rfl
theorem pure' (a : α) : (M.pure a : M α).Still := fun _ _ => rfl
theorem throw (e : Err) : (M.throw e : M α).Still := fun _ _ => rfl
theorem panic : (M.panic : M α).Still := fun _ _ => rfl
theorem ofRes (x : Res α) : (M.ofRes x).Still := fun _ _ => rfl
theorem op (o : Op) : (M.op o).Still := fun _ _ => ⟨trivial, fun _ _ => rfl⟩
theorem ofIo (x : Except IoErr α) : (M.ofIo x).Still := by
  intro P r; rw [M.wp_ofIo]

theorem bind {m : M α} {f : α → M β} (h : m.Still) (hf : ∀ a, (f a).Still) : (m >>= f).Still := by
  intro P r
  rw [M.wp_bind]
  refine M.wp_mono (h P r) ?_
  rintro (a | e | _) r' s' rfl
  · exact hf a P r'
  · rfl
  · rfl

theorem attempt {m : M α} (h : m.Still) : (M.attempt m).Still := by
  intro P r
  rw [M.wp_attempt]
  refine M.wp_mono (h P r) ?_
  rintro (a | e | _) r' s' rfl <;> rfl

theorem after {m : M α} {c : M Unit} (h : m.Still) (hc : c.Still) : (M.after m c).Still := by
  intro P r
  rw [M.wp_after]
  refine M.wp_mono (h P r) ?_
  rintro x r' s' rfl
  exact hc P r'

theorem onFail {m : M α} {c : M Unit} (h : m.Still) (hc : c.Still) : (M.onFail m c).Still := by
  intro P r
  rw [M.wp_onFail]
  refine M.wp_mono (h P r) ?_
  rintro (a | e | _) r' s' rfl
  · rfl
  · exact hc P r'
  · exact hc P r'

end M.Still

/-- Decompose a goal `M.Still m` along the structure of `m`. -/
macro "still_op" : tactic => `(tactic| first
  | exact M.Still.pure _
  | exact M.Still.pure' _
  | exact M.Still.throw _
  | exact M.Still.panic
  | exact M.Still.ofRes _
  | exact M.Still.ofIo _
  | exact M.Still.op _
  | assumption
  | refine M.Still.bind ?_ (fun _ => ?_)
  | refine M.Still.attempt ?_
  | refine M.Still.after ?_ ?_
  | refine M.Still.onFail ?_ ?_
  | split)

macro "still_ops" : tactic => `(tactic| repeat still_op)

theorem still_outBytes (b : Bytes) : (outBytes b).Still := by unfold outBytes; still_ops
theorem still_writeOne (b : Bytes) : (writeOne b).Still := by
  unfold writeOne
  exact .bind (still_outBytes _) (fun _ => still_outBytes _)
theorem still_writeChunks : ∀ cs, (writeChunks cs).Still
  | [] => .pure _
  | c :: cs => .bind (still_writeOne c) (fun _ => still_writeChunks cs)
theorem still_send (m : Bytes) : (send m).Still := still_writeChunks _
theorem still_sendFlush : sendFlush.Still := by
  unfold sendFlush
  exact .bind (still_outBytes _) (fun _ => by still_ops)
theorem still_sendDelim : sendDelim.Still := still_outBytes _
theorem still_sendAll : ∀ ms, (sendAll ms).Still
  | [] => .pure _
  | m :: ms => .bind (still_send m) (fun _ => still_sendAll ms)
theorem still_sendError (c : Nat) (m : Bytes) : (sendError c m).Still := by
  unfold sendError
  exact .bind (still_send _) fun _ => .bind still_sendDelim fun _ => .bind (still_send _) fun _ =>
    still_sendFlush
theorem still_copyOut (h : Option Ino) : (copyOut h).Still := by
  unfold copyOut
  refine .bind (.op _) (fun _ => ?_)
  split
  refine .bind (still_sendAll _) (fun _ => ?_)
  still_ops
theorem still_sendStatus (st : Status) : (sendStatus st).Still := by
  unfold sendStatus
  have h1 := still_sendAll
  have h2 := still_sendFlush
  have h3 := still_sendDelim
  have h4 := still_copyOut
  refine .bind (still_send _) (fun _ => ?_)
  split <;> split <;> (try split) <;> simp only [] <;>
    repeat first
    | exact h2
    | exact h3
    | exact h1 _
    | exact h4 _
    | exact .pure _
    | refine M.Still.bind ?_ (fun _ => ?_)

theorem still_dropFile (p : Path) : (dropFile p).Still := by unfold dropFile; still_ops
theorem still_oidNew (b : Bytes) : (oidNew b).Still := by unfold oidNew; still_ops
theorem still_finishUpload (cfg : Cfg) (oid : Bytes) (p : Path) : (finishUpload cfg oid p).Still := by
  unfold finishUpload fixPermissions
  have := still_dropFile p
  still_ops
theorem still_checkUpload (cfg : Cfg) (oid : Bytes) (n : Nat) (d : Bytes) :
    (checkUpload cfg oid n d).Still := by
  unfold checkUpload oidNew
  still_ops
theorem still_backendBatch (cfg : Cfg) : ∀ l, (backendBatch cfg l).Still
  | [] => .pure _
  | (oid, n) :: rest => by
    unfold backendBatch
    have := still_backendBatch cfg rest
    still_ops
theorem still_backendVerify (cfg : Cfg) (oid : Bytes) (a : Args) : (backendVerify cfg oid a).Still := by
  unfold backendVerify
  refine .bind (.ofRes _) fun _ => ?_
  still_ops
theorem still_backendDownload (cfg : Cfg) (oid : Bytes) : (backendDownload cfg oid).Still := by
  unfold backendDownload; still_ops
theorem still_timestamp (cfg : Cfg) : (timestamp cfg).Still := by unfold timestamp; still_ops
theorem still_userForFile (cfg : Cfg) (p : FPath) : (userForFile cfg p).Still := by
  unfold userForFile; still_ops
theorem still_lockCreate (cfg : Cfg) (p : Bytes) : (lockCreate cfg p).Still := by
  unfold lockCreate lockWrite lockPersist
  have h1 := still_timestamp cfg
  have h2 := still_userForFile cfg (.exact (lockPath cfg p))
  have h3 := still_dropFile (lockTemp cfg p)
  still_ops
theorem still_lockFromId (cfg : Cfg) (id : Bytes) : (lockFromId cfg id).Still := by
  unfold lockFromId
  have h2 := still_userForFile cfg (.join (locksDir cfg.root) id)
  still_ops
theorem still_lockFromPath (cfg : Cfg) (p : Bytes) : (lockFromPath cfg p).Still := by
  unfold lockFromPath
  have := still_lockFromId cfg (lockId cfg p)
  still_ops
theorem still_fmtTimestamp (cfg : Cfg) (l : LockInfo) : (fmtTimestamp cfg l).Still := by
  unfold fmtTimestamp; still_ops
theorem still_lockArgs (cfg : Cfg) (l : LockInfo) : (lockArgs cfg l).Still := by
  unfold lockArgs
  exact .bind (still_fmtTimestamp _ _) fun _ => .pure _
theorem still_lockSpec (cfg : Cfg) (o : Bool) (l : LockInfo) : (lockSpec cfg o l).Still := by
  unfold lockSpec
  refine .bind (still_fmtTimestamp _ _) fun _ => ?_
  simp only []
  still_ops
theorem still_lockUnlock (cfg : Cfg) (l : LockInfo) : (lockUnlock cfg l).Still := by
  unfold lockUnlock; still_ops
theorem still_lockLoop (cfg : Cfg) (p : Bytes) : (lockLoop cfg p).Still := by
  unfold lockLoop
  have h1 := still_lockCreate cfg p
  have h2 := still_lockFromPath cfg p
  have h3 := still_lockArgs cfg
  refine .bind (.attempt h1) fun x => ?_
  split
  · exact .bind (h3 _) fun _ => .pure _
  · split
    · refine .bind h2 fun y => ?_
      split
      · exact .bind (h3 _) fun _ => .pure _
      · exact .panic
    · exact .throw _
theorem still_listLocksForPath (cfg : Cfg) (p : Bytes) (c : Option Bytes) (o : Bool) :
    (listLocksForPath cfg p c o).Still := by
  unfold listLocksForPath
  refine .bind (still_lockFromPath _ _) fun x => ?_
  cases x with
  | none => exact .pure _
  | some l =>
    simp only []
    have := still_lockSpec cfg o l
    repeat' (first | split | exact .pure _ | exact .bind this fun _ => .pure _)
theorem still_collectLocks (cfg : Cfg) (c : Option Bytes) :
    ∀ ns sk k, (collectLocks cfg c sk k ns).Still
  | _, _, 0 => by cases ‹List Bytes› <;> exact .pure _
  | [], _, _ + 1 => .pure _
  | n :: ns, sk, k + 1 => by
    unfold collectLocks
    have h1 := still_lockFromId cfg (utf8Lossy n)
    refine .bind (.attempt h1) fun x => ?_
    have a := still_collectLocks cfg c ns true (k + 1)
    have b := still_collectLocks cfg c ns false k
    have d := still_collectLocks cfg c ns sk (k + 1)
    split
    · simp only []
      generalize (sk && _) = q
      cases q
      · exact .bind b fun _ => .pure _
      · exact a
    · exact d
theorem still_iterLocks (cfg : Cfg) (c : Option Bytes) (k : Nat) : (iterLocks cfg c k).Still := by
  unfold iterLocks
  exact .bind (.op _) fun _ => .bind (.ofIo _) fun _ => still_collectLocks _ _ _ _ _
theorem still_lockSpecs (cfg : Cfg) (o : Bool) : ∀ ls, (lockSpecs cfg o ls).Still
  | [] => .pure _
  | l :: ls => by
    unfold lockSpecs
    exact .bind (still_lockSpec _ _ _) fun _ => .bind (still_lockSpecs cfg o ls) fun _ => .pure _

/-! ### Ending with a given reader -/

/-- Every execution with events in `P` ends with the reader `r'`. -/
def M.EndsAt (P : Event → Prop) {α : Type} (m : M α) (r r' : Rdr) : Prop :=
  m.wp (Logic.only P) r () (fun _ r1 _ => r1 = r')

variable {P : Event → Prop} {α β : Type}

theorem M.Still.endsAt {m : M α} (h : m.Still) (r : Rdr) : m.EndsAt P r r := h P r

theorem M.EndsAt.bind {m : M α} {f : α → M β} {r r' : Rdr} (h : m.EndsAt P r r') (hf : ∀ a, (f a).Still) :
    (m >>= f).EndsAt P r r' := by
  unfold M.EndsAt
  rw [M.wp_bind]
  refine M.wp_mono h ?_
  rintro (a | e | _) r1 s1 rfl
  · exact hf a P r1
  · rfl
  · rfl

theorem M.EndsAt.attempt {m : M α} {r r' : Rdr} (h : m.EndsAt P r r') : (M.attempt m).EndsAt P r r' := by
  unfold M.EndsAt
  rw [M.wp_attempt]
  refine M.wp_mono h ?_
  rintro (a | e | _) r1 s1 rfl <;> rfl

theorem M.endsAt_rdr_bind {g : Rdr → Res α × Rdr} {f : α → M β} {r r1 r2 : Rdr} {a : α} (h : g r = (.ok a, r1))
    (hf : (f a).EndsAt P r1 r2) : (M.rdr g >>= f).EndsAt P r r2 := by
  unfold M.EndsAt
  rw [M.wp_bind, M.wp_rdr, h]
  exact hf

theorem M.endsAt_ofRes_bind {x : Res α} {f : α → M β} {r r2 : Rdr} {a : α} (h : x = .ok a)
    (hf : (f a).EndsAt P r r2) : (M.ofRes x >>= f).EndsAt P r r2 := by
  unfold M.EndsAt
  rw [M.wp_bind, M.wp_ofRes, h]
  exact hf

theorem M.endsAt_parse_bind {f : List Bytes → M β} {r r1 r2 : Rdr} {v : List Bytes}
    (h : readToType .flush r = (.ok v, r1)) (hf : (f v).EndsAt P r1 r2) :
    (readToFlushParse >>= f).EndsAt P r r2 := by
  unfold M.EndsAt readToFlushParse readToFlush
  rw [M.wp_bind, M.wp_bind, M.wp_attempt, M.wp_rdr, h]
  exact hf

/-! ### Commands that read arguments up to a flush -/

theorem endsAt_version {r r' : Rdr} {v : List Bytes} (h : readToType .flush r = (.ok v, r')) :
    versionCmd.EndsAt P r r' := by
  unfold versionCmd readToFlush
  exact M.endsAt_rdr_bind h (M.Still.endsAt (.pure _) _)

theorem endsAt_verify {cfg : Cfg} {x : Bytes} {r r' : Rdr} {v : List Bytes} (h : readToType .flush r = (.ok v, r')) :
    (verifyObject cfg x).EndsAt P r r' := by
  unfold verifyObject readToFlush
  exact M.endsAt_rdr_bind h (M.Still.endsAt (.bind (.ofRes _) fun _ => .bind (still_oidNew _) fun _ =>
    still_backendVerify _ _ _) _)

theorem endsAt_get {cfg : Cfg} {x : Bytes} {r r' : Rdr} {v : List Bytes} (h : readToType .flush r = (.ok v, r')) :
    (getObject cfg x).EndsAt P r r' := by
  unfold getObject readToFlush
  refine M.endsAt_rdr_bind h (M.Still.endsAt (.bind (.ofRes _) fun _ => .bind (still_oidNew _) fun _ =>
    .bind (.attempt (still_backendDownload _ _)) fun _ => ?_) _)
  still_ops

theorem endsAt_lock {cfg : Cfg} {r r' : Rdr} {v : List Bytes} (h : readToType .flush r = (.ok v, r')) :
    (lockCmd cfg).EndsAt P r r' := by
  unfold lockCmd
  refine M.endsAt_parse_bind h (M.Still.endsAt (.bind (.ofRes _) fun _ => ?_) _)
  split
  · exact still_lockLoop _ _
  · exact .throw _

theorem endsAt_listLocks {cfg : Cfg} {o : Bool} {r r' : Rdr} {v : List Bytes}
    (h : readToType .flush r = (.ok v, r')) : (listLocks cfg o).EndsAt P r r' := by
  unfold listLocks
  refine M.endsAt_parse_bind h (M.Still.endsAt (.bind (.ofRes _) fun _ => .bind (.ofRes _) fun _ => ?_) _)
  simp only []
  split
  · exact still_listLocksForPath _ _ _ _
  · exact .bind (still_iterLocks _ _ _) fun _ => .bind (still_lockSpecs _ _ _) fun _ => .pure _

theorem endsAt_unlock {cfg : Cfg} {x : Bytes} {r r' : Rdr} {v : List Bytes} (h : readToType .flush r = (.ok v, r')) :
    (unlockCmd cfg x).EndsAt P r r' := by
  unfold unlockCmd readToFlush
  refine M.endsAt_rdr_bind h (M.Still.endsAt ?_ _)
  split
  · exact .throw _
  · refine .bind (still_lockFromId _ _) fun y => ?_
    split
    · exact .pure _
    · refine .bind (still_lockArgs _ _) fun _ => .bind (.attempt (still_lockUnlock _ _)) fun _ => ?_
      still_ops

theorem endsAt_batch {cfg : Cfg} {p m : Bytes} {r r1 r' : Rdr} {as ls : List Bytes} {args : Args}
    (h1 : readToType .delim r = (.ok as, r1)) (ha : parseArgs as = .ok args)
    (h2 : readToType .flush r1 = (.ok ls, r')) : (batchCmd cfg p m).EndsAt P r r' := by
  unfold batchCmd readBatch readToDelim
  refine M.EndsAt.bind ?_ fun _ => .pure _
  refine M.endsAt_rdr_bind h1 (M.endsAt_ofRes_bind ha (M.endsAt_parse_bind h2 (M.Still.endsAt ?_ _)))
  have h3 := still_backendBatch cfg
  split <;> (try split) <;> simp only [] <;>
    first
    | exact .bind (.ofRes _) fun _ => h3 _
    | exact .bind (.pure _) fun _ => .bind (.ofRes _) fun _ => h3 _
    | exact .bind (.throw _) fun _ => .bind (.ofRes _) fun _ => h3 _

end Verif
