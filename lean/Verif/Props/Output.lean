import Verif.Lemmas.Output
import Verif.Props.Loop
import Verif.Tests.Demo
/-! Properties C36 and C39: what the server writes. -/
namespace Verif
open Spec

/-- A run of `m` ended with complete replies only, or (only when `ro` is false) with an error and a
last reply that lacks its final flush. -/
def Wrote (ro : Bool) {α : Type} (s : Bytes) (x : Res α) (s' : Bytes) : Prop :=
  ∃ reps : List Bytes, (∀ w ∈ reps, IsReply w) ∧
    (s' = s ++ reps.flatten ∨
      ro = false ∧ (∃ e, x = .err e) ∧ s' ++ b!"0000" = s ++ reps.flatten)

theorem M.wp_and {σ : Type} {L : Logic σ} {α : Type} {m : M α} {r : Rdr} {s : σ}
    {Q Q' : Res α → Rdr → σ → Prop} (h : m.wp L r s Q) (h' : m.wp L r s Q') :
    m.wp L r s (fun x r s => Q x r s ∧ Q' x r s) := Prog.wp_and h h'

/-- Running a command writes nothing and yields a status with a known code. -/
theorem wp_dispatch_out (ro : Bool) (cfg : Cfg) (mode : Mode) (cmd : Bytes) (arg : Option Bytes)
    (r : Rdr) (s : Bytes) : (dispatch cfg mode cmd arg).wp (Logic.out ro) r s
      (fun x _ s' => s' = s ∧ ∀ st, x = .ok st → CodeOk st) := by
  refine M.wp_and ?_ (post_dispatch cfg mode cmd arg Bytes (Logic.out ro) r s fun _ _ => trivial)
  refine M.All.wp (quiet_dispatch cfg mode cmd arg) r s (fun _ _ => trivial) ?_
  intro o x ho _
  cases o <;> first | rfl | cases ho

/-- One turn: a turn that continues wrote exactly one reply. -/
theorem wp_turn_out (ro : Bool) (cfg : Cfg) (mode : Mode) (r : Rdr) (s : Bytes) :
    (turn cfg mode).wp (Logic.out ro) r s (fun x _ s' => Wrote ro s x s' ∧
      (x = .ok .again → ∃ w, IsReply w ∧ s' = s ++ w)) := by
  have one : ∀ {α : Type} (x : Res α) (w : Bytes), IsReply w → Wrote ro s x (s ++ w) :=
    fun x w h => ⟨[w], by simpa using h, .inl (by simp)⟩
  have nil : ∀ {α : Type} (x : Res α), Wrote ro s x s := fun x => ⟨[], by simp, .inl (by simp)⟩
  have err : ∀ (r1 : Rdr) (m : Bytes),
      M.wp (Logic.out ro) (do sendError 400 m; pure Turn.again) r1 s (fun x _ s' => Wrote ro s x s' ∧
      (x = .ok .again → ∃ w, IsReply w ∧ s' = s ++ w)) := by
    intro r1 m
    rw [M.wp_bind]
    refine M.wp_mono (emits_sendError 400 m ro r1 s) ?_
    rintro x r' s' ⟨rfl, rfl, rfl⟩
    have hr := isReply_error 400 m c400
    exact ⟨one _ _ hr, fun _ => ⟨_, hr, rfl⟩⟩
  have snd : ∀ (r1 : Rdr) (st : Status) (t : Turn), CodeOk st →
      M.wp (Logic.out ro) (do sendStatus st; pure t) r1 s (fun x _ s' => Wrote ro s x s' ∧
      (x = .ok .again → ∃ w, IsReply w ∧ s' = s ++ w)) := by
    intro r1 st t hst
    rw [M.wp_bind]
    refine M.wp_mono (wp_sendStatus ro st r1 s) ?_
    rintro x r' s' ⟨rfl, data, (⟨rfl, rfl⟩ | ⟨hro, ⟨e, rfl⟩, he⟩)⟩
    · have hr := isReply_replyWith st data hst
      exact ⟨one _ _ hr, fun _ => ⟨_, hr, rfl⟩⟩
    · refine ⟨⟨[replyWith st data], ?_, .inr ⟨hro, ⟨e, rfl⟩, by simpa using he⟩⟩, ?_⟩
      · simpa using isReply_replyWith st data hst
      · intro h; cases h
  unfold turn
  rw [M.wp_bind, M.wp_attempt, M.wp_rdr]
  rcases hp : r.readPacket with ⟨(p | e | _), r1⟩
  · simp only [Res.elim_ok]
    split
    · exact err _ _
    · split
      · exact err _ _
      · split
        · exact snd _ _ _ c200
        · rw [M.wp_bind, M.wp_attempt]
          refine M.wp_mono (wp_dispatch_out ro cfg mode _ _ r1 s) ?_
          rintro (st | e | _) r' s' ⟨rfl, hst⟩
          · exact snd _ _ _ (hst st rfl)
          · exact snd _ _ _ (codeOk_errorStatus e)
          · exact ⟨nil _, fun h => by cases h⟩
  · simp only [Res.elim_err, Res.elim_ok]
    split
    · exact ⟨nil _, fun h => by cases h⟩
    · exact ⟨nil _, fun h => by cases h⟩
  · exact ⟨nil _, fun h => by cases h⟩

theorem wp_processF_out (ro : Bool) (cfg : Cfg) (mode : Mode) : ∀ f (r : Rdr) (s : Bytes),
    (processF cfg mode f).wp (Logic.out ro) r s (fun x _ s' => Wrote ro s x s')
  | 0, r, s => ⟨[], by simp, .inl (by simp)⟩
  | f + 1, r, s => by
    unfold processF
    rw [M.wp_bind]
    refine M.wp_mono (wp_turn_out ro cfg mode r s) ?_
    rintro (t | e | _) r' s' ⟨hw, hr⟩
    · cases t with
      | done =>
        obtain ⟨reps, h1, h2 | ⟨_, ⟨e, he⟩, _⟩⟩ := hw
        · exact ⟨reps, h1, .inl h2⟩
        · cases he
      | again =>
        clear hw
        obtain ⟨w, hw, rfl⟩ := hr rfl
        simp only [Res.elim_ok]
        refine M.wp_mono (wp_processF_out ro cfg mode f r' (s ++ w)) ?_
        rintro x r'' s'' ⟨reps, h1, h2⟩
        refine ⟨w :: reps, ?_, ?_⟩
        · simp only [List.mem_cons]
          rintro v (rfl | hv)
          · exact hw
          · exact h1 v hv
        · simpa using h2
    · obtain ⟨reps, h1, h2 | ⟨hro, ⟨e, he⟩, h3⟩⟩ := hw
      · exact ⟨reps, h1, .inl h2⟩
      · exact ⟨reps, h1, .inr ⟨hro, ⟨_, rfl⟩, h3⟩⟩
    · obtain ⟨reps, h1, h2 | ⟨_, ⟨e, he⟩, _⟩⟩ := hw
      · exact ⟨reps, h1, .inl h2⟩
      · cases he

theorem wp_processCommands_out (ro : Bool) (cfg : Cfg) (mode : Mode) (r : Rdr) (s : Bytes) :
    (processCommands cfg mode).wp (Logic.out ro) r s (fun x _ s' => Wrote ro s x s') :=
  wp_processF_out ro cfg mode (r.input.length + 1) r s

/-- The advertisement on the wire. -/
def capBytes : Bytes := encMsg b!"version=1\n" ++ b!"0000"

theorem frames_cap : Frames [.data b!"version=1\n", .flush] capBytes :=
  Frames.cons (frame_encMsg _ (by decide) (by decide)) (frame_singleton .flush)

theorem wp_mkdirs_out (ro : Bool) (s : Bytes) : ∀ ps (r : Rdr),
    (mkdirs ps).wp (Logic.out ro) r s (fun _ _ s' => s' = s)
  | [], _ => rfl
  | p :: ps, r => by
    unfold mkdirs
    rw [M.wp_bind, M.wp_op]
    refine ⟨trivial, fun x _ => ?_⟩
    simp only [Res.elim_ok]
    rw [M.wp_bind, M.wp_ofIo]
    cases x with
    | error e => rfl
    | ok u => exact wp_mkdirs_out ro s ps r

theorem wp_runProgram_out (ro : Bool) (cfg : Cfg) (op : Bytes) (r : Rdr) :
    (runProgram cfg op).wp (Logic.out ro) r [] (fun x _ s' => s' = [] ∨ Wrote ro capBytes x s') := by
  unfold runProgram createDirectories
  rw [M.wp_bind]
  refine M.wp_mono (wp_mkdirs_out ro [] _ r) ?_
  rintro (u | e | _) r' s' rfl
  · simp only [Res.elim_ok]
    rw [M.wp_bind]
    refine M.wp_mono (emits_sendCapabilities ro r' []) ?_
    rintro x r'' s' ⟨rfl, rfl, rfl⟩
    simp only [Res.elim_ok]
    split
    · exact M.wp_mono (wp_processCommands_out ro cfg _ _ _) fun x r s h => .inr h
    · split
      · exact M.wp_mono (wp_processCommands_out ro cfg _ _ _) fun x r s h => .inr h
      · exact .inr ⟨[], by simp, .inl (by simp [capBytes])⟩
  · exact .inl rfl
  · exact .inl rfl

theorem main_output (ro : Bool) (cfg : Cfg) (op : Bytes) (r : Rdr) (tr : List Event) (x : Exit)
    (h : (mainProg cfg op r).Finished tr x) (ho : ∀ e ∈ tr, e.OutOk)
    (hro : ro = true → ∀ e ∈ tr, e.ReadOk) :
    output tr = [] ∨ IsStream (output tr) ∨ ro = false ∧ IsStream (output tr ++ b!"0000") := by
  unfold mainProg at h
  obtain ⟨t1, t2, ⟨res, r'⟩, rfl, h1, h2⟩ := Prog.finished_bind.mp h
  have ht2 : t2 = [] := by rcases res with a | e | _ <;> cases h2 <;> rfl
  subst ht2
  simp only [List.append_nil] at ho hro ⊢
  have hl : (Logic.out ro).LegalTr [] t1 :=
    Logic.legalTr_of_forall fun e he s => ⟨ho e he, fun h => hro h e he⟩
  have := Prog.wp_finished (wp_runProgram_out ro cfg op r) h1 hl
  rw [Logic.out_fold] at this
  simp only [List.nil_append] at this
  rcases this with h | ⟨reps, hr, h | ⟨hro, _, h⟩⟩
  · exact .inl h
  · exact .inr (.inl ⟨capBytes, reps, frames_cap, hr, h⟩)
  · exact .inr (.inr ⟨hro, capBytes, reps, frames_cap, hr, h⟩)

/-- **C36**, when no read of an object's content fails: whatever the client sends, whatever else
the file system does, everything a finished server wrote is the advertisement followed by
complete, well-formed replies (or nothing at all, when the skeleton could not be created).

Full property: the same for every fault pattern of file operations. That is false
(`C36_refuted`): a failing read of an object ends the reply in the middle. -/
theorem C36_replies_partial (cfg : Cfg) (op : Bytes) (r : Rdr) (tr : List Event) (x : Exit)
    (h : (mainProg cfg op r).Finished tr x) (ho : ∀ e ∈ tr, e.OutOk) (hr : ∀ e ∈ tr, e.ReadOk) :
    output tr = [] ∨ IsStream (output tr) := by
  rcases main_output true cfg op r tr x h ho (fun _ => hr) with h | h | ⟨h, _⟩
  · exact .inl h
  · exact .inr h
  · cases h

/-- **C36**, for every fault pattern: what a finished server wrote lacks at most the last flush of
the last reply. -/
theorem C36_cut_partial (cfg : Cfg) (op : Bytes) (r : Rdr) (tr : List Event) (x : Exit)
    (h : (mainProg cfg op r).Finished tr x) (ho : ∀ e ∈ tr, e.OutOk) :
    output tr = [] ∨ IsStream (output tr) ∨ IsStream (output tr ++ b!"0000") := by
  rcases main_output false cfg op r tr x h ho (fun h => by cases h) with h | h | ⟨_, h⟩
  · exact .inl h
  · exact .inr (.inl h)
  · exact .inr (.inr h)

/-- Some response to each call that reports no output error. -/
def okResp : (o : Op) → Resp o
  | .createTemp _ _ _ => .error enoent
  | .createNew _ _ => .error enoent
  | .stat _ => .error enoent
  | .openRead _ => .error enoent
  | .fstat _ => .error enoent
  | .readAll _ => ([], none)
  | .readDir _ => .error enoent
  | .now => (0 : Int)
  | .mkdirAll _ => .ok ()
  | .write _ _ => .ok ()
  | .rename _ _ => .ok ()
  | .link _ _ => .ok ()
  | .unlink _ => .ok ()
  | .chmod _ _ => .ok ()
  | .out _ => .ok ()
  | .flush => .ok ()

theorem okResp_out (o : Op) : Event.OutOk ⟨o, okResp o⟩ := by
  cases o <;> trivial

/-- A process stopped anywhere could have gone on to finish. -/
theorem Prog.Did.extend {α : Type} {p : Prog α} {tr : List Event} (h : p.Did tr) :
    ∃ tr' a, p.Finished (tr ++ tr') a ∧ ∀ e ∈ tr', e.OutOk := by
  have fin : ∀ p : Prog α, ∃ tr' a, p.Finished tr' a ∧ ∀ e ∈ tr', e.OutOk := by
    intro p
    induction p with
    | ret a => exact ⟨[], a, .ret, by simp⟩
    | call o k ih =>
      obtain ⟨tr', a, h1, h2⟩ := ih (okResp o)
      refine ⟨⟨o, okResp o⟩ :: tr', a, .call h1, ?_⟩
      simp only [List.mem_cons]
      rintro e (rfl | he)
      · exact okResp_out o
      · exact h2 e he
  induction h with
  | nil => simpa using fin _
  | call _ ih =>
    obtain ⟨tr', a, h1, h2⟩ := ih
    exact ⟨tr', a, .call h1, h2⟩

theorem output_append (t1 t2 : List Event) : output (t1 ++ t2) = output t1 ++ output t2 := by
  induction t1 with
  | nil => rfl
  | cons e t1 ih => obtain ⟨o, x⟩ := e; cases o <;> simp [output, ih]

/-- **C36**, at every moment: what has been written so far, by a process that may have been killed
at any point, is a prefix of a well-formed stream. No fault pattern makes the server write a byte
that is not part of the advertisement or of a reply. -/
theorem C36_prefix (cfg : Cfg) (op : Bytes) (r : Rdr) (tr : List Event)
    (h : (mainProg cfg op r).Did tr) (ho : ∀ e ∈ tr, e.OutOk) :
    ∃ w, IsStream w ∧ output tr <+: w := by
  obtain ⟨tr', x, h1, h2⟩ := h.extend
  have ho' : ∀ e ∈ tr ++ tr', e.OutOk := by
    intro e he
    rcases List.mem_append.mp he with he | he
    · exact ho e he
    · exact h2 e he
  rcases C36_cut_partial cfg op r _ x h1 ho' with h | h | h
  · rw [output_append] at h
    refine ⟨capBytes, ⟨capBytes, [], frames_cap, by simp, by simp⟩, ?_⟩
    rw [(List.append_eq_nil_iff.mp h).1]
    exact List.nil_prefix
  · exact ⟨_, h, by rw [output_append]; exact List.prefix_append _ _⟩
  · exact ⟨_, h, by rw [output_append, List.append_assoc]; exact List.prefix_append _ _⟩

/-- **C36**, one reply per turn: every turn of the command loop after which the session continues
wrote exactly one complete reply (without a hypothesis on file reads). -/
theorem C36_one_reply (cfg : Cfg) (mode : Mode) (r r' : Rdr) (tr : List Event)
    (h : (turn cfg mode r).Finished tr (.ok .again, r')) (ho : ∀ e ∈ tr, e.OutOk) :
    IsReply (output tr) := by
  have hl : (Logic.out false).LegalTr [] tr :=
    Logic.legalTr_of_forall fun e he s => ⟨ho e he, fun h => by cases h⟩
  have := Prog.wp_finished (wp_turn_out false cfg mode r []) h hl
  rw [Logic.out_fold] at this
  obtain ⟨w, hw, he⟩ := this.2 rfl
  simp only [List.nil_append] at he
  rwa [he]

/-- Every well-formed stream ends with a flush. -/
theorem isStream_flush {w : Bytes} (h : IsStream w) : ∃ v, w = v ++ b!"0000" := by
  have last : ∀ {ps : List Packet} {v : Bytes}, Frames (ps ++ [.flush]) v → ∃ u, v = u ++ b!"0000" := by
    intro ps v h
    obtain ⟨a, b, rfl, _, hb⟩ := frames_split h
    have := frames_singleton hb
    cases this
    exact ⟨a, rfl⟩
  obtain ⟨cap, reps, hc, hr, rfl⟩ := h
  induction reps using List.reverseRecOn with
  | nil =>
    obtain ⟨u, hu⟩ := last (ps := [.data b!"version=1\n"]) hc
    exact ⟨u, by simpa using hu⟩
  | append_singleton reps x _ =>
    obtain ⟨rep, _, hf⟩ := hr x (by simp)
    obtain ⟨u, rfl⟩ := last (ps := .data (b!"status " ++ rep.digits ++ b!"\n") :: rep.args.map .data ++
      (match rep.data with
        | none => []
        | some ds => .delim :: ds.map .data)) hf
    exact ⟨cap ++ (reps.flatten ++ u), by simp⟩

/-- Response of one call, for evaluation. -/
def Event.outOkB : Event → Bool
  | ⟨.out _, .ok _⟩ => true
  | ⟨.out _, .error _⟩ => false
  | ⟨.flush, .ok _⟩ => true
  | ⟨.flush, .error _⟩ => false
  | _ => true

theorem Event.outOk_of {e : Event} (h : e.outOkB = true) : e.OutOk := by
  obtain ⟨o, x⟩ := e
  cases o <;> first | trivial | (rcases x with e | u <;> first | rfl | cases h)

/-- A download of a stored object in which the (only) read of the object fails. -/
def cutDownload : List Event :=
  (Tests.server Tests.cfg b!"download" (b!"004fget-object " ++ Tests.oidA ++ b!"0000")).events
    (Tests.failAt 15 Tests.eio 0) ⟨Tests.fsA, [], 0⟩

/-- **C36** is false for failing reads of an object: the server then stops in the middle of the
reply. (Everything written still is a prefix of a well-formed stream, `C36_prefix`.) -/
theorem C36_refuted : ∃ (cfg : Cfg) (r : Rdr) (tr : List Event) (x : Exit),
    (mainProg cfg b!"download" r).Finished tr x ∧ (∀ e ∈ tr, e.OutOk ∧ e.Possible) ∧
    output tr ≠ [] ∧ ¬ IsStream (output tr) := by
  refine ⟨Tests.cfg, Rdr.new (b!"004fget-object " ++ Tests.oidA ++ b!"0000") eofErr false, cutDownload, _,
    Prog.run_finished _ _ _, ?_, ?_, ?_⟩
  · have h : cutDownload.all Event.outOkB = true := by decide +kernel
    exact fun e he => ⟨Event.outOk_of (List.all_eq_true.mp h e he), events_possible _ _ _ e he⟩
  · have : output cutDownload = b!"000eversion=1\n0000000fstatus 200\n000bsize=6\n0001" := by
      decide +kernel
    rw [this]
    exact List.cons_ne_nil _ _
  · have : output cutDownload = b!"000eversion=1\n0000000fstatus 200\n000bsize=6\n0001" := by
      decide +kernel
    rw [this]
    intro h
    obtain ⟨v, hv⟩ := isStream_flush h
    have := congrArg List.getLast? hv
    simp at this

/-- The same download when nothing fails: a complete stream. -/
example : output ((Tests.server Tests.cfg b!"download" (b!"004fget-object " ++ Tests.oidA ++ b!"0000")).events
    Tests.calm ⟨Tests.fsA, [], 0⟩) =
    b!"000eversion=1\n0000000fstatus 200\n000bsize=6\n0001000aabc1230000" := by decide +kernel

/-! ### C39 -/

/-- The error kinds that mean the client is at fault. -/
def clientKinds : List ErrorKind :=
  [.badPktlineHeader, .invalidPacket, .unexpectedPacket, .invalidLFSOid, .invalidInteger,
   .missingData, .extraData, .corruptData, .notAllowed, .unknownCommand]

theorem clientError_iff (k : ErrorKind) : clientError k = true ↔ k ∈ clientKinds := by
  cases k <;> decide

/-- **C39.** If running a command ends with an error, the turn sends one reply with status 400 when
the kind of the error is one of the client's, else 500, carrying the text of the error; the
session goes on where the command stopped reading. -/
theorem C39_classification (cfg : Cfg) (mode : Mode) (r r1 : Rdr) (d : Bytes) (hd : d ≠ [])
    (hp : r.readPacket = (.ok (.data d), r1))
    (hq : ¬ ((commandWords d).head?.getD [] = b!"quit" ∧ (commandWords d).tail.head? = none))
    (tr : List Event) (x : Res Turn) (r' : Rdr)
    (h : (turn cfg mode r).Finished tr (x, r')) (ho : ∀ e ∈ tr, e.OutOk) :
    ∃ t1 t2 res r2, tr = t1 ++ t2 ∧
      (dispatch cfg mode ((commandWords d).head?.getD []) (commandWords d).tail.head? r1).Finished
        t1 (res, r2) ∧ output t1 = [] ∧
      ∀ e, res = .err e → x = .ok .again ∧ r' = r2 ∧
        ∃ rep : Reply, rep.Ok ∧ Frames rep.packets (output tr) ∧
          rep.code = (if e.kind ∈ clientKinds then 400 else 500) ∧ rep.args = [] ∧
          ∃ ds, rep.data = some ds ∧ ds.flatten =
            (if e.kind ∈ clientKinds then b!"error: " else b!"internal error: ") ++
              e.display ++ b!"\n" := by
  rw [turn_data cfg mode r r1 d hd hp, if_neg hq] at h
  obtain ⟨u1, t2, ⟨res', r2'⟩, rfl, h1, h2⟩ := Prog.finished_bind.mp h
  obtain ⟨t1, u2, ⟨res, r2⟩, rfl, h3, h4⟩ := Prog.finished_bind.mp h1
  have hu2 : u2 = [] ∧ r2' = r2 ∧ ∀ e, res = .err e → res' = .ok (.error e) := by
    rcases res with a | e | _ <;> cases h4
    · exact ⟨rfl, rfl, fun e h => by cases h⟩
    · exact ⟨rfl, rfl, fun e h => by cases h; rfl⟩
    · exact ⟨rfl, rfl, fun e h => by cases h⟩
  obtain ⟨rfl, rfl, hres⟩ := hu2
  have ht1 : output t1 = [] := by
    have hl : (Logic.out false).LegalTr [] t1 :=
      Logic.legalTr_of_forall fun e he s => ⟨ho e (by simp [he]), fun h => by cases h⟩
    have := Prog.wp_finished (wp_dispatch_out false cfg mode _ _ r1 []) h3 hl
    rw [Logic.out_fold] at this
    simpa using this.1
  refine ⟨t1, t2, res, r2', by simp, h3, ht1, ?_⟩
  rintro e he
  rw [hres e he] at h2
  clear h h1 h3 h4 hres he
  have hl : (Logic.out false).LegalTr [] t2 :=
    Logic.legalTr_of_forall fun e he s => ⟨ho e (by simp [he]), fun h => by cases h⟩
  have hw : (sendStatus (errorStatus e) >>= fun _ => (pure Turn.again : M Turn)).wp (Logic.out false) r2' []
      (fun x r s => x = .ok .again ∧ r = r2' ∧ s = replyWith (errorStatus e) (errorStatus e).messages) := by
    rw [M.wp_bind]
    refine M.wp_mono (emits_sendStatus (errorStatus e) ?_ false r2' []) ?_
    · unfold errorStatus
      split
      · exact .inr rfl
      · exact .inr rfl
    · intro x r s h
      rw [h.1, Res.elim_ok]
      exact ⟨rfl, h.2.1, h.2.2.trans (List.nil_append _)⟩
  have := Prog.wp_finished hw h2 hl
  rw [Logic.out_fold] at this
  simp only [List.nil_append] at this
  obtain ⟨e1, e2, e3⟩ := this
  refine ⟨e1, e2, ?_⟩
  obtain ⟨rep, k1, k2, k3, k4, k5⟩ := reply_replyWith (errorStatus e) (errorStatus e).messages
    (codeOk_errorStatus e)
  refine ⟨rep, k1, ?_, ?_, ?_, ?_⟩
  · rw [output_append, output_append, ht1, e3]
    simpa [output] using k5
  · rw [k2]
    unfold errorStatus
    by_cases hc : e.kind ∈ clientKinds
    · simp [hc, (clientError_iff _).mpr hc, Status.failure]
    · simp [hc, Status.failure, (clientError_iff e.kind).not.mpr hc]
  · rw [k3]
    unfold errorStatus
    split <;> rfl
  · by_cases hc : e.kind ∈ clientKinds
    · refine ⟨msgChunks [b!"error: " ++ e.display ++ b!"\n"], ?_, ?_⟩
      · rw [k4]; simp [errorStatus, (clientError_iff _).mpr hc, Status.failure]
      · rw [msgChunks_flatten]; simp [hc]
    · refine ⟨msgChunks [b!"internal error: " ++ e.display ++ b!"\n"], ?_, ?_⟩
      · rw [k4]; simp [errorStatus, (clientError_iff e.kind).not.mpr hc, Status.failure]
      · rw [msgChunks_flatten]; simp [hc]

/-- A case of `C39_classification`: a `put-object` with a bad object ID. -/
example : ((turn Tests.cfg .upload (Rdr.new b!"0010put-object x" eofErr false)).run Tests.calm
      ⟨Tests.fsA, [], 0⟩).1 = (.ok .again, Rdr.new [] eofErr false) ∧
    ((turn Tests.cfg .upload (Rdr.new b!"0010put-object x" eofErr false)).run Tests.calm
      ⟨Tests.fsA, [], 0⟩).2.out =
      b!"000fstatus 400\n00010028error: invalid or malformed LFS oid\n0000" := by
  decide +kernel

end Verif
