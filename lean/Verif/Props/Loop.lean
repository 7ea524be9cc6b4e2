import Verif.Lemmas.Fuel
import Verif.Lemmas.OpsUsed
/-! Properties C20, C39–C41, C43: the command loop, its modes, and how it ends. -/
namespace Verif

/-! ### C20 -/

/-- The directories made at start-up. -/
def skeleton (root : Path) : List Path :=
  [root ++ [b!"objects"], root ++ [b!"incomplete"], root ++ [b!"tmp"], root ++ [b!"locks"]]

/-- **C20.** A process started for `download`, on any input and with any responses from the OS,
makes no call that could change the file system except creating the four skeleton directories. -/
theorem C20_download_readonly (cfg : Cfg) (r : Rdr) (tr : List Event)
    (h : (mainProg cfg b!"download" r).Did tr) :
    ∀ e ∈ tr, e.1.mutates = true → ∃ p ∈ skeleton cfg.root, e.1 = .mkdirAll p := by
  let P : Op → Prop := fun o => o.mutates = true → ∃ p ∈ skeleton cfg.root, o = .mkdirAll p
  have hr : ∀ o : Op, o.mutates = false → P o := fun o h h' => by simp [h] at h'
  have hpc : (processCommands cfg .download).All P :=
    all_processCommands _ _ (all_turn _ _
      (fun _ _ => (looks_dispatch_download _ _ _).mono fun o ho => hr o (Looks.not_mutates ho)) hr)
  have hmk : ∀ ps, (∀ p ∈ ps, p ∈ skeleton cfg.root) → (mkdirs ps).All P := by
    intro ps
    induction ps with
    | nil => intro _; exact .pure _
    | cons p ps ih =>
      intro hp
      unfold mkdirs
      exact .bind (.op fun _ => ⟨p, hp p (by simp), rfl⟩) fun _ => .bind (.ofIo _) fun _ =>
        ih fun q hq => hp q (by simp [hq])
  have hall : (mainProg cfg b!"download" r).All P := by
    refine Prog.All.bind (p := runProgram cfg b!"download" r) ?_ ?_
    · revert r
      suffices hh : (runProgram cfg b!"download").All P from fun r _ => hh r
      unfold runProgram createDirectories sendCapabilities
      refine .bind (hmk _ (fun p hp => hp)) fun _ => .bind (.bind ((replies_send _).mono hr) fun _ =>
        (replies_sendFlush).mono hr) fun _ => ?_
      rw [if_neg (by decide), if_pos rfl]
      exact hpc
    · rintro ⟨(a | e | _), r'⟩ <;> trivial
  exact hall.did h

/-- The same for a running system: a call made in download mode leaves the file system unchanged
apart from those directories, whatever the environment chooses. -/
theorem C20_effect (c : Choice) (fs : FS) (o : Op) (h : o.mutates = false) : (sem c fs o).1 = fs :=
  sem_not_mutates c fs o h

/-! ### C40 -/

theorem M.wp_any_finished {α : Type} {m : M α} {r : Rdr} {Q : Res α → Rdr → Unit → Prop}
    (h : m.wp Logic.any r () Q) {tr x r'} (hf : (m r).Finished tr (x, r')) : Q x r' () :=
  Prog.wp_finished (L := Logic.any) (p := m r) (s := ()) (a := (x, r'))
    (Q := fun x s => Q x.1 x.2 s) h hf (Logic.legalTr_of_forall fun _ _ _ => trivial)

theorem Prog.bind_congr {α β : Type} {p : Prog α} {f g : α → Prog β}
    (h : p.wp Logic.any () (fun a _ => f a = g a)) : p.bind f = p.bind g := by
  induction p with
  | ret a => exact h
  | call o k ih =>
    simp only [Prog.bind]
    congr 1
    funext x
    exact ih x (h.2 x trivial)

theorem turn_again (cfg : Cfg) (mode : Mode) (r : Rdr) :
    (turn cfg mode).wp Logic.any r () (fun x r' _ => r.Le r' ∧
      (x = .ok .again → r'.input.length + 4 ≤ r.input.length)) := by
  unfold turn
  rw [M.wp_bind, M.wp_attempt, M.wp_rdr]
  rcases hp : r.readPacket with ⟨(p | e | _), r1⟩
  · have hl := readPacket_ok_len hp
    have hle := readPacket_le hp
    have key : ∀ {m : M Turn}, m.Fwd → m.wp Logic.any r1 () (fun x r' _ => r.Le r' ∧
        (x = .ok .again → r'.input.length + 4 ≤ r.input.length)) := fun hm =>
      M.wp_mono (hm r1) fun _ r' _ h => ⟨hle.trans h, fun _ => by have := h.len; omega⟩
    simp only [Res.elim_ok]
    split
    · exact key (.bind (fwd_sendError _ _) fun _ => .pure _)
    · split
      · exact key (.bind (fwd_sendError _ _) fun _ => .pure _)
      · split
        · exact key (.bind (fwd_sendStatus _) fun _ => .pure _)
        · refine key (.bind (.attempt (fwd_dispatch _ _ _ _)) fun y => ?_)
          split <;> exact .bind (fwd_sendStatus _) fun _ => .pure _
  · have hle := readPacket_le hp
    simp only [Res.elim_err, Res.elim_ok]
    split
    · exact ⟨hle, fun h => by cases h⟩
    · exact ⟨hle, fun h => by cases h⟩
  · exact ⟨readPacket_le hp, fun h => by cases h⟩

/-- **C40**, progress: every turn of the loop that asks for another one has consumed at least four
bytes of input. -/
theorem C40_turn_consumes (cfg : Cfg) (mode : Mode) (r r' : Rdr) (tr : List Event)
    (h : (turn cfg mode r).Finished tr (.ok .again, r')) :
    r'.input.length + 4 ≤ r.input.length :=
  (M.wp_any_finished (turn_again cfg mode r) h).2 rfl

theorem processF_fuel (cfg : Cfg) (mode : Mode) : ∀ (f g : Nat) (r : Rdr), r.input.length < f →
    r.input.length < g → processF cfg mode f r = processF cfg mode g r
  | 0, _, _, h, _ => by omega
  | _, 0, _, _, h => by omega
  | f + 1, g + 1, r, hf, hg => by
    unfold processF
    refine Prog.bind_congr (Prog.wp_mono (turn_again cfg mode r) ?_)
    rintro ⟨(t | e | _), r'⟩ _ ⟨_, hl⟩
    · cases t with
      | done => rfl
      | again =>
        have : r'.input.length + 4 ≤ r.input.length := hl rfl
        exact processF_fuel cfg mode f g r' (by omega) (by omega)
    · rfl
    · rfl

/-- **C40**, the loop: `process_commands` runs turns until one says it is done or fails; the fuel
in the model is never what ends it. -/
theorem C40_loop (cfg : Cfg) (mode : Mode) (r : Rdr) :
    processCommands cfg mode r = (turn cfg mode r).bind (fun x =>
      match x with
      | (.ok .done, r') => .ret (.ok (), r')
      | (.ok .again, r') => processCommands cfg mode r'
      | (.err e, r') => .ret (.err e, r')
      | (.panic, r') => .ret (.panic, r')) := by
  unfold processCommands processF
  refine Prog.bind_congr (Prog.wp_mono (turn_again cfg mode r) ?_)
  rintro ⟨(t | e | _), r'⟩ _ ⟨_, hl⟩
  · cases t with
    | done => rfl
    | again =>
      have : r'.input.length + 4 ≤ r.input.length := hl rfl
      exact processF_fuel cfg mode r.input.length (r'.input.length + 1) r' (by omega) (by omega)
  · rfl
  · rfl

/-- **C40**, termination: no program of the model can go on making calls forever. -/
theorem C40_terminates (cfg : Cfg) (op : Bytes) (r : Rdr) :
    ¬ ∃ ev : Nat → Event, ∀ n, (mainProg cfg op r).Did ((List.range n).map ev) := by
  suffices H : ∀ (p : Prog Exit), ¬ ∃ ev : Nat → Event, ∀ n, p.Did ((List.range n).map ev) from H _
  intro p
  induction p with
  | ret a =>
    rintro ⟨ev, h⟩
    have := h 1
    cases this
  | call o k ih =>
    rintro ⟨ev, h⟩
    have h1 := h 1
    simp only [List.range_one, List.map_cons, List.map_nil] at h1
    generalize he : ev 0 = e at h1
    cases h1
    rename_i x _
    refine ih x ⟨fun n => ev (n + 1), fun n => ?_⟩
    have h2 := h (n + 1)
    rw [List.range_succ_eq_map, List.map_cons, List.map_map, he] at h2
    cases h2 with
    | call h2 => exact h2

/-- **C40**, end of input: if the input ends before or inside the command packet, the session ends
normally, without any further call. -/
theorem C40_eof (cfg : Cfg) (mode : Mode) (r r' : Rdr) (e : Err)
    (h : r.readPacket = (.err e, r')) (he : e.ioKind = .unexpectedEof) :
    processCommands cfg mode r = .ret (.ok (), r') := by
  rw [C40_loop]
  have : turn cfg mode r = .ret (.ok .done, r') := by
    show Prog.bind (Prog.bind (.ret (r.readPacket)) _) _ = _
    rw [h]
    simp only [Prog.bind, he, if_true]
    rfl
  rw [this]; rfl

/-- **C40**, bad command header: the session ends with that error, without any further call. -/
theorem C40_bad_header (cfg : Cfg) (mode : Mode) (r r' : Rdr) (e : Err)
    (h : r.readPacket = (.err e, r')) (he : e.ioKind ≠ .unexpectedEof) :
    processCommands cfg mode r = .ret (.err e, r') := by
  rw [C40_loop]
  have : turn cfg mode r = .ret (.err e, r') := by
    show Prog.bind (Prog.bind (.ret (r.readPacket)) _) _ = _
    rw [h]
    simp only [Prog.bind, he, if_false]
    rfl
  rw [this]; rfl

/-- A turn on a non-empty command packet. -/
theorem turn_data (cfg : Cfg) (mode : Mode) (r r' : Rdr) (d : Bytes) (hd : d ≠ [])
    (h : r.readPacket = (.ok (.data d), r')) :
    turn cfg mode r =
      (if (commandWords d).head?.getD [] = b!"quit" ∧ (commandWords d).tail.head? = none then (do
        sendStatus Status.success
        pure .done : M Turn)
      else do
        match (← M.attempt (dispatch cfg mode ((commandWords d).head?.getD [])
            (commandWords d).tail.head?)) with
        | .ok st => sendStatus st
        | .error e => sendStatus (errorStatus e)
        pure .again) r' := by
  show Prog.bind (Prog.bind (.ret (r.readPacket)) _) _ = _
  rw [h]
  simp only [Prog.bind, Packet.data?, hd, if_false]
  rfl

/-- **C40**, quit: replies with status 200 and ends normally (or with the error of that reply). -/
theorem C40_quit (cfg : Cfg) (mode : Mode) (r r' : Rdr) (d : Bytes)
    (hd : d = b!"quit\n" ∨ d = b!"quit") (h : r.readPacket = (.ok (.data d), r')) :
    processCommands cfg mode r = sendStatus Status.success r' := by
  rw [C40_loop]
  have : turn cfg mode r = (sendStatus Status.success r').bind (fun x =>
      match x with
      | (.ok _, r) => .ret (.ok .done, r)
      | (.err e, r) => .ret (.err e, r)
      | (.panic, r) => .ret (.panic, r)) := by
    rw [turn_data cfg mode r r' d (by rcases hd with rfl | rfl <;> decide) h, if_pos]
    · show Prog.bind _ _ = _
      congr 1
      funext x
      rcases x with ⟨(a | e | _), r''⟩ <;> rfl
    · rcases hd with rfl | rfl <;> decide
  rw [this, Prog.bind_assoc]
  conv => rhs; rw [← Prog.bind_ret (sendStatus Status.success r')]
  congr 1
  funext x
  rcases x with ⟨(a | e | _), r''⟩ <;> rfl

example : (Rdr.new b!"00" eofErr false).readPacket = (.err (Err.ofIo eofErr), Rdr.new [] eofErr false) := by
  decide +kernel
example : (Rdr.new b!"0009quit\n0000" eofErr false).readPacket =
    (.ok (.data b!"quit\n"), Rdr.new b!"0000" eofErr false) := by decide +kernel

/-! ### C41 -/

/-- **C41.** Commands of the other mode are refused without any OS call and without reading
further input. -/
theorem C41_refused (cfg : Cfg) (a : Bytes) (r : Rdr) :
    dispatch cfg .download b!"put-object" (some a) r = .ret (.ok (Status.failure 403 b!"not allowed\n"), r) ∧
    dispatch cfg .download b!"verify-object" (some a) r = .ret (.ok (Status.failure 403 b!"not allowed\n"), r) ∧
    dispatch cfg .download b!"lock" none r = .ret (.ok (Status.failure 400 b!"unknown command\n"), r) ∧
    dispatch cfg .download b!"unlock" (some a) r = .ret (.ok (Status.failure 400 b!"unknown command\n"), r) ∧
    dispatch cfg .upload b!"get-object" (some a) r = .ret (.ok (Status.failure 403 b!"not allowed\n"), r) :=
  ⟨rfl, rfl, rfl, rfl, rfl⟩

/-- Sending the refusal touches no file either: the whole turn only writes output. -/
theorem C41_only_output (st : Status) (h : st.reader = none) :
    (sendStatus st).All (fun o => o.outputs = true) := by
  have ob : ∀ b, (outBytes b).All (fun o => o.outputs = true) := fun b => by
    unfold outBytes; exact .bind (.op rfl) fun _ => .ofIo _
  have wc : ∀ cs, (writeChunks cs).All (fun o => o.outputs = true) := by
    intro cs
    induction cs with
    | nil => exact .pure _
    | cons c cs ih => exact .bind (.bind (ob _) fun _ => ob _) fun _ => ih
  have sa : ∀ ms, (sendAll ms).All (fun o => o.outputs = true) := by
    intro ms
    induction ms with
    | nil => exact .pure _
    | cons c cs ih => exact .bind (wc _) fun _ => ih
  have sf : sendFlush.All (fun o => o.outputs = true) := by
    unfold sendFlush
    exact .bind (ob _) fun _ => .bind (.op rfl) fun _ => .ofIo _
  obtain ⟨code, args, ms, rd⟩ := st
  simp only at h
  subst h
  unfold sendStatus sendDelim
  refine .bind (wc _) (fun _ => ?_)
  cases args <;> cases ms <;> simp only [] <;>
    repeat first
    | exact sf
    | exact ob _
    | exact sa _
    | exact .pure _
    | refine M.All.bind ?_ (fun _ => ?_)

/-! ### C43 -/

/-- **C43.** Exit code and error line, for every way the session can end. -/
theorem C43_exit_codes (cfg : Cfg) (op : Bytes) (r : Rdr) (tr : List Event) (x : Exit)
    (h : (mainProg cfg op r).Finished tr x) :
    ∃ res r', (runProgram cfg op r).Finished tr (res, r') ∧
      (res = .ok () ∧ x = ⟨0, []⟩ ∨
       (∃ e, res = .err e ∧ x.stderr = e.display ++ b!"\n" ∧
          x.code = if e.kind = .noSuchRevision ∨ e.kind = .conflict then 1 else 2) ∨
       res = .panic ∧ x = ⟨101, []⟩) := by
  unfold mainProg at h
  obtain ⟨t1, t2, ⟨res, r'⟩, rfl, h1, h2⟩ := Prog.finished_bind.mp h
  rcases res with a | e | _
  · cases h2
    exact ⟨_, r', by simpa using h1, .inl ⟨rfl, rfl⟩⟩
  · cases h2
    refine ⟨_, r', by simpa using h1, .inr (.inl ⟨e, rfl, rfl, ?_⟩)⟩
    obtain ⟨k, i, m⟩ := e
    cases k <;> rfl
  · cases h2
    exact ⟨_, r', by simpa using h1, .inr (.inr ⟨rfl, rfl⟩)⟩

/-- **C43**, unknown operation: after the skeleton and the advertisement, exit code 2 without
reading any input. -/
theorem C43_unknown_operation (cfg : Cfg) (op : Bytes) (r : Rdr) (h1 : op ≠ b!"upload")
    (h2 : op ≠ b!"download") :
    mainProg cfg op r = ((createDirectories cfg >>= fun _ => sendCapabilities) r).bind (fun x =>
      match x.1 with
      | .ok _ => .ret ⟨2, b!"unknown command or operation\n"⟩
      | .err e => .ret ⟨e.exitStatus.code, e.display ++ b!"\n"⟩
      | .panic => .ret ⟨101, []⟩) := by
  have e : runProgram cfg op = (createDirectories cfg >>= fun _ => sendCapabilities >>= fun _ =>
      M.throw (Err.simple .unknownCommand)) := by
    unfold runProgram
    simp only [h1, h2, if_false]
  unfold mainProg
  rw [e]
  show Prog.bind (Prog.bind _ _) _ = Prog.bind (Prog.bind _ _) _
  rw [Prog.bind_assoc, Prog.bind_assoc]
  congr 1
  funext x
  rcases x with ⟨(a | e | _), r'⟩
  · show Prog.bind (Prog.bind _ _) _ = Prog.bind _ _
    rw [Prog.bind_assoc]
    congr 1
    funext y
    rcases y with ⟨(a | e | _), r''⟩ <;> rfl
  · rfl
  · rfl

end Verif
