import Verif.Lemmas.Hist
import Verif.Lemmas.Exec
import Verif.Props.Sync
/-! Properties C27 and C55: when the server crashes. -/
namespace Verif
open Spec

variable {cfg : Cfg} {mode : Mode} {r r' : Rdr}

/-! ### C55 -/

/-- **C55**: in a build without overflow checks, whatever the client sends and whatever the OS answers,
the server crashes only if a lock vanished while it was being asked for, or if it has learnt a time that
has no RFC 3339 form. -/
theorem C55_crashes {op : Bytes} {tr : List Event} {x : Exit} (hc : r.checked = false)
    (h : (mainProg cfg op r).Finished tr x) (hx : x.code = 101) :
    Vanished cfg.root tr ∨ ∃ t, cfg.fmtTime t = none ∧ Learnt cfg.timestamp tr t := by
  have := hist_finished (sure_mainProg op r hc) h hx
  rwa [List.nil_append] at this

/-- **C55**: every other outcome has one of the documented exit codes, by `C43_exit_codes`; in particular a
server whose times can all be formatted and which never finds a lock gone ends properly. -/
theorem C55_no_crash {op : Bytes} {tr : List Event} {x : Exit} (hc : r.checked = false)
    (h : (mainProg cfg op r).Finished tr x) (ht : ∀ t, Learnt cfg.timestamp tr t → (cfg.fmtTime t).isSome)
    (hv : ¬Vanished cfg.root tr) : x.code ≠ 101 := by
  intro hx
  rcases C55_crashes hc h hx with h | ⟨t, h1, h2⟩
  · exact hv h
  · have := ht t h2
    rw [h1] at this
    cases this

/-! ### C27 -/

theorem post_lock_reader (cfg : Cfg) : (lockCmd cfg).Post (fun st => st.reader = none) := by
  unfold lockCmd lockLoop
  refine .bind fun _ => .bind fun _ => ?_
  split
  · refine .bind fun y => ?_
    split
    · exact .bind fun _ => .pure rfl
    · refine .ite (.bind fun x => ?_) (.throw _)
      cases x with
      | none => exact .panic
      | some l => exact .bind fun _ => .pure rfl
  · exact .throw _

theorem errorStatus_reader (e : Err) : (errorStatus e).reader = none := by
  unfold errorStatus
  repeat' split
  all_goals rfl

/-- A turn that serves `lock` does not end the session with an error. -/
theorem turn_lock_noerr {l : Bytes} {r1 : Rdr} (hrd : r.readPacket = (.ok (.data l), r1))
    (hne : l ≠ []) (hw : commandWords l = [b!"lock"]) (s : Bytes) :
    (turn cfg .upload).wp (Logic.out false) r s (fun x _ _ => ∀ e, x ≠ .err e) := by
  unfold M.wp
  rw [turn_data cfg .upload r r1 l hne hrd]
  simp only [hw, List.head?_cons, Option.getD_some, List.tail_cons, List.head?_nil]
  rw [if_neg (by decide)]
  suffices hh : ∀ f : Except Err Status → M Turn, (∀ y, f y = (sendStatus (match y with
      | .ok st => st
      | .error e => errorStatus e) >>= fun _ => pure Turn.again)) →
      (M.attempt (lockCmd cfg) >>= f).wp (Logic.out false) r1 s (fun x _ _ => ∀ e, x ≠ .err e) by
    exact hh _ (fun y => by cases y <;> rfl)
  intro f hf
  have key : ∀ (st : Status) (r2 : Rdr) (s2 : Bytes), st.reader = none →
      (sendStatus st >>= fun _ => pure Turn.again).wp (Logic.out false) r2 s2 (fun x _ _ => ∀ e, x ≠ .err e) := by
    intro st r2 s2 h
    rw [M.wp_bind]
    refine M.wp_mono (emits_sendStatus st (.inr h) false r2 s2) ?_
    rintro x _ _ ⟨rfl, _, _⟩
    exact fun e h => by cases h
  rw [M.wp_bind, M.wp_attempt]
  refine M.wp_mono (post_lock_reader cfg Bytes (Logic.out false) r1 s fun _ _ => trivial) ?_
  rintro (st | e | _) r2 s2 h
  · rw [Res.elim_ok, Res.elim_ok, hf]
    exact key _ _ _ (h st rfl)
  · rw [Res.elim_err, Res.elim_ok, hf]
    exact key _ _ _ (errorStatus_reader e)
  · exact fun e h => by cases h

/-- **C27**, what is true: whatever the arguments of a `lock` request and whatever the OS answers, the server
gives exactly one reply and is ready for the next request, unless the lock vanished between two calls
or a time has no RFC 3339 form; only then it crashes.

Full property: it never crashes. That is false (`C27_refuted`, `C27_race_refuted`). -/
theorem C27_lock_partial {l : Bytes} {items : List Bytes} {u rest : Bytes} {tr : List Event} {x : Res Turn}
    (hl : CommandLine l [b!"lock"]) (hF : Frames (.data l :: items.map .data ++ [.flush]) u)
    (hi : r.input = u ++ rest) (hc : r.checked = false) (h : (turn cfg .upload r).Finished tr (x, r'))
    (ho : ∀ e ∈ tr, e.OutOk) :
    (x = .ok .again ∧ r' = { r with input := rest } ∧ IsReply (output tr)) ∨
    (x = .panic ∧ (Vanished cfg.root tr ∨ ∃ t, cfg.fmtTime t = none ∧ Learnt cfg.timestamp tr t)) := by
  rcases x with (t | e | _)
  · obtain ⟨rfl, h1, h2⟩ := C38_resync_partial (.args hl .lock) hF hi h ho
    exact .inl ⟨rfl, h1, h2⟩
  · exfalso
    obtain ⟨v, u', rfl, hv, hu⟩ := frames_split (ps := [Packet.data l]) (by simpa using hF)
    have hrd := readPacket_frame (frames_singleton hv) r (u' ++ rest) (by rw [hi, List.append_assoc])
    obtain ⟨hw, hne⟩ := commandLine_words hl
    exact Prog.wp_finished (turn_lock_noerr hrd hne hw []) h
      (Logic.legalTr_of_forall fun e he _ => ⟨ho e he, by simp⟩) e rfl
  · have := (hist_finished (sure_turn .upload [] r hc) h).2.2.1 rfl
    rw [List.nil_append] at this
    exact .inr ⟨rfl, this⟩

namespace Tests

def Prog.result? {α : Type} : Prog α → Option α
  | .ret a => some a
  | .call _ _ => none

theorem Prog.result?_eq {α : Type} {p : Prog α} {a : α} (h : Prog.result? p = some a) : p = .ret a := by
  cases p with
  | ret b => cases h; rfl
  | call o k => cases h

def lockReq : Bytes := enc (lockOf b!"f")

/-- Everyone locks `f`. -/
def allLock : Sys := ⟨fs0, fun _ => server Tests.cfg b!"upload" lockReq⟩

theorem allLock_start : Start Tests.cfg.root Tests.cfg.sha allLock :=
  ⟨fun _ => ⟨_, _, _, rfl, rfl, rfl⟩, fun p i h => (by cases h), fun p i _ h => (by cases h)⟩

/-- Process 0 locks and unlocks `f`, process 1 locks it. -/
def lockThenUnlock : Sys :=
  ⟨fs0, fun i => server Tests.cfg b!"upload" (if i = 0 then lockReq ++ enc unlockF else lockReq)⟩

theorem lockThenUnlock_start : Start Tests.cfg.root Tests.cfg.sha lockThenUnlock :=
  ⟨fun _ => ⟨_, _, _, rfl, rfl, rfl⟩, fun p i h => (by cases h), fun p i _ h => (by cases h)⟩

/-- Process 0 is killed after having created its temporary file; then process 1 runs. -/
def killed : Sys :=
  let s := (allLock.exec (List.replicate 9 (0, Choice.none))).1
  ⟨s.fs, s.setProc 0 (.ret ⟨137, []⟩)⟩

/-- Process 1 runs up to the failing link; process 0 unlocks; process 1 goes on. -/
def raceSchedule : List (Nat × Choice) :=
  List.replicate 25 (0, Choice.none) ++ List.replicate 11 (1, Choice.none) ++
  List.replicate 30 (0, Choice.none) ++ List.replicate 10 (1, Choice.none)

end Tests

open Tests in
/-- **C27** is false: after another server was killed while taking the lock, a well-formed `lock` request
during which no call fails crashes the server. -/
theorem C27_refuted : ∃ (cfg : Cfg) (u path : Bytes) (ps : List Packet) (s0 s1 : Sys) (tr1 : List (Nat × Event))
    (sched : List (Nat × Choice)), Encodes (.lock path) ps ∧ Frames ps u ∧ Start cfg.root cfg.sha s0 ∧
      (∀ t, cfg.timestamp = some t → TimeOk cfg t) ∧ Steps cfg.root s0 tr1 s1 ∧
      -- nothing has happened yet in process 1, whose input is just this request
      s0.procs 1 = server cfg b!"upload" u ∧ s1.procs 1 = s0.procs 1 ∧
      -- from then on only process 1 runs, and no call is made to fail
      (∀ e ∈ sched, e = (1, Choice.none)) ∧ (s1.exec sched).1.procs 1 = .ret ⟨101, []⟩ := by
  refine ⟨Tests.cfg, lockReq, b!"f", lockOf b!"f", allLock, killed, _, List.replicate 20 (1, Choice.none),
    lockOf_encodes _, frames_enc _ (by decide), allLock_start, ?_,
    (Sys.exec_steps _ (List.replicate 9 (0, Choice.none)) allLock).tail (.kill 0), rfl, ?_, ?_, ?_⟩
  · intro t h
    exact clock_ok calm t (.inl h)
  · rfl
  · intro e he
    exact (List.mem_replicate.mp he).2
  · exact Prog.result?_eq (by decide +kernel)

open Tests in
/-- **C27** is false even if no server is ever killed and no call is made to fail: it is enough that the lock
is removed while another client asks for it. -/
theorem C27_race_refuted : ∃ (cfg : Cfg) (u path : Bytes) (ps : List Packet) (s0 : Sys)
    (sched : List (Nat × Choice)), Encodes (.lock path) ps ∧ Frames ps u ∧ Start cfg.root cfg.sha s0 ∧
      (∀ t, cfg.timestamp = some t → TimeOk cfg t) ∧ s0.procs 1 = server cfg b!"upload" u ∧
      (∀ e ∈ sched, e.2 = Choice.none) ∧ (s0.exec sched).1.procs 0 = .ret ⟨0, []⟩ ∧
      (s0.exec sched).1.procs 1 = .ret ⟨101, []⟩ := by
  refine ⟨Tests.cfg, lockReq, b!"f", lockOf b!"f", lockThenUnlock, raceSchedule,
    lockOf_encodes _, frames_enc _ (by decide), lockThenUnlock_start, ?_, rfl, ?_, ?_⟩
  · intro t h
    exact clock_ok calm t (.inl h)
  · intro e he
    simp only [raceSchedule, List.mem_append] at he
    rcases he with ((he | he) | he) | he <;> rw [(List.mem_replicate.mp he).2]
  · exact ⟨Prog.result?_eq (by decide +kernel), Prog.result?_eq (by decide +kernel)⟩

namespace Tests

/-- A lock file whose time has no RFC 3339 form. -/
def fsOld : FS :=
  ⟨[(lockFile Tests.cfg.root idF, 0)], fsA.dirs, fun _ => ⟨b!"v1:-1:f", 1000, 0o700, lockFile Tests.cfg.root idF⟩, 1⟩

def foundB : Event → Bool
  | ⟨.createNew _ _, x⟩ => match x with | .ok _ => false | .error _ => true
  | ⟨.link _ _, x⟩ => match x with | .ok _ => false | .error _ => true
  | _ => false

theorem not_vanished {root : Path} {tr : List Event} (h : tr.all (fun e => !foundB e) = true) : ¬Vanished root tr := by
  rintro ⟨id, a, x, b, y, c, rfl, hx, _⟩
  have := List.all_eq_true.mp h x (by simp)
  cases hx <;> simp [foundB] at this

def oldRdr : Rdr := Rdr.new (enc unlockF) eofErr false

end Tests

open Tests in
/-- Each of the two reasons in `C55_crashes` occurs: here a time that cannot be formatted; the crash of process 1 in
`C27_refuted` has the other one. -/
example : (∃ tr, (mainProg Tests.cfg b!"upload" oldRdr).Finished tr ⟨101, []⟩ ∧ ¬Vanished Tests.cfg.root tr) := by
  refine ⟨(mainProg Tests.cfg b!"upload" oldRdr).events calm ⟨fsOld, [], 0⟩, ?_, ?_⟩
  · have h : ((mainProg Tests.cfg b!"upload" oldRdr).run calm ⟨fsOld, [], 0⟩).1 = ⟨101, []⟩ := by decide +kernel
    rw [← h]
    exact Prog.run_finished _ _ _
  · exact not_vanished (by decide +kernel)

open Tests in
/-- A conflicting `lock` request, to which `C27_lock_partial` applies: the lock is there, and is not gone. -/
example : (turn Tests.cfg .upload (seeing (lockOf b!"f") [])).Finished (eventsOf calm (seeing (lockOf b!"f") []))
      (.ok .again, seeing [] []) ∧
    (eventsOf calm (seeing (lockOf b!"f") [])).any foundB = true := by
  refine ⟨?_, by decide +kernel⟩
  have h : (turnRun calm (seeing (lockOf b!"f") [])).1 = (.ok .again, seeing [] []) := by decide +kernel
  rw [← h]
  exact Prog.run_finished _ _ _

end Verif
