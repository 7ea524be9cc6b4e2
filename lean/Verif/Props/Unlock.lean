import Verif.Spec.Unlock
import Verif.Lemmas.Hist
import Verif.Props.Reads
/-!
C29: what `unlock` removes.

The property is false for the code: the ID is used as a name relative to the directory of locks, and what is
removed is the lock of the path recorded in that file. `C29_refuted` removes a lock by a name that is not its ID. What
remains true is stated by the `_partial` theorems.
-/
namespace Verif
open Spec

variable {cfg : Cfg} {r r' : Rdr} {id : Bytes}

/-- The ghost state is the history; whatever changes the file system must be allowed by `Removes`. -/
def Logic.unl (cfg : Cfg) (id : Bytes) : Logic (List Event) where
  pre s o := o.mutates = true → Removes cfg.root cfg.sha id s o
  upd s o x := s ++ [⟨o, x⟩]
  legal _ _ _ := True

theorem unl_fold : ∀ (tr s : List Event), (Logic.unl cfg id).fold s tr = s ++ tr
  | [], s => by simp [Logic.fold]
  | e :: tr, s => by
    simp only [Logic.fold]
    rw [unl_fold tr]
    simp [Logic.unl]

/-- Removal of a lock. -/
def Removal (cfg : Cfg) (e : Event) : Prop :=
  ∃ path, e = ⟨.unlink (lockFile cfg.root (lockName cfg.sha path)), .ok ()⟩

theorem unl_all {α : Type} {P : Op → Prop} (hP : ∀ o, P o → o.mutates = false) {m : M α} (h : m.All P) (r : Rdr) (s : List Event) :
    m.wp (Logic.unl cfg id) r s (fun _ _ s' => ∃ t, s' = s ++ t ∧ ∀ e ∈ t, P e.1) := by
  have key : ∀ (p : Prog (Res α × Rdr)) (s : List Event), p.All P →
      p.wp (Logic.unl cfg id) s (fun _ s' => ∃ t, s' = s ++ t ∧ ∀ e ∈ t, P e.1) := by
    intro p
    induction p with
    | ret a => intro s _; exact ⟨[], by simp, by simp⟩
    | call o k ih =>
      intro s h
      refine ⟨fun hm => (by rw [hP o h.1] at hm; cases hm), fun x _ => Prog.wp_mono (ih x _ (h.2 x)) ?_⟩
      rintro a s' ⟨t, rfl, ht⟩
      exact ⟨⟨o, x⟩ :: t, by simp [Logic.unl], by simpa using ⟨h.1, ht⟩⟩
  exact key _ _ (h r)

/-- Nothing has been changed so far. -/
def Untouched (s : List Event) : Prop := ∀ e ∈ s, e.1.mutates = false

theorem untouched_append {s t : List Event} (h : Untouched s) (h' : Untouched t) : Untouched (s ++ t) := by
  intro e he
  rcases List.mem_append.mp he with he | he
  · exact h e he
  · exact h' e he

theorem untouched_removal {s : List Event} (h : Untouched s) : ¬∃ e ∈ s, Removal cfg e := by
  rintro ⟨e, he, path, rfl⟩
  exact Bool.noConfusion (h _ he)

theorem parseLock_form {d p : Bytes} {t : Int} (h : parseLock d = some (t, p)) :
    ∃ u, d = b!"v1:" ++ u ++ b!":" ++ p ∧ (58 : UInt8) ∉ u := by
  obtain ⟨ts, h1, h2, _⟩ := C31_record_roundtrip.2 d t p h
  exact ⟨ts, h1, h2⟩

/-- What `lockFromId` finds. -/
theorem unl_lockFromId (r : Rdr) (s : List Event) (hs : Untouched s) :
    (lockFromId cfg id).wp (Logic.unl cfg id) r s (fun x _ s' => Untouched s' ∧
      ∀ l, x = .ok (some l) → Told cfg.root s' id l.path) := by
  unfold lockFromId
  rw [M.wp_bind, M.wp_op]
  refine ⟨fun h => (by cases h), fun x _ => ?_⟩
  have h1 : Untouched (s ++ [⟨.openRead (.join (locksDir cfg.root) id), x⟩]) :=
    untouched_append hs (by simp [Untouched, Op.mutates])
  rw [Res.elim_ok]
  cases x with
  | error e =>
    simp only []
    split
    · exact ⟨h1, fun l h => by cases h⟩
    · exact ⟨h1, fun l h => by cases h⟩
  | ok k =>
    simp only []
    rw [M.wp_bind, M.wp_op]
    refine ⟨fun h => (by cases h), fun y _ => ?_⟩
    obtain ⟨cs, e⟩ := y
    have h2 := untouched_append h1 (t := [⟨.readAll k, (cs, e)⟩]) (by simp [Untouched, Op.mutates])
    rw [Res.elim_ok]
    cases e with
    | some e => exact ⟨h2, fun l h => by cases h⟩
    | none =>
      simp only []
      rw [M.wp_bind]
      refine M.wp_mono (unl_all (fun o ho => Looks.not_mutates ho) (looks_userForFile cfg _) r _) ?_
      rintro (u | e | _) r2 s2 ⟨t, rfl, ht⟩
      · have h3 := untouched_append h2 fun e he => Looks.not_mutates (ht e he)
        rw [Res.elim_ok]
        split
        · exact ⟨h3, fun l h => by cases h⟩
        · rename_i t p hp
          refine ⟨h3, fun l h => ?_⟩
          cases h
          obtain ⟨u, hu, hc⟩ := parseLock_form hp
          exact ⟨k, cs, u, by simp [locksDir, Logic.unl], by simp [Logic.unl], hu, hc⟩
      · exact ⟨untouched_append h2 fun e he => Looks.not_mutates (ht e he), fun l h => by cases h⟩
      · exact ⟨untouched_append h2 fun e he => Looks.not_mutates (ht e he), fun l h => by cases h⟩

theorem unl_unlockCmd (r : Rdr) (s : List Event) (hs : Untouched s) :
    (unlockCmd cfg id).wp (Logic.unl cfg id) r s (fun x _ s' =>
      (∀ st, x = .ok st → (st.code = 200 ↔ ∃ e ∈ s', Removal cfg e)) ∧
      (∀ e, x = .err e → ¬∃ e ∈ s', Removal cfg e)) := by
  unfold unlockCmd readToFlush
  rw [M.wp_bind, M.wp_rdr]
  have hno := untouched_removal (cfg := cfg) hs
  rcases hrd : readToType .flush r with ⟨(a | e | _), r1⟩
  on_goal 2 => exact ⟨fun st h => (by cases h), fun _ _ => hno⟩
  on_goal 2 => exact ⟨fun st h => (by cases h), fun _ _ => hno⟩
  rw [Res.elim_ok]
  split
  · exact ⟨fun st h => (by cases h), fun _ _ => hno⟩
  rw [M.wp_bind]
  refine M.wp_mono (unl_lockFromId r1 s hs) ?_
  rintro (l | e | _) r2 s2 ⟨h2, hl⟩
  on_goal 2 => exact ⟨fun st h => (by cases h), fun _ _ => untouched_removal h2⟩
  on_goal 2 => exact ⟨fun st h => (by cases h), fun _ _ => untouched_removal h2⟩
  rw [Res.elim_ok]
  cases l with
  | none =>
    refine ⟨fun st h => ?_, fun _ h => by cases h⟩
    cases h
    exact ⟨fun h => (by cases h), fun h => absurd h (untouched_removal h2)⟩
  | some l =>
    simp only []
    rw [M.wp_bind]
    refine M.wp_mono (unl_all (fun o ho => Looks.not_mutates ho) (looks_lockArgs cfg l) r2 s2) ?_
    rintro (as | e | _) r3 s3 ⟨t, rfl, ht⟩
    all_goals have h3 := untouched_append h2 fun e he => Looks.not_mutates (ht e he)
    on_goal 2 => exact ⟨fun st h => (by cases h), fun _ _ => untouched_removal h3⟩
    on_goal 2 => exact ⟨fun st h => (by cases h), fun _ _ => untouched_removal h3⟩
    rw [Res.elim_ok, M.wp_bind, M.wp_attempt]
    unfold lockUnlock
    rw [M.wp_bind, M.wp_op, lockPath_eq]
    refine ⟨fun _ => ⟨l.path, rfl, (hl l rfl).mono fun e he => by simp [he], h3⟩, fun y _ => ?_⟩
    rw [Res.elim_ok, M.wp_ofIo]
    cases y with
    | ok =>
      simp only [Res.elim_ok]
      refine ⟨fun st h => ?_, fun _ h => by cases h⟩
      cases h
      exact ⟨fun _ => ⟨_, by simp [Logic.unl], l.path, rfl⟩, fun _ => rfl⟩
    | error e =>
      have hn : ¬∃ ev ∈ ((s2 ++ t) ++ [(⟨.unlink (lockFile cfg.root (lockName cfg.sha l.path)), .error e⟩ : Event)]),
          Removal cfg ev := by
        rintro ⟨ev, hev, path, rfl⟩
        rcases List.mem_append.mp hev with hev | hev
        · exact untouched_removal h3 ⟨_, hev, path, rfl⟩
        · have := List.mem_singleton.mp hev
          simp at this
      simp only [Res.elim_err, Res.elim_ok]
      repeat' split
      · refine ⟨fun st h => ?_, fun _ h => by cases h⟩
        cases h
        exact ⟨fun h => (by cases h), fun h => absurd h hn⟩
      · refine ⟨fun st h => ?_, fun _ h => by cases h⟩
        cases h
        exact ⟨fun h => (by cases h), fun h => absurd h hn⟩
      · exact ⟨fun st h => (by cases h), fun _ _ => hn⟩

theorem unl_trace : ∀ (tr s : List Event), (Logic.unl cfg id).PreTr s tr →
    ∀ p e f, tr = p ++ e :: f → e.1.mutates = true → Removes cfg.root cfg.sha id (s ++ p) e.1
  | [], _, _, p, e, f, he => by simp at he
  | e0 :: tr, s, hpre, p, e, f, he => by
    cases p with
    | nil =>
      cases he
      rw [List.append_nil]
      exact hpre.1
    | cons e1 p =>
      rw [List.cons_append] at he
      obtain ⟨rfl, he'⟩ := List.cons.inj he
      have := unl_trace tr _ hpre.2 p e f he'
      simpa [Logic.unl] using this

section
variable {l : Bytes} {more : List Bytes} {r1 : Rdr}

theorem unl_turn (hl : CommandLine l (b!"unlock" :: id :: more)) (hrd : r.readPacket = (.ok (.data l), r1)) :
    (turn cfg .upload).wp (Logic.unl cfg id) r [] (fun _ _ _ => True) := by
  obtain ⟨hw, hne⟩ := commandLine_words hl
  unfold M.wp
  rw [turn_data cfg .upload r r1 l hne hrd]
  simp only [hw, List.head?_cons, Option.getD_some, List.tail_cons]
  rw [if_neg (by simp)]
  suffices hh : ∀ f : Except Err Status → M Turn, (∀ y, f y = (sendStatus (match y with
      | .ok st => st
      | .error e => errorStatus e) >>= fun _ => pure Turn.again)) →
      (M.attempt (unlockCmd cfg id) >>= f).wp (Logic.unl cfg id) r1 [] (fun _ _ _ => True) by
    exact hh _ (fun y => by cases y <;> rfl)
  intro f hf
  have key : ∀ (y : Except Err Status) (r2 : Rdr) (s2 : List Event), (f y).wp (Logic.unl cfg id) r2 s2 (fun _ _ _ => True) := by
    intro y r2 s2
    rw [hf]
    exact M.wp_mono (unl_all (fun o ho => ho) (.bind (replies_sendStatus _) fun _ => .pure _) r2 s2)
      fun _ _ _ _ => trivial
  rw [M.wp_bind, M.wp_attempt]
  refine M.wp_mono (unl_unlockCmd r1 [] (by simp [Untouched])) ?_
  rintro (st | e | _) r2 s2 _
  · exact key _ _ _
  · exact key _ _ _
  · trivial

/-- **C29**, what remains true, part 1: whatever the argument of an `unlock` command, whatever the OS answers, and wherever
the server is stopped while serving it: if it changes anything at all, then it does so by one single call, which
removes the lock of a path it has just read from the file named by the argument.

Full property: the lock removed has the ID that was given. That is false (`C29_refuted`). -/
theorem C29_removes_partial (hl : CommandLine l (b!"unlock" :: id :: more)) (hrd : r.readPacket = (.ok (.data l), r1))
    {tr : List Event} (h : (turn cfg .upload r).Did tr) {past future : List Event} {e : Event}
    (he : tr = past ++ e :: future) (hm : e.1.mutates = true) : Removes cfg.root cfg.sha id past e.1 :=
  unl_trace tr [] (Prog.wp_did (unl_turn hl hrd) h (Logic.legalTr_of_forall fun _ _ _ => trivial)) past e future he hm

/-- **C29**, what remains true, part 2: the reply to an `unlock` command is 200 if a lock was removed, and another one
if nothing was. -/
theorem C29_reply_partial (hl : CommandLine l (b!"unlock" :: id :: more)) (hrd : r.readPacket = (.ok (.data l), r1))
    {tr : List Event} (h : (turn cfg .upload r).Finished tr (.ok .again, r')) (ho : ∀ e ∈ tr, e.OutOk) :
    ∃ rep : Reply, rep.Ok ∧ Frames rep.packets (output tr) ∧
      (rep.code = 200 ↔ ∃ path, (⟨.unlink (lockFile cfg.root (lockName cfg.sha path)), .ok ()⟩ : Event) ∈ tr) := by
  obtain ⟨hw, hne⟩ := commandLine_words hl
  rw [turn_data cfg .upload r r1 l hne hrd] at h
  simp only [hw, List.head?_cons, Option.getD_some, List.tail_cons] at h
  rw [if_neg (by simp)] at h
  obtain ⟨u1, t2, ⟨res', r2'⟩, rfl, h1, h2⟩ := Prog.finished_bind.mp h
  obtain ⟨t1, u2, ⟨res, r2⟩, rfl, h3, h4⟩ := Prog.finished_bind.mp h1
  have h3' : (unlockCmd cfg id r1).Finished t1 (res, r2) := h3
  have hpost := Prog.wp_finished (unl_unlockCmd (cfg := cfg) (id := id) r1 [] (by simp [Untouched])) h3'
    (Logic.legalTr_of_forall fun _ _ _ => trivial)
  rw [unl_fold, List.nil_append] at hpost
  have hout := Prog.wp_finished (wp_dispatch_out false cfg .upload b!"unlock" (some id) r1 []) h3
    (Logic.legalTr_of_forall fun e he s => ⟨ho e (by simp [he]), fun h => by cases h⟩)
  rw [Logic.out_fold, List.nil_append] at hout
  -- sending a status
  have send : ∀ st : Status, CodeOk st → st.reader = none →
      ((sendStatus st >>= fun _ => (pure Turn.again : M Turn)) r2).Finished t2 (.ok .again, r') →
      ∃ rep : Reply, rep.Ok ∧ Frames rep.packets (output t2) ∧ rep.code = st.code ∧ Untouched t2 := by
    intro st hc hr hfin
    have h5 := Prog.wp_finished (unl_all (cfg := cfg) (id := id) (fun o ho => ho)
      (.bind (replies_sendStatus st) fun _ => .pure _) r2 []) hfin (Logic.legalTr_of_forall fun _ _ _ => trivial)
    rw [unl_fold, List.nil_append] at h5
    obtain ⟨t, et, ht⟩ := h5
    rw [List.nil_append] at et
    rw [← et] at ht
    have hw : (sendStatus st >>= fun _ => (pure Turn.again : M Turn)).wp (Logic.out false) r2 []
        (fun _ _ s => s = replyWith st st.messages) := by
      rw [M.wp_bind]
      refine M.wp_mono (emits_sendStatus st (.inr hr) false r2 []) ?_
      intro x r s h
      rw [h.1, Res.elim_ok]
      exact h.2.2.trans (List.nil_append _)
    have h6 := Prog.wp_finished hw hfin
      (Logic.legalTr_of_forall fun e he s => ⟨ho e (by simp [he]), fun h => by cases h⟩)
    rw [Logic.out_fold, List.nil_append] at h6
    obtain ⟨rep, k1, k2, k3, k4, k5⟩ := reply_replyWith st st.messages hc
    exact ⟨rep, k1, by rw [h6]; exact k5, k2, ht⟩
  have mem : Untouched t2 → ((∃ e ∈ t1, Removal cfg e) ↔
      ∃ path, (⟨.unlink (lockFile cfg.root (lockName cfg.sha path)), .ok ()⟩ : Event) ∈ t1 ++ t2) := by
    intro hu
    constructor
    · rintro ⟨e, he, path, rfl⟩
      exact ⟨path, by simp [he]⟩
    · rintro ⟨path, hp⟩
      rcases List.mem_append.mp hp with hp | hp
      · exact ⟨_, hp, path, rfl⟩
      · exact Bool.noConfusion (hu _ hp)
  rcases res with st | e | _
  · cases h4
    have hnr : st.reader = none := by
      have := Prog.wp_finished (nr_unlock (cfg := cfg) id _ Logic.any r1 () fun _ _ => trivial) h3'
        (Logic.legalTr_of_forall fun _ _ _ => trivial)
      exact this st rfl
    obtain ⟨rep, k1, k2, k3, k4⟩ := send st (hout.2 st rfl) hnr h2
    refine ⟨rep, k1, ?_, ?_⟩
    · rw [List.append_nil, output_append, hout.1, List.nil_append]
      exact k2
    · rw [List.append_nil, k3, ← mem k4]
      exact hpost.1 st rfl
  · cases h4
    obtain ⟨rep, k1, k2, k3, k4⟩ := send (errorStatus e) (codeOk_errorStatus e) (errorStatus_reader e) h2
    refine ⟨rep, k1, ?_, ?_⟩
    · rw [List.append_nil, output_append, hout.1, List.nil_append]
      exact k2
    · rw [List.append_nil, k3, ← mem k4]
      refine ⟨fun h => ?_, fun h => absurd h (hpost.2 e rfl)⟩
      unfold errorStatus at h
      split at h <;> cases h
  · cases h4
    cases h2

/-- A process that changes nothing except by removing files leaves the other files alone. -/
theorem run_unlinks {α : Type} {ch : Nat → Choice} (p : Prog α) (w : World)
    (h : ∀ e ∈ p.events ch w, e.1.mutates = true → ∃ z, e.1 = .unlink z) :
    (p.run ch w).2.fs.inodes = w.fs.inodes ∧ (p.run ch w).2.fs.dirs = w.fs.dirs ∧
      ∀ q, (∀ e ∈ p.events ch w, e.1 ≠ .unlink q) → (p.run ch w).2.fs.get q = w.fs.get q := by
  induction p generalizing w with
  | ret a => exact ⟨rfl, rfl, fun _ _ => rfl⟩
  | call o k ih =>
    have := ih (sem (ch w.tick) w.fs o).2 ⟨(sem (ch w.tick) w.fs o).1, w.out ++ emitted (ch w.tick) o, w.tick + 1⟩
      (fun e he => h e (by simp only [Prog.events, List.mem_cons]; exact .inr he))
    simp only [Prog.run]
    have hs : (sem (ch w.tick) w.fs o).1.inodes = w.fs.inodes ∧ (sem (ch w.tick) w.fs o).1.dirs = w.fs.dirs ∧
        ∀ q, o ≠ .unlink q → (sem (ch w.tick) w.fs o).1.get q = w.fs.get q := by
      cases hm : o.mutates with
      | false =>
        rw [sem_not_mutates _ _ _ hm]
        exact ⟨rfl, rfl, fun _ _ => rfl⟩
      | true =>
        obtain ⟨z, hz⟩ := h _ (by simp only [Prog.events, List.mem_cons]; exact .inl rfl) hm
        have hz : o = .unlink z := hz
        subst hz
        simp only [sem]
        split
        · exact ⟨rfl, rfl, fun _ _ => rfl⟩
        · split
          · refine ⟨rfl, rfl, fun q hq => ?_⟩
            rw [FS.get_delName, if_neg (fun e => hq (by rw [e]))]
          · split <;> exact ⟨rfl, rfl, fun _ _ => rfl⟩
    refine ⟨this.1.trans hs.1, this.2.1.trans hs.2.1, fun q hq => (this.2.2 q ?_).trans (hs.2.2 q ?_)⟩
    · exact fun e he => hq e (by simp only [Prog.events, List.mem_cons]; exact .inr he)
    · exact hq ⟨o, _⟩ (by simp only [Prog.events, List.mem_cons]; exact .inl rfl)

/-- **C29**, what remains true, part 3: in terms of the file system, for any state of it, any faults, and any argument of
`unlock`: nothing is changed except that the lock file of a path recorded in the file named by the argument may
disappear. If that file is the lock file of the path recorded in it, this is the lock with the ID given. -/
theorem C29_directory_partial (hl : CommandLine l (b!"unlock" :: id :: more)) (hrd : r.readPacket = (.ok (.data l), r1))
    {ch : Nat → Choice} {w w' : World} {x : Res Turn} (h : (turn cfg .upload r).run ch w = ((x, r'), w')) (q : Path) :
    w'.fs.inodes = w.fs.inodes ∧ w'.fs.dirs = w.fs.dirs ∧ (w'.fs.get q = w.fs.get q ∨
      ∃ path, q = lockFile cfg.root (lockName cfg.sha path) ∧
        Told cfg.root ((turn cfg .upload r).events ch w) id path) := by
  have hd := (Prog.run_finished ch (turn cfg .upload r) w).did
  have hr := run_unlinks (turn cfg .upload r) w (ch := ch) fun e he hm => by
    obtain ⟨past, future, hpf⟩ := List.append_of_mem he
    obtain ⟨path, h1, _⟩ := C29_removes_partial hl hrd hd hpf hm
    exact ⟨_, h1⟩
  rw [h] at hr
  refine ⟨hr.1, hr.2.1, ?_⟩
  by_cases hq : ∃ e ∈ (turn cfg .upload r).events ch w, e.1 = .unlink q
  · right
    obtain ⟨e, he, eq⟩ := hq
    obtain ⟨past, future, hpf⟩ := List.append_of_mem he
    obtain ⟨path, h1, h2, _⟩ := C29_removes_partial hl hrd hd hpf (by rw [eq]; rfl)
    rw [eq] at h1
    refine ⟨path, by injection h1, h2.mono fun e he => ?_⟩
    rw [hpf]
    exact List.mem_append_left _ he
  · left
    exact hr.2.2 q fun e he eq => hq ⟨e, he, eq⟩

end

namespace Tests

/-- `unlock` with a name that is not the ID of a lock. -/
def unlockOdd : Bytes := b!"unlock ../locks/" ++ idF

def oddRdr : Rdr := seeing [.data unlockOdd, .flush] []

end Tests

open Tests in
/-- **C29** is false for the code: an `unlock` naming something that is not the ID of the lock removes the lock. It is
answered with 200. -/
theorem C29_refuted : b!"../locks/" ++ idF ≠ idF ∧ CommandLine unlockOdd [b!"unlock", b!"../locks/" ++ idF] ∧
    held Tests.cfg.root fsL idF ≠ none ∧ held Tests.cfg.root (turnRun calm oddRdr).2.fs idF = none ∧
    b!"000fstatus 200\n" <+: (turnRun calm oddRdr).2.out := by
  refine ⟨by decide +kernel, ⟨unlockOdd, ?_, by decide +kernel, .inr ⟨rfl, by decide +kernel⟩⟩, by decide +kernel,
    by decide +kernel, by decide +kernel⟩
  exact Words.cons (x := b!"unlock") (w := b!"../locks/" ++ idF) (by decide) (.one (by decide +kernel))

open Tests in
/-- The same request meets the hypotheses of the `_partial` theorems, and a lock is removed. -/
example : oddRdr.readPacket = (.ok (.data unlockOdd), seeing [.flush] []) ∧
    (turn Tests.cfg .upload oddRdr).Finished (eventsOf calm oddRdr) (.ok .again, seeing [] []) ∧
    (eventsOf calm oddRdr).any (fun e => e.1.mutates) = true := by
  refine ⟨by decide +kernel, ?_, by decide +kernel⟩
  have h : (turnRun calm oddRdr).1 = (.ok .again, seeing [] []) := by decide +kernel
  rw [← h]
  exact Prog.run_finished _ _ _

end Verif
