import Verif.Model.Late
import Verif.Props.Loop
import Verif.Props.Crash
import Verif.Props.System
import Verif.Lemmas.Exec
/-!
Removing the temporary file of an upload after the reply about a failed rename, as the code does, or
before it, as the model does, makes no difference for the file system.
-/
namespace Verif
open Spec

/-- `q` makes the calls of `p`, except that it may remove a file before rather than after writing output. -/
inductive Lag {α : Type} : Prog α → Prog α → Prop
  | ret (a : α) : Lag (.ret a) (.ret a)
  | call (o : Op) {k k' : Resp o → Prog α} : (∀ x, Lag (k x) (k' x)) → Lag (.call o k) (.call o k')
  | late {β : Type} (m : Prog β) (p : Path) {f g : β → Resp (.unlink p) → Prog α} : m.All (fun o => o.outputs = true) →
      (∀ b x, Lag (f b x) (g b x)) →
      Lag (m.bind fun b => .call (.unlink p) (f b)) (.call (.unlink p) fun x => m.bind fun b => g b x)

theorem Lag.refl {α : Type} : ∀ p : Prog α, Lag p p
  | .ret a => .ret a
  | .call o k => .call o fun x => Lag.refl (k x)

theorem Lag.bind {α β : Type} {p q : Prog α} {f g : α → Prog β} (h : Lag p q) (hf : ∀ a, Lag (f a) (g a)) :
    Lag (p.bind f) (q.bind g) := by
  induction h with
  | ret a => exact hf a
  | call o _ ih => exact .call o fun x => ih x
  | late m p hm _ ih =>
    rw [Prog.bind_assoc]
    simp only [Prog.bind, Prog.bind_assoc]
    exact .late m p hm fun b x => ih b x

/-- The same for code that uses the reader. -/
def M.Lag {α : Type} (m m' : M α) : Prop := ∀ r, Verif.Lag (m r) (m' r)

theorem M.Lag.refl {α : Type} (m : M α) : m.Lag m := fun r => Verif.Lag.refl (m r)

theorem M.Lag.bind {α β : Type} {m m' : M α} {f f' : α → M β} (h : m.Lag m') (hf : ∀ a, (f a).Lag (f' a)) :
    (m >>= f).Lag (m' >>= f') := by
  intro r
  refine Verif.Lag.bind (h r) ?_
  rintro ⟨_ | e | _, r'⟩
  · exact hf _ r'
  · exact .ret _
  · exact .ret _

/-- The common part of both versions of an upload. -/
theorem lag_after {α β : Type} (m : M α) {f : α → M β} (K : Res β × Rdr → Prog (Res Turn × Rdr)) {γ : Type}
    {f' : α → M γ} (K' : Res γ × Rdr → Prog (Res Turn × Rdr))
    (hf : ∀ a r, Lag ((f a r).bind K) ((f' a r).bind K'))
    (he : ∀ e r, Lag (K (.err e, r)) (K' (.err e, r))) (hp : ∀ r, Lag (K (.panic, r)) (K' (.panic, r))) (r : Rdr) :
    Lag (((m >>= f) r).bind K) (((m >>= f') r).bind K') := by
  show Lag (Prog.bind (Prog.bind (m r) _) K) (Prog.bind (Prog.bind (m r) _) K')
  rw [Prog.bind_assoc, Prog.bind_assoc]
  refine Lag.bind (Lag.refl _) ?_
  rintro ⟨_ | e | _, r'⟩
  · exact hf _ r'
  · exact he e r'
  · exact hp r'

/-- What follows an attempt. -/
def onResult {α : Type} (f : Except Err α → M Turn) : Res α × Rdr → Prog (Res Turn × Rdr)
  | (.ok a, r) => f (.ok a) r
  | (.err e, r) => f (.error e) r
  | (.panic, r) => .ret (.panic, r)

theorem attempt_bind {α : Type} (m : M α) (f : Except Err α → M Turn) (r : Rdr) :
    (M.attempt m >>= f) r = (m r).bind (onResult f) := by
  show Prog.bind (Prog.bind (m r) _) _ = _
  rw [Prog.bind_assoc]
  congr 1
  funext x
  obtain ⟨_ | e | _, r'⟩ := x <;> rfl

theorem lag_finish (cfg : Cfg) (oid : Bytes) (tmp : Path) {f : Except Err Status → M Turn}
    (hf : ∀ y, f y = (sendStatus (match y with
      | .ok st => st
      | .error e => errorStatus e) >>= fun _ => pure Turn.again)) (r : Rdr) :
    Lag (((finishUploadLate cfg oid tmp >>= fun x => match x with
        | none => pure (.ok Status.success)
        | some e => pure (.error (e, tmp)) : M (Except (Err × Path) Status)) r).bind (onResult replyLate))
      (((finishUpload cfg oid tmp >>= fun _ => pure Status.success : M Status) r).bind (onResult f)) := by
  refine .call (.mkdirAll (objPath cfg.root oid).dropLast) ?_
  rintro (e | _)
  · refine .call (.unlink tmp) fun x => ?_
    show Lag (replyLate (.error (Err.ofIo e)) r) (f (.error (Err.ofIo e)) r)
    rw [hf]
    exact .refl _
  · refine .call (.rename tmp (objPath cfg.root oid)) ?_
    rintro (e | _)
    · show Lag ((M.after (sendStatus (errorStatus (persistErr e))) (dropFile tmp) >>= fun _ => pure Turn.again : M Turn) r)
        (.call (.unlink tmp) fun _ => f (.error (persistErr e)) r)
      rw [hf]
      let cont : Res Unit × Rdr → Prog (Res Turn × Rdr) := fun b => match b with
        | (.ok _, r) => .ret (.ok .again, r)
        | (.err e, r) => .ret (.err e, r)
        | (.panic, r) => .ret (.panic, r)
      have key := Lag.late (sendStatus (errorStatus (persistErr e)) r) tmp (f := fun b _ => cont b) (g := fun b _ => cont b)
        (C41_only_output _ (errorStatus_reader _) r) fun _ _ => .refl _
      have e1 : (M.after (sendStatus (errorStatus (persistErr e))) (dropFile tmp) >>= fun _ => pure Turn.again : M Turn) r =
          (sendStatus (errorStatus (persistErr e)) r).bind fun b => .call (.unlink tmp) fun _ => cont b := by
        show Prog.bind (Prog.bind _ _) _ = _
        rw [Prog.bind_assoc]
        congr 1
        funext x
        obtain ⟨_ | _ | _, _⟩ := x <;> rfl
      have e2 : (sendStatus (errorStatus (persistErr e)) >>= fun _ => pure Turn.again : M Turn) r =
          (sendStatus (errorStatus (persistErr e)) r).bind cont := by
        show Prog.bind _ _ = _
        congr 1
        funext x
        obtain ⟨_ | _ | _, _⟩ := x <;> rfl
      rw [e1]
      simp only []
      rw [e2]
      exact key
    · refine .call (.stat (.exact (objPath cfg.root oid))) ?_
      rintro (e | _)
      · show Lag (replyLate (.error (Err.ofIo e)) r) (f (.error (Err.ofIo e)) r)
        rw [hf]
        exact .refl _
      · refine .call (.chmod (objPath cfg.root oid) (objMode cfg.umask)) ?_
        rintro (e | _)
        · show Lag (replyLate (.error (Err.ofIo e)) r) (f (.error (Err.ofIo e)) r)
          rw [hf]
          exact .refl _
        · show Lag (replyLate (.ok (.ok Status.success)) r) (f (.ok Status.success) r)
          rw [hf]
          exact .refl _

theorem lag_put (cfg : Cfg) (oid : Bytes) {f : Except Err Status → M Turn}
    (hf : ∀ y, f y = (sendStatus (match y with
      | .ok st => st
      | .error e => errorStatus e) >>= fun _ => pure Turn.again)) :
    (M.attempt (putObjectLate cfg oid) >>= replyLate).Lag (M.attempt (putObject cfg oid) >>= f) := by
  intro r
  rw [attempt_bind, attempt_bind]
  have he : ∀ e r, Lag (onResult replyLate (.err e, r)) (onResult f (.err e, r)) := by
    intro e r
    show Lag (replyLate (.error e) r) (f (.error e) r)
    rw [hf]
    exact .refl _
  have hp : ∀ r, Lag (onResult replyLate (.panic, r)) (onResult f (.panic, r)) := fun r => .ret _
  unfold putObjectLate putObject
  refine lag_after _ _ _ (fun oid r => ?_) he hp r
  refine lag_after _ _ _ (fun items r => ?_) he hp r
  refine lag_after _ _ _ (fun args r => ?_) he hp r
  refine lag_after _ _ _ (fun n r => ?_) he hp r
  refine lag_after _ _ _ (fun td r => ?_) he hp r
  refine lag_after _ _ _ (fun _ r => ?_) he hp r
  exact lag_finish cfg oid td.1 hf r

theorem lag_turn (cfg : Cfg) (mode : Mode) : (turnLate cfg mode).Lag (turn cfg mode) := by
  intro r
  unfold turnLate
  split
  · rename_i d r' hd
    split
    · rename_i oid ho
      unfold putArg at ho
      split at ho
      · rename_i hc
        have hne : d ≠ [] := by
          rintro rfl
          exact absurd hc.1 (by decide)
        obtain ⟨hc, rfl⟩ := hc
        rw [turn_data cfg .upload r r' d hne hd, if_neg (by rw [hc]; exact fun h => absurd h.1 (by decide)), hc, ho]
        exact lag_put cfg oid (fun y => by cases y <;> rfl) r'
      · cases ho
    · exact .refl _
  · exact .refl _

theorem lag_processF (cfg : Cfg) (mode : Mode) : ∀ n, (processLateF cfg mode n).Lag (processF cfg mode n)
  | 0 => .refl _
  | n + 1 => .bind (lag_turn cfg mode) fun t => by
    cases t
    · exact lag_processF cfg mode n
    · exact .refl _

/-- The program of the model and the one with the order of the code. -/
theorem lag_main (cfg : Cfg) (op : Bytes) (r : Rdr) : Lag (mainLate cfg op r) (mainProg cfg op r) := by
  refine Lag.bind ?_ fun _ => .refl _
  refine M.Lag.bind (.refl _) (fun _ => M.Lag.bind (.refl _) fun _ => ?_) r
  intro r
  split
  · exact lag_processF cfg .upload _ r
  · split
    · exact lag_processF cfg .download _ r
    · exact .refl _

/-! ### Executions -/

/-- The calls that are not output. -/
def onDisk (tr : List Event) : List Event := tr.filter fun e => !e.1.outputs
/-- The calls that are. -/
def onStdout (tr : List Event) : List Event := tr.filter fun e => e.1.outputs

theorem finished_all {α : Type} {m : Prog α} {P : Op → Prop} (h : m.All P) {tr a} (ht : m.Finished tr a) : ∀ e ∈ tr, P e.1 :=
  h.did ht.did

theorem onDisk_outputs {tr : List Event} (h : ∀ e ∈ tr, e.1.outputs = true) : onDisk tr = [] := by
  unfold onDisk
  rw [List.filter_eq_nil_iff]
  intro e he
  simp [h e he]

theorem onStdout_outputs {tr : List Event} (h : ∀ e ∈ tr, e.1.outputs = true) : onStdout tr = tr := by
  unfold onStdout
  rw [List.filter_eq_self]
  intro e he
  exact h e he

theorem onDisk_append (a b : List Event) : onDisk (a ++ b) = onDisk a ++ onDisk b := List.filter_append ..
theorem onStdout_append (a b : List Event) : onStdout (a ++ b) = onStdout a ++ onStdout b := List.filter_append ..

/-- An execution that was completed in the one order is also possible in the other, with the same calls to the file
system in the same order, the same output and the same result. -/
theorem Lag.finished {α : Type} {p q : Prog α} (h : Lag p q) : ∀ {tr a}, p.Finished tr a →
    ∃ tr', q.Finished tr' a ∧ onDisk tr' = onDisk tr ∧ onStdout tr' = onStdout tr := by
  induction h with
  | ret a => intro tr b h; exact ⟨tr, h, rfl, rfl⟩
  | call o _ ih =>
    intro tr a h
    cases h with
    | call h =>
      obtain ⟨tr', h1, h2, h3⟩ := ih _ h
      refine ⟨_ :: tr', .call h1, ?_, ?_⟩
      · simp only [onDisk, List.filter_cons] at h2 ⊢; rw [h2]
      · simp only [onStdout, List.filter_cons] at h3 ⊢; rw [h3]
  | late m p hm _ ih =>
    intro tr a h
    obtain ⟨t1, t2, b, rfl, h1, h2⟩ := Prog.finished_bind.mp h
    cases h2 with
    | @call _ _ x t2 _ h2 =>
      obtain ⟨t', k1, k2, k3⟩ := ih _ _ h2
      have ho := finished_all hm h1
      refine ⟨⟨.unlink p, x⟩ :: (t1 ++ t'), .call (Prog.finished_bind.mpr ⟨t1, t', b, rfl, h1, k1⟩), ?_, ?_⟩
      · show onDisk ([_] ++ (t1 ++ t')) = onDisk (t1 ++ ([_] ++ t2))
        simp only [onDisk_append, onDisk_outputs ho, k2, List.nil_append]
      · show onStdout ([_] ++ (t1 ++ t')) = onStdout (t1 ++ ([_] ++ t2))
        simp only [onStdout_append, k3]
        rfl

/-- And conversely. -/
theorem Lag.finished_rev {α : Type} {p q : Prog α} (h : Lag p q) : ∀ {tr a}, q.Finished tr a →
    ∃ tr', p.Finished tr' a ∧ onDisk tr' = onDisk tr ∧ onStdout tr' = onStdout tr := by
  induction h with
  | ret a => intro tr b h; exact ⟨tr, h, rfl, rfl⟩
  | call o _ ih =>
    intro tr a h
    cases h with
    | call h =>
      obtain ⟨tr', h1, h2, h3⟩ := ih _ h
      refine ⟨_ :: tr', .call h1, ?_, ?_⟩
      · simp only [onDisk, List.filter_cons] at h2 ⊢; rw [h2]
      · simp only [onStdout, List.filter_cons] at h3 ⊢; rw [h3]
  | late m p hm _ ih =>
    intro tr a h
    cases h with
    | @call _ _ x t2 _ h2 =>
      obtain ⟨t1, t2, b, rfl, h1, h2⟩ := Prog.finished_bind.mp h2
      obtain ⟨t', k1, k2, k3⟩ := ih _ _ h2
      have ho := finished_all hm h1
      refine ⟨t1 ++ ⟨.unlink p, x⟩ :: t', Prog.finished_bind.mpr ⟨t1, _, b, rfl, h1, .call k1⟩, ?_, ?_⟩
      · show onDisk (t1 ++ ([_] ++ t')) = onDisk ([_] ++ (t1 ++ t2))
        simp only [onDisk_append, onDisk_outputs ho, k2, List.nil_append]
      · show onStdout (t1 ++ ([_] ++ t')) = onStdout ([_] ++ (t1 ++ t2))
        simp only [onStdout_append, k3]
        rfl

/-! ### Several processes -/

/-- `m` has made the calls `t` and is now `m'`. -/
inductive Prog.Leads {α : Type} : Prog α → List Event → Prog α → Prop
  | nil {p} : Leads p [] p
  | call {o k x tr p} : Leads (k x) tr p → Leads (.call o k) (⟨o, x⟩ :: tr) p

theorem Prog.Leads.snoc {α : Type} {p : Prog α} {tr : List Event} {q : Prog α} (h : p.Leads tr q) :
    ∀ {o : Op} {k : Resp o → Prog α} (x : Resp o), q = .call o k → p.Leads (tr ++ [⟨o, x⟩]) (k x) := by
  induction h with
  | nil => rintro o k x rfl; exact .call .nil
  | call _ ih => intro o k x hq; exact .call (ih x hq)

theorem Prog.Leads.all {α : Type} {P : Op → Prop} {p : Prog α} {tr : List Event} {q : Prog α} (h : p.Leads tr q)
    (ha : p.All P) : q.All P := by
  induction h with
  | nil => exact ha
  | call _ ih => exact ih (ha.2 _)

/-- A response that output can always get. -/
def Event.Anytime (e : Event) : Prop := e.1.outputs = true ∧ ∃ c, ∀ fs, sem c fs e.1 = (fs, e.2)

/-- A process and the corresponding one, which may be behind by the output `t`. -/
inductive Lags {α : Type} : Prog α → Prog α → List Event → Prop
  | level {p q : Prog α} : Lag p q → Lags p q []
  | behind {β : Type} {m m' : Prog β} {p : Path} {f g : β → Resp (.unlink p) → Prog α} {t : List Event} :
      m.All (fun o => o.outputs = true) → m.Leads t m' → (∀ e ∈ t, e.Anytime) → (∀ b x, Lag (f b x) (g b x)) →
      Lags (m'.bind fun b => .call (.unlink p) (f b)) (.call (.unlink p) fun x => m.bind fun b => g b x) t

theorem sem_outputs (c : Choice) (fs : FS) {o : Op} (h : o.outputs = true) : (sem c fs o).1 = fs := by
  cases o <;> first | (simp only [sem]; split <;> rfl) | (cases h; done)

theorem anytime_of (c : Choice) (fs : FS) {o : Op} (h : o.outputs = true) : Event.Anytime ⟨o, (sem c fs o).2⟩ := by
  refine ⟨h, c, fun fs' => ?_⟩
  cases o <;> first | (simp only [sem]; split <;> rfl) | (cases h; done)

/-- Output written by process `i`. -/
def saidBy (i : Nat) (tr : List (Nat × Event)) : List Event := onStdout ((tr.filter fun e => e.1 = i).map (·.2))

/-- The calls to the file system, with the process that made them. -/
def diskCalls (tr : List (Nat × Event)) : List (Nat × Event) := tr.filter fun e => !e.2.1.outputs

theorem saidBy_append (i : Nat) (a b : List (Nat × Event)) : saidBy i (a ++ b) = saidBy i a ++ saidBy i b := by
  simp [saidBy, onStdout]
theorem diskCalls_append (a b : List (Nat × Event)) : diskCalls (a ++ b) = diskCalls a ++ diskCalls b := List.filter_append ..

theorem saidBy_one (i j : Nat) (e : Event) : saidBy i [(j, e)] = if j = i ∧ e.1.outputs = true then [e] else [] := by
  by_cases h : j = i <;> by_cases h' : e.1.outputs = true <;> simp [saidBy, onStdout, h, h']

theorem diskCalls_one (j : Nat) (e : Event) : diskCalls [(j, e)] = if e.1.outputs = true then [] else [(j, e)] := by
  by_cases h' : e.1.outputs = true <;> simp [diskCalls, h']

theorem saidBy_map (i j : Nat) {t : List Event} (h : ∀ e ∈ t, e.1.outputs = true) :
    saidBy i (t.map (j, ·)) = if j = i then t else [] := by
  induction t with
  | nil => simp [saidBy, onStdout]
  | cons e t ih =>
    have := saidBy_append i [(j, e)] (t.map (j, ·))
    rw [List.map_cons, ← List.singleton_append, this, ih fun e he => h e (List.mem_cons_of_mem _ he), saidBy_one]
    by_cases hj : j = i <;> simp [hj, h e (List.mem_cons_self ..)]

theorem diskCalls_map (j : Nat) {t : List Event} (h : ∀ e ∈ t, e.1.outputs = true) : diskCalls (t.map (j, ·)) = [] := by
  induction t with
  | nil => rfl
  | cons e t ih =>
    rw [List.map_cons, ← List.singleton_append, diskCalls_append, ih fun e he => h e (List.mem_cons_of_mem _ he), diskCalls_one,
      if_pos (h e (List.mem_cons_self ..))]
    rfl

theorem Sys.setProc_self (s : Sys) (i : Nat) (p : Prog Exit) : s.setProc i p i = p := if_pos rfl
theorem Sys.setProc_ne (s : Sys) {i j : Nat} (h : j ≠ i) (p : Prog Exit) : s.setProc i p j = s.procs j := if_neg h

/-- Process `i` writes the output it is behind by. -/
theorem catch_up {root : Path} {β : Type} {m : Prog β} {b : β} {t : List Event} {h : β → Prog Exit} (i : Nat)
    (hl : m.Leads t (.ret b)) (ht : ∀ e ∈ t, e.Anytime) : ∀ s : Sys, s.procs i = m.bind h →
    ∃ s', Steps root s (t.map (i, ·)) s' ∧ s'.fs = s.fs ∧ s'.procs i = h b ∧ ∀ j, j ≠ i → s'.procs j = s.procs j := by
  generalize hq : (Prog.ret b : Prog β) = q at hl
  induction hl with
  | nil => subst hq; exact fun s hs => ⟨s, .refl, rfl, hs, fun _ _ => rfl⟩
  | @call o k x tr p hl ih =>
    intro s hs
    obtain ⟨ho, c, hc⟩ := ht _ (List.mem_cons_self ..)
    have h1 := Step.call (root := root) i o (fun x => (k x).bind h) c hs
    simp only [hc s.fs] at h1
    obtain ⟨s', k1, k2, k3, k4⟩ := ih (fun e he => ht e (List.mem_cons_of_mem _ he)) hq ⟨s.fs, s.setProc i ((k x).bind h)⟩
      (Sys.setProc_self ..)
    refine ⟨s', ?_, k2, k3, fun j hj => by rw [k4 j hj]; exact Sys.setProc_ne _ hj _⟩
    have := Steps.trans (Steps.tail .refl h1) k1
    simpa using this

/-- Two systems of servers, the second with the order of the model. -/
structure Trails (S M : Sys) (T T' : List (Nat × Event)) : Prop where
  fs : M.fs = S.fs
  disk : diskCalls T' = diskCalls T
  procs : ∀ i, (∃ t, Lags (S.procs i) (M.procs i) t ∧ saidBy i T = saidBy i T' ++ t) ∨
    (S.procs i = .ret ⟨137, []⟩ ∧ M.procs i = .ret ⟨137, []⟩ ∧ saidBy i T' <+: saidBy i T)

/-- What a step of one process means for both systems. -/
theorem Trails.set {S M M' : Sys} {T T' T2 : List (Nat × Event)} {l : List (Nat × Event)} {fs : FS} {i : Nat} {p : Prog Exit}
    (h : Trails S M T T') (hfs : M'.fs = fs) (hd : diskCalls T2 = diskCalls l)
    (hi : (∃ t, Lags p (M'.procs i) t ∧ saidBy i (T ++ l) = saidBy i (T' ++ T2) ++ t) ∨
      (p = .ret ⟨137, []⟩ ∧ M'.procs i = .ret ⟨137, []⟩ ∧ saidBy i (T' ++ T2) <+: saidBy i (T ++ l)))
    (ho : ∀ j, j ≠ i → M'.procs j = M.procs j ∧ saidBy j l = [] ∧ saidBy j T2 = []) :
    Trails ⟨fs, S.setProc i p⟩ M' (T ++ l) (T' ++ T2) := by
  refine ⟨hfs, by rw [diskCalls_append, diskCalls_append, h.disk, hd], fun j => ?_⟩
  by_cases hj : j = i
  · subst hj
    show (∃ t, Lags (S.setProc j p j) _ t ∧ _) ∨ (S.setProc j p j = _ ∧ _)
    rw [Sys.setProc_self]
    exact hi
  · obtain ⟨k1, k2, k3⟩ := ho j hj
    show (∃ t, Lags (S.setProc i p j) _ t ∧ _) ∨ (S.setProc i p j = _ ∧ _)
    rw [Sys.setProc_ne _ hj, k1, saidBy_append, saidBy_append, k2, k3, List.append_nil, List.append_nil]
    exact h.procs j

theorem saidBy_ne {i j : Nat} (h : j ≠ i) (e : Event) : saidBy j [(i, e)] = [] := by
  rw [saidBy_one, if_neg fun k => h k.1.symm]

/-- Process `i` of both systems makes the same call. -/
theorem trails_both {root : Path} {S M : Sys} {T T' : List (Nat × Event)} (h : Trails S M T T') {i : Nat} {o : Op}
    {k k' : Resp o → Prog Exit} (c : Choice) (hq : M.procs i = .call o k')
    (ht : saidBy i T = saidBy i T') (hl : ∀ x, Lag (k x) (k' x)) :
    ∃ T2 M', Steps root M T2 M' ∧ Trails ⟨(sem c S.fs o).1, S.setProc i (k (sem c S.fs o).2)⟩ M'
      (T ++ [(i, ⟨o, (sem c S.fs o).2⟩)]) (T' ++ T2) := by
  have h1 := Step.call (root := root) i o k' c hq
  rw [h.fs] at h1
  refine ⟨_, _, .tail .refl h1, h.set rfl rfl (.inl ⟨[], ?_, ?_⟩) ?_⟩
  · show Lags _ (M.setProc i _ i) _
    rw [Sys.setProc_self]
    exact .level (hl _)
  · rw [saidBy_append, saidBy_append, ht, List.append_nil]
    rfl
  · intro j hj
    exact ⟨Sys.setProc_ne _ hj _, saidBy_ne hj _, saidBy_ne hj _⟩

/-- Only the first system does something: it writes output. -/
theorem trails_out {S M : Sys} {T T' : List (Nat × Event)} (h : Trails S M T T') {i : Nat} {o : Op} {p : Prog Exit} (c : Choice)
    (ho : o.outputs = true) {t : List Event} (ht : saidBy i T = saidBy i T' ++ t)
    (hl : Lags p (M.procs i) (t ++ [⟨o, (sem c S.fs o).2⟩])) :
    Trails ⟨(sem c S.fs o).1, S.setProc i p⟩ M (T ++ [(i, ⟨o, (sem c S.fs o).2⟩)]) (T' ++ []) := by
  refine h.set (by rw [sem_outputs c S.fs ho]; exact h.fs) ?_ (.inl ⟨_, hl, ?_⟩) ?_
  · rw [diskCalls_one, if_pos ho]; rfl
  · rw [saidBy_append, saidBy_append, ht, saidBy_one, if_pos ⟨rfl, ho⟩]
    simp [saidBy, onStdout]
  · intro j hj
    exact ⟨rfl, saidBy_ne hj _, rfl⟩

theorem trails_call {root : Path} {S M : Sys} {T T' : List (Nat × Event)} (h : Trails S M T T') (i : Nat) (o : Op)
    (k : Resp o → Prog Exit) (c : Choice) (hs : S.procs i = .call o k) :
    ∃ T2 M', Steps root M T2 M' ∧ Trails ⟨(sem c S.fs o).1, S.setProc i (k (sem c S.fs o).2)⟩ M'
      (T ++ [(i, ⟨o, (sem c S.fs o).2⟩)]) (T' ++ T2) := by
  rcases h.procs i with ⟨t, hL, ht⟩ | ⟨h1, _⟩
  · rw [hs] at hL
    generalize hp : (Prog.call o k : Prog Exit) = p at hL
    generalize hq : M.procs i = q at hL
    cases hL with
    | level hL =>
      rw [List.append_nil] at ht
      cases hL with
      | ret => cases hp
      | call o' hk => cases hp; exact trails_both h c hq ht hk
      | @late β m p' f g hm hk =>
        cases m with
        | ret b => cases hp; exact trails_both h c hq ht (hk b)
        | call o' k' =>
          cases hp
          refine ⟨[], M, .refl, trails_out h c hm.1 (t := []) (by rw [ht, List.append_nil]) ?_⟩
          rw [hq]
          exact .behind hm (.call .nil) (by
            intro e he
            simp only [List.nil_append, List.mem_singleton] at he
            subst he
            exact anytime_of c S.fs hm.1) hk
    | @behind β m m' p' f g t hm hled hany hk =>
      cases m' with
      | ret b =>
        cases hp
        have h1 := Step.call (root := root) i _ _ c hq
        rw [h.fs] at h1
        obtain ⟨M', k1, k2, k3, k4⟩ := catch_up (root := root) i hled hany (h := fun b => g b (sem c S.fs (.unlink p')).2)
          ⟨(sem c S.fs (.unlink p')).1, M.setProc i (m.bind fun b => g b (sem c S.fs (.unlink p')).2)⟩ (Sys.setProc_self ..)
        refine ⟨_, M', Steps.trans (Steps.tail .refl h1) k1, h.set k2 ?_ (.inl ⟨[], ?_, ?_⟩) ?_⟩
        · simp only [Option.toList_some, List.nil_append, diskCalls_append, diskCalls_map i fun e he => (hany e he).1,
            List.append_nil]
        · rw [k3]
          exact .level (hk b _)
        · simp only [Option.toList_some, List.nil_append, saidBy_append, saidBy_map i i fun e he => (hany e he).1, if_true,
            saidBy_one, Op.outputs, Bool.false_eq_true, and_false, if_false, List.append_nil, ht]
        · intro j hj
          refine ⟨by rw [k4 j hj]; exact Sys.setProc_ne _ hj _, saidBy_ne hj _, ?_⟩
          simp only [Option.toList_some, List.nil_append, saidBy_append, saidBy_map j i fun e he => (hany e he).1,
            saidBy_ne hj, if_neg (Ne.symm hj)]
      | call o' k' =>
        cases hp
        have ho := (hled.all hm).1
        refine ⟨[], M, .refl, trails_out h c ho ht ?_⟩
        rw [hq]
        exact .behind hm (hled.snoc _ rfl) (by
          intro e he
          rcases List.mem_append.mp he with he | he
          · exact hany e he
          · simp only [List.mem_singleton] at he
            subst he
            exact anytime_of c S.fs ho) hk
  · rw [hs] at h1; cases h1

/-- A process about to write to a file or to create directories is not behind. -/
theorem lags_level {o : Op} {k : Resp o → Prog Exit} {q : Prog Exit} {t : List Event} (h : Lags (.call o k) q t)
    (ho : o.outputs = false) (hu : ∀ p, o ≠ .unlink p) : t = [] ∧ ∃ k', q = .call o k' ∧ ∀ x, Lag (k x) (k' x) := by
  generalize hp : (Prog.call o k : Prog Exit) = p at h
  cases h with
  | level h =>
    cases h with
    | ret => cases hp
    | call o' hk => cases hp; exact ⟨rfl, _, rfl, hk⟩
    | @late β m p' f g hm hk =>
      cases m with
      | ret b => cases hp; exact absurd rfl (hu _)
      | call o' k' => cases hp; rw [hm.1] at ho; cases ho
  | @behind β m m' p' f g t hm hled hany hk =>
    cases m' with
    | ret b => cases hp; exact absurd rfl (hu _)
    | call o' k' => cases hp; rw [(hled.all hm).1] at ho; cases ho

theorem trails_step {root : Path} {S M S' : Sys} {T T' : List (Nat × Event)} {l : Option (Nat × Event)} (h : Trails S M T T')
    (hs : Step root S l S') : ∃ T2 M', Steps root M T2 M' ∧ Trails S' M' (T ++ l.toList) (T' ++ T2) := by
  cases hs with
  | call i o k c hp => exact trails_call h i o k c hp
  | writeSome i ino b n k hp =>
    rcases h.procs i with ⟨t, hL, ht⟩ | ⟨h1, _⟩
    · rw [hp] at hL
      obtain ⟨rfl, k', hq, hk⟩ := lags_level hL rfl (fun p hp => by cases hp)
      refine ⟨_, _, .tail .refl (.writeSome i ino b n k' hq), h.set (by rw [h.fs]) rfl (.inl ⟨[], ?_, by simpa using ht⟩)
        fun j hj => ⟨Sys.setProc_ne _ hj _, rfl, rfl⟩⟩
      show Lags _ (M.setProc i _ i) _
      rw [Sys.setProc_self]
      exact .level (.call (.write ino (b.drop n)) hk)
    · rw [hp] at h1; cases h1
  | mkdirSome i p n e k hp =>
    rcases h.procs i with ⟨t, hL, ht⟩ | ⟨h1, _⟩
    · rw [hp] at hL
      obtain ⟨rfl, k', hq, hk⟩ := lags_level hL rfl (fun p hp => by cases hp)
      refine ⟨_, _, .tail .refl (.mkdirSome i p n e k' hq), ?_⟩
      exact ⟨by simp only [h.fs], by simpa using h.disk, fun j => by simpa using h.procs j⟩
    · rw [hp] at h1; cases h1
  | kill i =>
    refine ⟨_, _, .tail .refl (.kill i), h.set h.fs rfl (.inr ⟨rfl, Sys.setProc_self .., ?_⟩)
      fun j hj => ⟨Sys.setProc_ne _ hj _, rfl, rfl⟩⟩
    simp only [Option.toList_none, List.append_nil]
    rcases h.procs i with ⟨t, _, ht⟩ | ⟨_, _, h1⟩
    · rw [ht]; exact List.prefix_append ..
    · exact h1
  | elsewhere fs' he =>
    refine ⟨_, ⟨fs', M.procs⟩, .tail .refl (.elsewhere fs' (by rw [h.fs]; exact he)), ?_⟩
    exact ⟨rfl, by simpa using h.disk, fun j => by simpa using h.procs j⟩

theorem trails_steps {root : Path} {S M S' : Sys} {T : List (Nat × Event)} (h : Trails S M [] []) (hs : Steps root S T S') :
    ∃ T' M', Steps root M T' M' ∧ Trails S' M' T T' := by
  induction hs with
  | refl => exact ⟨[], M, .refl, h⟩
  | tail _ h2 ih =>
    obtain ⟨T', M', k1, k2⟩ := ih
    obtain ⟨T2, M'', k3, k4⟩ := trails_step k2 h2
    exact ⟨_, M'', Steps.trans k1 k3, k4⟩

/-- A system of servers which remove the temporary file after the reply, and the same servers in the order of the model. -/
def LateOf (S M : Sys) : Prop :=
  M.fs = S.fs ∧ ∀ i, ∃ cfg op r, S.procs i = mainLate cfg op r ∧ M.procs i = mainProg cfg op r

/-- **The order does not matter to the file system.** Whatever servers with the order of the code do, with whatever
inputs, errors, kills and other programs, servers with the order of the model can do: they arrive at the same file system,
by the same calls to it, made by the same processes and answered the same way. Each server has then said the same, or, if
it is in the middle of such a reply or was killed there, the beginning of it. -/
theorem order_immaterial {root : Path} {S M S' : Sys} {T : List (Nat × Event)} (h : LateOf S M) (hs : Steps root S T S') :
    ∃ T' M', Steps root M T' M' ∧ M'.fs = S'.fs ∧ diskCalls T' = diskCalls T ∧ ∀ i, saidBy i T' <+: saidBy i T := by
  have h0 : Trails S M [] [] := ⟨h.1, rfl, fun i => by
    obtain ⟨cfg, op, r, h1, h2⟩ := h.2 i
    exact .inl ⟨[], by rw [h1, h2]; exact .level (lag_main cfg op r), rfl⟩⟩
  obtain ⟨T', M', h1, h2⟩ := trails_steps h0 hs
  refine ⟨T', M', h1, h2.fs, h2.disk, fun i => ?_⟩
  rcases h2.procs i with ⟨t, _, ht⟩ | ⟨_, _, ht⟩
  · rw [ht]; exact List.prefix_append ..
  · exact ht

/-- **C12** for the order of the code. -/
theorem C12_order {root : Path} {sha : Bytes → Bytes} {S S' M : Sys} {T : List (Nat × Event)} (h : LateOf S M)
    (h0 : Start root sha M) (hs : Steps root S T S')
    (hi : ∀ oid c, IsOid oid → S.fs.content (objectFile root oid) = some c → hex (sha c) = oid) :
    ∀ oid c, IsOid oid → S'.fs.content (objectFile root oid) = some c → hex (sha c) = oid := by
  obtain ⟨T', M', h1, h2, _⟩ := order_immaterial h hs
  rw [← h2]
  exact C12_integrity h0 h1 (by rw [h.1]; exact hi)

/-- **C14** for the order of the code: without a successful rename to an object path, its content stays. -/
theorem C14_order {root : Path} {sha : Bytes → Bytes} {S S' M : Sys} {T : List (Nat × Event)} (h : LateOf S M)
    (h0 : Start root sha M) (hs : Steps root S T S') (oid : Bytes)
    (hn : ∀ i src, (i, (⟨.rename src (objectFile root oid), .ok ()⟩ : Event)) ∉ T) :
    S'.fs.content (objectFile root oid) = S.fs.content (objectFile root oid) := by
  obtain ⟨T', M', h1, h2, h3, _⟩ := order_immaterial h hs
  rw [← h2, ← h.1]
  refine C14_only_rename h0 .refl h1 oid fun i src hm => hn i src ?_
  have : (i, (⟨.rename src (objectFile root oid), .ok ()⟩ : Event)) ∈ diskCalls T' := by
    simp [diskCalls, hm, Op.outputs]
  rw [h3] at this
  exact (List.mem_filter.mp this).1

/-! ### C53 -/

theorem onDisk_split {tr past' future' : List Event} {e : Event} (h : onDisk tr = past' ++ e :: future') :
    ∃ past future, tr = past ++ e :: future ∧ onDisk future = future' := by
  unfold onDisk at h ⊢
  obtain ⟨l1, l2, rfl, _, h2⟩ := List.filter_eq_append_iff.mp h
  obtain ⟨m1, m2, rfl, _, _, h3⟩ := List.filter_eq_cons_iff.mp h2
  exact ⟨l1 ++ m1, m2, by simp, h3⟩

/-- **C53** for the order of the code: when a request has been answered, in whatever way, every temporary file that was
created for it was afterwards moved away by a successful rename, or its removal was requested. -/
theorem C53_order (cfg : Cfg) (mode : Mode) (r r' : Rdr) (tr : List Event) (x : Res Turn)
    (h : (turnLate cfg mode r).Finished tr (x, r'))
    (past future : List Event) (d : Path) (pre : Bytes) (uid : Nat) (p : Path) (i : Ino)
    (he : tr = past ++ ⟨.createTemp d pre uid, .ok (p, i)⟩ :: future) :
    ∃ e ∈ future, Event.Gone p e := by
  obtain ⟨tr', h1, h2, -⟩ := (lag_turn cfg mode r).finished h
  have h3 : onDisk tr' = onDisk past ++ ⟨.createTemp d pre uid, .ok (p, i)⟩ :: onDisk future := by
    rw [h2, he]
    simp [onDisk, Op.outputs]
  obtain ⟨past', future', he', hf⟩ := onDisk_split h3
  have hw := tidy_turn cfg mode r ⟨none, [], none⟩ rfl
  have hl : (Logic.own cfg).LegalTr ⟨none, [], none⟩ tr' := Logic.legalTr_of_forall fun _ _ _ => trivial
  have hpre := Prog.wp_did hw h1.did hl
  have hfin : ((Logic.own cfg).fold ⟨none, [], none⟩ tr').tmp = none := Prog.wp_finished hw h1 hl
  have key : ∃ e ∈ future', Event.Gone p e := by
    clear h1 h2 h3 hw hl
    subst he'
    generalize (⟨none, [], none⟩ : Own) = s at hpre hfin
    induction past' generalizing s with
    | nil =>
      simp only [List.nil_append, Logic.PreTr, Logic.fold] at hpre hfin
      exact own_gone cfg future' _ p i (some []) rfl hpre.2 hfin
    | cons e past ih => exact ih _ hpre.2 hfin
  obtain ⟨e, hm, hg⟩ := key
  have : e ∈ onDisk future' := by
    refine List.mem_filter.mpr ⟨hm, ?_⟩
    obtain ⟨o, y⟩ := e
    cases o <;> first | rfl | (cases hg; done)
  rw [hf] at this
  exact ⟨e, (List.mem_filter.mp this).1, hg⟩

namespace Tests

/-- An upload of `abc123`. -/
def uploadA : Rdr := Rdr.new (b!"0050put-object " ++ oidA ++ b!"\n000bsize=6\n0001000aabc1230000") eofErr false

/-- The rename fails, as the fourth call. The calls to the file system are the same in both orders; in that of the code
the removal of the temporary file comes last, in that of the model there is output after it. -/
example :
    let a := ((turnLate cfg .upload uploadA).events (failAt 3 eio 0) ⟨fsL, [], 0⟩).map Sigma.fst
    let b := ((turn cfg .upload uploadA).events (failAt 3 eio 0) ⟨fsL, [], 0⟩).map Sigma.fst
    let disk : List Op := [.createTemp (incompleteDir cfg.root) oidA 1000, .write 3 b!"abc123",
      .mkdirAll (objPath cfg.root oidA).dropLast,
      .rename (incompleteDir cfg.root ++ [oidA]) (objPath cfg.root oidA), .unlink (incompleteDir cfg.root ++ [oidA])]
    a.filter (!·.outputs) = disk ∧ b.filter (!·.outputs) = disk ∧ a.filter (·.outputs) = b.filter (·.outputs) ∧
    a.length = b.length ∧ 5 < a.length ∧ a.getLast? = some (.unlink (incompleteDir cfg.root ++ [oidA])) ∧
    b.getLast? = some .flush := by decide +kernel

/-- Servers in the order of the code; process 0 uploads `abc123` twice. -/
def lateUploads : Sys :=
  ⟨fs0, fun i => mainLate cfg b!"upload" (if i = 0 then
      Rdr.new (b!"0050put-object " ++ oidA ++ b!"\n000bsize=6\n0001000aabc1230000" ++
        b!"0050put-object " ++ oidA ++ b!"\n000bsize=6\n0001000aabc1230000") eofErr false
    else Rdr.new [] eofErr false)⟩

example : ∃ M, LateOf lateUploads M ∧ Start cfg.root cfg.sha M :=
  ⟨⟨fs0, fun i => mainProg cfg b!"upload" (if i = 0 then
      Rdr.new (b!"0050put-object " ++ oidA ++ b!"\n000bsize=6\n0001000aabc1230000" ++
        b!"0050put-object " ++ oidA ++ b!"\n000bsize=6\n0001000aabc1230000") eofErr false
    else Rdr.new [] eofErr false)⟩, ⟨rfl, fun _ => ⟨_, _, _, rfl, rfl⟩⟩,
   fun _ => ⟨_, _, _, rfl, rfl, rfl⟩, fun p i h => (by cases h), fun p i _ h => (by cases h)⟩

/-- The first upload ends with the object stored. -/
example : (lateUploads.exec (List.replicate 40 (0, Choice.none))).1.fs.content (objectFile cfg.root oidA) =
    some b!"abc123" := by decide +kernel

end Tests

end Verif
