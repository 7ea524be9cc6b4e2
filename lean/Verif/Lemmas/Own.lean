import Verif.Lemmas.Prog
import Verif.Lemmas.OpsUsed
import Verif.Props.Loop
/-!
What a process owns: the temporary upload file it is filling, and the lock files it has opened for
writing. `Logic.own` says which mutations a process may make, given what it owns.
-/
namespace Verif

structure Own where
  /-- Path, inode and (if known) content of the temporary upload file. -/
  tmp : Option (Path × Ino × Option Bytes)
  /-- Inodes created under `locks`. -/
  inos : List Ino
  /-- The temporary lock file asked for and not yet removed; if it was created, its inode and (if
  known) what this process wrote to it. -/
  win : Option (Path × Option (Ino × Option Bytes))

/-- Bookkeeping for a write to inode `i`. -/
def Own.wrote (s : Own) (i : Ino) (b : Bytes) (ok : Bool) : Own :=
  match s.tmp with
  | some (p, j, c) => if j = i then { s with tmp := some (p, j, if ok then c.map (· ++ b) else none) } else s
  | none => s

def Own.removed (s : Own) (p : Path) : Own :=
  match s.tmp with
  | some (q, _, _) => if q = p then { s with tmp := none } else s
  | none => s

/-- Bookkeeping for the temporary lock file. -/
def winWrote (w : Option (Path × Option (Ino × Option Bytes))) (i : Ino) (b : Bytes) (ok : Bool) :
    Option (Path × Option (Ino × Option Bytes)) :=
  match w with
  | some (p, some (j, d)) => if j = i then some (p, some (j, if ok then d.map (· ++ b) else none)) else w
  | _ => w

def winUpd (w : Option (Path × Option (Ino × Option Bytes))) :
    (o : Op) → Resp o → Option (Path × Option (Ino × Option Bytes))
  | .createNew p _, .ok i => some (p, some (i, some []))
  | .createNew p _, .error _ => some (p, none)
  | .write i b, .ok _ => winWrote w i b true
  | .write i b, .error _ => winWrote w i b false
  -- after the attempt to link it, nothing is written any more
  | .link _ _, _ => w.map fun v => (v.1, v.2.map fun u => (u.1, none))
  | .unlink p, _ => if w.map Prod.fst = some p then none else w
  | _, _ => w

/-- Mutations allowed. -/
def Own.may (cfg : Cfg) (s : Own) : Op → Prop
  | .mkdirAll p => p ∈ skeleton cfg.root ∨ ∃ oid, oidValid oid = true ∧ p = (objPath cfg.root oid).dropLast
  | .createTemp d _ _ => d = incompleteDir cfg.root ∧ s.tmp = none
  | .createNew p _ => ∃ x, p = lockTemp cfg x
  | .write i b => (∃ p c, s.tmp = some (p, i, c)) ∨ i ∈ s.inos ∧
      ∃ x t d, s.win = some (lockTemp cfg x, some (i, some d)) ∧ d ++ b = lockRecord t x
  | .rename src dst => ∃ i c, s.tmp = some (src, i, some c) ∧
      oidValid (hexEncode (cfg.sha c)) = true ∧ dst = objPath cfg.root (hexEncode (cfg.sha c))
  | .link src dst => ∃ x t i, src = lockTemp cfg x ∧ dst = lockPath cfg x ∧
      s.win = some (lockTemp cfg x, some (i, some (lockRecord t x)))
  | .unlink p => (∃ i c, s.tmp = some (p, i, c)) ∨
      ∃ x, (p = lockTemp cfg x ∧ ∃ v, s.win = some (p, v)) ∨ p = lockPath cfg x
  | .chmod p m => m = objMode cfg.umask ∧ ∃ oid, oidValid oid = true ∧ p = objPath cfg.root oid
  | _ => True

/-- What happens to the temporary upload file and the inodes. -/
def Own.base (s : Own) : (o : Op) → Resp o → Own
  | .createTemp _ _ _, .ok (p, i) => { s with tmp := some (p, i, some []) }
  | .createNew _ _, .ok i => { s with inos := i :: s.inos }
  | .write i b, .ok _ => s.wrote i b true
  | .write i b, .error _ => s.wrote i b false
  | .rename _ _, .ok _ => { s with tmp := none }
  | .unlink p, _ => s.removed p
  | _, _ => s

def Own.upd (s : Own) (o : Op) (x : Resp o) : Own := { s.base o x with win := winUpd s.win o x }

@[simp] theorem Own.upd_tmp (s : Own) (o : Op) (x : Resp o) : (s.upd o x).tmp = (s.base o x).tmp := rfl
@[simp] theorem Own.upd_inos (s : Own) (o : Op) (x : Resp o) : (s.upd o x).inos = (s.base o x).inos := rfl
@[simp] theorem Own.upd_win (s : Own) (o : Op) (x : Resp o) : (s.upd o x).win = winUpd s.win o x := rfl

def Logic.own (cfg : Cfg) : Logic Own where
  pre s o := s.may cfg o
  upd s o x := s.upd o x
  legal _ _ _ := True

/-- `m`, started without a temporary file, ends without one, in whatever way it ends. -/
def M.Tidy {α : Type} (cfg : Cfg) (m : M α) : Prop :=
  ∀ r s, s.tmp = none → m.wp (Logic.own cfg) r s (fun _ _ s' => s'.tmp = none)

theorem M.Tidy.bind {α β : Type} {cfg : Cfg} {m : M α} {f : α → M β} (h : m.Tidy cfg)
    (hf : ∀ a, (f a).Tidy cfg) : (m >>= f).Tidy cfg := by
  intro r s hs
  rw [M.wp_bind]
  refine M.wp_mono (h r s hs) ?_
  rintro (a | e | _) r' s' hs'
  · exact hf a r' s' hs'
  · exact hs'
  · exact hs'

theorem M.Tidy.attempt {α : Type} {cfg : Cfg} {m : M α} (h : m.Tidy cfg) : (M.attempt m).Tidy cfg := by
  intro r s hs
  rw [M.wp_attempt]
  refine M.wp_mono (h r s hs) ?_
  rintro (a | e | _) r' s' hs' <;> exact hs'

theorem M.Tidy.after {α : Type} {cfg : Cfg} {m : M α} {c : M Unit} (h : m.Tidy cfg) (hc : c.Tidy cfg) :
    (M.after m c).Tidy cfg := by
  intro r s hs
  rw [M.wp_after]
  refine M.wp_mono (h r s hs) ?_
  intro x r' s' hs'
  exact hc r' s' hs'

theorem M.Tidy.pure {α : Type} {cfg : Cfg} (a : α) : (Pure.pure a : M α).Tidy cfg := fun _ _ h => h
theorem M.Tidy.throw {α : Type} {cfg : Cfg} (e : Err) : (M.throw e : M α).Tidy cfg := fun _ _ h => h
theorem M.Tidy.panic {α : Type} {cfg : Cfg} : (M.panic : M α).Tidy cfg := fun _ _ h => h
theorem M.Tidy.rdr {α : Type} {cfg : Cfg} (f : Rdr → Res α × Rdr) : (M.rdr f).Tidy cfg := fun _ _ h => h
theorem M.Tidy.ofRes {α : Type} {cfg : Cfg} (x : Res α) : (M.ofRes x).Tidy cfg := fun _ _ h => h
theorem M.Tidy.ofIo {α : Type} {cfg : Cfg} (x : Except IoErr α) : (M.ofIo x).Tidy cfg := by
  cases x <;> exact fun _ _ h => h

/-- Calls that do not mutate do not matter. -/
theorem Own.may_of_quiet {cfg : Cfg} {s : Own} {o : Op} (h : o.mutates = false) : s.may cfg o := by
  cases o <;> first | trivial | cases h

theorem Own.upd_of_quiet {s : Own} {o : Op} (x : Resp o) (h : o.mutates = false) : s.upd o x = s := by
  cases o <;> first | rfl | cases h

theorem M.Tidy.of_all {α : Type} {cfg : Cfg} {m : M α} (h : m.All (fun o => o.mutates = false)) :
    m.Tidy cfg := by
  intro r s hs
  refine M.wp_mono (M.All.wp h r s (fun o ho => Own.may_of_quiet ho) (fun o x ho _ => Own.upd_of_quiet x ho)) ?_
  rintro _ _ s' rfl
  exact hs

/-- A single allowed call that does not create a temporary file. -/
theorem M.Tidy.op {cfg : Cfg} {o : Op} (h1 : ∀ s : Own, s.tmp = none → s.may cfg o)
    (h2 : ∀ (s : Own) x, s.tmp = none → (s.upd o x).tmp = none) : (M.op o).Tidy cfg :=
  fun _ s hs => ⟨h1 s hs, fun x _ => h2 s x hs⟩

/-! ### Uploads -/

theorem Own.wrote_tmp {s : Own} {p : Path} {i : Ino} {c : Option Bytes} (h : s.tmp = some (p, i, c))
    (b : Bytes) (ok : Bool) : (s.wrote i b ok).tmp = some (p, i, if ok then c.map (· ++ b) else none) := by
  simp [Own.wrote, h]

theorem own_copyInF (cfg : Cfg) (bufs : Nat → Nat) (p : Path) (i : Ino) :
    ∀ f n acc r (s : Own), s.tmp = some (p, i, some acc) →
      (copyInF bufs i f n acc).wp (Logic.own cfg) r s (fun x _ s' =>
        x.elim (fun d => s'.tmp = some (p, i, some d)) (fun _ => ∃ c, s'.tmp = some (p, i, c))
          (∃ c, s'.tmp = some (p, i, c)))
  | 0, _, acc, _, s, h => ⟨some acc, h⟩
  | f + 1, n, acc, r, s, h => by
    unfold copyInF
    rw [M.wp_bind, M.wp_rdr]
    rcases hr : r.read (bufs n + 1) with ⟨(d | e | _), r'⟩
    · simp only [Res.elim_ok]
      split
      · exact h
      · rw [M.wp_bind, M.wp_op]
        refine ⟨.inl ⟨p, _, h⟩, fun x _ => ?_⟩
        simp only [Res.elim_ok]
        rw [M.wp_bind, M.wp_ofIo]
        cases x with
        | error e => exact ⟨_, Own.wrote_tmp h d false⟩
        | ok u => exact own_copyInF cfg bufs p i f (n + 1) (acc ++ d) r' _ (Own.wrote_tmp h d true)
    · exact ⟨some acc, h⟩
    · exact ⟨some acc, h⟩

theorem own_copyIn (cfg : Cfg) (bufs : Nat → Nat) (p : Path) (i : Ino) (r : Rdr) (s : Own)
    (h : s.tmp = some (p, i, some [])) :
    (copyIn bufs i).wp (Logic.own cfg) r s (fun x _ s' =>
        x.elim (fun d => s'.tmp = some (p, i, some d)) (fun _ => ∃ c, s'.tmp = some (p, i, c))
          (∃ c, s'.tmp = some (p, i, c))) :=
  own_copyInF cfg bufs p i (r.input.length + r.pending.length + 1) 0 [] r s h

theorem own_dropTmp (cfg : Cfg) (p : Path) (r : Rdr) (s : Own) (h : ∃ i c, s.tmp = some (p, i, c)) :
    (dropFile p).wp (Logic.own cfg) r s (fun _ _ s' => s'.tmp = none) := by
  unfold dropFile
  rw [M.wp_bind, M.wp_op]
  refine ⟨.inl h, fun x _ => ?_⟩
  obtain ⟨i, c, h⟩ := h
  show (s.removed p).tmp = none
  simp [Own.removed, h]

theorem own_startUpload (cfg : Cfg) (oid : Bytes) (r : Rdr) (s : Own) (h : s.tmp = none) :
    (startUpload cfg oid).wp (Logic.own cfg) r s (fun x _ s' =>
      x.elim (fun a => ∃ i, s'.tmp = some (a.1, i, some a.2)) (fun _ => s'.tmp = none) (s'.tmp = none)) := by
  unfold startUpload
  rw [M.wp_bind, M.wp_op]
  refine ⟨⟨rfl, h⟩, fun x _ => ?_⟩
  simp only [Res.elim_ok]
  rw [M.wp_bind, M.wp_ofIo]
  cases x with
  | error e => exact h
  | ok pi =>
    obtain ⟨p, i⟩ := pi
    simp only [Res.elim_ok]
    rw [M.wp_onFail, M.wp_bind]
    refine M.wp_mono (own_copyIn cfg cfg.copyBuf p i r _ rfl) ?_
    rintro (d | e | _) r' s' hs'
    · exact ⟨i, hs'⟩
    · obtain ⟨c, hc⟩ := hs'
      exact own_dropTmp cfg p r' s' ⟨i, c, hc⟩
    · obtain ⟨c, hc⟩ := hs'
      exact own_dropTmp cfg p r' s' ⟨i, c, hc⟩

theorem wp_oidNew {σ : Type} (L : Logic σ) (a : Bytes) (r : Rdr) (s : σ) (Q) :
    (oidNew a).wp L r s Q = (if oidValid a = true then Q (.ok a) r s
      else Q (.err (Err.simple .invalidLFSOid)) r s) := by
  unfold oidNew
  split <;> rfl

/-- What `checkUpload` establishes. -/
theorem wp_checkUpload {σ : Type} (L : Logic σ) (cfg : Cfg) (oid : Bytes) (n : Nat) (data : Bytes)
    (r : Rdr) (s : σ) : (checkUpload cfg oid n data).wp L r s (fun x r' s' => r' = r ∧ s' = s ∧
      (x = .ok () → data.length = n ∧ oidValid (hexEncode (cfg.sha data)) = true ∧
        hexEncode (cfg.sha data) = oid) ∧ x ≠ .panic ∧
      (∀ e, x = .err e → e.kind ∈ [.missingData, .extraData, .corruptData, .invalidLFSOid])) := by
  unfold checkUpload
  split
  · exact ⟨rfl, rfl, by simp, by simp, by rintro e ⟨⟩; simp [Err.withMsg]⟩
  · split
    · exact ⟨rfl, rfl, by simp, by simp, by rintro e ⟨⟩; simp [Err.withMsg]⟩
    · rw [M.wp_bind, wp_oidNew]
      split
      · rename_i h1 h2 hv
        simp only [Res.elim_ok]
        split
        · exact ⟨rfl, rfl, by simp, by simp, by rintro e ⟨⟩; simp [Err.withMsg]⟩
        · rename_i h3
          refine ⟨rfl, rfl, fun _ => ⟨by omega, hv, ?_⟩, by simp, by simp⟩
          simpa using h3
      · exact ⟨rfl, rfl, by simp, by simp, by rintro e ⟨⟩; simp [Err.simple]⟩

theorem own_finishUpload (cfg : Cfg) (oid : Bytes) (p : Path) (i : Ino) (data : Bytes)
    (hv : oidValid oid = true) (ho : hexEncode (cfg.sha data) = oid)
    (r : Rdr) (s : Own) (h : s.tmp = some (p, i, some data)) :
    (finishUpload cfg oid p).wp (Logic.own cfg) r s (fun _ _ s' => s'.tmp = none) := by
  unfold finishUpload
  rw [M.wp_bind, M.wp_onFail, M.wp_bind, M.wp_op]
  refine ⟨.inr ⟨oid, hv, rfl⟩, fun x _ => ?_⟩
  simp only [Res.elim_ok]
  rw [M.wp_bind, M.wp_ofIo]
  cases x with
  | error e => exact own_dropTmp cfg p r _ ⟨i, _, h⟩
  | ok u =>
    simp only [Res.elim_ok]
    rw [M.wp_bind, M.wp_op]
    refine ⟨⟨i, data, h, by rw [ho]; exact hv, by rw [ho]⟩, fun x _ => ?_⟩
    cases x with
    | error e => exact own_dropTmp cfg p r _ ⟨i, _, h⟩
    | ok u =>
      simp only [Res.elim_ok]
      have : (fixPermissions cfg (objPath cfg.root oid)).Tidy cfg := by
        unfold fixPermissions
        refine .bind (.op (fun _ _ => trivial) fun s x h => h) fun _ => .bind (.ofIo _) fun _ =>
          .bind (.op (fun _ _ => ⟨rfl, oid, hv, rfl⟩) fun s x h => h) fun _ => .ofIo _
      exact this r _ rfl

theorem tidy_putObject (cfg : Cfg) (a : Bytes) : (putObject cfg a).Tidy cfg := by
  intro r s hs
  unfold putObject
  rw [M.wp_bind, wp_oidNew]
  split
  · rename_i hv
    simp only [Res.elim_ok]
    refine M.Tidy.bind (.rdr _) (fun items => .bind (.ofRes _) fun args => .bind (.ofRes _) fun n => ?_) r s hs
    intro r s hs
    rw [M.wp_bind]
    refine M.wp_mono (own_startUpload cfg a r s hs) ?_
    rintro (⟨p, data⟩ | e | _) r' s' hs'
    · obtain ⟨i, hi⟩ := hs'
      simp only [Res.elim_ok]
      rw [M.wp_bind, M.wp_onFail]
      refine M.wp_mono (wp_checkUpload _ cfg a n data r' s') ?_
      rintro (u | e | _) r'' s'' ⟨rfl, rfl, h1, _, _⟩
      · simp only [Res.elim_ok]
        obtain ⟨_, _, ho⟩ := h1 rfl
        rw [M.wp_bind]
        refine M.wp_mono (own_finishUpload cfg a p i data hv ho _ _ hi) ?_
        rintro (u | e | _) r3 s3 h3 <;> exact h3
      · exact own_dropTmp cfg p _ _ ⟨i, _, hi⟩
      · exact own_dropTmp cfg p _ _ ⟨i, _, hi⟩
    · exact hs'
    · exact hs'
  · exact hs

/-! ### Locks -/

theorem tidy_unlinkLock (cfg : Cfg) (p : Path) (h : ∃ x, p = lockPath cfg x) :
    (M.op (.unlink p)).Tidy cfg := by
  obtain ⟨x, h⟩ := h
  refine .op (fun s _ => .inr ⟨x, .inr h⟩) (fun s x hs => ?_)
  show (s.removed p).tmp = none
  simp [Own.removed, hs]

/-- The temporary lock file was asked for, and there is no temporary upload file. -/
def Own.Asked (cfg : Cfg) (x : Bytes) (s : Own) : Prop :=
  s.tmp = none ∧ ∃ v, s.win = some (lockTemp cfg x, v)

theorem own_lockWrite (cfg : Cfg) (x : Bytes) (t : Int) (r : Rdr) (s : Own) (hs : s.tmp = none) :
    (lockWrite cfg (lockTemp cfg x) (lockRecord t x)).wp (Logic.own cfg) r s (fun y _ s' =>
      s'.Asked cfg x ∧ (y = .ok () → ∃ i, s'.win = some (lockTemp cfg x, some (i, some (lockRecord t x))))) := by
  unfold lockWrite
  rw [M.wp_bind, M.wp_op]
  refine ⟨⟨x, rfl⟩, fun y _ => ?_⟩
  cases y with
  | error e =>
    simp only [Res.elim_ok]
    split <;> exact ⟨⟨hs, _, rfl⟩, fun h => by cases h⟩
  | ok i =>
    simp only [Res.elim_ok]
    rw [M.wp_bind, M.wp_op]
    refine ⟨.inr ⟨by simp [Logic.own, Own.base], x, t, [], rfl, rfl⟩, fun z _ => ?_⟩
    have hw : ∀ ok : Bool, winWrote (some (lockTemp cfg x, some (i, some []))) i (lockRecord t x) ok =
        some (lockTemp cfg x, some (i, if ok then some (lockRecord t x) else none)) := by
      intro ok; simp [winWrote]
    simp only [Res.elim_ok]
    rw [M.wp_ofIo]
    cases z with
    | error e => exact ⟨⟨by simp [Own.base, Logic.own, Own.wrote, hs], _, hw false⟩, fun h => by cases h⟩
    | ok u => exact ⟨⟨by simp [Own.base, Logic.own, Own.wrote, hs], _, hw true⟩, fun _ => ⟨i, hw true⟩⟩

theorem own_lockPersist (cfg : Cfg) (x : Bytes) (t : Int) (r : Rdr) (s : Own) (hs : s.Asked cfg x)
    (hw : ∃ i, s.win = some (lockTemp cfg x, some (i, some (lockRecord t x)))) :
    (lockPersist (lockTemp cfg x) (lockPath cfg x)).wp (Logic.own cfg) r s (fun _ _ s' => s'.Asked cfg x) := by
  unfold lockPersist
  rw [M.wp_bind, M.wp_op]
  obtain ⟨i, hw⟩ := hw
  refine ⟨⟨x, t, i, rfl, rfl, hw⟩, fun y _ => ?_⟩
  cases y with
  | error e =>
    simp only [Res.elim_ok]
    split <;> exact ⟨hs.1, _, by simp [Logic.own, winUpd, hw]; rfl⟩
  | ok i => exact ⟨hs.1, _, by simp [Logic.own, winUpd, hw]; rfl⟩

theorem tidy_lockCreate (cfg : Cfg) (x : Bytes) : (lockCreate cfg x).Tidy cfg := by
  have ht : (timestamp cfg).Tidy cfg := .of_all ((looks_timestamp cfg).mono fun _ => Looks.not_mutates)
  have hu : ∀ p, (userForFile cfg p).Tidy cfg := fun p =>
    .of_all ((looks_userForFile cfg p).mono fun _ => Looks.not_mutates)
  unfold lockCreate
  refine .bind ht fun t => .bind ?_ fun _ => .bind (hu _) fun u => .bind ht fun t2 => .pure _
  intro r s hs
  rw [M.wp_after, M.wp_bind]
  have hd : ∀ (r : Rdr) (s : Own), s.Asked cfg x → (dropFile (lockTemp cfg x)).wp (Logic.own cfg) r s
      (fun _ _ s' => s'.tmp = none) := by
    intro r s hs
    unfold dropFile
    rw [M.wp_bind, M.wp_op]
    obtain ⟨hs, v, hv⟩ := hs
    refine ⟨.inr ⟨x, .inl ⟨rfl, v, hv⟩⟩, fun y _ => ?_⟩
    show (s.removed _).tmp = none
    simp [Own.removed, hs]
  refine M.wp_mono (own_lockWrite cfg x t r s hs) ?_
  rintro (u | e | _) r s ⟨h1, h2⟩
  · rw [Res.elim_ok]
    refine M.wp_mono (own_lockPersist cfg x t r s h1 (h2 rfl)) ?_
    exact fun _ r s hs => hd r s hs
  · rw [Res.elim_err]; exact hd r s h1
  · rw [Res.elim_panic]; exact hd r s h1

theorem tidy_lockLoop (cfg : Cfg) (x : Bytes) : (lockLoop cfg x).Tidy cfg := by
  have hf : (lockFromPath cfg x).Tidy cfg :=
    .of_all ((looks_lockFromPath cfg x).mono fun _ => Looks.not_mutates)
  have ha : ∀ l, (lockArgs cfg l).Tidy cfg := fun l =>
    .of_all ((looks_lockArgs cfg l).mono fun _ => Looks.not_mutates)
  unfold lockLoop
  refine .bind (.attempt (tidy_lockCreate cfg x)) fun y => ?_
  cases y with
  | ok l => exact .bind (ha _) fun _ => .pure _
  | error e =>
    simp only []
    split
    · refine .bind hf fun z => ?_
      cases z with
      | none => exact .panic
      | some l => exact .bind (ha _) fun _ => .pure _
    · exact .throw _

theorem tidy_lockCmd (cfg : Cfg) : (lockCmd cfg).Tidy cfg := by
  unfold lockCmd
  refine .bind (.of_all (looks_readToFlushParse.mono fun _ => Looks.not_mutates)) fun d =>
    .bind (.ofRes _) fun args => ?_
  split
  · exact tidy_lockLoop cfg _
  · exact .throw _

theorem tidy_unlockCmd (cfg : Cfg) (id : Bytes) : (unlockCmd cfg id).Tidy cfg := by
  have hf : (lockFromId cfg id).Tidy cfg :=
    .of_all ((looks_lockFromId cfg id).mono fun _ => Looks.not_mutates)
  have ha : ∀ l, (lockArgs cfg l).Tidy cfg := fun l =>
    .of_all ((looks_lockArgs cfg l).mono fun _ => Looks.not_mutates)
  unfold unlockCmd
  refine .bind (.rdr _) fun _ => ?_
  split
  · exact .throw _
  · refine .bind hf fun y => ?_
    cases y with
    | none => exact .pure _
    | some l =>
      refine .bind (ha _) fun _ => .bind (.attempt ?_) fun z => ?_
      · unfold lockUnlock
        exact .bind (tidy_unlinkLock cfg _ ⟨_, rfl⟩) fun _ => .ofIo _
      · cases z with
        | ok u => exact .pure _
        | error e =>
          simp only []
          split
          · exact .pure _
          · split
            · exact .pure _
            · exact .throw _

/-! ### The whole program -/

theorem tidy_dispatch (cfg : Cfg) (mode : Mode) (cmd : Bytes) (arg : Option Bytes) :
    (dispatch cfg mode cmd arg).Tidy cfg := by
  have q : ∀ {α : Type} {m : M α}, m.All Looks → m.Tidy cfg := fun h =>
    .of_all (h.mono fun _ => Looks.not_mutates)
  unfold dispatch
  repeat' (first
    | split
    | exact .pure _
    | exact tidy_putObject cfg _
    | exact tidy_lockCmd cfg
    | exact tidy_unlockCmd cfg _
    | exact q looks_versionCmd
    | exact q (looks_batchCmd cfg _ _)
    | exact q (looks_verifyObject cfg _)
    | exact q (looks_getObject cfg _)
    | exact q (looks_listLocks cfg _))

theorem tidy_turn (cfg : Cfg) (mode : Mode) : (turn cfg mode).Tidy cfg := by
  have h1 := fun c m => M.Tidy.of_all (cfg := cfg) (replies_sendError c m)
  have h2 := fun st => M.Tidy.of_all (cfg := cfg) (replies_sendStatus st)
  unfold turn
  refine .bind (.attempt (.rdr _)) fun x => ?_
  split
  · split
    · exact .pure _
    · exact .throw _
  · split
    · exact .bind (h1 _ _) fun _ => .pure _
    · split
      · exact .bind (h1 _ _) fun _ => .pure _
      · simp only []
        split
        · exact .bind (h2 _) fun _ => .pure _
        · refine .bind (.attempt (tidy_dispatch _ _ _ _)) fun y => ?_
          split <;> exact .bind (h2 _) fun _ => .pure _

theorem tidy_processF (cfg : Cfg) (mode : Mode) : ∀ f, (processF cfg mode f).Tidy cfg
  | 0 => .panic
  | f + 1 => by
    unfold processF
    refine .bind (tidy_turn cfg mode) fun t => ?_
    cases t with
    | done => exact .pure _
    | again => exact tidy_processF cfg mode f

theorem tidy_mkdirs (cfg : Cfg) : ∀ ps, (∀ p ∈ ps, p ∈ skeleton cfg.root) → (mkdirs ps).Tidy cfg
  | [], _ => .pure _
  | p :: ps, h => by
    unfold mkdirs
    exact .bind (.op (fun _ _ => .inl (h p (by simp))) fun _ _ h => h) fun _ => .bind (.ofIo _) fun _ =>
      tidy_mkdirs cfg ps fun q hq => h q (by simp [hq])

theorem tidy_runProgram (cfg : Cfg) (op : Bytes) : (runProgram cfg op).Tidy cfg := by
  unfold runProgram createDirectories sendCapabilities
  refine .bind (tidy_mkdirs cfg _ fun p h => h) fun _ => .bind (.bind (.of_all (replies_send _)) fun _ =>
    .of_all replies_sendFlush) fun _ => ?_
  split
  · exact fun r s hs => tidy_processF cfg _ _ r s hs
  · split
    · exact fun r s hs => tidy_processF cfg _ _ r s hs
    · exact .throw _

/-- The whole server process follows the rules of `Logic.own`. -/
theorem own_mainProg (cfg : Cfg) (op : Bytes) (r : Rdr) :
    (mainProg cfg op r).wp (Logic.own cfg) ⟨none, [], none⟩ (fun _ s => s.tmp = none) := by
  unfold mainProg
  rw [Prog.wp_bind]
  refine Prog.wp_mono (tidy_runProgram cfg op r ⟨none, [], none⟩ rfl) ?_
  rintro ⟨(a | e | _), r'⟩ s h <;> exact h

end Verif
