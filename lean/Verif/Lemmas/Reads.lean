import Verif.Spec.Reads
import Verif.Lemmas.Own
import Verif.Lemmas.ServeList
import Verif.Lemmas.Output
import Verif.Props.Loop
import Verif.Props.Store
/-! Which files the server looks at. -/
namespace Verif
open Spec

/-- The ghost state is the list of handles obtained. Files named must satisfy `P`, handles read must
have been obtained. -/
def Logic.rd (P : FPath → Prop) : Logic (List (Option Ino)) where
  pre s o := (∀ f, fileOf o = some f → P f) ∧ ∀ h, handleOf o = some h → h ∈ s
  upd s o x := match o, x with
    | .openRead _, .ok h => h :: s
    | _, _ => s
  legal _ o x := Event.NamesOk ⟨o, x⟩

/-- Calls that look at no file. -/
def Plain (o : Op) : Prop := fileOf o = none ∧ handleOf o = none

theorem rd_upd_le (P : FPath → Prop) (s : List (Option Ino)) (o : Op) (x : Resp o) :
    s ⊆ (Logic.rd P).upd s o x := by
  unfold Logic.rd
  simp only
  split
  · exact fun _ h => .tail _ h
  · exact fun _ h => h

def M.RdI {α : Type} (P : FPath → Prop) (m : M α) (s : List (Option Ino)) (Q : α → List (Option Ino) → Prop) : Prop :=
  ∀ r, m.wp (Logic.rd P) r s (fun x _ s' => s ⊆ s' ∧ ∀ a, x = .ok a → Q a s')

def M.Rd {α : Type} (P : FPath → Prop) (m : M α) : Prop := ∀ s, m.RdI P s (fun _ _ => True)

variable {P : FPath → Prop} {α β : Type}

namespace M.RdI
variable {s : List (Option Ino)} {Q : α → List (Option Ino) → Prop} {Q' : β → List (Option Ino) → Prop}

theorem pure {a : α} (h : Q a s) : (Pure.pure a : M α).RdI P s Q :=
  fun _ => ⟨fun _ h => h, fun b hb => by cases hb; exact h⟩
theorem throw (e : Err) : (M.throw e : M α).RdI P s Q := fun _ => ⟨fun _ h => h, fun _ h => by cases h⟩
theorem panic : (M.panic : M α).RdI P s Q := fun _ => ⟨fun _ h => h, fun _ h => by cases h⟩

theorem bind {m : M α} {f : α → M β} (h : m.RdI P s Q) (hf : ∀ a s', s ⊆ s' → Q a s' → (f a).RdI P s' Q') :
    (m >>= f).RdI P s Q' := by
  intro r
  rw [M.wp_bind]
  refine M.wp_mono (h r) ?_
  rintro (a | e | _) r' s' ⟨h1, h2⟩
  · rw [Res.elim_ok]
    exact M.wp_mono (hf a s' h1 (h2 a rfl) r') fun _ _ _ h => ⟨fun _ hx => h.1 (h1 hx), h.2⟩
  · exact ⟨h1, fun _ h => by cases h⟩
  · exact ⟨h1, fun _ h => by cases h⟩

theorem attempt {m : M α} (h : m.RdI P s Q) : (M.attempt m).RdI P s (fun y s' => ∀ a, y = .ok a → Q a s') := by
  intro r
  rw [M.wp_attempt]
  refine M.wp_mono (h r) ?_
  rintro (a | e | _) r' s' ⟨h1, h2⟩
  · rw [Res.elim_ok]
    refine ⟨h1, fun y hy b hb => ?_⟩
    cases hy; cases hb
    exact h2 _ rfl
  · exact ⟨h1, fun y hy b hb => by cases hy; cases hb⟩
  · exact ⟨h1, fun y hy => by cases hy⟩

theorem mono {m : M α} {Q2 : α → List (Option Ino) → Prop} (h : m.RdI P s Q)
    (hq : ∀ a s', s ⊆ s' → Q a s' → Q2 a s') : m.RdI P s Q2 :=
  fun r => M.wp_mono (h r) fun _ _ _ h => ⟨h.1, fun a ha => hq a _ h.1 (h.2 a ha)⟩

/-- Fewer restrictions on names. -/
theorem weaken {P' : FPath → Prop} {m : M α} (h : m.RdI P s Q) (hp : ∀ f, P f → P' f) : m.RdI P' s Q := by
  intro r
  have key : ∀ {β : Type} (p : Prog β) (s : List (Option Ino)) (Q : β → List (Option Ino) → Prop),
      p.wp (Logic.rd P) s Q → p.wp (Logic.rd P') s Q := by
    intro β p
    induction p with
    | ret a => exact fun _ _ h => h
    | call o k ih =>
      intro s Q h
      exact ⟨⟨fun f hf => hp f (h.1.1 f hf), h.1.2⟩, fun x hx => ih x _ _ (h.2 x hx)⟩
  exact key _ _ _ (h r)

end M.RdI

namespace M.Rd

theorem pure (a : α) : (Pure.pure a : M α).Rd P := fun _ => .pure trivial
theorem throw (e : Err) : (M.throw e : M α).Rd P := fun _ => .throw e
theorem panic : (M.panic : M α).Rd P := fun _ => .panic
theorem bind {m : M α} {f : α → M β} (h : m.Rd P) (hf : ∀ a, (f a).Rd P) : (m >>= f).Rd P :=
  fun s => .bind (h s) fun a s' _ _ => hf a s'
theorem attempt {m : M α} (h : m.Rd P) : (M.attempt m).Rd P :=
  fun s => (M.RdI.attempt (h s)).mono fun _ _ _ _ => trivial

theorem after {m : M α} {c : M Unit} (h : m.Rd P) (hc : c.Rd P) : (M.after m c).Rd P := by
  intro s r
  rw [M.wp_after]
  refine M.wp_mono (h s r) ?_
  rintro x r' s' ⟨h1, _⟩
  exact M.wp_mono (hc s' r') fun _ _ _ h => ⟨fun _ hx => h.1 (h1 hx), fun _ _ => trivial⟩

theorem onFail {m : M α} {c : M Unit} (h : m.Rd P) (hc : c.Rd P) : (M.onFail m c).Rd P := by
  intro s r
  rw [M.wp_onFail]
  refine M.wp_mono (h s r) ?_
  rintro (a | e | _) r' s' ⟨h1, _⟩
  · exact ⟨h1, fun _ _ => trivial⟩
  · rw [Res.elim_err]
    exact M.wp_mono (hc s' r') fun _ _ _ h => ⟨fun _ hx => h.1 (h1 hx), fun _ _ => trivial⟩
  · rw [Res.elim_panic]
    exact M.wp_mono (hc s' r') fun _ _ _ h => ⟨fun _ hx => h.1 (h1 hx), fun _ _ => trivial⟩

theorem op {o : Op} (hf : ∀ f, fileOf o = some f → P f) (hh : handleOf o = none) : (M.op o).Rd P :=
  fun s _ => ⟨⟨hf, fun h hx => by rw [hh] at hx; cases hx⟩, fun x _ => ⟨rd_upd_le P s o x, fun _ _ => trivial⟩⟩

theorem plain {m : M α} (h : m.All Plain) : m.Rd P := by
  intro s r
  refine M.wp_mono (M.All.wp h r s ?_ ?_) ?_
  · intro o ho
    exact ⟨fun f hf => (by rw [ho.1] at hf; cases hf), fun x hx => (by rw [ho.2] at hx; cases hx)⟩
  · intro o x ho _
    cases o <;> first | rfl | cases ho.1
  · rintro x r' s' rfl
    exact ⟨fun _ h => h, fun _ _ => trivial⟩

theorem mono {P' : FPath → Prop} {m : M α} (h : m.Rd P) (hp : ∀ f, P f → P' f) : m.Rd P' :=
  fun s => (h s).weaken hp

end M.Rd

/-! ### Functions that look at no file -/

theorem plain_outBytes (b : Bytes) : (outBytes b).All Plain := by
  unfold outBytes
  exact .bind (.op ⟨rfl, rfl⟩) fun _ => .ofIo _
theorem plain_writeChunks : ∀ cs, (writeChunks cs).All Plain
  | [] => .pure _
  | c :: cs => by
    unfold writeChunks writeOne
    exact .bind (.bind (plain_outBytes _) fun _ => plain_outBytes _) fun _ => plain_writeChunks cs
theorem plain_send (m : Bytes) : (send m).All Plain := plain_writeChunks _
theorem plain_sendAll : ∀ ms, (sendAll ms).All Plain
  | [] => .pure _
  | m :: ms => by
    unfold sendAll
    exact .bind (plain_send _) fun _ => plain_sendAll ms
theorem plain_sendFlush : sendFlush.All Plain := by
  unfold sendFlush
  exact .bind (plain_outBytes _) fun _ => .bind (.op ⟨rfl, rfl⟩) fun _ => .ofIo _
theorem plain_sendDelim : sendDelim.All Plain := plain_outBytes _
theorem plain_sendError (c : Nat) (m : Bytes) : (sendError c m).All Plain := by
  unfold sendError
  exact .bind (plain_send _) fun _ => .bind plain_sendDelim fun _ => .bind (plain_send _) fun _ => plain_sendFlush
theorem plain_dropFile (p : Path) : (dropFile p).All Plain := by
  unfold dropFile
  exact .bind (.op ⟨rfl, rfl⟩) fun _ => .pure _
theorem plain_copyInF (bufs : Nat → Nat) (ino : Ino) : ∀ f i acc, (copyInF bufs ino f i acc).All Plain
  | 0, _, _ => .panic
  | f + 1, i, acc => by
    unfold copyInF
    refine .bind (.rdr _) (fun d => ?_)
    have ih := plain_copyInF bufs ino f (i + 1) (acc ++ d)
    split
    · exact .pure _
    · exact .bind (.op ⟨rfl, rfl⟩) fun _ => .bind (.ofIo _) fun _ => ih
theorem plain_startUpload (cfg : Cfg) (oid : Bytes) : (startUpload cfg oid).All Plain := by
  unfold startUpload
  refine .bind (.op ⟨rfl, rfl⟩) (fun _ => .bind (.ofIo _) (fun _ => ?_))
  split
  refine .onFail (.bind (fun r => plain_copyInF _ _ _ _ _ r) (fun _ => .pure _)) (plain_dropFile _)
theorem plain_checkUpload (cfg : Cfg) (oid : Bytes) (n : Nat) (d : Bytes) :
    (checkUpload cfg oid n d).All Plain := by
  unfold checkUpload oidNew
  all_ops
theorem plain_readToFlushParse : readToFlushParse.All Plain := by
  unfold readToFlushParse readToFlush; all_ops
theorem plain_timestamp (cfg : Cfg) : (timestamp cfg).All Plain := by
  unfold timestamp
  split
  · exact .pure _
  · exact .op ⟨rfl, rfl⟩
theorem plain_fmtTimestamp (cfg : Cfg) (l : LockInfo) : (fmtTimestamp cfg l).All Plain := by
  unfold fmtTimestamp; all_ops
theorem plain_lockArgs (cfg : Cfg) (l : LockInfo) : (lockArgs cfg l).All Plain := by
  unfold lockArgs
  exact .bind (plain_fmtTimestamp _ _) fun _ => .pure _
theorem plain_lockSpec (cfg : Cfg) (o : Bool) (l : LockInfo) : (lockSpec cfg o l).All Plain := by
  unfold lockSpec
  refine .bind (plain_fmtTimestamp _ _) fun _ => ?_
  simp only []
  all_ops
theorem plain_lockSpecs (cfg : Cfg) (o : Bool) : ∀ ls, (lockSpecs cfg o ls).All Plain
  | [] => .pure _
  | l :: ls => by
    unfold lockSpecs
    exact .bind (plain_lockSpec _ _ _) fun _ => .bind (plain_lockSpecs cfg o ls) fun _ => .pure _
theorem plain_versionCmd : versionCmd.All Plain := by
  unfold versionCmd readToFlush
  exact .bind (.rdr _) fun _ => .pure _

/-! ### Functions that look at files -/

variable {cfg : Cfg}

theorem objPath_file (root : Path) (oid : Bytes) : objPath root oid = objectFile root oid := by
  simp [objPath, objectFile, objectDir]

theorem inside_obj {oid : Bytes} (h : oidValid oid = true) : Inside cfg.root (.exact (objPath cfg.root oid)) := by
  rw [objPath_file]
  exact .object ((oidValid_iff _).mp h)

theorem rd_oidNew {a : Bytes} {f : Bytes → M β} (h : oidValid a = true → (f a).Rd P) :
    (oidNew a >>= f).Rd P := by
  intro s r
  rw [M.wp_bind, wp_oidNew]
  split
  · rename_i hv
    exact h hv s r
  · exact ⟨fun _ h => h, fun _ h => by cases h⟩

theorem rd_putObject (oid : Bytes) : (putObject cfg oid).Rd (Inside cfg.root) := by
  unfold putObject readToDelim finishUpload fixPermissions
  refine rd_oidNew fun hv => .bind (.plain (.rdr _)) fun _ => .bind (.plain (.ofRes _)) fun _ => .bind (.plain (.ofRes _)) fun _ =>
    .bind (.plain (plain_startUpload _ _)) fun _ => ?_
  split
  refine .bind (.plain (.onFail (plain_checkUpload _ _ _ _) (plain_dropFile _))) fun _ => .bind (.bind (.plain
    (.onFail (.bind (.op ⟨rfl, rfl⟩) fun _ => .bind (.ofIo _) fun _ => .bind (.op ⟨rfl, rfl⟩) fun _ => ?_) (plain_dropFile _))) fun _ =>
      .bind (.op ?_ rfl) fun _ => .bind (.plain (.ofIo _)) fun _ => .bind (.plain (.op ⟨rfl, rfl⟩)) fun _ => .plain (.ofIo _)) fun _ =>
    .pure _
  · all_ops
  · rintro f hf
    cases hf
    exact inside_obj hv

theorem rd_backendBatch : ∀ l : List (Bytes × Nat), (∀ x ∈ l, oidValid x.1 = true) →
    (backendBatch cfg l).Rd (Inside cfg.root)
  | [], _ => .pure _
  | (oid, n) :: rest, h => by
    unfold backendBatch
    refine .bind (.op ?_ rfl) fun _ => .bind (rd_backendBatch rest fun x hx => h x (by simp [hx])) fun _ => .pure _
    rintro f hf
    cases hf
    exact inside_obj (h (oid, n) (by simp))

theorem parseBatchLines_valid : ∀ (ls : List Bytes) (xs : List (Bytes × Nat)), parseBatchLines ls = .ok xs →
    ∀ x ∈ xs, oidValid x.1 = true
  | [], xs, h, x, hx => by cases h; cases hx
  | l :: ls, xs, h, x, hx => by
    unfold parseBatchLines at h
    split at h
    · cases h
    · cases h
    · rename_i y hy
      split at h
      · rename_i ys hys
        cases h
        rcases List.mem_cons.mp hx with rfl | hx
        · unfold parseBatchLine at hy
          repeat' split at hy
          all_goals first | (cases hy; done) | (cases hy; assumption)
        · exact parseBatchLines_valid ls ys hys x hx
      · cases h
      · cases h

theorem rd_batchCmd (p m : Bytes) : (batchCmd cfg p m).Rd (Inside cfg.root) := by
  have key : ∀ data, (do let oids ← M.ofRes (parseBatchLines data); backendBatch cfg oids : M _).Rd (Inside cfg.root) := by
    intro data s
    refine .bind (Q := fun xs _ => ∀ x ∈ xs, oidValid x.1 = true) ?_ fun xs s' _ h => rd_backendBatch xs h s'
    exact fun r => ⟨fun _ h => h, fun a h => parseBatchLines_valid _ _ h⟩
  unfold batchCmd readBatch readToDelim
  refine .bind ?_ fun _ => .pure _
  refine .bind (.plain (.rdr _)) fun _ => .bind (.plain (.ofRes _)) fun _ => .bind (.plain plain_readToFlushParse) fun _ => ?_
  split <;> (try split) <;> simp only [] <;>
    first
    | exact key _
    | exact .bind (.pure _) fun _ => key _
    | exact .bind (.throw _) fun _ => key _

theorem rd_verifyObject (oid : Bytes) : (verifyObject cfg oid).Rd (Inside cfg.root) := by
  unfold verifyObject backendVerify readToFlush
  refine .bind (.plain (.rdr _)) fun _ => .bind (.plain (.ofRes _)) fun _ => rd_oidNew fun hv =>
    .bind (.plain (.ofRes _)) fun _ => .bind (.op ?_ rfl) fun _ => .plain ?_
  · rintro f hf
    cases hf
    exact inside_obj hv
  · all_ops

/-- Opening a file: afterwards the handle may be used. -/
theorem rdi_open {s : List (Option Ino)} {f : FPath} (h : P f) :
    (M.op (.openRead f)).RdI P s (fun x s' => ∀ i, x = .ok i → i ∈ s') := by
  refine fun _ => ⟨⟨fun g hg => by cases hg; exact h, fun _ h => by cases h⟩, fun x _ => ⟨rd_upd_le P s _ x, ?_⟩⟩
  intro a ha i hi
  cases ha
  cases hi
  exact List.mem_cons_self

theorem rdi_handle {s : List (Option Ino)} {o : Op} {h : Option Ino} (hs : h ∈ s) (ho : handleOf o = some h) :
    (M.op o).RdI P s (fun _ _ => True) := by
  refine fun _ => ⟨⟨fun g hg => ?_, fun k hk => by rw [ho] at hk; cases hk; exact hs⟩, fun x _ =>
    ⟨rd_upd_le P s _ x, fun _ _ => trivial⟩⟩
  cases o <;> first | cases ho; done | cases hg

theorem rdi_ofIo {s : List (Option Ino)} {y : Except IoErr α} {Q : α → List (Option Ino) → Prop}
    (h : ∀ a, y = .ok a → Q a s) : (M.ofIo y).RdI P s Q := by
  cases y with
  | ok a => exact .pure (h a rfl)
  | error e => exact .throw _

/-- The handle in a status may be used. -/
def CanSend (st : Status) (s : List (Option Ino)) : Prop := ∀ h, st.reader = some h → h ∈ s

theorem rdi_getObject (oid : Bytes) (s : List (Option Ino)) : (getObject cfg oid).RdI (Inside cfg.root) s CanSend := by
  unfold getObject backendDownload readToFlush
  refine .bind (Q := fun _ _ => True) (M.Rd.plain (.rdr _) s) fun _ s1 _ _ =>
    .bind (Q := fun _ _ => True) (M.Rd.plain (.ofRes _) s1) fun _ s2 _ _ => ?_
  intro r
  rw [M.wp_bind, wp_oidNew]
  split
  on_goal 2 => exact ⟨fun _ h => h, fun _ h => by cases h⟩
  rename_i hv
  rw [Res.elim_ok]
  revert r
  show M.RdI _ _ _ _
  refine .bind (Q := fun y s' => ∀ a, y = .ok a → a.1 ∈ s') (.attempt ?_) ?_
  · refine .bind (rdi_open (inside_obj hv)) fun x s3 _ hx => .bind (Q := fun h s' => h ∈ s') (rdi_ofIo hx) fun h s4 _ hh =>
      .bind (Q := fun _ s' => h ∈ s') (fun r => M.wp_mono (rdi_handle (o := .fstat h) hh rfl r) fun _ _ _ k =>
        ⟨k.1, fun _ _ => k.1 hh⟩) fun y s5 _ h5 => .bind (Q := fun _ s' => h ∈ s') (rdi_ofIo fun _ _ => h5) fun z s6 _ h6 =>
        .pure h6
  · intro y s3 _ hy
    cases y with
    | ok a =>
      refine .pure fun h hh => ?_
      cases hh
      exact hy _ rfl
    | error e =>
      simp only []
      split
      · exact .pure fun h hh => by cases hh
      · exact .throw _

theorem rdi_sendStatus {st : Status} {s : List (Option Ino)} (h : CanSend st s) : (sendStatus st).RdI P s (fun _ _ => True) := by
  obtain ⟨code, args, ms, rd⟩ := st
  have ha : (match args with | some args => sendAll args | none => Pure.pure () : M Unit).Rd P := by
    cases args with
    | none => exact .pure _
    | some as => exact .plain (plain_sendAll _)
  unfold sendStatus
  simp only []
  refine .bind (Q := fun _ _ => True) (M.Rd.plain (plain_send _) s) fun _ s1 h1 _ => ?_
  have body : ∀ s2, s1 ⊆ s2 → (do
      match ms with
      | some ms => do
        sendDelim
        sendAll ms
      | none =>
        match rd with
        | some h => do
          sendDelim
          copyOut h
        | none => Pure.pure ()
      sendFlush : M Unit).RdI P s2 (fun _ _ => True) := by
    intro s2 h2
    cases ms with
    | some ms => exact M.Rd.plain (.bind plain_sendDelim fun _ => .bind (plain_sendAll _) fun _ => plain_sendFlush) s2
    | none =>
      cases rd with
      | none => exact M.Rd.plain plain_sendFlush s2
      | some k =>
        unfold copyOut
        refine .bind (Q := fun _ _ => True) (M.Rd.plain plain_sendDelim s2) fun _ s3 h3 _ => ?_
        refine .bind (Q := fun _ _ => True) ?_ fun _ s4 _ _ => M.Rd.plain plain_sendFlush s4
        refine .bind (rdi_handle (o := .readAll k) (h3 (h2 (h1 (h k rfl)))) rfl) fun x s4 _ _ => M.Rd.plain ?_ s4
        refine .bind (plain_sendAll _) fun _ => ?_
        split
        · exact .pure _
        · exact .throw _
  cases args with
  | none => exact body s1 fun _ h => h
  | some as => exact .bind (Q := fun _ _ => True) (M.Rd.plain (plain_sendAll _) s1) fun _ s2 h2 _ => body s2 h2

/-! ### Locks -/

theorem rd_userForFile {f : FPath} (h : P f) : (userForFile cfg f).Rd P := by
  unfold userForFile
  refine .bind (.op (fun g hg => by cases hg; exact h) rfl) fun x => ?_
  split <;> exact .pure _

theorem rd_lockFromId {id : Bytes} (h : P (.join (locksDir cfg.root) id)) : (lockFromId cfg id).Rd P := by
  intro s
  unfold lockFromId
  refine .bind (rdi_open h) fun x s1 _ hx => ?_
  split
  · split
    · exact .pure trivial
    · exact .throw _
  · rename_i i
    refine .bind (rdi_handle (o := .readAll i) (hx i rfl) rfl) fun y s2 _ _ => ?_
    obtain ⟨cs, e⟩ := y
    cases e with
    | some e => exact .throw _
    | none =>
      refine .bind (Q := fun _ _ => True) (rd_userForFile h s2) fun _ s3 _ _ => ?_
      split
      · exact .throw _
      · exact .pure trivial

theorem entryName_oid {id : Bytes} (h : IsOid id) : EntryName id := by
  refine ⟨fun hm => ?_, fun e => ?_⟩
  · have := h.2 _ hm
    revert this
    decide
  · have := h.1
    rw [e] at this
    simp at this

variable (hsha : ∀ b, (cfg.sha b).length = 32)
include hsha

theorem lockId_oid (p : Bytes) : IsOid (lockId cfg p) := isOid_hexEncode (hsha _)

theorem rd_lockFromPath (p : Bytes) : (lockFromPath cfg p).Rd (Inside cfg.root) := by
  unfold lockFromPath
  refine .bind (rd_lockFromId (.entry (entryName_oid (lockId_oid hsha p)))) fun x => .plain ?_
  all_ops

theorem rd_lockCreate (p : Bytes) : (lockCreate cfg p).Rd (Inside cfg.root) := by
  unfold lockCreate lockWrite lockPersist
  refine .bind (.plain (plain_timestamp _)) fun _ => .bind (.plain (.after (.bind (.bind (.op ⟨rfl, rfl⟩) fun x => ?_) fun _ =>
    .bind (.op ⟨rfl, rfl⟩) fun _ => ?_) (plain_dropFile _))) fun _ => .bind (rd_userForFile ?_) fun _ =>
    .bind (.plain (plain_timestamp _)) fun _ => .pure _
  · split
    · all_ops
    · exact .bind (.op ⟨rfl, rfl⟩) fun _ => .ofIo _
  · all_ops
  · have : lockPath cfg p = lockFile cfg.root (lockId cfg p) := by simp [lockPath, lockFile, locksDir]
    rw [this]
    exact .lock (lockId_oid hsha p)

theorem rd_lockCmd : (lockCmd cfg).Rd (Inside cfg.root) := by
  unfold lockCmd lockLoop
  refine .bind (.plain plain_readToFlushParse) fun _ => .bind (.plain (.ofRes _)) fun _ => ?_
  split
  · refine .bind (.attempt (rd_lockCreate hsha _)) fun y => ?_
    split
    · exact .bind (.plain (plain_lockArgs _ _)) fun _ => .pure _
    · split
      · refine .bind (rd_lockFromPath hsha _) fun x => ?_
        split
        · exact .bind (.plain (plain_lockArgs _ _)) fun _ => .pure _
        · exact .panic
      · exact .throw _
  · exact .throw _

theorem rd_listLocksForPath (p : Bytes) (c : Option Bytes) (o : Bool) :
    (listLocksForPath cfg p c o).Rd (Inside cfg.root) := by
  unfold listLocksForPath
  refine .bind (rd_lockFromPath hsha _) fun x => .plain ?_
  cases x with
  | none => exact .pure _
  | some l =>
    simp only []
    have := plain_lockSpec cfg o l
    repeat' (first | split | exact .pure _ | exact .bind this fun _ => .pure _)

omit hsha in
theorem utf8Next_pos (s : Bytes) : 1 ≤ (utf8Next s).2 := by
  unfold utf8Next
  simp only []
  repeat' split
  all_goals simp

omit hsha in
theorem lossy_mem : ∀ (f : Nat) (s : Bytes) (b : UInt8), b ∈ utf8LossyF f s → b ∈ s ∨ b ∈ ([0xEF, 0xBF, 0xBD] : Bytes)
  | 0, s, b, h => by cases s <;> cases h
  | f + 1, [], b, h => by cases h
  | f + 1, x :: s, b, h => by
    simp only [utf8LossyF] at h
    rcases List.mem_append.mp h with h | h
    · split at h
      · exact .inl (List.mem_of_mem_take h)
      · exact .inr h
    · rcases lossy_mem f _ b h with h | h
      · exact .inl (List.mem_of_mem_drop h)
      · exact .inr h

omit hsha in
theorem lossy_id : ∀ (f : Nat) (s : Bytes), s.length ≤ f → (0xEF : UInt8) ∉ utf8LossyF f s → utf8LossyF f s = s
  | 0, s, h, _ => by
    have : s = [] := List.length_eq_zero_iff.mp (by omega)
    subst this; rfl
  | f + 1, [], _, _ => rfl
  | f + 1, x :: s, hl, h => by
    simp only [utf8LossyF, List.mem_append, not_or] at h ⊢
    cases hok : (utf8Next (x :: s)).1 with
    | false => simp [hok] at h
    | true =>
      simp only [if_true]
      have := utf8Next_pos (x :: s)
      rw [lossy_id f _ ?_ h.2, List.take_append_drop]
      simp only [List.length_drop, List.length_cons] at hl ⊢
      omega

omit hsha in
theorem entryName_lossy {n : Bytes} (h : EntryName n) : EntryName (utf8Lossy n) := by
  refine ⟨fun hm => ?_, fun e => ?_⟩
  · rcases lossy_mem _ _ _ hm with hm | hm
    · exact h.1 hm
    · revert hm; decide
  · have : utf8Lossy n = n := lossy_id _ _ (Nat.le_refl _) (by
      show _ ∉ utf8Lossy n
      rw [e]; decide)
    exact h.2 (this ▸ e)

omit hsha in
theorem rd_collectLocks (c : Option Bytes) : ∀ (ns : List Bytes) (sk : Bool) (k : Nat), (∀ n ∈ ns, EntryName n) →
    (collectLocks cfg c sk k ns).Rd (Inside cfg.root)
  | ns, _, 0, _ => by cases ns <;> exact .pure _
  | [], _, _ + 1, _ => .pure _
  | n :: ns, sk, k + 1, h => by
    unfold collectLocks
    have hr : ∀ n ∈ ns, EntryName n := fun n hn => h n (by simp [hn])
    refine .bind (.attempt (rd_lockFromId (.entry (entryName_lossy (h n (by simp)))))) fun x => ?_
    have a := rd_collectLocks c ns true (k + 1) hr
    have b := rd_collectLocks c ns false k hr
    have d := rd_collectLocks c ns sk (k + 1) hr
    split
    · simp only []
      generalize (sk && _) = q
      cases q
      · exact .bind b fun _ => .pure _
      · exact a
    · exact d

theorem rd_listLocks (o : Bool) : (listLocks cfg o).Rd (Inside cfg.root) := by
  unfold listLocks iterLocks
  refine .bind (.plain plain_readToFlushParse) fun _ => .bind (.plain (.ofRes _)) fun _ => .bind (.plain (.ofRes _)) fun _ => ?_
  simp only []
  split
  · exact rd_listLocksForPath hsha _ _ _
  · refine .bind ?_ fun _ => .bind (.plain (plain_lockSpecs _ _ _)) fun _ => .pure _
    intro s
    refine .bind (Q := fun x _ => ∀ ns, x = .ok ns → ∀ n ∈ ns, EntryName n) ?_ fun x s1 _ hx =>
      .bind (Q := fun ns _ => ∀ n ∈ ns, EntryName n) (rdi_ofIo hx) fun ns s2 _ hns =>
        rd_collectLocks _ _ _ _ (fun n hn => hns n (mem_sortNames.mp hn)) s2
    refine fun r => ⟨⟨fun f hf => by cases hf; exact .locks, fun _ h => by cases h⟩, fun x hx => ⟨fun _ h => h, fun a ha => ?_⟩⟩
    cases ha
    exact hx

omit hsha in
theorem rd_unlockCmd {id : Bytes} (h : P (.join (locksDir cfg.root) id)) : (unlockCmd cfg id).Rd P := by
  unfold unlockCmd lockUnlock readToFlush
  refine .bind (.plain (.rdr _)) fun _ => ?_
  split
  · exact .throw _
  · refine .bind (rd_lockFromId h) fun x => ?_
    split
    · exact .pure _
    · refine .plain (.bind (plain_lockArgs _ _) fun _ => .bind (.attempt (.bind (.op ⟨rfl, rfl⟩) fun _ => .ofIo _)) fun y => ?_)
      all_ops

/-- Names allowed when this is what the client sends. -/
def Asked (root : Path) (input : Rdr) (f : FPath) : Prop :=
  Inside root f ∨ ∃ id, f = .join (root ++ [b!"locks"]) id ∧ AsksUnlock input id

omit hsha in
theorem wp_with {σ : Type} {L : Logic σ} {p : Prog α} {s : σ} {Q : α → σ → Prop} {Q' : α → Prop}
    (h : p.wp L s Q) (h' : p.wp Logic.any () (fun a _ => Q' a)) : p.wp L s (fun a s => Q a s ∧ Q' a) := by
  induction p generalizing s with
  | ret a => exact ⟨h, h'⟩
  | call o k ih => exact ⟨h.1, fun x hx => ih x (h.2 x hx) (h'.2 x trivial)⟩

abbrev NoReader (st : Status) : Prop := st.reader = none

omit hsha in
theorem nr_lockLoop (p : Bytes) : (lockLoop cfg p).Post NoReader := by
  unfold lockLoop
  refine .bind fun _ => ?_
  split
  · exact .bind fun _ => .pure rfl
  · refine .ite ?_ (.throw _)
    refine .bind fun x => ?_
    cases x with
    | none => exact .panic
    | some l => exact .bind fun _ => .pure rfl

omit hsha in
theorem nr_verify (a : Bytes) : (verifyObject cfg a).Post NoReader := by
  unfold verifyObject backendVerify
  refine .bind fun _ => .bind fun _ => .bind fun _ => .bind fun _ => .bind fun _ => ?_
  repeat' (first | split | exact .throw _ | exact .pure rfl)

omit hsha in
theorem nr_put (a : Bytes) : (putObject cfg a).Post NoReader := by
  unfold putObject
  refine .bind fun _ => .bind fun _ => .bind fun _ => .bind fun _ => .bind fun _ => ?_
  split
  exact .bind fun _ => .bind fun _ => .pure rfl

omit hsha in
theorem nr_unlock (a : Bytes) : (unlockCmd cfg a).Post NoReader := by
  unfold unlockCmd
  refine .bind fun _ => ?_
  split
  · exact .throw _
  refine .bind fun _ => ?_
  split
  · exact .pure rfl
  refine .bind fun _ => .bind fun _ => ?_
  repeat' (first | split | exact .throw _ | exact .pure rfl)

omit hsha in
theorem nr_lock : (lockCmd cfg).Post NoReader := by
  unfold lockCmd
  refine .bind fun _ => .bind fun _ => ?_
  split
  · exact nr_lockLoop _
  · exact .throw _

omit hsha in
theorem nr_list (o : Bool) : (listLocks cfg o).Post NoReader := by
  unfold listLocks listLocksForPath
  refine .bind fun _ => .bind fun _ => .bind fun _ => ?_
  simp only []
  split
  · refine .bind fun x => ?_
    cases x with
    | none => exact .pure rfl
    | some l => exact .ite (.pure rfl) (.bind fun _ => .pure rfl)
  · exact .bind fun _ => .bind fun _ => .pure rfl

omit hsha in
theorem rdi_lift {m : M Status} {P P' : FPath → Prop} (h : m.Rd P) (hp : m.Post NoReader) (hP : ∀ f, P f → P' f)
    (s : List (Option Ino)) : m.RdI P' s CanSend := by
  intro r
  refine Prog.wp_mono (wp_with (p := m r) ((h.mono hP) s r)
    (Q' := fun x => ∀ st, x.1 = .ok st → NoReader st) (hp _ Logic.any r () fun _ _ => trivial)) ?_
  rintro ⟨x, r'⟩ s' ⟨⟨h1, _⟩, h2⟩
  exact ⟨h1, fun st hst k hk => by rw [h2 st hst] at hk; cases hk⟩

theorem rdi_dispatch (mode : Mode) (cmd : Bytes) (arg : Option Bytes) (s : List (Option Ino)) (input : Rdr)
    (h : ∀ id, cmd = b!"unlock" → arg = some id → AsksUnlock input id) :
    (dispatch cfg mode cmd arg).RdI (Asked cfg.root input) s CanSend := by
  have lift : ∀ {m : M Status}, m.Rd (Inside cfg.root) → m.Post NoReader →
      m.RdI (Asked cfg.root input) s CanSend := fun h hp => rdi_lift h hp (fun f hf => .inl hf) s
  have hpure : ∀ n msg, (Pure.pure (errStatus n msg) : M Status).RdI (Asked cfg.root input) s CanSend :=
    fun n msg => .pure fun _ h => by cases h
  have hbatch : ∀ a b, (batchCmd cfg a b).Post NoReader := fun a b => by
    unfold batchCmd
    exact .bind fun _ => .pure rfl
  have hversion : versionCmd.RdI (Asked cfg.root input) s CanSend := by
    refine lift ?_ ?_
    · unfold versionCmd readToFlush
      exact .bind (.plain (.rdr _)) fun _ => .pure _
    · unfold versionCmd
      exact .bind fun _ => .pure rfl
  unfold dispatch
  split
  · split
    · exact hversion
    · exact hpure _ _
  split
  · split <;> exact lift (rd_batchCmd _ _) (hbatch _ _)
  split
  · split
    · split
      · exact lift (rd_putObject _) (nr_put _)
      · exact hpure _ _
    split
    · split
      · exact lift (rd_verifyObject _) (nr_verify _)
      · exact hpure _ _
    split
    · split
      · exact (rdi_getObject _ s).weaken fun f hf => .inl hf
      · exact hpure _ _
    split
    · rename_i hu
      refine rdi_lift (P := Asked cfg.root input) (rd_unlockCmd ?_) (nr_unlock _) (fun _ h => h) s
      exact .inr ⟨_, rfl, h _ hu.1 rfl⟩
    · exact hpure _ _
  · split
    · exact lift (rd_lockCmd hsha) nr_lock
    split
    · exact lift (rd_listLocks hsha _) (nr_list _)
    · exact hpure _ _

omit hsha in
theorem words_of_splitOn : ∀ w : Bytes, Words w (splitOn SP w)
  | [] => .one (by simp)
  | x :: w => by
    have ih := words_of_splitOn w
    unfold splitOn
    split
    · rename_i hx
      rw [hx]
      exact .cons (x := []) (w := w) (by simp) ih
    · rename_i hx
      split
      · rename_i hn
        exact absurd hn (splitOn_ne_nil _ _)
      · rename_i p ps hp
        rw [hp] at ih
        cases ih with
        | one hq => exact .one (by simp only [List.mem_cons, not_or]; exact ⟨fun e => hx e.symm, hq⟩)
        | @cons _ v _ hq hw =>
          have := Words.cons (x := x :: p) (w := v) (ws := ps)
            (by simp only [List.mem_cons, not_or]; exact ⟨fun e => hx e.symm, hq⟩) hw
          simpa using this

omit hsha in
theorem commandWords_unlock {d id : Bytes} (h1 : (commandWords d).head?.getD [] = b!"unlock")
    (h2 : (commandWords d).tail.head? = some id) : ∃ more, CommandLine d (b!"unlock" :: id :: more) := by
  obtain ⟨a, b, l, hc⟩ : ∃ a b l, commandWords d = a :: b :: l := by
    rcases hc : commandWords d with _ | ⟨a, _ | ⟨b, l⟩⟩
    · rw [hc] at h2; cases h2
    · rw [hc] at h2; cases h2
    · exact ⟨a, b, l, rfl⟩
  rw [hc] at h1 h2
  cases h2
  cases (show a = b!"unlock" from h1)
  refine ⟨l, ?_⟩
  unfold commandWords at hc
  have hw := words_of_splitOn (if d.getLast? = some NL then d.dropLast else d)
  rw [hc] at hw
  refine ⟨_, hw, fun e => ?_, ?_⟩
  · rw [e] at hc
    simp [splitOn] at hc
  · split
    · rename_i hl
      left
      obtain ⟨ys, rfl⟩ := List.getLast?_eq_some_iff.mp hl
      simp [NL]
    · rename_i hl
      exact .inr ⟨rfl, hl⟩

theorem rd_turn (mode : Mode) {r : Rdr} {input : Rdr} (hi : r.input <:+ input.input) (s : List (Option Ino)) :
    (turn cfg mode).wp (Logic.rd (Asked cfg.root input)) r s (fun _ _ s' => s ⊆ s') := by
  suffices hh : (turn cfg mode).wp (Logic.rd (Asked cfg.root input)) r s
      (fun x _ s' => s ⊆ s' ∧ ∀ a, x = .ok a → True) from M.wp_mono hh fun _ _ _ h => h.1
  unfold turn
  rw [M.wp_bind, M.wp_attempt, M.wp_rdr]
  rcases hp : r.readPacket with ⟨(p | e | _), r1⟩
  · have key : ∀ {m : M Turn}, m.RdI (Asked cfg.root input) s (fun _ _ => True) →
        m.wp (Logic.rd (Asked cfg.root input)) r1 s (fun x _ s' => s ⊆ s' ∧ ∀ a, x = .ok a → True) := fun h => h r1
    simp only [Res.elim_ok]
    split
    · exact key (M.Rd.plain (.bind (plain_sendError _ _) fun _ => .pure _) s)
    · rename_i d hd
      have hinf : r.readPacket = (.ok (.data d), r1) := by
        cases p with
        | data d' => cases hd; exact hp
        | flush => cases hd
        | delim => cases hd
      split
      · exact key (M.Rd.plain (.bind (plain_sendError _ _) fun _ => .pure _) s)
      · split
        · refine key (.bind (rdi_sendStatus fun _ h => by cases h) fun _ _ _ _ => .pure trivial)
        · refine key (.bind (.attempt (rdi_dispatch hsha _ _ _ s input fun id h1 h2 =>
            (commandWords_unlock h1 h2).elim fun more hm => ⟨r, r1, d, more, hi, hinf, hm⟩)) fun y s1 _ hy => ?_)
          split
          · exact .bind (rdi_sendStatus (hy _ rfl)) fun _ _ _ _ => .pure trivial
          · refine .bind (rdi_sendStatus fun h hk => ?_) fun _ _ _ _ => .pure trivial
            unfold errorStatus at hk
            split at hk <;> cases hk
  · simp only [Res.elim_err, Res.elim_ok]
    split
    · exact ⟨fun _ h => h, fun _ _ => trivial⟩
    · exact ⟨fun _ h => h, fun _ _ => trivial⟩
  · exact ⟨fun _ h => h, fun _ _ => trivial⟩

theorem rd_processF (mode : Mode) (input : Rdr) : ∀ (f : Nat) (r : Rdr) (s : List (Option Ino)), r.input <:+ input.input →
    (processF cfg mode f).wp (Logic.rd (Asked cfg.root input)) r s (fun _ _ _ => True)
  | 0, _, _, _ => trivial
  | f + 1, r, s, hi => by
    rw [processF, M.wp_bind]
    refine Prog.wp_mono (wp_with (rd_turn hsha mode hi s) (turn_again cfg mode r)) ?_
    rintro ⟨(t | e | _), r'⟩ s' ⟨_, h, _⟩
    · cases t with
      | done => trivial
      | again => exact rd_processF mode input f r' s' (h.suffix.trans hi)
    · trivial
    · trivial

theorem rd_mainProg (op : Bytes) (r : Rdr) :
    (mainProg cfg op r).wp (Logic.rd (Asked cfg.root r)) [] (fun _ _ => True) := by
  unfold mainProg
  rw [Prog.wp_bind]
  refine Prog.wp_mono (Q := fun _ _ => True) ?_ (fun a _ _ => by split <;> trivial)
  have hmk : ∀ ps, (mkdirs ps).All (fun o => Plain o) := by
    intro ps
    induction ps with
    | nil => exact .pure _
    | cons p ps ih => exact .bind (.op ⟨rfl, rfl⟩) fun _ => .bind (.ofIo _) fun _ => ih
  have hcap : sendCapabilities.All Plain := by
    unfold sendCapabilities
    exact .bind (plain_send _) fun _ => plain_sendFlush
  have fmk : ∀ ps, (mkdirs ps).Fwd := by
    intro ps
    induction ps with
    | nil => exact .pure _
    | cons p ps ih => exact .bind (.op _) fun _ => .bind (.ofIo _) fun _ => ih
  have fcap : sendCapabilities.Fwd := by
    unfold sendCapabilities
    exact .bind (fwd_send _) fun _ => fwd_sendFlush
  suffices hh : M.wp (Logic.rd (Asked cfg.root r)) (runProgram cfg op) r [] (fun _ _ _ => True) from hh
  unfold runProgram
  rw [M.wp_bind]
  refine Prog.wp_mono (wp_with (p := createDirectories cfg r) (M.Rd.plain (hmk _) [] r) (Q' := fun x => r.Le x.2) ?_) ?_
  · exact fmk _ r
  rintro ⟨(_ | e | _), r0⟩ s0 ⟨_, l0⟩
  on_goal 2 => trivial
  on_goal 2 => trivial
  rw [Res.elim_ok, M.wp_bind]
  refine Prog.wp_mono (wp_with (p := sendCapabilities r0) (M.Rd.plain hcap s0 r0) (Q' := fun x => r0.Le x.2) ?_) ?_
  · exact fcap r0
  rintro ⟨(_ | e | _), r1⟩ s1 ⟨_, l1⟩
  on_goal 2 => trivial
  on_goal 2 => trivial
  have hi : r1.input <:+ r.input := (l0.trans l1).suffix
  rw [Res.elim_ok]
  split
  · exact rd_processF hsha _ _ _ r1 s1 hi
  · split
    · exact rd_processF hsha _ _ _ r1 s1 hi
    · trivial

end Verif
