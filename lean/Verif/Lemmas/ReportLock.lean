import Verif.Lemmas.ReportPut
/-! What the lock commands answer, whatever the OS says. -/
namespace Verif
open Spec

variable {cfg : Cfg} {mode : Mode} {lax : Bool}

/-- The lock as it is reported. -/
def LockInfo.shown (l : LockInfo) : Shown := ⟨l.path, l.time, l.owner⟩

theorem lockArgs_cases (l : LockInfo) : lockArgs cfg l = M.panic ∨ lockArgs cfg l = pure (shownFields cfg l.shown) := by
  unfold lockArgs fmtTimestamp
  cases h : cfg.fmtTime l.time with
  | none => exact .inl rfl
  | some t =>
    refine .inr ?_
    simp only [lockId_eq, shownFields, LockInfo.shown, timeText, h]
    rfl

theorem lockSpec_cases (l : LockInfo) : lockSpec cfg (mode = .upload) l = M.panic ∨
    lockSpec cfg (mode = .upload) l = pure (shownLines cfg mode l.shown) := by
  unfold lockSpec fmtTimestamp
  cases h : cfg.fmtTime l.time with
  | none => exact .inl rfl
  | some t =>
    refine .inr ?_
    simp only [lockId_eq, shownLines, LockInfo.shown, timeText, h, userName_eq]
    cases mode
    · have hiff : (l.owner = ownerName cfg cfg.uid) = (ownerName cfg cfg.uid = l.owner) := propext eq_comm
      simp only [hiff]
      rfl
    · rfl

theorem shownFields_ne (l : Shown) : ∀ x ∈ shownFields cfg l, x ≠ [] := by
  simp [shownFields]

theorem shownLines_ne (l : Shown) : ∀ x ∈ shownLines cfg mode l, x ≠ [] := by
  unfold shownLines
  split <;> simp

/-- A lock file could not be read. -/
def FailedRead (cfg : Cfg) (s : List Event) (id : Bytes) : Prop :=
  (∃ e, e.kind ≠ .notFound ∧ (⟨.openRead (lockEntry cfg.root id), .error e⟩ : Event) ∈ s) ∨
  ∃ h cs e, (⟨.openRead (lockEntry cfg.root id), .ok h⟩ : Event) ∈ s ∧ (⟨.readAll h, (cs, some e)⟩ : Event) ∈ s

/-- Results of reading a lock file. -/
inductive Seen (cfg : Cfg) (s : List Event) (id : Bytes) : Res (Option LockInfo) → Prop
  | missing : SaidMissing s (lockEntry cfg.root id) → Seen cfg s id (.ok none)
  | lock {l : LockInfo} : SaidLock cfg s id l.shown → Seen cfg s id (.ok (some l))
  | corrupt {d : Bytes} : SaidContent cfg.root s id d → (∀ t p, ¬ RecordIs d t p) →
      Seen cfg s id (.err (Err.withMsg .corruptData b!"invalid parsed lock"))
  | failed {e : IoErr} : FailedRead cfg s id → Seen cfg s id (.err (Err.ofIo e))

theorem told_userForFile {p : FPath} {r : Rdr} {s : List Event} :
    (userForFile cfg p).told r s (fun x _ s' => ∃ o y, x = .ok o ∧ s' = s ++ [⟨.stat p, y⟩] ∧ SaidOwner cfg s' p o) := by
  unfold userForFile
  refine told_op_bind fun y => ?_
  cases y with
  | ok st => exact ⟨_, _, rfl, rfl, .inl ⟨st, by simp, userName_eq _ _⟩⟩
  | error e => exact ⟨_, _, rfl, rfl, .inr ⟨e, by simp, rfl⟩⟩

theorem told_lockFromId {id : Bytes} {r : Rdr} {s : List Event} :
    (lockFromId cfg id).told r s (fun x _ s' => (∃ t, s' = s ++ t) ∧ Seen cfg s' id x) := by
  unfold lockFromId
  refine told_op_bind fun x => ?_
  cases x with
  | error e =>
    simp only []
    split
    · rename_i hk
      exact ⟨⟨_, rfl⟩, .missing ⟨e, hk, .inr (.inl (by simp [lockEntry, locksDir]))⟩⟩
    · rename_i hk
      exact ⟨⟨_, rfl⟩, .failed (.inl ⟨e, hk, by simp [lockEntry, locksDir]⟩)⟩
  | ok h =>
    refine told_op_bind fun y => ?_
    obtain ⟨cs, e⟩ := y
    cases e with
    | some e => exact ⟨⟨_, by rw [List.append_assoc]⟩, .failed (.inr ⟨h, cs, e, by simp [lockEntry, locksDir], by simp⟩)⟩
    | none =>
      simp only []
      refine told_bind told_userForFile ?_ ?_ ?_
      · rintro u r1 s1 ⟨o, y, ho, rfl, hu⟩
        cases ho
        have hc : SaidContent cfg.root (s ++ [⟨.openRead (.join (locksDir cfg.root) id), .ok h⟩] ++
            [⟨.readAll h, (cs, none)⟩] ++ [⟨.stat (.join (locksDir cfg.root) id), y⟩]) id cs.flatten :=
          ⟨h, cs, by simp [lockEntry, locksDir], by simp, rfl⟩
        cases hp : parseLock cs.flatten with
        | none => exact ⟨⟨_, by rw [List.append_assoc, List.append_assoc]⟩, .corrupt hc (parseLock_none hp)⟩
        | some tp =>
          obtain ⟨t, p⟩ := tp
          exact ⟨⟨_, by rw [List.append_assoc, List.append_assoc]⟩, .lock ⟨⟨_, hc, parseLock_iff.mp hp⟩, hu⟩⟩
      · rintro e r1 s1 ⟨_, _, h, _⟩; cases h
      · rintro r1 s1 ⟨_, _, h, _⟩; cases h

/-- Results of looking for the lock on a path. -/
inductive SeenPath (cfg : Cfg) (s : List Event) (path : Bytes) : Res (Option LockInfo) → Prop
  | missing : SaidMissing s (lockEntry cfg.root (lockName cfg.sha path)) → SeenPath cfg s path (.ok none)
  | lock {l : LockInfo} : l.path = path → SaidLock cfg s (lockName cfg.sha path) l.shown → SeenPath cfg s path (.ok (some l))
  | corrupt {d : Bytes} {e : Err} : SaidContent cfg.root s (lockName cfg.sha path) d → (∀ t, ¬ RecordIs d t path) →
      clientError e.kind = true → SeenPath cfg s path (.err e)
  | failed {e : IoErr} : SeenPath cfg s path (.err (Err.ofIo e))

theorem told_lockFromPath {path : Bytes} {r : Rdr} {s : List Event} :
    (lockFromPath cfg path).told r s (fun x _ s' => SeenPath cfg s' path x) := by
  unfold lockFromPath
  rw [lockId_eq]
  refine told_bind told_lockFromId ?_ ?_ ?_
  · rintro a r1 s1 ⟨-, h⟩
    cases h with
    | missing h => exact .missing h
    | @lock l h =>
      simp only []
      by_cases hp : l.path = path
      · rw [if_neg (by simpa using hp)]
        exact .lock hp h
      · rw [if_pos hp]
        obtain ⟨⟨d, h1, h2⟩, _⟩ := h
        refine .corrupt h1 (fun t ht => hp ?_) rfl
        have e := (parseLock_iff.mpr h2).symm.trans (parseLock_iff.mpr ht)
        simp only [Option.some.injEq, Prod.mk.injEq] at e
        exact e.2
  · rintro e r1 s1 ⟨-, h⟩
    cases h with
    | corrupt h1 h2 => exact .corrupt h1 (fun t => h2 t path) rfl
    | failed h => exact .failed
  · rintro r1 s1 ⟨-, h⟩
    cases h

theorem says_fields {l : Shown} {code : Nat} (hc : code ∈ statusCodes) :
    Says (Status.successWithCode code (shownFields cfg l)) ⟨code, shownFields cfg l, .none⟩ :=
  says_none (st := Status.successWithCode code (shownFields cfg l)) hc (shownFields_ne l) rfl rfl

theorem honest_panic {q : Request} {s : List Event} : Honest lax cfg mode q .panic s := .inl rfl

/-! ### unlock -/

theorem told_unlock {v : List Bytes} {id : Bytes} {r r' : Rdr} {s : List Event} (hid : utf8Valid id = true)
    (hr : readToType .flush r = (.ok v, r')) :
    (unlockCmd cfg id).told r s (fun x _ s => Honest lax cfg mode (.unlock id) x s) := by
  unfold unlockCmd
  refine told_rdr_bind hr ?_
  simp only [hid, Bool.not_true, Bool.false_eq_true, if_false]
  refine told_bind told_lockFromId ?_ ?_ ?_
  · rintro a r1 s1 ⟨-, h⟩
    cases h with
    | missing h => exact .inr ⟨_, _, rfl, says_failure c404 (by simp), .noLock h⟩
    | @lock l h =>
      simp only []
      rcases lockArgs_cases (cfg := cfg) l with ha | ha
      · rw [ha]
        exact honest_panic
      · rw [ha]
        refine told_pure_bind ?_
        refine told_bind (P := fun x _ s' => ∃ y, s' = s1 ++ [⟨.unlink (lockFile cfg.root (lockName cfg.sha l.path)), y⟩] ∧
          match y with
          | .ok _ => x = .ok (.ok ())
          | .error e => x = .ok (.error (Err.ofIo e))) ?_ ?_ ?_ ?_
        · unfold M.told
          rw [M.wp_attempt]
          unfold lockUnlock
          rw [lockPath_eq]
          refine told_op_bind fun y => ?_
          rw [M.told, M.wp_ofIo]
          cases y with
          | ok a => exact ⟨_, rfl, rfl⟩
          | error e => exact ⟨_, rfl, rfl⟩
        · rintro a r2 s2 ⟨y, rfl, hy⟩
          cases y with
          | ok _ =>
            cases hy
            exact .inr ⟨_, _, rfl, says_fields c200, .unlocked h.add (by simp [LockInfo.shown])⟩
          | error e =>
            cases hy
            simp only []
            have hm : (⟨.unlink (lockFile cfg.root (lockName cfg.sha l.shown.path)), .error e⟩ : Event) ∈
                s1 ++ [⟨.unlink (lockFile cfg.root (lockName cfg.sha l.path)), .error e⟩] := by simp [LockInfo.shown]
            split
            · rename_i hk
              exact .inr ⟨_, _, rfl, says_failure c404 (by simp), .notRemoved h.add hm (.inl ⟨rfl, hk⟩)⟩
            · split
              · rename_i hk
                exact .inr ⟨_, _, rfl, says_failure c403 (by simp), .notRemoved h.add hm (.inr ⟨rfl, hk⟩)⟩
              · exact honest_io e _
        · rintro e r2 s2 ⟨y, rfl, hy⟩
          cases y <;> cases hy
        · rintro r2 s2 ⟨y, rfl, hy⟩
          cases y <;> cases hy
  · rintro e r1 s1 ⟨-, h⟩
    cases h with
    | corrupt h1 h2 => exact .inr ⟨_, _, rfl, says_client rfl, .corruptId h1 h2⟩
    | failed h => exact honest_io _ _
  · rintro r1 s1 ⟨-, h⟩
    cases h

/-! ### lock -/

theorem told_timestamp {r : Rdr} {s : List Event} :
    (timestamp cfg).told r s (fun x _ s' => ∃ t u, x = .ok t ∧ s' = s ++ u ∧ SaidTime cfg s' t ∧ ∀ ino, written ino u = []) := by
  unfold timestamp
  cases h : cfg.timestamp with
  | some t => exact ⟨t, [], rfl, by simp, .inl h, fun _ => rfl⟩
  | none => exact ⟨trivial, fun x _ => ⟨x, [⟨.now, x⟩], rfl, rfl, .inr ⟨h, by simp [Logic.hist]⟩, fun _ => rfl⟩⟩

theorem told_lock {kv : List (Bytes × Bytes)} {u rest path ref : Bytes} {r : Rdr}
    (ha : ArgsOk kv) (hpa : lookup kv b!"path" = some path) (href : lookup kv b!"refname" = some ref)
    (hF : Frames (argPackets kv ++ [.flush]) u) (hi : r.input = u ++ rest) :
    (lockCmd cfg).told r [] (fun x _ s => Honest lax cfg mode (.lock path) x s) := by
  obtain ⟨m, hm, hget⟩ := C09_args_exact kv ha
  unfold lockCmd
  refine told_readToFlushParse (readToFlush_args hF hi) ?_
  refine told_ofRes_bind hm ?_
  simp only [hget, hpa, href]
  unfold lockLoop
  have htmp : lockTemp cfg path = lockTempFile cfg.root (lockName cfg.sha path) := lockTemp_eq cfg path
  have hdst : lockPath cfg path = lockFile cfg.root (lockName cfg.sha path) := lockPath_eq cfg path
  refine told_bind (P := fun x _ s => (∃ l : LockInfo, x = .ok (.ok l) ∧ ∀ lax,
      Backed lax cfg mode s (.lock path) ⟨201, shownFields cfg l.shown, .none⟩) ∨
    (∃ e, x = .ok (.error e) ∧ (e.kind = .conflict ∨ clientError e.kind = false))) ?_ ?_ ?_ ?_
  · unfold M.told
    rw [M.wp_attempt]
    unfold lockCreate
    refine told_bind told_timestamp ?_ ?_ ?_
    · rintro t r1 s1 ⟨t, w, e, rfl, ht, hw⟩
      cases e
      refine told_bind (P := fun x _ s => (x = .ok () ∧ ∃ ino t', s = s1 ++ t' ∧
          (⟨.createNew (lockTempFile cfg.root (lockName cfg.sha path)) cfg.uid, .ok ino⟩ : Event) ∈ t' ∧
          written ino t' = b!"v1:" ++ decimalInt t ++ b!":" ++ path ∧
          (⟨.link (lockTempFile cfg.root (lockName cfg.sha path)) (lockFile cfg.root (lockName cfg.sha path)), .ok ()⟩ : Event) ∈ t') ∨
        ∃ e, x = .err e ∧ (e.kind = .conflict ∨ clientError e.kind = false)) ?_ ?_ ?_ ?_
      · unfold M.told
        rw [M.wp_after, htmp, hdst]
        refine told_bind (P := fun x _ s => (x = .ok () ∧ ∃ ino, s = s1 ++
            [⟨.createNew (lockTempFile cfg.root (lockName cfg.sha path)) cfg.uid, .ok ino⟩, ⟨.write ino (lockRecord t path), .ok ()⟩]) ∨
          ∃ e, x = .err e ∧ (e.kind = .conflict ∨ clientError e.kind = false)) ?_ ?_ ?_ ?_
        · unfold lockWrite
          refine told_op_bind fun x => ?_
          cases x with
          | error e =>
            simp only []
            split
            · exact .inr ⟨_, rfl, .inl rfl⟩
            · exact .inr ⟨_, rfl, .inr rfl⟩
          | ok ino =>
            refine told_op_bind fun x => ?_
            rw [M.told, M.wp_ofIo]
            cases x with
            | error e => exact .inr ⟨_, rfl, .inr rfl⟩
            | ok a => exact .inl ⟨rfl, ino, by simp⟩
        · rintro ⟨⟩ r2 s2 (⟨-, ino, rfl⟩ | ⟨e, h, _⟩)
          · unfold lockPersist
            refine told_op_bind fun x => ?_
            cases x with
            | error e =>
              simp only []
              split
              · rw [M.told, M.wp_throw]
                exact told_mono told_dropFile fun _ _ _ _ => .inr ⟨_, rfl, .inl rfl⟩
              · rw [M.told, M.wp_throw]
                exact told_mono told_dropFile fun _ _ _ _ => .inr ⟨_, rfl, .inr rfl⟩
            | ok a =>
              simp only []
              rw [M.told, M.wp_pure]
              refine told_mono told_dropFile ?_
              rintro x r3 s3 ⟨-, y, rfl⟩
              refine .inl ⟨rfl, ino, _, by rw [List.append_assoc, List.append_assoc], by simp, ?_, by simp⟩
              simp [written, wrote, lockRecord, intDec_eq]
          · cases h
        · rintro e r2 s2 (⟨h, _⟩ | ⟨e', h, hk⟩)
          · cases h
          · cases h
            exact told_mono told_dropFile fun _ _ _ _ => .inr ⟨_, rfl, hk⟩
        · rintro r2 s2 (⟨h, _⟩ | ⟨e', h, hk⟩) <;> cases h
      · rintro ⟨⟩ r2 s2 (⟨-, ino, t', rfl, h1, h2, h3⟩ | ⟨e, h, _⟩)
        · refine told_bind told_userForFile ?_ ?_ ?_
          · rintro o r3 s3 ⟨o, y, h, rfl, ho⟩
            cases h
            refine told_bind told_timestamp ?_ ?_ ?_
            · rintro t2 r4 s4 ⟨t2, w2, h, rfl, ht2, hw2⟩
              cases h
              refine .inl ⟨⟨path, t2, o⟩, rfl, fun lax => .locked (t := t) (ino := ino) ?_ ?_ ?_ ?_ rfl ht2 ?_⟩
              · exact ht.add.add.add
              · simp [h1]
              · rw [written_append, written_append, written_append, hw, h2, hw2]
                simp [written, wrote]
              · simp [h3]
              · rw [← hdst]; exact ho.add
            · rintro e r4 s4 ⟨_, _, h, _⟩; cases h
            · rintro r4 s4 ⟨_, _, h, _⟩; cases h
          · rintro e r3 s3 ⟨_, _, h, _⟩; cases h
          · rintro r3 s3 ⟨_, _, h, _⟩; cases h
        · cases h
      · rintro e r2 s2 (⟨h, _⟩ | ⟨e', h, hk⟩)
        · cases h
        · cases h
          exact .inr ⟨_, rfl, hk⟩
      · rintro r2 s2 (⟨h, _⟩ | ⟨e', h, hk⟩) <;> cases h
    · rintro e r1 s1 ⟨_, _, h, _⟩; cases h
    · rintro r1 s1 ⟨_, _, h, _⟩; cases h
  · rintro a r1 s1 (⟨l, h, hb⟩ | ⟨e, h, hk⟩)
    · cases h
      simp only []
      rcases lockArgs_cases (cfg := cfg) l with ha | ha
      · rw [ha]; exact honest_panic
      · rw [ha]
        exact .inr ⟨_, _, rfl, says_fields c201, hb lax⟩
    · cases h
      simp only []
      split
      · refine told_bind told_lockFromPath ?_ ?_ ?_
        · intro a r2 s2 h
          cases h with
          | missing h => exact honest_panic
          | @lock l h1 h2 =>
            simp only []
            rcases lockArgs_cases (cfg := cfg) l with ha | ha
            · rw [ha]; exact honest_panic
            · rw [ha]
              refine .inr ⟨Status.failureWithArgs 409 (shownFields cfg l.shown) b!"conflict\n", _, rfl,
                says_lines (ls := [b!"conflict\n"]) c409 (shownFields_ne _) rfl (by simp), .held h1 h2⟩
        · intro e r2 s2 h
          cases h with
          | corrupt h1 h2 h3 => exact .inr ⟨_, _, rfl, says_client h3, .corrupt h1 h2⟩
          | failed => exact honest_io _ _
        · intro r2 s2 h
          cases h
      · rename_i hc
        exact .inr ⟨_, _, rfl, says_internal (hk.resolve_left hc), .internal⟩
  · rintro e r1 s1 (⟨_, h, _⟩ | ⟨_, h, _⟩) <;> cases h
  · rintro r1 s1 (⟨_, h, _⟩ | ⟨_, h, _⟩) <;> cases h

end Verif
