import Verif.Lemmas.ServePut
/-! The lock commands, run alone without I/O errors. -/
namespace Verif
open Spec

variable {ch : Nat → Choice} {cfg : Cfg} {s : Store} {mode : Mode}

/-! ### IDs as file names -/

theorem oid_ascii {id : Bytes} (h : IsOid id) : ∀ x ∈ id, x < 128 := by
  intro x hx
  have key : ∀ y ∈ b!"0123456789abcdef", y < 128 := by decide
  exact key x (h.2 x hx)

theorem utf8Next_ascii {x : UInt8} (s : Bytes) (h : x < 128) : utf8Next (x :: s) = (true, 1) := by
  have h0 : byteAt (x :: s) 0 = x.toNat := rfl
  have h1 : x.toNat < 128 := by rw [UInt8.lt_iff_toNat_lt] at h; exact h
  unfold utf8Next
  simp only [h0, h1, if_true]

theorem utf8LossyF_ascii : ∀ (s : Bytes) (f : Nat), (∀ x ∈ s, x < 128) → s.length ≤ f → utf8LossyF f s = s
  | [], 0, _, _ => rfl
  | [], _ + 1, _, _ => rfl
  | _ :: _, 0, _, h => by simp at h
  | x :: s, f + 1, ha, hl => by
    rw [utf8LossyF]
    · simp only [utf8Next_ascii s (ha x (by simp)), if_true, List.take_succ_cons, List.take_zero, List.drop_succ_cons,
        List.drop_zero]
      rw [utf8LossyF_ascii s f (fun y hy => ha y (by simp [hy])) (by simpa using hl)]
      rfl
    · simp

theorem utf8ValidF_ascii : ∀ (s : Bytes) (f : Nat), (∀ x ∈ s, x < 128) → s.length ≤ f → utf8ValidF f s = true
  | [], 0, _, _ => rfl
  | [], _ + 1, _, _ => rfl
  | _ :: _, 0, _, h => by simp at h
  | x :: s, f + 1, ha, hl => by
    rw [utf8ValidF]
    · simp only [utf8Next_ascii s (ha x (by simp)), List.drop_succ_cons, List.drop_zero, Bool.true_and]
      exact utf8ValidF_ascii s f (fun y hy => ha y (by simp [hy])) (by simpa using hl)
    · simp

theorem oid_lossy {id : Bytes} (h : IsOid id) : utf8Lossy id = id :=
  utf8LossyF_ascii _ _ (oid_ascii h) (Nat.le_refl _)

theorem oid_utf8 {id : Bytes} (h : IsOid id) : utf8Valid id = true :=
  utf8ValidF_ascii _ _ (oid_ascii h) (Nat.le_refl _)

theorem oid_notin {id : Bytes} (h : IsOid id) {x : UInt8} (hx : x ∉ b!"0123456789abcdef") : x ∉ id :=
  fun hm => hx (h.2 x hm)

/-- A client-supplied ID that looks like one names the lock file. -/
theorem resolve_id {fs : FS} {root : Path} {id : Bytes} (hd : fs.isDir (locksDir root) = true) (h : IsOid id) :
    fs.resolve (.join (locksDir root) id) = .ok (lockFile root id) := by
  have h0 : id.contains 0 = false := by
    rw [Bool.eq_false_iff]
    simpa using oid_notin h (x := 0) (by decide)
  have h1 : (47 : UInt8) ∉ id := oid_notin h (by decide)
  have hl := h.1
  have hh : id.head? ≠ some SLASH := by
    intro e
    exact h1 (List.mem_of_mem_head? (by rw [e]; rfl))
  have hne : ¬ (id = [] ∨ id = b!".") := by
    rintro (e | e) <;> (rw [e] at hl; simp at hl)
  have hne2 : ¬ id = b!".." := by intro e; rw [e] at hl; simp at hl
  simp only [FS.resolve, h0, Bool.false_eq_true, if_false]
  rw [if_neg hh, splitOn_none SLASH _ h1]
  simp only [FS.walk, hd, if_true, if_neg hne, if_neg hne2, hl]
  rw [locksDir_join]
  simp

theorem isOid_lockName (hsha : ∀ b, (cfg.sha b).length = 32) (p : Bytes) : IsOid (lockName cfg.sha p) :=
  isOid_hex (hsha _)

/-! ### Reading a lock -/

/-- The lock as the backend represents it. -/
def lockInfo (cfg : Cfg) (l : Lock) : LockInfo := ⟨l.path, l.time, ownerName cfg l.uid⟩

theorem parse_lockText {l : Lock} (h : TimeOk cfg l.time) : parseLock (lockText l) = some (l.time, l.path) := by
  rw [← lockRecord_eq]
  exact C31_record_roundtrip.1 _ _ h.1 h.2.1

theorem runs_lockFromId (hc : Calm ch) {id : Bytes} {r : Rdr} {w : World} (hr : Rep cfg s w.fs)
    (hd : Ready cfg w.fs) (hid : IsOid id) :
    (lockFromId cfg id).runs ch r w (fun x r' w' => r' = r ∧ w'.fs = w.fs ∧ w'.out = w.out ∧
      x = .ok ((s.find cfg id).map (lockInfo cfg))) := by
  have hres := resolve_id hd.locksDir hid
  unfold lockFromId
  cases hf : s.find cfg id with
  | none =>
    have hg := hr.lock_none hf
    refine runs_op_bind (fs' := w.fs) (x := .error enoent)
      (by simp only [sem, hc w.tick, hres, hg, hr.lock_notDir]; rfl) (fun _ => rfl) ?_
    intro w' e1 e2
    exact ⟨rfl, e1, e2, rfl⟩
  | some l =>
    obtain ⟨i, hg, hdat, hu⟩ := hr.lock_some hf
    refine runs_op_bind (fs' := w.fs) (x := .ok (some i))
      (by simp only [sem, hc w.tick, hres, hg]) (fun _ => rfl) ?_
    intro w' e1 e2
    refine runs_op_bind (fs' := w.fs) (x := (cutChunks (ch w'.tick).chunks (lockText l), none))
      (by simp only [sem, hc w'.tick, e1, hdat]) (fun _ => rfl) ?_
    intro w2 e3 e4
    simp only
    refine runs_bind (P := fun x r' w' => r' = r ∧ w'.fs = w.fs ∧ w'.out = w.out ∧
      x = .ok (ownerName cfg l.uid)) ?_ ?_
    · unfold userForFile
      refine runs_op_bind (fs' := w.fs) (x := .ok ⟨(lockText l).length, l.uid⟩)
        (by simp only [sem, hc w2.tick, e3, hres, hg, hdat, hu]) (fun _ => rfl) ?_
      intro w3 e5 e6
      refine ⟨rfl, e5, by rw [e6, e4, e2], by rw [userName_eq]⟩
    · rintro x r' w3 ⟨rfl, e5, e6, rfl⟩
      simp only [Res.elim_ok, cutChunks_flatten, parse_lockText (hr.times l (find_some hf).1)]
      exact ⟨rfl, e5, e6, rfl⟩

def clashErr : Err := Err.withMsg .corruptData b!"unexpected filename in parsed lock"

theorem runs_lockFromPath (hc : Calm ch) (hsha : ∀ b, (cfg.sha b).length = 32) {path : Bytes} {r : Rdr} {w : World}
    (hr : Rep cfg s w.fs) (hd : Ready cfg w.fs) :
    (lockFromPath cfg path).runs ch r w (fun x r' w' => r' = r ∧ w'.fs = w.fs ∧ w'.out = w.out ∧
      x = match s.find cfg (lockName cfg.sha path) with
        | none => .ok none
        | some l => if l.path = path then .ok (some (lockInfo cfg l)) else .err clashErr) := by
  unfold lockFromPath
  rw [lockId_eq]
  refine runs_bind (runs_lockFromId hc hr hd (isOid_lockName hsha path)) ?_
  rintro x r' w' ⟨rfl, e1, e2, rfl⟩
  simp only [Res.elim_ok]
  cases s.find cfg (lockName cfg.sha path) with
  | none => exact ⟨rfl, e1, e2, rfl⟩
  | some l =>
    by_cases h : l.path = path
    · simp only [Option.map_some, lockInfo, h, ne_eq, not_true_eq_false, if_false, if_true]
      exact ⟨rfl, e1, e2, rfl⟩
    · simp only [Option.map_some, lockInfo, h, ne_eq, not_false_eq_true, if_false, if_true]
      exact ⟨rfl, e1, e2, rfl⟩

theorem statusFor_clash (fs : FS) : StatusFor (errorStatus clashErr) clash fs := by
  refine ⟨⟨rfl, c400, rfl, by simp [clash, badRequest]⟩, ?_⟩
  simp [clash, badRequest, errorStatus, clientError, clashErr, Err.withMsg, Status.failure, Err.display, Err.kindText]

theorem statusFor_notFound (fs : FS) : StatusFor (errStatus 404 b!"not found") notFound fs := by
  refine ⟨⟨rfl, c404, rfl, by simp [notFound]⟩, ?_⟩
  simp [notFound, errStatus, Status.failure]

theorem fmt_eq {t : Int} (h : TimeOk cfg t) : cfg.fmtTime t = some (timeText cfg t) := by
  obtain ⟨x, hx⟩ := Option.isSome_iff_exists.mp h.2.2
  simp [timeText, hx]

theorem lockArgs_eq {l : Lock} (h : TimeOk cfg l.time) : lockArgs cfg (lockInfo cfg l) = pure (lockFields cfg l) := by
  unfold lockArgs fmtTimestamp lockInfo
  simp only [fmt_eq h, lockId_eq]
  rfl

theorem lockSpec_eq {l : Lock} (h : TimeOk cfg l.time) (mode : Mode) :
    lockSpec cfg (mode = .upload) (lockInfo cfg l) = pure (lockLines cfg mode l) := by
  unfold lockSpec fmtTimestamp lockInfo
  simp only [fmt_eq h, lockId_eq, userName_eq, lockLines]
  cases mode
  · by_cases h : ownerName cfg cfg.uid = ownerName cfg l.uid
    · rw [if_pos h, if_pos h.symm]; rfl
    · rw [if_neg h, if_neg (Ne.symm h)]; rfl
  · rfl

theorem lockFields_ne (cfg : Cfg) (l : Lock) : ∀ x ∈ lockFields cfg l, x ≠ [] := by
  simp [lockFields]

theorem lockLines_ne (cfg : Cfg) (mode : Mode) (l : Lock) : ∀ x ∈ lockLines cfg mode l, x ≠ [] := by
  unfold lockLines
  split <;> simp

/-! ### unlock -/

theorem stops_unlock {I : World → Prop} {kv : List (Bytes × Bytes)} {u rest id : Bytes} {r : Rdr} {w : World}
    (hc : Calm ch) (hid : IsOid id)
    (hF : Frames (argPackets kv ++ [.flush]) u) (hi : r.input = u ++ rest)
    (hr : Rep cfg s w.fs) (hd : Ready cfg w.fs)
    (hI1 : ∀ w', w'.out = w.out → Rep cfg s w'.fs → I w') :
    (unlockCmd cfg id).stops ch I r w
      (Handled cfg mode ch s (.unlock id) { r with input := rest } w.out) := by
  obtain ⟨t, ht⟩ := clock_exists cfg ch
  unfold unlockCmd
  refine stops_rdr_bind (readToFlush_args hF hi) ?_
  simp only [oid_utf8 hid, Bool.not_true, Bool.false_eq_true, if_false]
  refine stops_bind (stops_looks (looks_lockFromId cfg id) (runs_lockFromId hc hr hd hid) fun w' h1 h2 => hI1 w' h2 (h1 ▸ hr)) ?_
  rintro x r' w' ⟨rfl, e1, e2, rfl⟩
  simp only [Res.elim_ok]
  cases hf : s.find cfg id with
  | none =>
    refine ⟨rfl, e2, t, t, errStatus 404 b!"not found", ht, ht, rfl, ?_⟩
    simp only [answer, hf, e1]
    exact ⟨hr, hd, statusFor_notFound _⟩
  | some l =>
    obtain ⟨hl, hn⟩ := find_some hf
    obtain ⟨i, hg, _⟩ := hr.lock_some hf
    simp only [Option.map_some, lockArgs_eq (hr.times l hl)]
    refine stops_pure_bind ?_
    refine stops_bind (P := fun x r' w' => r' = { r with input := rest } ∧ w'.fs = w.fs.delName (lockFile cfg.root id) ∧
      w'.out = w.out ∧ x = .ok (.ok ())) ?_ ?_
    · unfold M.stops
      rw [M.wp_attempt]
      unfold lockUnlock
      have hpath : lockPath cfg (lockInfo cfg l).path = lockFile cfg.root id := by rw [lockPath_eq]; exact congrArg _ hn
      rw [hpath]
      refine stops_op_bind (hI1 w' e2 (e1 ▸ hr)) (fs' := w.fs.delName (lockFile cfg.root id)) (x := .ok ())
        (by simp only [sem, hc w'.tick, e1, hg, Option.isSome_some, if_true]) (fun _ => rfl) ?_
      intro w2 e3 e4
      exact show _ ∧ _ ∧ _ ∧ _ from ⟨rfl, e3, e4.trans e2, rfl⟩
    · rintro x r' w2 ⟨rfl, e3, e4, rfl⟩
      simp only [Res.elim_ok]
      refine ⟨rfl, e4, t, t, Status.successWithCode 200 (lockFields cfg l), ht, ht, rfl, ?_⟩
      have hevo : FS.Evo cfg.root w.fs.next w.fs w2.fs := by rw [e3]; exact FS.Evo.delName _ _
      have hget : ∀ q, w2.fs.get q = if q = lockFile cfg.root id then none else w.fs.get q := by
        intro q; rw [e3, FS.get_delName]
      simp only [answer, hf]
      refine ⟨hr.locks_changed hevo _ ?_ ?_ ?_ ?_ ?_, hevo.ready hd,
        ⟨rfl, c200, rfl, lockFields_ne _ _⟩, rfl, rfl⟩
      · intro q hq
        rw [hget, if_neg (hq _)]
      · intro m hm
        rw [List.mem_filter, decide_eq_true_eq] at hm
        obtain ⟨j, h1, h2, h3⟩ := hr.locks m hm.1
        have hj := hevo.ino j (hr.bound _ _ h1)
        refine ⟨j, ?_, hj.1.trans h2, hj.2.trans h3⟩
        rw [hget, if_neg (fun e => hm.2 (lockFile_inj e)), h1]
      · intro n hn'
        rw [hget] at hn'
        split at hn'
        · cases hn'
        · rename_i hne
          obtain ⟨m, hm, rfl⟩ := hr.only n hn'
          refine ⟨m, ?_, rfl⟩
          rw [List.mem_filter, decide_eq_true_eq]
          exact ⟨hm, fun e => hne (by rw [e])⟩
      · exact hr.sorted.filter _
      · intro m hm
        exact hr.times m (List.mem_filter.mp hm).1

theorem runs_unlock {kv : List (Bytes × Bytes)} {u rest id : Bytes} {r : Rdr} {w : World}
    (hc : Calm ch) (hid : IsOid id)
    (hF : Frames (argPackets kv ++ [.flush]) u) (hi : r.input = u ++ rest)
    (hr : Rep cfg s w.fs) (hd : Ready cfg w.fs) :
    (unlockCmd cfg id).runs ch r w
      (Handled cfg mode ch s (.unlock id) { r with input := rest } w.out) :=
  runs_of_stops (I := fun _ => True) (stops_unlock hc hid hF hi hr hd fun _ _ _ => trivial)

/-! ### lock -/

theorem pairwise_find {l : Lock} : ∀ {ls : List Lock},
    ls.Pairwise (fun l m => lockName cfg.sha l.path < lockName cfg.sha m.path) → l ∈ ls →
    ls.find? (fun m => lockName cfg.sha m.path = lockName cfg.sha l.path) = some l
  | [], _, h => by cases h
  | m :: ls, hp, hl => by
    rw [List.pairwise_cons] at hp
    rcases List.mem_cons.mp hl with rfl | hl
    · simp
    · have hlt := hp.1 l hl
      have hne : lockName cfg.sha m.path ≠ lockName cfg.sha l.path := by
        intro e; rw [e] at hlt; exact List.lt_irrefl _ hlt
      rw [List.find?_cons_of_neg (by simpa using hne)]
      exact pairwise_find hp.2 hl

theorem insertLock_sorted {l : Lock} {ls : List Lock}
    (hp : ls.Pairwise (fun l m => lockName cfg.sha l.path < lockName cfg.sha m.path))
    (hn : ∀ m ∈ ls, lockName cfg.sha m.path ≠ lockName cfg.sha l.path) :
    (insertLock cfg l ls).Pairwise (fun l m => lockName cfg.sha l.path < lockName cfg.sha m.path) := by
  induction ls with
  | nil => simp [insertLock]
  | cons m ls ih =>
    rw [List.pairwise_cons] at hp
    have ih := ih hp.2 fun x hx => hn x (by simp [hx])
    unfold insertLock at ih ⊢
    by_cases h : lockName cfg.sha m.path < lockName cfg.sha l.path
    · simp only [List.takeWhile_cons, List.dropWhile_cons, h, decide_true, if_true, List.cons_append,
        List.pairwise_cons]
      refine ⟨?_, ih⟩
      intro x hx
      rcases List.mem_append.mp hx with hx | hx
      · exact hp.1 x ((List.takeWhile_sublist _).mem hx)
      · rcases List.mem_cons.mp hx with rfl | hx
        · exact h
        · exact hp.1 x ((List.dropWhile_sublist _).mem hx)
    · simp only [List.takeWhile_cons, List.dropWhile_cons, h, decide_false, Bool.false_eq_true, if_false,
        List.nil_append, List.pairwise_cons]
      have hlt : lockName cfg.sha l.path < lockName cfg.sha m.path := by
        rcases List.le_iff_lt_or_eq.mp (List.not_lt.mp h) with h | h
        · exact h
        · exact absurd h.symm (hn m (by simp))
      refine ⟨?_, hp⟩
      intro x hx
      rcases List.mem_cons.mp hx with rfl | hx
      · exact hlt
      · exact List.lt_trans hlt (hp.1 x hx)

theorem mem_insertLock {l m : Lock} {ls : List Lock} : m ∈ insertLock cfg l ls ↔ m = l ∨ m ∈ ls := by
  unfold insertLock
  rw [List.mem_append, List.mem_cons]
  constructor
  · rintro (h | h | h)
    · exact .inr ((List.takeWhile_sublist _).mem h)
    · exact .inl h
    · exact .inr ((List.dropWhile_sublist _).mem h)
  · rintro (h | h)
    · exact .inr (.inl h)
    · rw [← List.takeWhile_append_dropWhile (p := fun m => decide (lockName cfg.sha m.path < lockName cfg.sha l.path))
        (l := ls)] at h
      rcases List.mem_append.mp h with h | h
      · exact .inl h
      · exact .inr (.inr h)

theorem runs_timestamp {r : Rdr} {w : World} :
    (timestamp cfg).runs ch r w (fun x r' w' => r' = r ∧ w'.fs = w.fs ∧ w'.out = w.out ∧
      ∃ t, x = .ok t ∧ Clock cfg ch t) := by
  unfold timestamp
  cases h : cfg.timestamp with
  | some t => exact ⟨rfl, rfl, rfl, t, rfl, .inl h⟩
  | none =>
    unfold M.runs
    show Prog.wp (Logic.run ch) _ _ _
    refine ⟨trivial, fun x hx => ⟨rfl, ?_, ?_, x, rfl, ?_⟩⟩
    · rfl
    · simp [Logic.run, emitted]
    · exact .inr ⟨h, w.tick, hx⟩

theorem lockTemp_eq (cfg : Cfg) (path : Bytes) :
    lockTemp cfg path = lockFile cfg.root (lockName cfg.sha path ++ b!".lock") := by
  rw [lockTemp, lockId_eq, locksDir_join]

theorem lockFile_dropLast (root : Path) (n : Bytes) : (lockFile root n).dropLast = locksDir root := by
  rw [← locksDir_join, List.dropLast_concat]

theorem stops_lock {I : World → Prop} {kv : List (Bytes × Bytes)} {u rest path ref : Bytes} {r : Rdr} {w : World}
    (hc : Calm ch) (hsha : ∀ b, (cfg.sha b).length = 32) (hclk : ∀ t, Clock cfg ch t → TimeOk cfg t)
    (ha : ArgsOk kv) (hpa : lookup kv b!"path" = some path) (href : lookup kv b!"refname" = some ref)
    (hF : Frames (argPackets kv ++ [.flush]) u) (hi : r.input = u ++ rest)
    (hr : Rep cfg s w.fs) (hd : Ready cfg w.fs)
    (hI1 : ∀ w', w'.out = w.out → Rep cfg s w'.fs → I w')
    (hI2 : ∀ w' t t', w'.out = w.out → Clock cfg ch t → Clock cfg ch t' →
      Rep cfg (answer cfg mode s t t' (.lock path)).2 w'.fs → I w')
    (hI3 : ∀ w' t t', w'.out = w.out → Clock cfg ch t → Clock cfg ch t' →
      (w'.fs.get (lockFile cfg.root (lockName cfg.sha path ++ b!".lock"))).isSome → (w'.fs.names.map (·.1)).Nodup →
      (∀ i, w'.fs.get (lockFile cfg.root (lockName cfg.sha path ++ b!".lock")) = some i → i < w'.fs.next ∧ ((w'.fs.inodes i).data = [] ∨
        ∃ l : Lock, l.path = path ∧ TimeOk cfg l.time ∧ (w'.fs.inodes i).data = lockText l ∧ (w'.fs.inodes i).uid = l.uid)) →
      Rep cfg s (w'.fs.delName (lockFile cfg.root (lockName cfg.sha path ++ b!".lock"))) ∨
      Rep cfg (answer cfg mode s t t' (.lock path)).2
        (w'.fs.delName (lockFile cfg.root (lockName cfg.sha path ++ b!".lock"))) → I w') :
    (lockCmd cfg).stops ch I r w
      (Handled cfg mode ch s (.lock path) { r with input := rest } w.out) := by
  obtain ⟨t0, ht0⟩ := clock_exists cfg ch
  obtain ⟨m, hm, hget⟩ := C09_args_exact kv ha
  unfold lockCmd
  refine stops_readToFlushParse (readToFlush_args hF hi) ?_
  refine stops_ofRes_bind hm ?_
  simp only [hget, hpa, href]
  unfold lockLoop
  generalize hfs : w.fs = fs at *
  generalize hid : lockName cfg.sha path = id at *
  have hoid : IsOid id := hid ▸ isOid_lockName hsha path
  generalize htmp : lockFile cfg.root (id ++ b!".lock") = tmp at *
  have htmpn : fs.get tmp = none := by
    cases e : fs.get tmp with
    | none => rfl
    | some i =>
      exfalso
      subst htmp
      obtain ⟨l, _, hl⟩ := hr.only _ (by rw [e]; rfl)
      have h1 := congrArg List.length hl
      rw [(isOid_lockName hsha l.path).1, List.length_append, hoid.1] at h1
      simp at h1
  have htmpd : fs.isDir tmp = false := htmp ▸ hr.lock_notDir _
  have hne : tmp ≠ lockFile cfg.root id := by
    intro e
    rw [← htmp] at e
    have := congrArg List.length (lockFile_inj e)
    simp at this
  have hdropd : fs.isDir tmp.dropLast = true := by rw [← htmp, lockFile_dropLast]; exact hd.locksDir
  have made : ∀ t t' fs2, Clock cfg ch t → s.find cfg id = none → FS.Evo cfg.root fs.next fs fs2 →
      (fs2.inodes fs.next).data = lockText ⟨path, t, cfg.uid⟩ → (fs2.inodes fs.next).uid = cfg.uid →
      (∀ q, fs2.get q = if q = lockFile cfg.root id then some fs.next else fs.get q) →
      Rep cfg (answer cfg mode s t t' (.lock path)).2 fs2 := by
    intro t t' fs2 ht hf hevo hdat huid hget2
    simp only [answer, hid, hf]
    refine hr.locks_changed hevo _ ?_ ?_ ?_ ?_ ?_
    · intro q hq
      rw [hget2, if_neg (hq _)]
    · intro l hl
      rcases mem_insertLock.mp hl with rfl | hl
      · exact ⟨fs.next, by rw [hget2, hid, if_pos rfl], hdat, huid⟩
      · obtain ⟨j, h1, h2, h3⟩ := hr.locks l hl
        have hj := hevo.ino j (hr.bound _ _ h1)
        refine ⟨j, ?_, hj.1.trans h2, hj.2.trans h3⟩
        rw [hget2, if_neg (fun e => find_none hf l hl (lockFile_inj e)), h1]
    · intro n hn
      rw [hget2] at hn
      split at hn
      · rename_i e
        exact ⟨_, mem_insertLock.mpr (.inl rfl), by rw [hid]; exact lockFile_inj e⟩
      · obtain ⟨l, hl, h⟩ := hr.only n hn
        exact ⟨l, mem_insertLock.mpr (.inr hl), h⟩
    · exact insertLock_sorted hr.sorted fun l hl => by rw [hid]; exact find_none hf l hl
    · intro l hl
      rcases mem_insertLock.mp hl with rfl | hl
      · exact hclk t ht
      · exact hr.times l hl
  have same : ∀ fs2, FS.Evo cfg.root fs.next fs fs2 → (∀ q, fs2.get q = fs.get q) → Rep cfg s fs2 := by
    intro fs2 hevo hget2
    refine hr.objs_changed hevo s.objs ?_ (fun n => hget2 _) (fun d hsd q hq => by rw [hget2]; exact hr.noFile d hsd q hq)
    intro oid ho
    rw [← hr.objs oid ho]
    exact content_evo hevo (hget2 _) fun i hi => hr.bound _ i hi
  have half : ∀ w', w'.out = w.out → FS.Evo cfg.root fs.next fs w'.fs →
      (∀ q, w'.fs.get q = if q = tmp then some fs.next else fs.get q) → fs.next < w'.fs.next →
      ((w'.fs.inodes fs.next).data = [] ∨ ∃ l : Lock, l.path = path ∧ TimeOk cfg l.time ∧
        (w'.fs.inodes fs.next).data = lockText l ∧ (w'.fs.inodes fs.next).uid = l.uid) → I w' := by
    intro w' h1 h2 h3 h5 h4
    refine hI3 w' t0 t0 h1 ht0 ht0 (by rw [h3]; simp) (h2.nodup hr.nodup) (fun i hi => by
      rw [h3, if_pos rfl] at hi
      cases hi
      exact ⟨h5, h4⟩) (.inl (same _ (h2.trans (FS.Evo.delName _ _)) fun q => ?_))
    rw [FS.get_delName, h3]
    by_cases hq : q = tmp
    · simp [hq, htmpn]
    · simp [hq]
  -- the attempt to create
  refine stops_bind (P := fun x r' w' => r' = { r with input := rest } ∧ w'.out = w.out ∧
    ∃ t t', Clock cfg ch t ∧ Clock cfg ch t' ∧ ∃ fs2, w'.fs = fs2 ∧
    FS.Evo cfg.root fs.next fs fs2 ∧ (fs2.inodes fs.next).data = lockText ⟨path, t, cfg.uid⟩ ∧
    (fs2.inodes fs.next).uid = cfg.uid ∧
    match fs.get (lockFile cfg.root id) with
    | none => x = .ok (.ok (lockInfo cfg ⟨path, t', cfg.uid⟩)) ∧
        ∀ q, fs2.get q = if q = lockFile cfg.root id then some fs.next else fs.get q
    | some _ => x = .ok (.error (Err.simple .conflict)) ∧ ∀ q, fs2.get q = fs.get q) ?_ ?_
  · unfold M.stops
    rw [M.wp_attempt]
    unfold lockCreate
    refine stops_bind (stops_looks (looks_timestamp cfg) runs_timestamp fun w' h1 h2 => hI1 w' h2 (by rw [h1, hfs]; exact hr)) ?_
    rintro x r' w1 ⟨rfl, e1, e2, t, rfl, ht⟩
    rw [hfs] at e1
    simp only [Res.elim_ok, lockTemp_eq, lockPath_eq, hid, htmp]
    generalize hfs2 : (fs.create tmp cfg.uid 0o644).append fs.next (lockText ⟨path, t, cfg.uid⟩) = fs2
    have hget2 : ∀ q, fs2.get q = if q = tmp then some fs.next else fs.get q := by
      intro q; rw [← hfs2]; simp
    have hevo2 : FS.Evo cfg.root fs.next fs fs2 := by
      rw [← hfs2]
      exact (FS.Evo.create fs tmp cfg.uid _ (Nat.le_refl _)).trans (FS.Evo.append _ _ _ (Nat.le_refl _))
    have hdat2 : (fs2.inodes fs.next).data = lockText ⟨path, t, cfg.uid⟩ := by
      rw [← hfs2, FS.data_append, FS.data_create]; simp
    have huid2 : (fs2.inodes fs.next).uid = cfg.uid := by
      rw [← hfs2]; simp [FS.append, FS.setInode, FS.create]
    have hrec : (fs2.inodes fs.next).data = [] ∨ ∃ l : Lock, l.path = path ∧ TimeOk cfg l.time ∧
        (fs2.inodes fs.next).data = lockText l ∧ (fs2.inodes fs.next).uid = l.uid :=
      .inr ⟨⟨path, t, cfg.uid⟩, rfl, hclk t ht, hdat2, huid2⟩
    have hnext2 : fs.next < fs2.next := by rw [← hfs2]; simp
    have hdir2 : fs2.dirs = fs.dirs := by rw [← hfs2]; rfl
    have hisdir2 : ∀ q, fs2.isDir q = fs.isDir q := by intro q; simp [FS.isDir, hdir2]
    have hwrite : ∀ {Q : Res Unit → Rdr → World → Prop},
        (∀ w', w'.fs = fs2 → w'.out = w1.out → Q (.ok ()) { r with input := rest } w') →
        (lockWrite cfg tmp (lockRecord t path)).stops ch I { r with input := rest } w1 Q := by
      intro Q k
      unfold lockWrite
      refine stops_op_bind (hI1 w1 e2 (by rw [e1]; exact hr)) (fs' := fs.create tmp cfg.uid 0o644) (x := .ok fs.next)
        (by simp only [sem, hc w1.tick, e1, htmpn, htmpd, hdropd]; rfl) (fun _ => rfl) ?_
      intro w2 f1 f2
      simp only
      refine stops_op_bind (half w2 (f2.trans e2) (by rw [f1]; exact FS.Evo.create fs tmp cfg.uid _ (Nat.le_refl _))
        (by intro q; rw [f1]; simp) (by rw [f1]; simp) (.inl (by rw [f1, FS.data_create]; simp))) (fs' := fs2) (x := .ok ())
        (by simp only [sem, hc w2.tick, f1, lockRecord_eq ⟨path, t, cfg.uid⟩, hfs2]) (fun _ => rfl) ?_
      intro w3 f3 f4
      exact k w3 f3 (f4.trans f2)
    cases hg : fs.get (lockFile cfg.root id) with
    | some j =>
      refine stops_bind (P := fun x r' w' => x = .err (Err.simple .conflict) ∧ r' = { r with input := rest } ∧
        w'.fs = fs2.delName tmp ∧ w'.out = w.out) ?_ ?_
      · unfold M.stops
        rw [M.wp_after]
        refine M.wp_mono (Q := fun x r' w' => x = .err (Err.simple .conflict) ∧ r' = { r with input := rest } ∧
          w'.fs = fs2 ∧ w'.out = w.out) ?_ ?_
        · refine stops_bind (P := fun x r' w' => x = .ok () ∧ r' = { r with input := rest } ∧ w'.fs = fs2 ∧
            w'.out = w.out) (hwrite fun w' f1 f2 => ⟨rfl, rfl, f1, f2.trans e2⟩) ?_
          rintro x r' w2 ⟨rfl, rfl, f1, f2⟩
          simp only [Res.elim_ok]
          unfold lockPersist
          refine stops_op_bind (half w2 f2 (by rw [f1]; exact hevo2) (by rw [f1]; exact hget2) (f1 ▸ hnext2) (f1 ▸ hrec)) (fs' := fs2) (x := .error eexist)
            (by
              simp only [sem, hc w2.tick, f1, hget2 tmp, if_true]
              rw [hget2, if_neg (Ne.symm hne), hg]; rfl) (fun _ => rfl) ?_
          intro w3 f3 f4
          exact ⟨rfl, rfl, f3, f4.trans f2⟩
        · rintro x r' w2 ⟨rfl, rfl, f1, f2⟩
          refine M.wp_mono (stops_dropFile hc (by rw [f1, hget2]; simp)
            (half w2 f2 (by rw [f1]; exact hevo2) (by rw [f1]; exact hget2) (f1 ▸ hnext2) (f1 ▸ hrec))) ?_
          rintro _ r' w3 ⟨_, rfl, f3, f4⟩
          exact ⟨rfl, rfl, by rw [f3, f1], f4.trans f2⟩
      · rintro x r' w3 ⟨rfl, rfl, f1, f2⟩
        simp only [Res.elim_err]
        refine ⟨trivial, f2, t, t, ht, ht, fs2.delName tmp, f1, hevo2.trans (FS.Evo.delName _ _), hdat2, huid2,
          trivial, ?_⟩
        intro q
        rw [FS.get_delName, hget2]
        by_cases hq : q = tmp
        · simp [hq, htmpn]
        · simp [hq]
    | none =>
      generalize hfs3 : fs2.setName (lockFile cfg.root id) fs.next = fs3
      have hget3 : ∀ q, fs3.get q = if q = lockFile cfg.root id then some fs.next
          else if q = tmp then some fs.next else fs.get q := by
        intro q; rw [← hfs3, FS.get_setName, hget2]
      generalize hfs4 : fs3.delName tmp = fs4
      have hget4 : ∀ q, fs4.get q = if q = lockFile cfg.root id then some fs.next else fs.get q := by
        intro q
        rw [← hfs4, FS.get_delName, hget3]
        by_cases hq : q = tmp
        · simp [hq, hne, htmpn]
        · simp [hq]
      have hino : fs4.inodes = fs2.inodes := by rw [← hfs4, ← hfs3]; rfl
      have hevo4 : FS.Evo cfg.root fs.next fs fs4 := by
        rw [← hfs4, ← hfs3]
        exact (hevo2.trans (FS.Evo.setName _ _ _ hnext2)).trans (FS.Evo.delName _ _)
      have hf : s.find cfg id = none := by
        cases hf : s.find cfg id with
        | none => rfl
        | some l =>
          obtain ⟨i, hg', _⟩ := hr.lock_some hf
          rw [hg] at hg'
          cases hg'
      have made4 := made t t fs4 ht hf hevo4 (by rw [hino, hdat2]) (by rw [hino, huid2]) hget4
      refine stops_bind (P := fun x r' w' => x = .ok () ∧ r' = { r with input := rest } ∧
        w'.fs = fs4 ∧ w'.out = w.out) ?_ ?_
      · unfold M.stops
        rw [M.wp_after]
        refine M.wp_mono (Q := fun x r' w' => x = .ok () ∧ r' = { r with input := rest } ∧
          w'.fs = fs3 ∧ w'.out = w.out) ?_ ?_
        · refine stops_bind (P := fun x r' w' => x = .ok () ∧ r' = { r with input := rest } ∧ w'.fs = fs2 ∧
            w'.out = w.out) (hwrite fun w' f1 f2 => ⟨rfl, rfl, f1, f2.trans e2⟩) ?_
          rintro x r' w2 ⟨rfl, rfl, f1, f2⟩
          simp only [Res.elim_ok]
          unfold lockPersist
          refine stops_op_bind (half w2 f2 (by rw [f1]; exact hevo2) (by rw [f1]; exact hget2) (f1 ▸ hnext2) (f1 ▸ hrec)) (fs' := fs3) (x := .ok ())
            (by
              simp only [sem, hc w2.tick, f1, hget2 tmp, if_true]
              rw [hget2, if_neg (Ne.symm hne), hg, hisdir2, hr.lock_notDir, lockFile_dropLast, hisdir2, hd.locksDir, hfs3]
              rfl) (fun _ => rfl) ?_
          intro w3 f3 f4
          exact ⟨rfl, rfl, f3, f4.trans f2⟩
        · rintro x r' w2 ⟨rfl, rfl, f1, f2⟩
          refine M.wp_mono (stops_dropFile hc (by rw [f1, hget3, if_neg hne]; simp) ?_) ?_
          · refine hI3 w2 t t f2 ht ht (by rw [f1, hget3, if_neg hne]; simp)
              (by rw [f1, ← hfs3]; exact (hevo2.trans (FS.Evo.setName _ _ _ hnext2)).nodup hr.nodup) (fun i hi => by
                rw [f1, hget3, if_neg hne, if_pos rfl] at hi
                cases hi
                rw [f1, ← hfs3]
                exact ⟨hnext2, hrec⟩) (.inr ?_)
            rw [f1, hfs4]
            exact made4
          rintro _ r' w3 ⟨_, rfl, f3, f4⟩
          exact ⟨rfl, rfl, by rw [f3, f1, hfs4], f4.trans f2⟩
      · rintro x r' w3 ⟨rfl, rfl, f1, f2⟩
        simp only [Res.elim_ok]
        refine stops_bind (P := fun x r' w' => r' = { r with input := rest } ∧ w'.fs = fs4 ∧ w'.out = w.out ∧
          x = .ok (ownerName cfg cfg.uid)) ?_ ?_
        · unfold userForFile
          refine stops_op_bind (hI2 w3 t t f2 ht ht (by rw [f1]; exact made4)) (fs' := fs4) (x := .ok ⟨(lockText ⟨path, t, cfg.uid⟩).length, cfg.uid⟩)
            (by rw [sem_stat_exact (hc w3.tick), f1, hget4, if_pos rfl]; simp only [hino, hdat2, huid2]) (fun _ => rfl) ?_
          intro w4 g1 g2
          exact ⟨rfl, g1, g2.trans f2, by rw [userName_eq]⟩
        · rintro x r' w4 ⟨rfl, g1, g2, rfl⟩
          simp only [Res.elim_ok]
          refine stops_bind (stops_looks (looks_timestamp cfg) runs_timestamp fun w' h1 h2 =>
            hI2 w' t t (h2.trans g2) ht ht (by rw [h1, g1]; exact made4)) ?_
          rintro x r' w5 ⟨rfl, g3, g4, t', rfl, ht'⟩
          exact ⟨rfl, g4.trans g2, t, t', ht, ht', fs4, g3.trans g1, hevo4, by rw [hino, hdat2], by rw [hino, huid2], rfl, hget4⟩
  · rintro x r' w' ⟨rfl, e1, t, t', ht, ht', fs2, e2, hevo, hdat, huid, hx⟩
    cases hf : s.find cfg id with
    | none =>
      rw [hr.lock_none hf] at hx
      obtain ⟨rfl, hget2⟩ := hx
      simp only [Res.elim_ok]
      rw [lockArgs_eq (hclk t' ht')]
      refine ⟨rfl, e1, t, t', Status.successWithCode 201 (lockFields cfg ⟨path, t', cfg.uid⟩), ht, ht', rfl, ?_⟩
      refine ⟨?_, e2 ▸ hevo.ready hd, ?_⟩
      · rw [e2]; exact made t t' fs2 ht hf hevo hdat huid hget2
      · simp only [answer, hid, hf]
        exact ⟨⟨rfl, c201, rfl, lockFields_ne _ _⟩, rfl, rfl⟩
    | some l =>
      obtain ⟨i, hg, _⟩ := hr.lock_some hf
      rw [hg] at hx
      obtain ⟨rfl, hget2⟩ := hx
      have hr2 : Rep cfg s w'.fs := by rw [e2]; exact same _ hevo hget2
      have hd2 : Ready cfg w'.fs := by rw [e2]; exact hevo.ready hd
      simp only [Res.elim_ok]
      rw [if_pos (show (Err.simple .conflict).kind = .conflict from rfl)]
      refine stops_bind (stops_looks (looks_lockFromPath cfg path) (runs_lockFromPath hc hsha hr2 hd2)
        fun w2 h1 h2 => hI1 w2 (h2.trans e1) (h1 ▸ hr2)) ?_
      rintro x r' w2 ⟨rfl, f1, f2, rfl⟩
      rw [hid, hf]
      simp only
      by_cases hpp : l.path = path
      · rw [if_pos hpp]
        simp only [Res.elim_ok]
        rw [lockArgs_eq (hr.times l (find_some hf).1)]
        refine ⟨rfl, f2.trans e1, t, t, Status.failureWithArgs 409 (lockFields cfg l) b!"conflict\n", ht, ht, rfl, ?_⟩
        simp only [answer, hid, hf, if_pos hpp, f1]
        exact ⟨hr2, hd2, ⟨rfl, c409, rfl, lockFields_ne _ _⟩, rfl, by simp⟩
      · rw [if_neg hpp]
        simp only [Res.elim_err]
        refine ⟨rfl, f2.trans e1, t, t, _, ht, ht, rfl, ?_⟩
        simp only [answer, hid, hf, if_neg hpp, f1]
        exact ⟨hr2, hd2, statusFor_clash _⟩

theorem runs_lock {kv : List (Bytes × Bytes)} {u rest path ref : Bytes} {r : Rdr} {w : World}
    (hc : Calm ch) (hsha : ∀ b, (cfg.sha b).length = 32) (hclk : ∀ t, Clock cfg ch t → TimeOk cfg t)
    (ha : ArgsOk kv) (hpa : lookup kv b!"path" = some path) (href : lookup kv b!"refname" = some ref)
    (hF : Frames (argPackets kv ++ [.flush]) u) (hi : r.input = u ++ rest)
    (hr : Rep cfg s w.fs) (hd : Ready cfg w.fs) :
    (lockCmd cfg).runs ch r w
      (Handled cfg mode ch s (.lock path) { r with input := rest } w.out) :=
  runs_of_stops (I := fun _ => True) (stops_lock hc hsha hclk ha hpa href hF hi hr hd (fun _ _ _ => trivial)
    (fun _ _ _ _ _ _ _ => trivial) fun _ _ _ _ _ _ _ _ _ _ => trivial)

end Verif
