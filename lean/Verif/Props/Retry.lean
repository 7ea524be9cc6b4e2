import Verif.Props.Again
import Verif.Spec.Retry
/-! C87: how to get rid of the file that a killed `lock` has left. -/
namespace Verif
open Spec

variable {cfg : Cfg} {ch ch2 : Nat → Choice} {s : Store} {path : Bytes}

/-- The files represent `s`, but for the file that a `lock` of `path` has left, about which `D` is known. -/
def Left (D : FS → Prop) (cfg : Cfg) (s : Store) (path : Bytes) (fs : FS) : Prop :=
  (fs.get (halfLock cfg path)).isSome ∧ Rep cfg s (fs.delName (halfLock cfg path)) ∧ D fs

/-- What `RepBut` says about it. -/
abbrev Known (cfg : Cfg) (path : Bytes) (fs : FS) : Prop := (fs.names.map (·.1)).Nodup ∧ HalfDone cfg path fs

variable {D : FS → Prop}

/-! ### The parts of the server, while the file is there -/

theorem stops_mkdirs_but {I : World → Prop} (hc : Calm ch) (hD : ∀ fs ds, D fs → D (fs.addDirs ds)) (hI : ∀ w', Left D cfg s path w'.fs → I w') :
    ∀ (ds : List Path) (r : Rdr) (w : World), (∀ d ∈ ds, d ∈ topDirs cfg.root) →
    Left D cfg s path w.fs → (mkdirs ds).stops ch I r w (fun x r' w' => x = .ok () ∧ r' = r ∧ w'.out = w.out ∧
      Left D cfg s path w'.fs ∧ (∀ q, q ∈ w.fs.dirs → q ∈ w'.fs.dirs) ∧ ∀ d ∈ ds, d ∈ w'.fs.dirs)
  | [], _, _, _, hr => ⟨rfl, rfl, rfl, hr, fun _ h => h, by simp⟩
  | d :: ds, r, w, hds, hr => by
    have hskel : SkelDir cfg.root d := .inl (hds d (by simp))
    have hno : ∀ q, q <+: d → w.fs.get q = none := by
      intro q hq
      have := hr.2.1.noFile d hskel q hq
      rw [FS.get_delName] at this
      by_cases he : q = halfLock cfg path
      · exfalso
        subst he
        have hl := hq.length_le
        have h := hds d (by simp)
        simp only [topDirs, List.mem_cons, List.not_mem_nil, or_false] at h
        rcases h with rfl | rfl | rfl | rfl <;>
          simp [halfLock, lockFile, List.prefix_append_right_inj] at hq hl
      · simpa [he] using this
    rw [mkdirs]
    refine stops_op_bind (hI w hr) (sem_mkdirAll (hc _) hno) (fun _ => rfl) ?_
    intro w' e1 e2
    refine stops_ofIo_bind ?_
    have hevo : FS.Evo cfg.root w.fs.next w.fs w'.fs := by
      rw [e1]
      exact FS.Evo.addDirs _ _ fun q hq => ⟨d, hskel, mem_pathPrefixes (List.mem_filter.mp hq).1⟩
    have hevo2 : FS.Evo cfg.root w.fs.next (w.fs.delName (halfLock cfg path)) (w'.fs.delName (halfLock cfg path)) := by
      rw [e1]
      exact FS.Evo.addDirs _ _ fun q hq => ⟨d, hskel, mem_pathPrefixes (List.mem_filter.mp hq).1⟩
    have hr' : Left D cfg s path w'.fs := by
      refine ⟨by rw [e1]; exact hr.1, hr.2.1.same hevo2 fun q _ => ?_, by rw [e1]; exact hD _ _ hr.2.2⟩
      rw [e1]
      rfl
    have hne : d ≠ [] := by
      have h := hds d (by simp)
      simp only [topDirs, List.mem_cons, List.not_mem_nil, or_false] at h
      rcases h with rfl | rfl | rfl | rfl <;> simp
    have hdir : d ∈ w'.fs.dirs := by
      have := isDir_mkdirAll (fs := w.fs) hne
      rw [← e1, isDir_iff] at this
      exact this.resolve_left hne
    refine stops_mono (stops_mkdirs_but hc hD hI ds r w' (fun x hx => hds x (by simp [hx])) hr') ?_
    rintro x r2 w2 ⟨h1, h2, h3, h4, h5, h6⟩
    refine ⟨h1, h2, h3.trans e2, h4, fun q hq => h5 q (hevo.keep q hq), ?_⟩
    intro x hx
    rcases List.mem_cons.mp hx with rfl | hx
    · exact h5 _ hdir
    · exact h6 x hx

/-- What the handler of `lock` does: it removes the file, and then it gives up, unless the lock is held. -/
theorem stops_lock_but {I : World → Prop} {mode : Mode} {kv : List (Bytes × Bytes)} {u rest ref : Bytes} {r : Rdr} {w : World}
    (hc : Calm ch) (hsha : ∀ b, (cfg.sha b).length = 32)
    (ha : ArgsOk kv) (hpa : lookup kv b!"path" = some path) (href : lookup kv b!"refname" = some ref)
    (hF : Frames (argPackets kv ++ [.flush]) u) (hi : r.input = u ++ rest)
    (hr : Left D cfg s path w.fs) (hd : Ready cfg w.fs) (hI1 : ∀ w', Left D cfg s path w'.fs → I w')
    (hI2 : ∀ w', Rep cfg s w'.fs → I w') :
    (lockCmd cfg).stops ch I r w (fun x r' w' => Rep cfg s w'.fs ∧ w'.out = w.out ∧
      match s.find cfg (lockName cfg.sha path) with
      | none => x = .panic
      | some _ => Handled cfg mode ch s (.lock path) { r with input := rest } w.out x r' w') := by
  obtain ⟨t0, ht0⟩ := clock_exists cfg ch
  obtain ⟨m, hm, hget⟩ := C09_args_exact kv ha
  unfold lockCmd
  refine stops_readToFlushParse (readToFlush_args hF hi) ?_
  refine stops_ofRes_bind hm ?_
  simp only [hget, hpa, href]
  unfold lockLoop
  refine stops_bind (P := fun x r' w' => x = .ok (.error (Err.simple .conflict)) ∧ r' = { r with input := rest } ∧
    w'.out = w.out ∧ w'.fs = w.fs.delName (halfLock cfg path)) ?_ ?_
  · unfold M.stops
    rw [M.wp_attempt]
    unfold lockCreate
    refine stops_bind (stops_looks (looks_timestamp cfg) runs_timestamp fun w' h1 _ => hI1 w' (h1 ▸ hr)) ?_
    rintro x r' w1 ⟨rfl, e1, e2, t, rfl, ht⟩
    simp only [Res.elim_ok]
    refine stops_bind (P := fun x r' w' => x = .err (Err.simple .conflict) ∧ r' = { r with input := rest } ∧
        w'.out = w.out ∧ w'.fs = w.fs.delName (halfLock cfg path)) ?_ ?_
    · unfold M.stops
      rw [M.wp_after]
      refine M.wp_mono (Q := fun x r' w' => x = .err (Err.simple .conflict) ∧ r' = { r with input := rest } ∧
          w'.fs = w.fs ∧ w'.out = w.out) ?_ ?_
      · refine stops_bind (P := fun x r' w' => x = .err (Err.simple .conflict) ∧ r' = { r with input := rest } ∧
          w'.fs = w.fs ∧ w'.out = w.out) ?_ ?_
        · unfold lockWrite
          have hsome : (w1.fs.get (lockTemp cfg path)).isSome := by
            rw [e1, lockTemp_eq]; exact hr.1
          refine stops_op_bind (hI1 w1 (e1 ▸ hr)) (fs' := w.fs) (x := .error eexist) ?_ (fun _ => rfl) ?_
          · simp only [sem, hc w1.tick, hsome]
            simp [e1]
          · intro w2 f1 f2
            exact ⟨rfl, rfl, f1, f2.trans e2⟩
        · rintro x r' w2 ⟨rfl, rfl, f1, f2⟩
          exact ⟨rfl, rfl, f1, f2⟩
      · rintro x r' w2 ⟨rfl, rfl, f1, f2⟩
        refine M.wp_mono (stops_dropFile hc (by rw [f1, lockTemp_eq]; exact hr.1) (hI1 w2 (f1 ▸ hr))) ?_
        rintro _ r' w3 ⟨_, rfl, f3, f4⟩
        exact ⟨rfl, rfl, f4.trans f2, by rw [f3, f1, lockTemp_eq]; rfl⟩
    · rintro x r' w2 ⟨rfl, rfl, f1, f2⟩
      exact ⟨rfl, rfl, f1, f2⟩
  · rintro x r' w1 ⟨rfl, rfl, e1, e2⟩
    have hr1 : Rep cfg s w1.fs := by rw [e2]; exact hr.2.1
    have hd1 : Ready cfg w1.fs := by rw [e2]; exact hd
    simp only [Res.elim_ok]
    rw [if_pos (show (Err.simple .conflict).kind = .conflict from rfl)]
    refine stops_bind (stops_looks (looks_lockFromPath cfg path) (runs_lockFromPath hc hsha hr1 hd1) fun w' h1 _ => hI2 w' (h1 ▸ hr1)) ?_
    rintro x r' w2 ⟨rfl, f1, f2, rfl⟩
    cases hf : s.find cfg (lockName cfg.sha path) with
    | none => exact ⟨f1 ▸ hr1, f2.trans e1, rfl⟩
    | some l =>
      simp only
      by_cases hpp : l.path = path
      · rw [if_pos hpp]
        simp only [Res.elim_ok]
        rw [lockArgs_eq (hr.2.1.times l (find_some hf).1)]
        refine ⟨f1 ▸ hr1, f2.trans e1, rfl, f2.trans e1, t0, t0, Status.failureWithArgs 409 (lockFields cfg l) b!"conflict\n", ht0, ht0, rfl, ?_⟩
        simp only [answer, hf, if_pos hpp, f1]
        exact ⟨hr1, hd1, ⟨rfl, c409, rfl, lockFields_ne _ _⟩, rfl, by simp⟩
      · rw [if_neg hpp]
        simp only [Res.elim_err]
        refine ⟨f1 ▸ hr1, f2.trans e1, rfl, f2.trans e1, t0, t0, _, ht0, ht0, rfl, ?_⟩
        simp only [answer, hf, if_neg hpp, f1]
        exact ⟨hr1, hd1, statusFor_clash _⟩

/-- A turn that crashes, or that sends a reply. -/
theorem stops_turn_but {I : World → Prop} {l rest1 hw : Bytes} {r r' : Rdr} {w : World} {cmd : Bytes} {args : List Bytes}
    {q : Request} (hc : Calm ch) (hf : Frame (.data l) hw) (hi : r.input = hw ++ rest1) (hl : l ≠ [])
    (hwords : commandWords l = cmd :: args) (hq : cmd ≠ b!"quit")
    (hd : (dispatch cfg .upload cmd args.head?).stops ch I { r with input := rest1 } w (fun x r2 w' => Rep cfg s w'.fs ∧
      w'.out = w.out ∧ if s.find cfg (lockName cfg.sha path) = none then x = .panic else
        Handled cfg .upload ch s q r' w.out x r2 w'))
    (hs : ∀ t t', s.find cfg (lockName cfg.sha path) ≠ none → (answer cfg .upload s t t' q).2 = s)
    (hI : ∀ w', Rep cfg s w'.fs → I w') :
    (turn cfg .upload).stops ch I r w (fun x r2 w' => Rep cfg s w'.fs ∧
      if s.find cfg (lockName cfg.sha path) = none then x = .panic ∧ w'.out = w.out else
        Turned cfg .upload ch s q .again r' w.out x r2 w') := by
  unfold turn
  refine stops_bind (P := fun x r2 w2 => x = .ok (.ok (.data l)) ∧ r2 = { r with input := rest1 } ∧ w2 = w) ?_ ?_
  · unfold M.stops
    rw [M.wp_attempt, M.wp_rdr, readPacket_frame hf r rest1 hi]
    exact show _ ∧ _ ∧ _ from ⟨rfl, rfl, rfl⟩
  rintro x r2 w ⟨rfl, rfl, rfl⟩
  simp only [Res.elim_ok, Packet.data?, hl, if_false, hwords, List.head?_cons, Option.getD_some, List.tail_cons, hq,
    false_and]
  by_cases hn : s.find cfg (lockName cfg.sha path) = none
  · simp only [if_pos hn] at hd ⊢
    refine stops_bind (P := fun x _ w2 => x = .panic ∧ Rep cfg s w2.fs ∧ w2.out = w.out) ?_ ?_
    · unfold M.stops
      rw [M.wp_attempt]
      refine M.wp_mono hd ?_
      rintro (st | e | _) r2 w2 ⟨h1, h2, h⟩
      · cases h
      · cases h
      · exact ⟨rfl, h1, h2⟩
    rintro x r2 w2 ⟨rfl, h1, h2⟩
    exact ⟨h1, rfl, h2⟩
  · simp only [if_neg hn] at hd ⊢
    refine stops_bind (P := fun x r2 w2 => ∃ y, Handled cfg .upload ch s q r' w.out y r2 w2 ∧
      x = match y with | .ok st => .ok (.ok st) | .err e => .ok (.error e) | .panic => .panic) ?_ ?_
    · unfold M.stops
      rw [M.wp_attempt]
      refine M.wp_mono hd ?_
      rintro (st | e | _) r2 w2 ⟨_, _, h⟩ <;> exact ⟨_, h, rfl⟩
    rintro x r2 w2 ⟨y, ⟨rfl, e1, t, t', st, ht, ht', hy, hr, hrd, hst⟩, rfl⟩
    rw [hs t t' hn] at hr
    have fin : (sendStatus st >>= fun _ => (pure Turn.again : M Turn)).stops ch I r2 w2
        (fun x r3 w' => Rep cfg s w'.fs ∧ Turned cfg .upload ch s q .again r2 w.out x r3 w') := by
      refine stops_bind (stops_still (all_sendStatus st r2) (runs_status hst hc) fun w' h1 _ _ => hI w' (h1 ▸ hr)) ?_
      rintro x r3 w3 ⟨⟨rfl, rfl, f1, b, f2, f3⟩, _⟩
      exact ⟨f1 ▸ hr, rfl, rfl, t, t', b, ht, ht', by rw [f2, e1], f3, by rw [f1, hs t t' hn]; exact hr, by rw [f1]; exact hrd⟩
    cases y with
    | ok st' => cases hy; exact fin
    | err e => cases hy; exact fin
    | panic => cases hy

/-- What `lock` does to the store. -/
theorem lock_answer {mode : Mode} (t t' : Int) : (answer cfg mode s t t' (.lock path)).2.objs = s.objs ∧
    (∀ id, id ≠ lockName cfg.sha path → (answer cfg mode s t t' (.lock path)).2.find cfg id = s.find cfg id) ∧
    match s.find cfg (lockName cfg.sha path) with
    | none => (answer cfg mode s t t' (.lock path)).1.code = 201 ∧
        (answer cfg mode s t t' (.lock path)).2.find cfg (lockName cfg.sha path) = some ⟨path, t, cfg.uid⟩
    | some l => (answer cfg mode s t t' (.lock path)).2 = s ∧
        (answer cfg mode s t t' (.lock path)).1.code = if l.path = path then 409 else 400 := by
  cases hf : s.find cfg (lockName cfg.sha path) with
  | none =>
    simp only [answer, hf]
    simp only [Store.find] at hf ⊢
    refine ⟨trivial, fun id hid => ?_, trivial, ?_⟩
    · rw [find_insert _ hf, if_neg (Ne.symm hid)]
    · rw [find_insert _ hf]; simp
  | some l =>
    by_cases hl : l.path = path
    · simp [answer, hf, hl]
    · simp [answer, hf, hl, clash, badRequest]

theorem taken_lock {mode : Mode} (t t' : Int) : Taken cfg s path (answer cfg mode s t t' (.lock path)).2 := by
  obtain ⟨g1, g2, g3⟩ := lock_answer (cfg := cfg) (mode := mode) (s := s) (path := path) t t'
  refine ⟨g1, g2, ?_⟩
  cases hf : s.find cfg (lockName cfg.sha path) with
  | none => rw [hf] at g3; exact .inr ⟨rfl, _, g3.2, rfl⟩
  | some l => rw [hf] at g3; rw [g3.1]; exact .inl hf

theorem Spec.Taken.trans {s1 s2 : Store} (h : Taken cfg s path s1) (h' : Taken cfg s1 path s2) : Taken cfg s path s2 := by
  refine ⟨h'.1.trans h.1, fun id hid => (h'.2.1 id hid).trans (h.2.1 id hid), ?_⟩
  rcases h'.2.2 with e | ⟨e, l, hl⟩
  · rw [e]; exact h.2.2
  · rcases h.2.2 with e2 | ⟨e2, l', hl', _⟩
    · exact .inr ⟨e2 ▸ e, l, hl⟩
    · rw [e] at hl'; cases hl'

theorem stops_turn_lock_but {I : World → Prop} {ps : List Packet} {u rest : Bytes} {w : World} {r : Rdr} (hc : Calm ch)
    (hsha : ∀ b, (cfg.sha b).length = 32) (hm : Spec.Means .upload ps (.lock path)) (hF : Frames ps u)
    (hi : r.input = u ++ rest) (hr : Left D cfg s path w.fs) (hd : Ready cfg w.fs)
    (hI1 : ∀ w', Left D cfg s path w'.fs → I w') (hI2 : ∀ w', Rep cfg s w'.fs → I w') :
    (turn cfg .upload).stops ch I r w (fun x r2 w' => Rep cfg s w'.fs ∧
      if s.find cfg (lockName cfg.sha path) = none then x = .panic ∧ w'.out = w.out else
        Turned cfg .upload ch s (.lock path) .again { r with input := rest } w.out x r2 w') := by
  cases hm with
  | @lock l kv path ref hl ha hpa href =>
    obtain ⟨v, u, rfl, hv, hu⟩ := frames_split (ps := [Packet.data l]) (by simpa using hF)
    rw [List.append_assoc] at hi
    obtain ⟨h1, h2⟩ := commandLine_words hl
    refine stops_turn_but hc (frames_singleton hv) hi h2 h1 (by decide) ?_ ?_ hI2
    · refine stops_mono (stops_lock_but (mode := .upload) (r := { r with input := u ++ rest }) hc hsha ha hpa href hu rfl hr hd
        hI1 hI2) ?_
      rintro x r' w' ⟨g1, g2, g3⟩
      refine ⟨g1, g2, ?_⟩
      cases hf : s.find cfg (lockName cfg.sha path) with
      | none => rw [hf] at g3; rw [if_pos rfl]; exact g3
      | some l => rw [hf] at g3; rw [if_neg (by simp)]; exact g3
    · intro t t' hne
      obtain ⟨_, _, g⟩ := lock_answer (cfg := cfg) (mode := .upload) (s := s) (path := path) t t'
      cases hf : s.find cfg (lockName cfg.sha path) with
      | none => exact absurd hf hne
      | some l => rw [hf] at g; exact g.1

theorem stops_turn_eof {I : World → Prop} {mode : Mode} {r : Rdr} {w : World} (hi : r.input = [])
    (hfin : r.fin.kind = .unexpectedEof) :
    (turn cfg mode).stops ch I r w (fun x r' w' => x = .ok .done ∧ r' = r ∧ w' = w) := by
  have h : r.readPacket = (.err (Err.ofIo r.fin), r) := by
    obtain ⟨i, p, f, c⟩ := r
    simp only at hi
    subst hi
    rfl
  unfold turn
  refine stops_bind (P := fun x r2 w2 => x = .ok (.error (Err.ofIo r.fin)) ∧ r2 = r ∧ w2 = w) ?_ ?_
  · unfold M.stops
    rw [M.wp_attempt, M.wp_rdr, h]
    exact show _ ∧ _ ∧ _ from ⟨rfl, rfl, rfl⟩
  rintro x r2 w2 ⟨rfl, rfl, rfl⟩
  have hk : (Err.ofIo r2.fin).ioKind = .unexpectedEof := hfin
  simp only [Res.elim_ok, hk, if_true]
  exact ⟨rfl, rfl, rfl⟩

theorem stops_program_but {I : World → Prop} (hc : Calm ch) (hD : ∀ fs ds, D fs → D (fs.addDirs ds)) {w : World} {r : Rdr} {Q} (hr : Left D cfg s path w.fs)
    (hI : ∀ w', Left D cfg s path w'.fs → I w')
    (h : ∀ w1 : World, Left D cfg s path w1.fs → Ready cfg w1.fs → w1.out = w.out ++ b!"000eversion=1\n0000" →
      (processF cfg .upload (r.input.length + 1)).stops ch I r w1 Q) :
    (runProgram cfg b!"upload").stops ch I r w Q := by
  unfold runProgram
  refine stops_bind (stops_mkdirs_but (cfg := cfg) hc hD hI (topDirs cfg.root) r w (fun _ h => h) hr) ?_
  rintro x r' w1 ⟨rfl, rfl, e1, hr1, _, hd1⟩
  simp only [Res.elim_ok]
  refine stops_bind (stops_still (all_sendCapabilities r') (prints_sendCapabilities ch r' w1 hc)
    fun w' h1 _ _ => hI w' (h1 ▸ hr1)) ?_
  rintro x r2 w2 ⟨⟨rfl, rfl, e2, e3⟩, _⟩
  have hcap : encMsg b!"version=1\n" ++ b!"0000" = b!"000eversion=1\n0000" := by decide
  rw [hcap] at e3
  simp only [Res.elim_ok]
  exact h w2 (by rw [e2]; exact hr1) (by rw [e2]; exact hd1) (by rw [e3, e1])

/-! ### C87 -/

/-- **C87.** A killed `lock` has left its file, and the path is not locked. The next server that is asked for this lock
crashes: it says nothing, whatever else the client has sent. But the file is then gone, and nothing else has changed. -/
theorem C87_crash (hc : ∀ n, (ch n).fault = none) (hsha : ∀ b, (cfg.sha b).length = 32)
    {ps : List Packet} {u rest : Bytes} {w : World} {r : Rdr} (hm : Spec.Means .upload ps (.lock path)) (hF : Frames ps u)
    (hi : r.input = u ++ rest) (hr : RepBut cfg s path w.fs) (hfree : s.find cfg (lockName cfg.sha path) = none) :
    ((mainProg cfg b!"upload" r).run ch w).1 = ⟨101, []⟩ ∧
    ((mainProg cfg b!"upload" r).run ch w).2.out = w.out ++ b!"000eversion=1\n0000" ∧
    Rep cfg s ((mainProg cfg b!"upload" r).run ch w).2.fs := by
  refine main_run (Q := fun w' => w'.out = w.out ++ b!"000eversion=1\n0000" ∧ Rep cfg s w'.fs) (runs_of_stops (I := fun _ => True)
    (stops_program_but (D := Known cfg path) hc (fun _ _ h => h) hr (fun _ _ => trivial) fun w1 k1 k2 k3 => ?_))
  rw [processF]
  refine stops_bind (stops_turn_lock_but (D := Known cfg path) hc hsha hm hF hi k1 k2 (fun _ _ => trivial) fun _ _ => trivial) ?_
  rintro x r' w' ⟨h1, h2⟩
  rw [if_pos hfree] at h2
  obtain ⟨rfl, h2⟩ := h2
  exact ⟨rfl, h2.trans k3, h1⟩

/-- **C87.** If the path is locked after all (the killed server had got that far, or another client has the lock), then
nobody notices: the whole session goes as if the file were not there, and it is gone in the end. -/
theorem C87_held (hc : ∀ n, (ch n).fault = none) (hsha : ∀ b, (cfg.sha b).length = 32)
    (hclk : ∀ t, Clock cfg ch t → TimeOk cfg t)
    {ps : List Packet} {u rest : Bytes} {qs : List Said} {w : World} {r : Rdr} (hm : Spec.Means .upload ps (.lock path))
    (hF : Frames ps u) (hs : Talk .upload qs rest)
    (hi : r.input = u ++ rest) (hp : r.pending = []) (hfin : r.fin.kind = .unexpectedEof)
    (hr : RepBut cfg s path w.fs) (hheld : (s.find cfg (lockName cfg.sha path)).isSome) :
    ((mainProg cfg b!"upload" r).run ch w).1 = ⟨0, []⟩ ∧
    ∃ ws s', ((mainProg cfg b!"upload" r).run ch w).2.out = w.out ++ b!"000eversion=1\n0000" ++ ws.flatten ∧
      Conversation cfg .upload ch s (.ask (.lock path) :: qs) ws s' ∧ Rep cfg s' ((mainProg cfg b!"upload" r).run ch w).2.fs := by
  have hne : ¬ s.find cfg (lockName cfg.sha path) = none := by
    intro e; rw [e] at hheld; cases hheld
  have hlen := frames_length hF
  have := List.length_pos_iff.mpr (means_ne hm)
  refine main_run (Q := fun w' => ∃ ws s', w'.out = w.out ++ b!"000eversion=1\n0000" ++ ws.flatten ∧
      Conversation cfg .upload ch s (.ask (.lock path) :: qs) ws s' ∧ Rep cfg s' w'.fs) (runs_of_stops (I := fun _ => True)
    (stops_program_but (D := Known cfg path) hc (fun _ _ h => h) hr (fun _ _ => trivial) fun w1 k1 k2 k3 => ?_))
  rw [processF]
  refine stops_bind (stops_turn_lock_but (D := Known cfg path) hc hsha hm hF hi k1 k2 (fun _ _ => trivial) fun _ _ => trivial) ?_
  rintro x r' w' ⟨_, h2⟩
  rw [if_neg hne] at h2
  obtain ⟨rfl, rfl, t, t', b, ht, ht', g1, g2, g3, g4⟩ := h2
  simp only [Res.elim_ok]
  refine stops_of_runs (runs_mono (runs_talk hc hsha hclk hs _ r.input.length _ w' rfl hp hfin ?_ g3 g4) ?_)
  · rw [hi, List.length_append]
    omega
  · rintro x r2 w2 ⟨rfl, b2, s2, f1, f2, f3, _⟩
    exact ⟨rfl, b :: b2, s2, by rw [f1, g1, k3, List.flatten_cons, ← List.append_assoc], .cons ht ht' rfl g2 f2, f3⟩

/-- **C87.** So a client that asks for the lock again, and once more if the connection breaks, is served as usual in the
end, the rest of its session too. -/
theorem C87_twice (hc : ∀ n, (ch n).fault = none) (hc2 : ∀ n, (ch2 n).fault = none) (hsha : ∀ b, (cfg.sha b).length = 32)
    (hclk : ∀ t, Clock cfg ch t → TimeOk cfg t) (hclk2 : ∀ t, Clock cfg ch2 t → TimeOk cfg t)
    {ps : List Packet} {u rest : Bytes} {qs : List Said} {w w2 : World} {r : Rdr}
    (hm : Spec.Means .upload ps (.lock path)) (hF : Frames ps u) (hs : Talk .upload qs rest)
    (hi : r.input = u ++ rest) (hp : r.pending = []) (hfin : r.fin.kind = .unexpectedEof)
    (hr : Rep cfg s w.fs ∨ RepBut cfg s path w.fs) (hw2 : w2.fs = ((mainProg cfg b!"upload" r).run ch w).2.fs) :
    (((mainProg cfg b!"upload" r).run ch w).1 = ⟨0, []⟩ ∧
      ∃ ws s', ((mainProg cfg b!"upload" r).run ch w).2.out = w.out ++ b!"000eversion=1\n0000" ++ ws.flatten ∧
        Conversation cfg .upload ch s (.ask (.lock path) :: qs) ws s' ∧
        Rep cfg s' ((mainProg cfg b!"upload" r).run ch w).2.fs) ∨
    (((mainProg cfg b!"upload" r).run ch w).1 = ⟨101, []⟩ ∧
      ((mainProg cfg b!"upload" r).run ch w).2.out = w.out ++ b!"000eversion=1\n0000" ∧
      ((mainProg cfg b!"upload" r).run ch2 w2).1 = ⟨0, []⟩ ∧
      ∃ ws s', ((mainProg cfg b!"upload" r).run ch2 w2).2.out = w2.out ++ b!"000eversion=1\n0000" ++ ws.flatten ∧
        Conversation cfg .upload ch2 s (.ask (.lock path) :: qs) ws s' ∧
        Rep cfg s' ((mainProg cfg b!"upload" r).run ch2 w2).2.fs) := by
  have ht : Talk .upload (.ask (.lock path) :: qs) r.input := hi ▸ .ask hm hF hs
  rcases hr with hr | hr
  · exact .inl (C72_session_partial hc hsha hclk ht hr hp hfin)
  cases hf : s.find cfg (lockName cfg.sha path) with
  | some l => exact .inl (C87_held hc hsha hclk hm hF hs hi hp hfin hr (by simp [hf]))
  | none =>
    obtain ⟨h1, h2, h3⟩ := C87_crash hc hsha hm hF hi hr hf
    exact .inr ⟨h1, h2, C72_session_partial hc2 hsha hclk2 ht (hw2 ▸ h3) hp hfin⟩

/-- A server that is killed while it deals with the file has removed it or not. -/
theorem stopped_but (hc : ∀ n, (ch n).fault = none) (hsha : ∀ b, (cfg.sha b).length = 32)
    {ps : List Packet} {w : World} {r : Rdr} (hm : Spec.Means .upload ps (.lock path)) (hF : Frames ps r.input)
    (hfin : r.fin.kind = .unexpectedEof) (hr : RepBut cfg s path w.fs) (n : Nat) :
    Rep cfg s (stopped ch n (mainProg cfg b!"upload" r) w).fs ∨
    RepBut cfg s path (stopped ch n (mainProg cfg b!"upload" r) w).fs := by
  have hlen := frames_length hF
  have := List.length_pos_iff.mpr (means_ne hm)
  have hi : r.input = r.input ++ [] := by simp
  have key : (runProgram cfg b!"upload").stops ch (fun w' => Rep cfg s w'.fs ∨ RepBut cfg s path w'.fs) r w
      (fun _ _ w' => Rep cfg s w'.fs) := by
    refine stops_program_but (D := Known cfg path) hc (fun _ _ h => h) hr (fun _ h => .inr h) fun w1 k1 k2 _ => ?_
    rw [processF]
    refine stops_bind (stops_turn_lock_but (D := Known cfg path) hc hsha hm hF hi k1 k2 (fun _ h => .inr h) fun _ h => .inl h) ?_
    rintro x r' w' ⟨h1, h2⟩
    by_cases hn : s.find cfg (lockName cfg.sha path) = none
    · rw [if_pos hn] at h2
      obtain ⟨rfl, _⟩ := h2
      exact h1
    · rw [if_neg hn] at h2
      obtain ⟨rfl, rfl, _⟩ := h2
      simp only [Res.elim_ok]
      obtain ⟨f, hf⟩ : ∃ g, r.input.length = g + 1 := ⟨r.input.length - 1, by omega⟩
      rw [hf, processF]
      refine stops_bind (stops_turn_eof rfl hfin) ?_
      rintro x r' w'' ⟨rfl, rfl, rfl⟩
      exact h1
  refine stopped_wp (I := fun w' => Rep cfg s w'.fs ∨ RepBut cfg s path w'.fs) (Q := fun _ w' => Rep cfg s w'.fs) n ?_
    fun _ _ h => .inl h
  unfold mainProg
  rw [Prog.wp_bind]
  refine Prog.wp_mono key ?_
  rintro ⟨x, r'⟩ w' h
  cases x <;> exact h

/-- **C87.** Any number of servers is asked for the same lock, one after the other, and each is killed at some moment.
What they leave is the store as it was or with this lock, and perhaps the file. -/
theorem C87_killed (hsha : ∀ b, (cfg.sha b).length = 32) {ps : List Packet} {r : Rdr}
    (hm : Spec.Means .upload ps (.lock path)) (hF : Frames ps r.input) (hp : r.pending = [])
    (hfin : r.fin.kind = .unexpectedEof) {fs fs' : FS} (hr : Rep cfg s fs) (h : Attempts cfg r fs fs') :
    ∃ s', (Rep cfg s' fs' ∨ RepBut cfg s' path fs') ∧ Taken cfg s path s' := by
  induction h with
  | none => exact ⟨s, .inl hr, rfl, fun _ _ => rfl, .inl rfl⟩
  | @again fs' ch w n _ hc hclk hw ih =>
    obtain ⟨s1, h1, h2⟩ := ih
    rw [← hw] at h1
    rcases h1 with h1 | h1
    · have hi : r.input = r.input ++ [] := by simp
      have ht : Talk .upload [.ask (.lock path)] r.input := hi ▸ .ask hm hF .eof
      obtain ⟨k, ws0, s', hconv, _, hst⟩ := C73_stopped (n := n) hc hsha hclk ht h1 hp hfin
      refine ⟨s', ?_, h2.trans ?_⟩
      · rcases hst with h | ⟨path', h, h'⟩
        · exact .inl h
        · refine .inr ?_
          have : Said.ask (.lock path') ∈ [Said.ask (.lock path)] := by
            rcases h with h | h
            · exact List.mem_of_getElem? h
            · exact List.mem_of_mem_take (List.mem_of_getLast? h)
          simp only [List.mem_singleton, Said.ask.injEq, Request.lock.injEq] at this
          exact this ▸ h'
      · cases k with
        | zero => cases hconv; exact ⟨rfl, fun _ _ => rfl, .inl rfl⟩
        | succ k =>
          simp only [List.take_succ_cons, List.take_nil] at hconv
          cases hconv with
          | @cons _ s1 _ _ _ t t' a b ws c1 c2 hrep hsend hrest =>
            cases hrest
            have e := congrArg Prod.snd hrep
            simp only [reply] at e
            subst e
            exact taken_lock t t'
    · exact ⟨s1, stopped_but hc hsha hm hF hfin h1 n, h2⟩

/-- **C87.** A client asks for a lock. Any number of times the server is killed, at any moment of its work, and the client
starts again. In the end a server is not killed; if it crashes without a word, the client asks once more. Then there is a
reply, and the path is locked; no other lock has changed, and no object. The reply is 201, or 409 if the lock was there
already, be it that of a killed server. (It is 400 if the lock that was there at the beginning is for another path, of
which the SHA-256 is the same.) -/
theorem C87_lock (hc : ∀ n, (ch n).fault = none) (hc2 : ∀ n, (ch2 n).fault = none) (hsha : ∀ b, (cfg.sha b).length = 32)
    (hclk : ∀ t, Clock cfg ch t → TimeOk cfg t) (hclk2 : ∀ t, Clock cfg ch2 t → TimeOk cfg t)
    {ps : List Packet} {fs : FS} {w1 w2 : World} {r : Rdr} (hm : Spec.Means .upload ps (.lock path))
    (hF : Frames ps r.input) (hp : r.pending = []) (hfin : r.fin.kind = .unexpectedEof) (hr : Rep cfg s fs)
    (hw1 : Attempts cfg r fs w1.fs) (hw2 : w2.fs = ((mainProg cfg b!"upload" r).run ch w1).2.fs) :
    ∃ (ch' : Nat → Choice) (w' : World), (ch' = ch ∧ w' = w1 ∨
        ch' = ch2 ∧ w' = w2 ∧ ((mainProg cfg b!"upload" r).run ch w1).1 = ⟨101, []⟩ ∧
          ((mainProg cfg b!"upload" r).run ch w1).2.out = w1.out ++ b!"000eversion=1\n0000") ∧
      ((mainProg cfg b!"upload" r).run ch' w').1 = ⟨0, []⟩ ∧
      (∀ id, id ≠ lockName cfg.sha path →
        held cfg.root ((mainProg cfg b!"upload" r).run ch' w').2.fs id = held cfg.root fs id) ∧
      SameObjs cfg.root fs ((mainProg cfg b!"upload" r).run ch' w').2.fs ∧
      ∃ (reply : Reply) (b : Bytes), reply.Ok ∧ Frames reply.packets b ∧
        ((mainProg cfg b!"upload" r).run ch' w').2.out = w'.out ++ b!"000eversion=1\n0000" ++ b ∧
        ∃ l : Lock, lockName cfg.sha l.path = lockName cfg.sha path ∧
          held cfg.root ((mainProg cfg b!"upload" r).run ch' w').2.fs (lockName cfg.sha path) = some (lockText l, l.uid) ∧
          (l.path = path ∧ (reply.code = 201 ∨ reply.code = 409) ∨ l.path ≠ path ∧ reply.code = 400 ∧
            held cfg.root fs (lockName cfg.sha path) = some (lockText l, l.uid)) := by
  have hi : r.input = r.input ++ [] := by simp
  obtain ⟨s', hst, hs'⟩ := C87_killed hsha hm hF hp hfin hr hw1
  have key : ∀ (ch' : Nat → Choice) (w' : World), (∃ ws s2, ((mainProg cfg b!"upload" r).run ch' w').2.out =
        w'.out ++ b!"000eversion=1\n0000" ++ ws.flatten ∧
        Conversation cfg .upload ch' s' [.ask (.lock path)] ws s2 ∧ Rep cfg s2 ((mainProg cfg b!"upload" r).run ch' w').2.fs) →
      (∀ id, id ≠ lockName cfg.sha path →
        held cfg.root ((mainProg cfg b!"upload" r).run ch' w').2.fs id = held cfg.root fs id) ∧
      SameObjs cfg.root fs ((mainProg cfg b!"upload" r).run ch' w').2.fs ∧
      ∃ (reply : Reply) (b : Bytes), reply.Ok ∧ Frames reply.packets b ∧
        ((mainProg cfg b!"upload" r).run ch' w').2.out = w'.out ++ b!"000eversion=1\n0000" ++ b ∧
        ∃ l : Lock, lockName cfg.sha l.path = lockName cfg.sha path ∧
          held cfg.root ((mainProg cfg b!"upload" r).run ch' w').2.fs (lockName cfg.sha path) = some (lockText l, l.uid) ∧
          (l.path = path ∧ (reply.code = 201 ∨ reply.code = 409) ∨ l.path ≠ path ∧ reply.code = 400 ∧
            held cfg.root fs (lockName cfg.sha path) = some (lockText l, l.uid)) := by
    intro ch' w' ⟨ws, s2, h1, h2, h3⟩
    have hfs : held cfg.root fs = held cfg.root (⟨fs, [], 0⟩ : World).fs := rfl
    cases h2 with
    | @cons _ s1 _ _ _ t t' a b ws c1 c2 hrep hsend hrest =>
      cases hrest
      have e := congrArg Prod.snd hrep
      simp only [reply] at e
      subst e
      have ea := congrArg Prod.fst hrep
      simp only [reply] at ea
      subst ea
      obtain ⟨g1, g2, g3⟩ := lock_answer (cfg := cfg) (mode := .upload) (s := s') (path := path) t t'
      obtain ⟨reply, k1, k2, k3, _⟩ := hsend
      refine ⟨fun id hid => ?_, sameObjs_of hr h3 fun o _ => ?_, reply, b, k1, k2, by rw [h1]; simp, ?_⟩
      · rw [rep_held h3, rep_held hr, g2 id hid, hs'.2.1 id hid]
      · rw [g1, hs'.1]
      · rw [rep_held h3, rep_held hr]
        cases hf : s'.find cfg (lockName cfg.sha path) with
        | none =>
          rw [hf] at g3
          exact ⟨⟨path, t, cfg.uid⟩, rfl, by rw [g3.2]; rfl, .inl ⟨rfl, .inl (by rw [k3, g3.1])⟩⟩
        | some l =>
          rw [hf] at g3
          refine ⟨l, (find_some hf).2, by rw [g3.1, hf]; rfl, ?_⟩
          by_cases hl : l.path = path
          · exact .inl ⟨hl, .inr (by rw [k3, g3.2, if_pos hl])⟩
          · refine .inr ⟨hl, by rw [k3, g3.2, if_neg hl], ?_⟩
            rcases hs'.2.2 with h | ⟨_, l', h, h'⟩
            · rw [← h, hf]; rfl
            · rw [hf] at h
              cases h
              exact absurd h' hl
  rcases C87_twice hc hc2 hsha hclk hclk2 hm hF .eof hi hp hfin hst hw2 with ⟨h1, h2⟩ | ⟨h1, h2, h3, h4⟩
  · exact ⟨ch, w1, .inl ⟨rfl, rfl⟩, h1, key ch w1 h2⟩
  · exact ⟨ch2, w2, .inr ⟨rfl, rfl, h1, h2⟩, h3, key ch2 w2 h4⟩

namespace Tests

/-- The server of a `lock`, killed after 9 calls, and what comes after. -/
def lockCut : World := stopped calm 9 (server Tests.cfg b!"upload" lockReq) ⟨fs0, [], 0⟩
def lockCut2 : World := ((server Tests.cfg b!"upload" lockReq).run calm ⟨lockCut.fs, [], 0⟩).2
def lockCut3 : World := ((server Tests.cfg b!"upload" lockReq).run calm ⟨lockCut2.fs, [], 0⟩).2

/-- The hypotheses of `C87_lock`, and what happens: the second server crashes, and the third takes the lock. -/
example : Spec.Means .upload (lockOf b!"f") (.lock b!"f") ∧ Frames (lockOf b!"f") lockReq ∧ Rep Tests.cfg s0 fs0 ∧
    (lockCut.fs.get (halfLock Tests.cfg b!"f")).isSome ∧ lockCut.out = b!"000eversion=1\n0000" ∧
    ((server Tests.cfg b!"upload" lockReq).run calm ⟨lockCut.fs, [], 0⟩).1 = ⟨101, []⟩ ∧
    lockCut2.out = b!"000eversion=1\n0000" ∧ lockCut2.fs.get (halfLock Tests.cfg b!"f") = none ∧
    ((server Tests.cfg b!"upload" lockReq).run calm ⟨lockCut2.fs, [], 0⟩).1 = ⟨0, []⟩ ∧
    (lockCut3.fs.get (lockFile Tests.cfg.root (lockName Tests.cfg.sha b!"f"))).isSome := by
  refine ⟨?_, frames_enc _ (by decide), rep0, by decide +kernel, by decide +kernel, by decide +kernel, by decide +kernel,
    by decide +kernel, by decide +kernel, by decide +kernel⟩
  exact C72_sensible (lockOf_encodes _) rfl (by simp)

/-- Two servers that are killed, as in `C87_killed` and `C87_lock`: the first leaves the file, and the second has just
removed it. -/
theorem attempts2 : Attempts Tests.cfg (Rdr.new lockReq eofErr false) fs0
    (stopped calm 10 (server Tests.cfg b!"upload" lockReq) ⟨lockCut.fs, [], 0⟩).fs := by
  exact .again 10 (.again 9 .none (fun _ => rfl) (clock_ok _) rfl) (fun _ => rfl) (clock_ok _) rfl
example : let cut := stopped calm 10 (server Tests.cfg b!"upload" lockReq) ⟨lockCut.fs, [], 0⟩
    cut.fs.get (halfLock Tests.cfg b!"f") = none ∧
    cut.fs.get (lockFile Tests.cfg.root (lockName Tests.cfg.sha b!"f")) = none := by
  refine ⟨by decide +kernel, by decide +kernel⟩

/-- Killed two calls later, when the lock has been taken: the file is still there, the second server answers 409, and the
file is gone (`C87_held`). -/
example : let cut := stopped calm 11 (server Tests.cfg b!"upload" lockReq) ⟨fs0, [], 0⟩
    (cut.fs.get (halfLock Tests.cfg b!"f")).isSome ∧
    (cut.fs.get (lockFile Tests.cfg.root (lockName Tests.cfg.sha b!"f"))).isSome ∧
    ((server Tests.cfg b!"upload" lockReq).run calm ⟨cut.fs, [], 0⟩).1 = ⟨0, []⟩ ∧
    (((server Tests.cfg b!"upload" lockReq).run calm ⟨cut.fs, [], 0⟩).2.out.drop 18).take 15 = b!"000fstatus 409\n" ∧
    ((server Tests.cfg b!"upload" lockReq).run calm ⟨cut.fs, [], 0⟩).2.fs.get (halfLock Tests.cfg b!"f") = none := by
  refine ⟨by decide +kernel, by decide +kernel, by decide +kernel, by decide +kernel, by decide +kernel⟩

end Tests

end Verif
