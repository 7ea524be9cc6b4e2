import Verif.Lemmas.Run
import Verif.Lemmas.Rep
/-! Each command, run alone without I/O errors, does what the simple server of `Spec/Server.lean`
does. -/
namespace Verif
open Spec

variable {ch : Nat → Choice} {cfg : Cfg} {s : Store} {mode : Mode}

/-- The status sent for the result of a handler. -/
def outcome : Res Status → Option Status
  | .ok st => some st
  | .err e => some (errorStatus e)
  | .panic => none

/-- `st` is the status for answer `a`, when the files are `fs`. -/
def StatusFor (st : Status) (a : Answer) (fs : FS) : Prop :=
  Means st a ∧ match a.body with
    | .none => st.messages = none ∧ st.reader = none
    | .lines ls => st.messages = some ls ∧ ∀ l ∈ ls, l ≠ []
    | .raw d => st.messages = none ∧ ∃ i, st.reader = some (some i) ∧ (fs.inodes i).data = d

/-- What a handler has to do for request `q`. -/
def Handled (cfg : Cfg) (mode : Mode) (ch : Nat → Choice) (s : Store) (q : Request) (r' : Rdr) (out : Bytes)
    (x : Res Status) (r : Rdr) (w : World) : Prop :=
  r = r' ∧ w.out = out ∧ ∃ t t' st, Clock cfg ch t ∧ Clock cfg ch t' ∧ outcome x = some st ∧
    Rep cfg (answer cfg mode s t t' q).2 w.fs ∧ Ready cfg w.fs ∧
    StatusFor st (answer cfg mode s t t' q).1 w.fs

theorem runs_status {st : Status} {a : Answer} {r : Rdr} {w : World} (h : StatusFor st a w.fs) (hc : Calm ch) :
    (sendStatus st).runs ch r w (fun x r' w' => x = .ok () ∧ r' = r ∧ w'.fs = w.fs ∧
      ∃ b, w'.out = w.out ++ b ∧ Sends a b) := by
  obtain ⟨h1, h2⟩ := h
  cases hb : a.body with
  | none => exact runs_answer h1 (by rw [hb] at h2 ⊢; exact h2) hc
  | lines ls => exact runs_answer h1 (by rw [hb] at h2 ⊢; exact h2) hc
  | raw d =>
    rw [hb] at h2
    obtain ⟨h3, i, h4, h5⟩ := h2
    exact runs_answer_raw h1 hb h3 h4 h5 hc

theorem clock_exists (cfg : Cfg) (ch : Nat → Choice) : ∃ t, Clock cfg ch t := by
  cases h : cfg.timestamp with
  | some t => exact ⟨t, .inl h⟩
  | none => exact ⟨_, .inr ⟨h, 0, rfl⟩⟩

/-- The packets of an argument list. -/
theorem argPackets_eq (kv : List (Bytes × Bytes)) :
    argPackets kv = (kv.map fun e => argLine e.1 e.2).map .data := by
  simp [argPackets]

theorem readToFlush_args {kv : List (Bytes × Bytes)} {u rest : Bytes} {r : Rdr}
    (hF : Frames (argPackets kv ++ [.flush]) u) (hi : r.input = u ++ rest) :
    readToType .flush r = (.ok (kv.map fun e => argLine e.1 e.2), { r with input := rest }) := by
  rw [argPackets_eq] at hF
  exact readToType_frames (.inl rfl) hF hi

theorem readToDelim_args {kv : List (Bytes × Bytes)} {u rest : Bytes} {r : Rdr}
    (hF : Frames (argPackets kv ++ [.delim]) u) (hi : r.input = u ++ rest) :
    readToType .delim r = (.ok (kv.map fun e => argLine e.1 e.2), { r with input := rest }) := by
  rw [argPackets_eq] at hF
  exact readToType_frames (.inr rfl) hF hi

theorem runs_readToFlushParse {α : Type} {f : List Bytes → M α} {r r' : Rdr} {w : World} {Q} {v : List Bytes}
    (h : readToType .flush r = (.ok v, r')) (k : (f v).runs ch r' w Q) :
    (readToFlushParse >>= f).runs ch r w Q := by
  unfold readToFlushParse M.runs
  rw [M.wp_bind, M.wp_bind, M.wp_attempt]
  unfold readToFlush
  rw [M.wp_rdr, h]
  exact k

theorem num_parse {t : Bytes} {n : Nat} (h : Num t n) : parseInteger t = .ok n :=
  (C10_integer_exact t n).1.mpr ⟨by have := h.1; omega, h.2⟩

theorem num_parseNat {t : Bytes} {n : Nat} (h : Num t n) : parseNat u64Max t = some n :=
  (parseNat_iff u64Max t n).mpr ⟨by have := h.1; unfold u64Max; omega, h.2⟩

/-! ### version, verify-object, get-object -/

theorem runs_version {kv : List (Bytes × Bytes)} {u rest : Bytes} {r : Rdr} {w : World}
    (hF : Frames (argPackets kv ++ [.flush]) u) (hi : r.input = u ++ rest)
    (hr : Rep cfg s w.fs) (hd : Ready cfg w.fs) :
    versionCmd.runs ch r w (Handled cfg mode ch s .version { r with input := rest } w.out) := by
  obtain ⟨t, ht⟩ := clock_exists cfg ch
  unfold versionCmd
  refine runs_rdr_bind (readToFlush_args hF hi) ?_
  exact ⟨rfl, rfl, t, t, _, ht, ht, rfl, hr, hd, ⟨rfl, c200, rfl, by simp [answer]⟩, rfl, by simp⟩

theorem sem_stat_exact {c : Choice} {fs : FS} {p : Path} (hc : c.fault = none) :
    sem c fs (.stat (.exact p)) = (fs, match fs.get p with
      | some i => .ok ⟨(fs.inodes i).data.length, (fs.inodes i).uid⟩
      | none => if fs.isDir p then .ok ⟨c.dirLen, 0⟩ else .error enoent) := by
  simp only [sem, hc, FS.resolve]
  cases fs.get p with
  | some i => rfl
  | none => simp only []; split <;> rfl

/-- `fs::metadata` of an object path. -/
theorem sem_stat_obj {c : Choice} {fs : FS} (hc : c.fault = none) (h : Rep cfg s fs) {oid : Bytes} (ho : IsOid oid) :
    ∃ x, sem c fs (.stat (.exact (objPath cfg.root oid))) = (fs, x) ∧
      match s.objs oid with
      | some d => ∃ st, x = .ok st ∧ st.len = d.length
      | none => x = .error enoent := by
  rw [← objectFile_eq, sem_stat_exact hc]
  refine ⟨_, rfl, ?_⟩
  rw [← h.objs oid ho, FS.content]
  cases fs.get (objectFile cfg.root oid) with
  | some i => exact ⟨_, rfl, rfl⟩
  | none => simp [h.obj_notDir ho]

theorem runs_verify {kv : List (Bytes × Bytes)} {u rest oid sz : Bytes} {n : Nat} {r : Rdr} {w : World}
    (hc : Calm ch) (ho : IsOid oid) (ha : ArgsOk kv) (hs : lookup kv b!"size" = some sz) (hn : Num sz n)
    (hF : Frames (argPackets kv ++ [.flush]) u) (hi : r.input = u ++ rest)
    (hr : Rep cfg s w.fs) (hd : Ready cfg w.fs) :
    (verifyObject cfg oid).runs ch r w
      (Handled cfg mode ch s (.verify oid n) { r with input := rest } w.out) := by
  obtain ⟨t, ht⟩ := clock_exists cfg ch
  obtain ⟨m, hm, hget⟩ := C09_args_exact kv ha
  obtain ⟨x, hx, hobj⟩ := sem_stat_obj (hc w.tick) hr ho
  unfold verifyObject
  refine runs_rdr_bind (readToFlush_args hF hi) ?_
  refine runs_ofRes_bind hm ?_
  have hoid : oidNew oid = pure oid := by simp [oidNew, (oidValid_iff oid).mpr ho]
  rw [hoid]
  refine runs_pure_bind ?_
  unfold backendVerify
  refine runs_ofRes_bind (a := n) (by rw [hget, hs]; exact num_parse hn) ?_
  refine runs_op_bind hx (fun _ => rfl) ?_
  intro w' e1 e2
  cases hob : s.objs oid with
  | none =>
    rw [hob] at hobj
    subst hobj
    refine ⟨rfl, e2, t, t, Status.failure 404 b!"not found", ht, ht, rfl, ?_⟩
    simp only [answer, hob, e1]
    exact ⟨hr, hd, ⟨rfl, c404, rfl, by simp⟩, rfl, by simp⟩
  | some d =>
    rw [hob] at hobj
    obtain ⟨st, rfl, hl⟩ := hobj
    simp only [hl]
    by_cases hlen : d.length = n
    · rw [if_pos hlen]
      refine ⟨rfl, e2, t, t, Status.success, ht, ht, rfl, ?_⟩
      simp only [answer, hob, e1, if_pos hlen]
      exact ⟨hr, hd, ⟨rfl, c200, rfl, by simp⟩, rfl, rfl⟩
    · rw [if_neg hlen]
      refine ⟨rfl, e2, t, t, Status.failure 409 b!"mismatched size or cryptographic collision", ht, ht, rfl, ?_⟩
      simp only [answer, hob, e1, if_neg hlen]
      exact ⟨hr, hd, ⟨rfl, c409, rfl, by simp⟩, rfl, by simp⟩

theorem runs_get {kv : List (Bytes × Bytes)} {u rest oid : Bytes} {r : Rdr} {w : World}
    (hc : Calm ch) (ho : IsOid oid) (ha : ArgsOk kv)
    (hF : Frames (argPackets kv ++ [.flush]) u) (hi : r.input = u ++ rest)
    (hr : Rep cfg s w.fs) (hd : Ready cfg w.fs) :
    (getObject cfg oid).runs ch r w
      (Handled cfg mode ch s (.get oid) { r with input := rest } w.out) := by
  obtain ⟨t, ht⟩ := clock_exists cfg ch
  obtain ⟨m, hm, _⟩ := C09_args_exact kv ha
  unfold getObject
  refine runs_rdr_bind (readToFlush_args hF hi) ?_
  refine runs_ofRes_bind hm ?_
  have hoid : oidNew oid = pure oid := by simp [oidNew, (oidValid_iff oid).mpr ho]
  rw [hoid]
  refine runs_pure_bind ?_
  have hob := hr.objs oid ho
  have hnd := hr.obj_notDir ho
  rw [objectFile_eq] at hob hnd
  refine runs_bind (P := fun x r' w' => r' = { r with input := rest } ∧ w'.fs = w.fs ∧ w'.out = w.out ∧
    match s.objs oid with
    | none => ∃ e : Err, x = .ok (.error e) ∧ e.ioKind = .notFound
    | some d => ∃ i, x = .ok (.ok (some i, d.length)) ∧ (w.fs.inodes i).data = d) ?_ ?_
  · unfold M.runs
    rw [M.wp_attempt]
    unfold backendDownload
    cases hg : w.fs.get (objPath cfg.root oid) with
    | none =>
      have : s.objs oid = none := by rw [← hob, FS.content, hg]; rfl
      rw [this]
      refine runs_op_bind (fs' := w.fs) (x := .error enoent)
        (by simp only [sem, hc w.tick, FS.resolve, hg, hnd]; rfl) (fun _ => rfl) ?_
      intro w' e1 e2
      exact ⟨rfl, e1, e2, _, rfl, rfl⟩
    | some i =>
      have : s.objs oid = some (w.fs.inodes i).data := by rw [← hob, FS.content, hg]; rfl
      rw [this]
      refine runs_op_bind (fs' := w.fs) (x := .ok (some i))
        (by simp only [sem, hc w.tick, FS.resolve, hg]) (fun _ => rfl) ?_
      intro w' e1 e2
      refine runs_ofIo_bind ?_
      refine runs_op_bind (fs' := w.fs) (x := .ok ⟨(w.fs.inodes i).data.length, (w.fs.inodes i).uid⟩)
        (by simp only [sem, hc w'.tick, e1]) (fun _ => rfl) ?_
      intro w2 e3 e4
      exact ⟨rfl, e3, e4.trans e2, i, rfl, rfl⟩
  · rintro x r' w' ⟨rfl, e1, e2, hx⟩
    cases hs : s.objs oid with
    | none =>
      rw [hs] at hx
      obtain ⟨e, rfl, hk⟩ := hx
      simp only [Res.elim_ok, hk, if_true]
      refine ⟨rfl, e2, t, t, Status.failure 404 b!"not found\n", ht, ht, rfl, ?_⟩
      simp only [answer, hs, e1]
      exact ⟨hr, hd, ⟨rfl, c404, rfl, by simp [notFound]⟩, rfl, by simp⟩
    | some d =>
      rw [hs] at hx
      obtain ⟨i, rfl, hk⟩ := hx
      refine ⟨rfl, e2, t, t, _, ht, ht, rfl, ?_⟩
      simp only [answer, hs, e1]
      exact ⟨hr, hd, ⟨rfl, c200, by simp [Status.newReader, natDec_eq], by simp⟩, rfl, i, rfl, hk⟩

/-! ### batch -/

theorem runs_backendBatch (hc : Calm ch) : ∀ (items : List (Bytes × Nat)) (r : Rdr) (w : World),
    Rep cfg s w.fs → (∀ it ∈ items, IsOid it.1) →
    (backendBatch cfg items).runs ch r w (fun x r' w' => r' = r ∧ w'.fs = w.fs ∧ w'.out = w.out ∧
      x = .ok (items.map fun it => match s.objs it.1 with
        | some d => ⟨it.1, d.length, true⟩
        | none => ⟨it.1, it.2, false⟩))
  | [], _, _, _, _ => ⟨rfl, rfl, rfl, rfl⟩
  | (oid, n) :: rest, r, w, hr, ho => by
    obtain ⟨x, hx, hobj⟩ := sem_stat_obj (hc w.tick) hr (ho (oid, n) (by simp))
    unfold backendBatch
    refine runs_op_bind hx (fun _ => rfl) ?_
    intro w' e1 e2
    refine runs_bind (runs_backendBatch hc rest r w' (e1 ▸ hr) (fun it hit => ho it (by simp [hit]))) ?_
    rintro y r2 w2 ⟨rfl, e3, e4, rfl⟩
    refine ⟨rfl, e3.trans e1, e4.trans e2, ?_⟩
    simp only [List.map_cons]
    cases hob : s.objs oid with
    | none => rw [hob] at hobj; subst hobj; rfl
    | some d =>
      rw [hob] at hobj
      obtain ⟨st, rfl, hl⟩ := hobj
      simp only [hl]

theorem isOid_nosp {oid : Bytes} (h : IsOid oid) : (32 : UInt8) ∉ oid := by
  intro hm
  exact absurd (h.2 32 hm) (by decide)

theorem num_nosp {t : Bytes} {n : Nat} (h : Num t n) : (32 : UInt8) ∉ t := by
  have key : ∀ {t : Bytes}, Dec t n → (32 : UInt8) ∉ t := by
    intro t ht hm
    exact absurd ((dec_iff t n).mp ht |>.2.1 32 hm) (by decide)
  rcases h.2 with hd | ⟨u, rfl, hd⟩
  · exact key hd
  · simp only [List.mem_cons, not_or]
    exact ⟨by decide, key hd⟩

theorem parseBatchLine_ok {oid t : Bytes} {n : Nat} (ho : IsOid oid) (hn : Num t n) :
    parseBatchLine (oid ++ b!" " ++ t ++ b!"\n") = .ok (oid, n) := by
  have h1 : splitOn SP (oid ++ b!" " ++ t ++ b!"\n") = [oid, t ++ b!"\n"] := by
    have : oid ++ b!" " ++ t ++ b!"\n" = oid ++ 32 :: (t ++ b!"\n") := by simp
    rw [this, SP, splitOn_append 32 oid _ (isOid_nosp ho), splitOn_none]
    intro hm
    rcases List.mem_append.mp hm with hm | hm
    · exact num_nosp hn hm
    · exact absurd hm (by decide)
  unfold parseBatchLine
  rw [if_neg (by rw [List.getLast?_concat]; simp [NL]), h1]
  simp only [List.dropLast_concat, num_parseNat hn, (oidValid_iff oid).mpr ho]
  rw [if_neg (by simp)]
  rfl

theorem parseBatchLines_ok {items : List (Bytes × Nat)} {ls : List Bytes} (h : BatchLines items ls) :
    parseBatchLines ls = .ok items ∧ ∀ it ∈ items, IsOid it.1 := by
  induction h with
  | nil => exact ⟨rfl, by simp⟩
  | cons ho hn _ ih =>
    refine ⟨?_, ?_⟩
    · simp only [parseBatchLines, parseBatchLine_ok ho hn, ih.1]
    · simp only [List.mem_cons, forall_eq_or_imp]
      exact ⟨ho, ih.2⟩

theorem runs_batch {kv : List (Bytes × Bytes)} {items : List (Bytes × Nat)} {ls : List Bytes} {u v rest : Bytes}
    {r : Rdr} {w : World} (hc : Calm ch) (ha : ArgsOk kv)
    (hh : ∀ a, lookup kv b!"hash-algo" = some a → a = b!"sha256") (hl : BatchLines items ls)
    (hF : Frames (argPackets kv ++ [.delim]) u) (hF' : Frames (ls.map .data ++ [.flush]) v)
    (hi : r.input = u ++ (v ++ rest)) (hr : Rep cfg s w.fs) (hd : Ready cfg w.fs) {present missing : Bytes}
    (hm : (present, missing) = match mode with
      | .upload => (b!"noop", b!"upload")
      | .download => (b!"download", b!"noop")) :
    (batchCmd cfg present missing).runs ch r w
      (Handled cfg mode ch s (.batch items) { r with input := rest } w.out) := by
  obtain ⟨t, ht⟩ := clock_exists cfg ch
  obtain ⟨m, hm', hget⟩ := C09_args_exact kv ha
  obtain ⟨hp, ho⟩ := parseBatchLines_ok hl
  unfold batchCmd
  refine runs_seq (P := fun a r' w' => r' = { r with input := rest } ∧ w'.fs = w.fs ∧ w'.out = w.out ∧
    a = (items.map fun it => match s.objs it.1 with
        | some d => ⟨it.1, d.length, true⟩
        | none => ⟨it.1, it.2, false⟩)) ?_ ?_
  · unfold readBatch
    refine runs_rdr_bind (readToDelim_args hF hi) ?_
    refine runs_ofRes_bind hm' ?_
    refine runs_readToFlushParse (readToType_frames (.inl rfl) hF' rfl) ?_
    have rest' : M.runs ch (M.ofRes (parseBatchLines ls) >>= fun oids => backendBatch cfg oids)
        { r with input := rest } w (fun x r' w' => ∃ a, x = .ok a ∧ r' = { r with input := rest } ∧ w'.fs = w.fs ∧
          w'.out = w.out ∧ a = (items.map fun it => match s.objs it.1 with
            | some d => ⟨it.1, d.length, true⟩
            | none => ⟨it.1, it.2, false⟩)) := by
      refine runs_ofRes_bind hp ?_
      refine runs_mono (runs_backendBatch hc items _ w hr ho) ?_
      rintro x r' w' ⟨h1, h2, h3, h4⟩
      exact ⟨_, h4, h1, h2, h3, rfl⟩
    rw [hget]
    cases hx : lookup kv b!"hash-algo" with
    | none => exact rest'
    | some x =>
      have := hh x hx
      subst this
      simp only [if_true]
      exact rest'
  · rintro a r' w' ⟨rfl, e1, e2, rfl⟩
    refine ⟨rfl, e2, t, t, _, ht, ht, rfl, ?_⟩
    simp only [answer, e1]
    refine ⟨hr, hd, ⟨rfl, c200, rfl, by simp⟩, ?_, ?_⟩
    · simp only [Status.newSuccess, List.map_map, Option.some.injEq]
      refine List.map_congr_left fun it _ => ?_
      simp only [Function.comp, batchLine]
      rcases Option.eq_none_or_eq_some (s.objs it.1) with hx | ⟨d, hx⟩ <;>
        cases mode <;> cases hm <;> simp [natDec_eq, hx]
    · intro l hl
      simp only [List.mem_map] at hl
      obtain ⟨it, _, rfl⟩ := hl
      unfold batchLine
      split <;> simp

end Verif
