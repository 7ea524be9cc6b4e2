import Verif.Lemmas.Serve
import Verif.Lemmas.Stop
import Verif.Props.Pktline
/-! `put-object`, run alone without I/O errors. -/
namespace Verif
open Spec

variable {ch : Nat → Choice} {cfg : Cfg} {s : Store} {mode : Mode}

theorem stops_readToFlushParse {α : Type} {I : World → Prop} {f : List Bytes → M α} {r r' : Rdr} {w : World} {Q}
    {v : List Bytes} (h : readToType .flush r = (.ok v, r')) (k : (f v).stops ch I r' w Q) :
    (readToFlushParse >>= f).stops ch I r w Q := by
  unfold readToFlushParse M.stops
  rw [M.wp_bind, M.wp_bind, M.wp_attempt]
  unfold readToFlush
  rw [M.wp_rdr, h]
  exact k

theorem append_nil (fs : FS) (i : Ino) : fs.append i [] = fs := by
  have : (fun j => if j = i then { fs.inodes i with data := (fs.inodes i).data ++ [] } else fs.inodes j)
      = fs.inodes := by
    funext j
    by_cases h : j = i
    · simp [h]
    · simp [h]
  unfold FS.append FS.setInode
  rw [this]

theorem append_append (fs : FS) (i : Ino) (a b : Bytes) : (fs.append i a).append i b = fs.append i (a ++ b) := by
  unfold FS.append FS.setInode
  congr 1
  funext j
  by_cases h : j = i
  · simp [h]
  · simp [h]

/-- Copying from the reader to a file. -/
theorem stops_copyInF {I : World → Prop} (hc : Calm ch) (bufs : Nat → Nat) (ino : Ino) (r2 : Rdr) :
    ∀ (k i f : Nat) (acc : Bytes) (outs : List Bytes) (r r' : Rdr) (w : World),
    reads (fun j => bufs (i + j) + 1) k r = some (outs, r') → (∀ o ∈ outs, o ≠ []) →
    r'.read (bufs (i + k) + 1) = (.ok [], r2) → k < f →
    (∀ w' d, w'.fs = w.fs.append ino d → w'.out = w.out → I w') →
    (copyInF bufs ino f i acc).stops ch I r w (fun x r3 w' => x = .ok (acc ++ outs.flatten) ∧ r3 = r2 ∧
      w'.fs = w.fs.append ino outs.flatten ∧ w'.out = w.out)
  | _, _, 0, _, _, _, _, _, _, _, _, h, _ => by omega
  | 0, i, f + 1, acc, outs, r, r', w, h, _, he, _, _ => by
    simp only [reads, Option.some.injEq, Prod.mk.injEq] at h
    obtain ⟨rfl, rfl⟩ := h
    rw [copyInF]
    refine stops_rdr_bind he ?_
    simp only [if_true]
    exact ⟨by simp, rfl, by simp [append_nil], rfl⟩
  | k + 1, i, f + 1, acc, outs, r, r', w, h, hne, he, hk, hI => by
    rw [reads] at h
    split at h
    · rename_i d r1 hd
      simp only [Option.map_eq_some_iff, Prod.mk.injEq] at h
      obtain ⟨⟨outs', r1'⟩, h1, rfl, rfl⟩ := h
      rw [copyInF]
      refine stops_rdr_bind hd ?_
      rw [if_neg (hne d (by simp))]
      refine stops_op_bind (hI w [] (append_nil _ _).symm rfl) (fs' := w.fs.append ino d) (x := .ok ()) (by simp only [sem, hc w.tick]) (fun _ => rfl) ?_
      intro w' e1 e2
      refine stops_ofIo_bind ?_
      have h1' : reads (fun j => bufs (i + 1 + j) + 1) k r1 = some (outs', r1') := by
        have : (fun j => bufs (i + 1 + j) + 1) = fun j => bufs (i + (j + 1)) + 1 := by
          funext j; rw [Nat.add_assoc, Nat.add_comm 1 j]
        rw [this]; exact h1
      refine stops_mono (stops_copyInF hc bufs ino r2 k (i + 1) f (acc ++ d) outs' r1 r1' w' h1'
        (fun o ho => hne o (by simp [ho])) (by rw [Nat.add_assoc, Nat.add_comm 1 k]; exact he) (by omega)
        (fun w'' d' g1 g2 => hI w'' (d ++ d') (by rw [g1, e1, append_append]) (g2.trans e2))) ?_
      rintro x r3 w3 ⟨h3, h4, h5, h6⟩
      refine ⟨by rw [h3]; simp, h4, ?_, h6.trans e2⟩
      rw [h5, e1, append_append]
      simp
    · cases h

theorem frames_data_length {ds : List Bytes} {ps : List Packet} {w : Bytes} (h : Frames (ds.map .data ++ ps) w) :
    ds.flatten.length ≤ w.length := by
  induction ds generalizing w with
  | nil => simp
  | cons d ds ih =>
    simp only [List.map_cons, List.cons_append] at h
    generalize hps : ds.map Packet.data ++ ps = qs at h
    cases h with
    | cons hf hF =>
      have := ih (hps ▸ hF)
      cases hf
      simp only [List.flatten_cons, List.length_append]
      omega

theorem reads_length : ∀ (sizes : Nat → Nat) (k : Nat) (r r' : Rdr) (outs : List Bytes),
    reads sizes k r = some (outs, r') → outs.length = k
  | _, 0, _, _, _, h => by simp only [reads, Option.some.injEq, Prod.mk.injEq] at h; simp [← h.1]
  | sizes, k + 1, r, r', outs, h => by
    rw [reads] at h
    split at h
    · simp only [Option.map_eq_some_iff, Prod.mk.injEq] at h
      obtain ⟨⟨outs', r1'⟩, h1, rfl, rfl⟩ := h
      simp [reads_length _ k _ _ _ h1]
    · cases h

theorem length_le_flatten : ∀ (l : List Bytes), (∀ o ∈ l, o ≠ []) → l.length ≤ l.flatten.length
  | [], _ => by simp
  | o :: l, h => by
    have h1 := length_le_flatten l fun x hx => h x (by simp [hx])
    have h2 : 0 < o.length := List.length_pos_iff.mpr (h o (by simp))
    simp only [List.length_cons, List.flatten_cons, List.length_append]
    omega

/-- Whatever the sizes of the buffers: reading from `r` gives `data`, and then `x`, and leaves `rest` in the input. -/
def Delivers (r : Rdr) (data : Bytes) (x : Res Bytes) (rest : Bytes) : Prop :=
  ∀ sizes : Nat → Nat, (∀ i, 0 < sizes i) → ∃ (k : Nat) (outs : List Bytes) (r' : Rdr),
    reads sizes k r = some (outs, r') ∧ (∀ o ∈ outs, o ≠ []) ∧ outs.flatten = data ∧
    k < r.input.length + r.pending.length + 1 ∧ r'.read (sizes k) = (x, { r with input := rest, pending := [] })

theorem delivers_frames {ds : List Bytes} {v rest : Bytes} {r : Rdr} {t : Packet} (ht : t = .flush ∨ t = .delim)
    (hs : ∀ d ∈ ds, d.length ≤ 65516) (hF : Frames (ds.map .data ++ [t]) v) (hi : r.input = v ++ rest) :
    Delivers r (r.pending ++ ds.flatten) (.ok []) rest := by
  intro sizes hpos
  obtain ⟨k, outs, r', h1, h2, h3, _, h5⟩ := C03_stream_left ds hs t ht v hF rest r hi sizes hpos
  refine ⟨k, outs, r', h1, h2, h3, ?_, h5⟩
  have a1 := reads_length _ _ _ _ _ h1
  have a2 := length_le_flatten outs h2
  have a3 := frames_data_length hF
  rw [hi]
  rw [h3, List.length_append] at a2
  simp only [List.length_append]
  omega

theorem stops_copyIn {I : World → Prop} (hc : Calm ch) (bufs : Nat → Nat) (ino : Ino) {data rest : Bytes} {r : Rdr}
    {w : World} (h : Delivers r data (.ok []) rest)
    (hI : ∀ w' d, w'.fs = w.fs.append ino d → w'.out = w.out → I w') :
    (copyIn bufs ino).stops ch I r w (fun x r' w' => x = .ok data ∧ r' = { r with input := rest, pending := [] } ∧
      w'.fs = w.fs.append ino data ∧ w'.out = w.out) := by
  obtain ⟨k, outs, r', h1, h2, h3, hk, h5⟩ := h (fun j => bufs j + 1) (fun _ => Nat.succ_pos _)
  have := stops_copyInF hc bufs ino { r with input := rest, pending := [] } k 0 _ [] outs r r' w
    (by simpa using h1) h2 (by simpa using h5) hk hI
  have this' : (copyInF bufs ino (r.input.length + r.pending.length + 1) 0 []).stops ch I r w
      (fun x r' w' => x = .ok data ∧ r' = { r with input := rest, pending := [] } ∧
      w'.fs = w.fs.append ino data ∧ w'.out = w.out) := ?_
  · exact this'
  refine stops_mono this ?_
  rintro x r3 w3 ⟨e1, e2, e3, e4⟩
  exact ⟨by simp [e1, h3], e2, by rw [e3, h3], e4⟩

theorem isOid_hex {b : Bytes} (h : b.length = 32) : IsOid (hex b) := by
  rw [← hexEncode_eq_hex]
  refine ⟨by rw [hexEncode_length, h], ?_⟩
  rw [hexEncode_eq_hex]
  intro x hx
  simp only [hex, List.mem_flatMap] at hx
  obtain ⟨y, _, hy⟩ := hx
  have hy' : y.toNat < 256 := y.toNat_lt
  have key : ∀ n : Fin 16, lowerHex.getD n.1 0 ∈ b!"0123456789abcdef" := by decide
  rcases List.mem_cons.mp hy with rfl | hy
  · exact key ⟨y.toNat / 16, by omega⟩
  · rcases List.mem_cons.mp hy with rfl | hy
    · exact key ⟨y.toNat % 16, by omega⟩
    · cases hy

theorem stops_dropFile {I : World → Prop} (hc : Calm ch) {p : Path} {r : Rdr} {w : World} (h : (w.fs.get p).isSome) (hI : I w) :
    (dropFile p).stops ch I r w (fun x r' w' => x = .ok () ∧ r' = r ∧ w'.fs = w.fs.delName p ∧ w'.out = w.out) := by
  unfold dropFile
  refine stops_op_bind hI (fs' := w.fs.delName p) (x := .ok ()) (by simp only [sem, hc w.tick, h, if_true]) (fun _ => rfl) ?_
  intro w' e1 e2
  exact ⟨rfl, rfl, e1, e2⟩

/-- The check of an upload. -/
theorem checkUpload_eq (hsha : ∀ b, (cfg.sha b).length = 32) (oid : Bytes) (n : Nat) (data : Bytes) :
    match putError cfg oid n data with
    | none => checkUpload cfg oid n data = pure () ∧ hex (cfg.sha data) = oid
    | some m => ∃ e, checkUpload cfg oid n data = M.throw e ∧
        StatusFor (errorStatus e) (badRequest m) ⟨[], [], fun _ => ⟨[], 0, 0, []⟩, 0⟩ := by
  unfold putError checkUpload
  by_cases h1 : data.length < n
  · simp only [if_pos h1]
    refine ⟨_, rfl, ⟨rfl, c400, rfl, by simp [badRequest]⟩, ?_, by simp⟩
    simp [errorStatus, clientError, Err.withMsg, Status.failure, Err.display, Err.kindText, sizeMsg, natDec_eq]
  by_cases h2 : n < data.length
  · simp only [if_neg h1, if_pos h2]
    refine ⟨_, rfl, ⟨rfl, c400, rfl, by simp [badRequest]⟩, ?_, by simp⟩
    simp [errorStatus, clientError, Err.withMsg, Status.failure, Err.display, Err.kindText, sizeMsg, natDec_eq]
  simp only [if_neg h1, if_neg h2]
  have hv : oidNew (hexEncode (cfg.sha data)) = pure (hexEncode (cfg.sha data)) := by
    simp [oidNew, (oidValid_iff _).mpr (hexEncode_eq_hex _ ▸ isOid_hex (hsha data))]
  rw [hv]
  by_cases h3 : hex (cfg.sha data) = oid
  · simp only [if_pos h3]
    refine ⟨?_, h3⟩
    show (if hexEncode (cfg.sha data) ≠ oid then _ else _) = _
    rw [hexEncode_eq_hex, if_neg (by simp [h3])]
  · simp only [if_neg h3]
    refine ⟨Err.withMsg .corruptData (b!"expected oid " ++ oid ++ b!", got " ++ hex (cfg.sha data)), ?_,
      ⟨rfl, c400, rfl, by simp [badRequest]⟩, ?_, by simp⟩
    · show (if hexEncode (cfg.sha data) ≠ oid then _ else _) = _
      rw [hexEncode_eq_hex, if_pos h3]
    · simp [errorStatus, clientError, Err.withMsg, Status.failure, Err.display, Err.kindText]

theorem statusFor_fs {st : Status} {a : Answer} {fs fs' : FS} (h : StatusFor st a fs)
    (hb : ∀ d, a.body ≠ .raw d) : StatusFor st a fs' := by
  refine ⟨h.1, ?_⟩
  have h2 := h.2
  split at h2
  · exact h2
  · exact h2
  · rename_i d e; exact absurd e (hb d)

theorem stops_fixPermissions {I : World → Prop} (hc : Calm ch) {p : Path} {i : Ino} {r : Rdr} {w : World} (h : w.fs.get p = some i)
    (hI : ∀ w', w'.fs = w.fs → w'.out = w.out → I w') :
    (fixPermissions cfg p).stops ch I r w (fun x r' w' => x = .ok () ∧ r' = r ∧
      w'.fs = w.fs.setInode i { w.fs.inodes i with mode := objMode cfg.umask } ∧ w'.out = w.out) := by
  unfold fixPermissions
  refine stops_op_bind (hI w rfl rfl) (fs' := w.fs) (sem_stat_exact (hc w.tick)) (fun _ => rfl) ?_
  intro w' e1 e2
  simp only [h]
  refine stops_ofIo_bind ?_
  refine stops_op_bind (hI w' e1 e2) (fs' := w.fs.setInode i { w.fs.inodes i with mode := objMode cfg.umask }) (x := .ok ())
    (by simp only [sem, hc w'.tick, e1, h]) (fun _ => rfl) ?_
  intro w2 e3 e4
  exact ⟨rfl, rfl, e3, e4.trans e2⟩

theorem mem_pathPrefixes {p q : Path} (h : q ∈ pathPrefixes p) : q <+: p := by
  simp only [pathPrefixes, List.mem_map] at h
  obtain ⟨n, _, rfl⟩ := h
  exact List.take_prefix _ _

theorem self_mem_pathPrefixes {p : Path} (h : p ≠ []) : p ∈ pathPrefixes p := by
  simp only [pathPrefixes, List.mem_map, List.mem_range]
  have := List.length_pos_iff.mpr h
  exact ⟨p.length - 1, by omega, by rw [Nat.sub_add_cancel this, List.take_length]⟩

/-- `create_dir_all` of a skeleton directory. -/
theorem sem_mkdirAll {c : Choice} {fs : FS} {p : Path} (hc : c.fault = none) (h : ∀ q, q <+: p → fs.get q = none) :
    sem c fs (.mkdirAll p) = (fs.addDirs ((pathPrefixes p).filter (fun q => !fs.isDir q)), .ok ()) := by
  simp only [sem, hc]
  rw [if_neg]
  simp only [List.any_eq_true, not_exists, not_and]
  intro q hq
  simp [h q (mem_pathPrefixes hq)]

theorem isDir_mkdirAll {fs : FS} {p : Path} (hp : p ≠ []) :
    (fs.addDirs ((pathPrefixes p).filter (fun q => !fs.isDir q))).isDir p = true := by
  rw [isDir_iff]
  refine .inr ?_
  simp only [FS.addDirs, List.mem_append, List.mem_filter, Bool.not_eq_true']
  cases h : fs.isDir p with
  | true => exact .inr (((isDir_iff fs p).mp h).resolve_left hp)
  | false => exact .inl ⟨self_mem_pathPrefixes hp, rfl⟩

theorem stops_put_from {I : World → Prop} {kv : List (Bytes × Bytes)} {data rest oid sz : Bytes} {n : Nat} {r r1 : Rdr}
    {w : World} (hc : Calm ch) (hsha : ∀ b, (cfg.sha b).length = 32) (ho : IsOid oid) (ha : ArgsOk kv)
    (hs : lookup kv b!"size" = some sz) (hn : Num sz n)
    (hargs : readToType .delim r = (.ok (kv.map fun e => argLine e.1 e.2), r1)) (hdel : Delivers r1 data (.ok []) rest)
    (hr : Rep cfg s w.fs) (hd : Ready cfg w.fs)
    (hI1 : ∀ w', w'.out = w.out → Rep cfg s w'.fs → I w')
    (hI2 : ∀ w' t t', w'.out = w.out → Clock cfg ch t → Clock cfg ch t' →
      Rep cfg (answer cfg mode s t t' (.put oid n data)).2 w'.fs → I w') :
    (putObject cfg oid).stops ch I r w
      (Handled cfg mode ch s (.put oid n data) { r1 with input := rest, pending := [] } w.out) := by
  obtain ⟨t, ht⟩ := clock_exists cfg ch
  obtain ⟨m, hm, hget⟩ := C09_args_exact kv ha
  have hoid : oidNew oid = pure oid := by simp [oidNew, (oidValid_iff oid).mpr ho]
  unfold putObject
  rw [hoid]
  refine stops_pure_bind ?_
  refine stops_rdr_bind hargs ?_
  refine stops_ofRes_bind hm ?_
  refine stops_ofRes_bind (a := n) (by unfold sizeFromArgs; rw [hget, hs]; exact num_parse hn) ?_
  -- the temporary file
  generalize hfs : w.fs = fs at *
  obtain ⟨sfx, hname⟩ := FS.freshName_dir fs (incompleteDir cfg.root) (oid ++ (ch w.tick).rand)
  obtain ⟨hun, hund⟩ := FS.freshName_unused fs (incompleteDir cfg.root) (oid ++ (ch w.tick).rand)
  generalize hp : fs.freshName (incompleteDir cfg.root) (oid ++ (ch w.tick).rand) = p at *
  have quiet : ∀ w', w'.out = w.out → FS.Evo cfg.root fs.next fs w'.fs →
      (∀ q, q ≠ p → w'.fs.get q = fs.get q) → I w' := by
    intro w' h1 h2 h3
    exact hI1 w' h1 (hr.same h2 fun q hq => h3 q (by rw [hname]; exact hq _))
  refine stops_seq (P := fun a r' w' => a = (p, data) ∧ r' = { r1 with input := rest, pending := [] } ∧
    w'.fs = (fs.create p cfg.uid 0o600).append fs.next data ∧ w'.out = w.out) ?_ ?_
  · unfold startUpload
    refine stops_op_bind (hI1 w rfl (hfs ▸ hr)) (fs' := fs.create p cfg.uid 0o600) (x := .ok (p, fs.next))
      (by simp only [sem, hc w.tick, hfs, hd.incompleteDir, if_true, hp]) (fun _ => rfl) ?_
    intro w' e1 e2
    refine stops_ofIo_bind ?_
    unfold M.stops
    rw [M.wp_onFail]
    refine M.wp_mono (m := copyIn cfg.copyBuf fs.next >>= fun data => pure (p, data))
      (Q := fun x r' w' => x = .ok (p, data) ∧ r' = { r1 with input := rest, pending := [] } ∧
        w'.fs = (fs.create p cfg.uid 0o600).append fs.next data ∧ w'.out = w.out) ?_ ?_
    · refine stops_bind (stops_copyIn hc cfg.copyBuf fs.next hdel ?_) ?_
      · intro w'' d g1 g2
        rw [e1] at g1
        refine quiet w'' (g2.trans e2) ?_ fun q hq => by rw [g1]; simp [hq]
        rw [g1]
        exact (FS.Evo.create fs p cfg.uid _ (Nat.le_refl _)).trans (FS.Evo.append _ _ _ (Nat.le_refl _))
      rintro x r' w2 ⟨rfl, rfl, h3, h4⟩
      exact ⟨rfl, rfl, by rw [h3, e1], h4.trans e2⟩
    · rintro x r' w2 ⟨rfl, h2, h3, h4⟩
      exact ⟨_, rfl, rfl, h2, h3, h4⟩
  rintro ⟨p', data'⟩ r' w2 ⟨hpd, rfl, h3, h4⟩
  cases hpd
  simp only
  have hget2 : ∀ q, w2.fs.get q = if q = p then some fs.next else fs.get q := by
    intro q; rw [h3]; simp
  have hevo2 : FS.Evo cfg.root fs.next fs w2.fs := by
    rw [h3]
    exact (FS.Evo.create fs p cfg.uid _ (Nat.le_refl _)).trans (FS.Evo.append _ _ _ (Nat.le_refl _))
  have hdata2 : (w2.fs.inodes fs.next).data = data := by
    rw [h3, FS.data_append, FS.data_create]; simp
  have hchk := checkUpload_eq (cfg := cfg) hsha oid n data
  generalize hpe : putError cfg oid n data = pe at hchk
  cases pe with
  | some msg =>
    obtain ⟨e, he, hst⟩ := hchk
    rw [he]
    refine stops_bind (P := fun x r' w' => x = .err e ∧ r' = { r1 with input := rest, pending := [] } ∧
      w'.fs = w2.fs.delName p ∧ w'.out = w2.out) ?_ ?_
    · unfold M.stops
      rw [M.wp_onFail, M.wp_throw]
      simp only [Res.elim_err]
      refine M.wp_mono (stops_dropFile hc (by rw [hget2]; simp)
        (quiet w2 h4 hevo2 fun q hq => by rw [hget2, if_neg hq])) ?_
      rintro x r' w3 ⟨_, e1, e2, e3⟩
      exact ⟨trivial, e1, e2, e3⟩
    · rintro x r' w3 ⟨rfl, rfl, e2, e3⟩
      simp only [Res.elim_err]
      have hevo3 : FS.Evo cfg.root fs.next fs w3.fs := by
        rw [e2]; exact hevo2.trans (FS.Evo.delName _ _)
      refine ⟨rfl, e3.trans h4, t, t, _, ht, ht, rfl, ?_⟩
      simp only [answer, hpe]
      refine ⟨hr.same hevo3 ?_, hevo3.ready hd, statusFor_fs hst (by simp [badRequest])⟩
      intro q hq
      have : q ≠ p := by rw [hname]; exact hq _
      rw [e2, FS.get_delName, hget2]
      simp [this]
  | none =>
    obtain ⟨he, hhash⟩ := hchk
    rw [he]
    refine stops_bind (P := fun x r' w' => x = .ok () ∧ r' = { r1 with input := rest, pending := [] } ∧
      w' = w2) ?_ ?_
    · unfold M.stops
      rw [M.wp_onFail]
      simp only [M.wp_pure, Res.elim_ok, true_and]
    rintro x r' w' ⟨rfl, rfl, rfl⟩
    simp only [Res.elim_ok]
    have hpdir : ∀ d, SkelDir cfg.root d → ∀ q, q <+: d → q ≠ p := by
      intro d hsd q hq e
      rw [hname] at e
      exact skelDir_incomplete hsd _ (e ▸ hq)
    have hskel : SkelDir cfg.root (objectDir cfg.root oid) := .inr ⟨oid, ho, rfl⟩
    generalize hfs3 : w'.fs.addDirs ((pathPrefixes (objectDir cfg.root oid)).filter (fun q => !w'.fs.isDir q)) = fs3
    have hget3 : ∀ q, fs3.get q = if q = p then some fs.next else fs.get q := by
      intro q; rw [← hfs3, FS.get_addDirs, hget2]
    have hevo3 : FS.Evo cfg.root fs.next fs fs3 := by
      rw [← hfs3]
      refine hevo2.trans (FS.Evo.addDirs _ _ fun q hq => ⟨_, hskel, ?_⟩)
      exact mem_pathPrefixes (List.mem_filter.mp hq).1
    have hdst : objPath cfg.root oid ≠ p := by
      rw [hname, ← objectFile_eq]; exact (incomplete_ne_object _ _ _).symm
    have hne : fs.get (objPath cfg.root oid) ≠ some fs.next := fun e => Nat.lt_irrefl _ (hr.bound _ _ e)
    have hnotdir : fs3.isDir (objPath cfg.root oid) = false := by
      rw [Bool.eq_false_iff, Ne, isDir_iff]
      rintro (e | e)
      · simp [objPath] at e
      · rw [← objectFile_eq] at e
        rcases hevo3.dirs _ e with e | ⟨d, hsd, hpre⟩
        · exact hr.objFiles oid ho e
        · exact skelDir_obj hsd _ hpre
    have hdir3 : fs3.isDir (objectDir cfg.root oid) = true := by
      rw [← hfs3]; exact isDir_mkdirAll (by simp [objectDir])
    generalize hfs4 : (fs3.delName p).setName (objPath cfg.root oid) fs.next = fs4
    have hget4 : ∀ q, fs4.get q = if q = objPath cfg.root oid then some fs.next else if q = p then none else fs.get q := by
      intro q
      rw [← hfs4, FS.get_setName, FS.get_delName, hget3]
      by_cases h1 : q = objPath cfg.root oid
      · simp [h1]
      · by_cases h2 : q = p <;> simp [h1, h2]
    have hnext : fs.next < fs3.next := by
      rw [← hfs3, FS.next_addDirs, h3]; simp
    have hevo4 : FS.Evo cfg.root fs.next fs fs4 := by
      rw [← hfs4]
      exact (hevo3.trans (FS.Evo.delName _ _)).trans (FS.Evo.setName _ _ _ hnext)
    have hdata4 : (fs4.inodes fs.next).data = data := by
      rw [← hfs4, ← hfs3]; simpa using hdata2
    have fin : ∀ fs5, FS.Evo cfg.root fs.next fs fs5 → (∀ q, fs5.get q = fs4.get q) →
        (fs5.inodes fs.next).data = data →
        Rep cfg (answer cfg mode s t t (.put oid n data)).2 fs5 := by
      intro fs5 hevo5 hget5 hdata5
      simp only [answer, hpe]
      refine hr.objs_changed hevo5 _ ?_ ?_ ?_
      · intro o hoo
        by_cases heq : o = oid
        · subst heq
          rw [FS.content, hget5, objectFile_eq, hget4, if_pos rfl]
          simp only [if_true, Option.map_some, Option.some.injEq]
          exact hdata5
        · rw [if_neg heq, ← hr.objs o hoo]
          refine content_evo hevo5 ?_ (fun i hi => hr.bound _ i hi)
          rw [hget5, hget4, if_neg, if_neg]
          · rw [hname]; exact (incomplete_ne_object _ _ _).symm
          · rw [← objectFile_eq]; exact fun e => heq (object_inj e)
      · intro m
        rw [hget5, hget4, if_neg, if_neg]
        · rw [hname]; exact (incomplete_ne_lock _ _ _).symm
        · rw [← objectFile_eq]; exact lock_ne_object _ _ _
      · intro d hsd q hq
        rw [hget5, hget4, if_neg, if_neg]
        · exact hr.noFile d hsd q hq
        · exact hpdir d hsd q hq
        · intro e
          rw [← objectFile_eq] at e
          exact skelDir_obj hsd _ (e ▸ hq)
    refine stops_bind (P := fun x r' w'' => x = .ok () ∧ r' = { r1 with input := rest, pending := [] } ∧ w''.out = w'.out ∧
      w''.fs = fs4.setInode fs.next { fs4.inodes fs.next with mode := objMode cfg.umask }) ?_ ?_
    · unfold finishUpload
      refine stops_bind (P := fun x r' w'' => x = .ok () ∧ r' = { r1 with input := rest, pending := [] } ∧ w''.out = w'.out ∧
        w''.fs = fs4) ?_ ?_
      · unfold M.stops
        rw [M.wp_onFail]
        rw [objDir_eq]
        refine M.wp_mono (Q := fun x r' w'' => x = .ok () ∧ r' = { r1 with input := rest, pending := [] } ∧ w''.out = w'.out ∧
          w''.fs = fs4) ?_ ?_
        · refine stops_op_bind (quiet w' h4 hevo2 fun q hq => by rw [hget2, if_neg hq]) (sem_mkdirAll (hc _) ?_) (fun _ => rfl) ?_
          · intro q hq
            rw [hget2, if_neg (hpdir _ hskel q hq)]
            exact hr.noFile _ hskel q hq
          intro w3 e1 e2
          rw [hfs3] at e1
          refine stops_ofIo_bind ?_
          refine stops_op_bind (quiet w3 (e2.trans h4) (by rw [e1]; exact hevo3) fun q hq => by rw [e1, hget3, if_neg hq])
            (fs' := fs4) (x := .ok ()) ?_ (fun _ => rfl) ?_
          · simp only [sem, hc w3.tick, e1, hget3 p, if_true, hnotdir, objDir_eq, hdir3]
            rw [hget3, if_neg hdst, if_neg hne, ← hfs4]
            simp
          intro w4 e3 e4
          exact ⟨rfl, rfl, e4.trans e2, e3⟩
        · rintro x r' w'' ⟨rfl, h⟩
          exact ⟨rfl, h⟩
      · rintro x r' w'' ⟨rfl, rfl, e1, e2⟩
        simp only [Res.elim_ok]
        refine stops_mono (stops_fixPermissions hc (i := fs.next) (by rw [e2, hget4, if_pos rfl]) ?_) ?_
        · intro w6 g1 g2
          refine hI2 w6 t t ((g2.trans e1).trans h4) ht ht ?_
          rw [g1, e2]
          exact fin fs4 hevo4 (fun _ => rfl) hdata4
        · rintro x r' w5 ⟨f1, f2, f3, f4⟩
          exact ⟨f1, f2, f4.trans e1, by rw [f3, e2]⟩
    · rintro x r' w5 ⟨rfl, rfl, e1, e2⟩
      simp only [Res.elim_ok]
      refine ⟨rfl, e1.trans h4, t, t, Status.success, ht, ht, rfl, ?_⟩
      simp only [answer, hpe]
      have hevo5 : FS.Evo cfg.root fs.next fs w5.fs := by
        rw [e2]; exact hevo4.trans (FS.Evo.chmod _ _ _)
      have hget5 : ∀ q, w5.fs.get q = fs4.get q := by intro q; rw [e2]; rfl
      refine ⟨?_, hevo5.ready hd, ⟨rfl, c200, rfl, by simp⟩, rfl, rfl⟩
      have := fin w5.fs hevo5 hget5 (by rw [e2, FS.data_chmod, hdata4])
      simpa only [answer, hpe] using this

theorem stops_put {I : World → Prop} {kv : List (Bytes × Bytes)} {u v rest oid sz : Bytes} {n : Nat} {ds : List Bytes} {r : Rdr}
    {w : World} {tp : Packet} (htp : tp = .flush ∨ tp = .delim) (hc : Calm ch) (hsha : ∀ b, (cfg.sha b).length = 32) (ho : IsOid oid) (ha : ArgsOk kv)
    (hs : lookup kv b!"size" = some sz) (hn : Num sz n) (hds : ∀ d ∈ ds, d.length ≤ 65516)
    (hF : Frames (argPackets kv ++ [.delim]) u) (hF' : Frames (ds.map .data ++ [tp]) v)
    (hi : r.input = u ++ (v ++ rest)) (hr : Rep cfg s w.fs) (hd : Ready cfg w.fs)
    (hI1 : ∀ w', w'.out = w.out → Rep cfg s w'.fs → I w')
    (hI2 : ∀ w' t t', w'.out = w.out → Clock cfg ch t → Clock cfg ch t' →
      Rep cfg (answer cfg mode s t t' (.put oid n (r.pending ++ ds.flatten))).2 w'.fs → I w') :
    (putObject cfg oid).stops ch I r w
      (Handled cfg mode ch s (.put oid n (r.pending ++ ds.flatten)) { r with input := rest, pending := [] } w.out) :=
  stops_put_from (r1 := { r with input := v ++ rest }) hc hsha ho ha hs hn (readToDelim_args hF hi) (delivers_frames htp hds hF' rfl)
    hr hd hI1 hI2

theorem runs_put {kv : List (Bytes × Bytes)} {u v rest oid sz : Bytes} {n : Nat} {ds : List Bytes} {r : Rdr}
    {w : World} {tp : Packet} (htp : tp = .flush ∨ tp = .delim) (hc : Calm ch) (hsha : ∀ b, (cfg.sha b).length = 32) (ho : IsOid oid) (ha : ArgsOk kv)
    (hs : lookup kv b!"size" = some sz) (hn : Num sz n) (hds : ∀ d ∈ ds, d.length ≤ 65516)
    (hF : Frames (argPackets kv ++ [.delim]) u) (hF' : Frames (ds.map .data ++ [tp]) v)
    (hi : r.input = u ++ (v ++ rest)) (hr : Rep cfg s w.fs) (hd : Ready cfg w.fs) :
    (putObject cfg oid).runs ch r w
      (Handled cfg mode ch s (.put oid n (r.pending ++ ds.flatten)) { r with input := rest, pending := [] } w.out) :=
  runs_of_stops (I := fun _ => True) (stops_put htp hc hsha ho ha hs hn hds hF hF' hi hr hd (fun _ _ _ => trivial)
    fun _ _ _ _ _ _ _ => trivial)

end Verif
