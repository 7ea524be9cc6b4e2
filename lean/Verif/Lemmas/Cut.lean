import Verif.Spec.Cut
import Verif.Lemmas.Stopped
import Verif.Props.Align
/-! Sessions that break off. -/
namespace Verif
open Spec

variable {ch : Nat → Choice} {cfg : Cfg} {s : Store} {mode : Mode} {I : World → Prop} {r : Rdr}

theorem Spec.CutOff.part {t : Bytes} (h : CutOff t) : Part t := by
  obtain ⟨p, v, h1, _, h2, h3⟩ := h
  exact ⟨p, v, h1, h2, h3⟩

theorem part_nil : Part [] := ⟨.flush, _, .flush, List.nil_prefix, by decide⟩

/-! ### The end of the input instead of a flush -/

theorem readToTypeF_part (typ : Packet) {p : Packet} {wp part : Bytes}
    (hf : Frame p wp) (hpp : part <+: wp) (hpn : part ≠ wp) :
    ∀ (ps : List Packet) (f : Nat) (r : Rdr) (w : Bytes),
    Frames ps w → typ ∉ ps → r.input = w ++ part → r.fin.kind = .unexpectedEof → ps.length < f →
    readToTypeF typ f r = (.ok (ps.map fun p => p.data?.getD []), { r with input := [] })
  | _, 0, _, _, _, _, _, _, h => by omega
  | [], f + 1, r, w, hF, _, hi, hk, _ => by
    cases hF
    rw [List.nil_append] at hi
    simp only [readToTypeF, Rdr.next, readPacket_truncated hf r hpp hpn hi]
    have : (Err.ofIo r.fin).ioKind = r.fin.kind := rfl
    rw [this]
    simp [hk]
  | q :: ps, f + 1, r, w, hF, hn, hi, hk, hl => by
    cases hF with
    | @cons _ _ w1 ws hf1 hF =>
      rw [List.append_assoc] at hi
      have hne : q ≠ typ := fun h => hn (by simp [h])
      have ih := readToTypeF_part typ hf hpp hpn ps f { r with input := ws ++ part } ws hF
        (fun h => hn (List.mem_cons_of_mem _ h)) rfl hk (by simp only [List.length_cons] at hl; omega)
      simp only [readToTypeF, next_frame hf1 r _ hi, if_neg hne, ih, List.map_cons]

theorem readToType_part {typ : Packet} {ps : List Packet} {w part : Bytes} (hF : Frames ps w) (hn : typ ∉ ps)
    (hp : Part part) (hi : r.input = w ++ part) (hk : r.fin.kind = .unexpectedEof) :
    readToType typ r = (.ok (ps.map fun p => p.data?.getD []), { r with input := [] }) := by
  obtain ⟨p, wp, h1, h2, h3⟩ := hp
  refine readToTypeF_part typ h1 h2 h3 ps _ r w hF hn hi hk ?_
  have := frames_length hF
  rw [hi]; simp at this ⊢; omega

theorem readToType_full {typ : Packet} {t : Bytes} {ps : List Packet} {w : Bytes} (hF : Frames ps w) (hn : typ ∉ ps)
    (ht : Frame typ t) (hi : r.input = w ++ t) :
    readToType typ r = (.ok (ps.map fun p => p.data?.getD []), { r with input := [] }) :=
  readToType_any (rest := []) (frames_append hF (.cons ht .nil)) hn (by simp [hi])

/-- The command of `ps` is read in the same way. -/
theorem turn_first {l : Bytes} {ws : List Bytes} {u u1 v : Bytes} (hl : CommandLine l ws) (hv : Frame (.data l) v)
    (hq : ¬ (ws.head?.getD [] = b!"quit" ∧ ws.tail.head? = none))
    (h : dispatch cfg mode (ws.head?.getD []) ws.tail.head? { r with input := u } =
      dispatch cfg mode (ws.head?.getD []) ws.tail.head? { r with input := u1 }) :
    turn cfg mode { r with input := v ++ u } = turn cfg mode { r with input := v ++ u1 } := by
  obtain ⟨hws, hnl⟩ := commandLine_words hl
  rw [turn_data cfg mode _ _ l hnl (readPacket_frame hv { r with input := v ++ u } u rfl),
    turn_data cfg mode _ _ l hnl (readPacket_frame hv { r with input := v ++ u1 } u1 rfl), hws, if_neg hq]
  exact M.bind_at (M.attempt_at h)

/-- **A request that is completed by the end of the input.** -/
theorem turn_completed {ps ps' : List Packet} {w part : Bytes} (h : Completed mode ps ps') (hF : Frames ps w)
    (hp : Part part) (hk : r.fin.kind = .unexpectedEof) :
    ∃ more, Frames ps' (w ++ more) ∧
      turn cfg mode { r with input := w ++ part } = turn cfg mode { r with input := w ++ more } := by
  have first : ∀ {l : Bytes} {qs : List Packet}, ps = .data l :: qs → ∃ v u, w = v ++ u ∧ Frame (.data l) v ∧ Frames qs u := by
    rintro l qs rfl
    obtain ⟨v, u, rfl, hv, hu⟩ := frames_split (ps := [Packet.data l]) (by simpa using hF)
    exact ⟨v, u, rfl, frames_singleton hv, hu⟩
  cases h with
  | @args l ws items hl hc hn =>
    refine ⟨b!"0000", frames_append hF (.cons .flush .nil), ?_⟩
    obtain ⟨v, u, rfl, hv, hu⟩ := first rfl
    rw [List.append_assoc, List.append_assoc]
    have e : readToFlush { r with input := u ++ part } = readToFlush { r with input := u ++ b!"0000" } := by
      show Prog.ret (readToType .flush _) = Prog.ret (readToType .flush _)
      rw [readToType_part (r := { r with input := u ++ part }) hu hn hp rfl hk,
        readToType_full (r := { r with input := u ++ b!"0000" }) hu hn .flush rfl]
    have e' : readToFlushParse { r with input := u ++ part } = readToFlushParse { r with input := u ++ b!"0000" } :=
      M.bind_at (M.attempt_at e)
    cases hc with
    | version => exact turn_first hl hv (by simp) (M.bind_at e)
    | verify => exact turn_first hl hv (by simp) (M.bind_at e)
    | get => exact turn_first hl hv (by simp) (M.bind_at e)
    | lock => exact turn_first hl hv (by simp) (M.bind_at e')
    | listLocks => exact turn_first hl hv (by simp) (M.bind_at e')
    | unlock => exact turn_first hl hv (by simp) (M.bind_at e)
  | @batch l as items hl ha hn =>
    refine ⟨b!"0000", frames_append hF (.cons .flush .nil), ?_⟩
    obtain ⟨v, u, rfl, hv, hu⟩ := first rfl
    have hu : Frames ((as ++ [.delim]) ++ items) u := by simpa using hu
    obtain ⟨u1, u2, rfl, hu1, hu2⟩ := frames_split hu
    simp only [List.append_assoc]
    obtain ⟨kv, hkv, rfl⟩ := ha
    obtain ⟨m, hm, _⟩ := C09_args_exact kv hkv
    have h1 : ∀ t, readToType .delim { r with input := u1 ++ t } = (.ok _, { r with input := t }) := fun t =>
      readToType_any (r := { r with input := u1 ++ t }) hu1 (argPackets_delim kv) rfl
    simp only [argPackets_data] at h1
    refine turn_first hl hv (by simp) ?_
    have key : ∀ a b, batchCmd cfg a b { r with input := u1 ++ (u2 ++ part) } =
        batchCmd cfg a b { r with input := u1 ++ (u2 ++ b!"0000") } := by
      intro a b
      refine M.bind_at ?_
      unfold readBatch readToDelim
      rw [rdr_ret (h1 _), rdr_ret (h1 _), ofRes_ret hm, ofRes_ret hm,
        flushParse_ret (readToType_part (r := { r with input := u2 ++ part }) hu2 hn hp rfl hk),
        flushParse_ret (readToType_full (r := { r with input := u2 ++ b!"0000" }) hu2 hn .flush rfl)]
    cases mode
    · exact key _ _
    · exact key _ _
  | @batchNone l as hl ha =>
    refine ⟨b!"0001" ++ b!"0000", frames_append hF (.cons .delim (.cons .flush .nil)), ?_⟩
    obtain ⟨v, u, rfl, hv, hu⟩ := first rfl
    simp only [List.append_assoc]
    obtain ⟨kv, hkv, rfl⟩ := ha
    obtain ⟨m, hm, _⟩ := C09_args_exact kv hkv
    have h1 := readToType_part (r := { r with input := u ++ part }) hu (argPackets_delim kv) hp rfl hk
    have h2 : readToType .delim { r with input := u ++ (b!"0001" ++ b!"0000") } = _ :=
      readToType_any (r := { r with input := u ++ (b!"0001" ++ b!"0000") }) (rest := b!"0000")
        (frames_append hu (.cons .delim .nil)) (argPackets_delim kv) (by simp)
    rw [argPackets_data] at h1 h2
    refine turn_first hl hv (by simp) ?_
    have key : ∀ a b, batchCmd cfg a b { r with input := u ++ part } =
        batchCmd cfg a b { r with input := u ++ (b!"0001" ++ b!"0000") } := by
      intro a b
      refine M.bind_at ?_
      unfold readBatch readToDelim
      rw [rdr_ret h1, rdr_ret h2, ofRes_ret hm, ofRes_ret hm,
        flushParse_ret (readToType_part (r := { r with input := [] }) .nil (by simp) part_nil rfl hk),
        flushParse_ret (readToType_full (r := { r with input := b!"0000" }) .nil (by simp) .flush rfl)]
    cases mode
    · exact key _ _
    · exact key _ _
  | @batchArgs l as hl hn ha =>
    refine ⟨b!"0001", frames_append hF (.cons .delim .nil), ?_⟩
    obtain ⟨v, u, rfl, hv, hu⟩ := first rfl
    simp only [List.append_assoc]
    refine turn_first hl hv (by simp) ?_
    have key : ∀ a b, batchCmd cfg a b { r with input := u ++ part } =
        batchCmd cfg a b { r with input := u ++ b!"0001" } := by
      intro a b
      refine M.bind_at ?_
      unfold readBatch readToDelim
      rw [rdr_ret (readToType_part (r := { r with input := u ++ part }) hu hn hp rfl hk),
        rdr_ret (readToType_full (r := { r with input := u ++ b!"0001" }) hu hn .delim rfl)]
    cases mode
    · exact key _ _
    · exact key _ _
  | @putArgs l oid more as hm hl ho hn ha =>
    subst hm
    refine ⟨b!"0001", frames_append hF (.cons .delim .nil), ?_⟩
    obtain ⟨v, u, rfl, hv, hu⟩ := first rfl
    simp only [List.append_assoc]
    refine turn_first hl hv (by simp) ?_
    show putObject cfg oid _ = putObject cfg oid _
    unfold putObject readToDelim
    rw [oidNew_ret ho, oidNew_ret ho, rdr_ret (readToType_part (r := { r with input := u ++ part }) hu hn hp rfl hk),
      rdr_ret (readToType_full (r := { r with input := u ++ b!"0001" }) hu hn .delim rfl)]

/-! ### Uploads that break off -/

/-- The error at the end of the data. -/
abbrev cutErr (fin : IoErr) : Err := Err.ofIo (Err.ofIo fin).toIo

theorem delivers_cut {ds : List Bytes} {w part : Bytes} (hs : ∀ d ∈ ds, d.length ≤ 65516) (hF : Frames (ds.map .data) w)
    (hp : CutOff part) (hi : r.input = w ++ part) :
    Delivers r (r.pending ++ ds.flatten) (.err (cutErr r.fin)) [] := by
  intro sizes hpos
  obtain ⟨p, wp, hf, hsm, hpp, hpn⟩ := hp
  obtain ⟨k, outs, ds', w', h1, h2, h3, h4, h5, h6, h7, h8⟩ := reads_data _ ds w part sizes r rfl hF hs hi hpos
  have hlen := frames_length h5
  refine ⟨k, outs, _, h1, h3, h4, ?_, ?_⟩
  · have a1 := reads_length _ _ _ _ _ h1
    have a2 := length_le_flatten outs h3
    have a3 := frames_data_length (ps := []) (by simpa using hF)
    rw [hi]
    rw [h4, List.length_append] at a2
    simp only [List.length_append]
    omega
  simp only [Rdr.read, List.length_nil, Nat.zero_min, Nat.lt_irrefl, if_false, gt_iff_lt, Rdr.readLoop]
  rcases readLoopF_data ds' w' part ((w' ++ part).length + 1) (sizes k)
    { r with input := w' ++ part, pending := [] } h5 h7 rfl rfl (by simp at hlen ⊢; omega)
    with ⟨_, he⟩ | ⟨d, ds2, w2, hd, hcat, _⟩
  · rw [he]
    obtain ⟨g, hg⟩ : ∃ g, (w' ++ part).length + 1 - ds'.length = g + 1 :=
      ⟨(w' ++ part).length - ds'.length, by simp at hlen ⊢; omega⟩
    rw [hg, readLoopF_truncated hf (by cases p <;> exact hsm) hpp hpn g (sizes k) _ rfl]
  · rw [h6] at hcat
    exact absurd (List.append_eq_nil_iff.mp hcat.symm).1 hd

theorem stops_copyInF_cut (hc : Calm ch) (bufs : Nat → Nat) (ino : Ino) (r2 : Rdr) (e : Err) :
    ∀ (k i f : Nat) (acc : Bytes) (outs : List Bytes) (r r' : Rdr) (w : World),
    reads (fun j => bufs (i + j) + 1) k r = some (outs, r') → (∀ o ∈ outs, o ≠ []) →
    r'.read (bufs (i + k) + 1) = (.err e, r2) → k < f →
    (∀ w' d, w'.fs = w.fs.append ino d → w'.out = w.out → I w') →
    (copyInF bufs ino f i acc).stops ch I r w (fun x r3 w' => x = .err e ∧ r3 = r2 ∧
      w'.fs = w.fs.append ino outs.flatten ∧ w'.out = w.out)
  | _, _, 0, _, _, _, _, _, _, _, _, h, _ => by omega
  | 0, i, f + 1, acc, outs, r, r', w, h, _, he, _, _ => by
    simp only [reads, Option.some.injEq, Prod.mk.injEq] at h
    obtain ⟨rfl, rfl⟩ := h
    rw [copyInF]
    unfold M.stops
    rw [M.wp_bind, M.wp_rdr]
    have he : r.read (bufs i + 1) = (.err e, r2) := he
    rw [he]
    exact ⟨rfl, rfl, by simp [append_nil], rfl⟩
  | k + 1, i, f + 1, acc, outs, r, r', w, h, hne, he, hk, hI => by
    rw [reads] at h
    split at h
    · rename_i d r1 hd
      simp only [Option.map_eq_some_iff, Prod.mk.injEq] at h
      obtain ⟨⟨outs', r1'⟩, h1, rfl, rfl⟩ := h
      rw [copyInF]
      refine stops_rdr_bind hd ?_
      rw [if_neg (hne d (by simp))]
      refine stops_op_bind (hI w [] (append_nil _ _).symm rfl) (fs' := w.fs.append ino d) (x := .ok ()) (by simp only [sem, hc w.tick]) (fun _ => rfl) ?_
      intro w' e1 e2
      refine stops_ofIo_bind ?_
      have h1' : reads (fun j => bufs (i + 1 + j) + 1) k r1 = some (outs', r1') := by
        have : (fun j => bufs (i + 1 + j) + 1) = fun j => bufs (i + (j + 1)) + 1 := by
          funext j; rw [Nat.add_assoc, Nat.add_comm 1 j]
        rw [this]; exact h1
      refine stops_mono (stops_copyInF_cut hc bufs ino r2 e k (i + 1) f (acc ++ d) outs' r1 r1' w' h1'
        (fun o ho => hne o (by simp [ho])) (by rw [Nat.add_assoc, Nat.add_comm 1 k]; exact he) (by omega)
        (fun w'' d' g1 g2 => hI w'' (d ++ d') (by rw [g1, e1, append_append]) (g2.trans e2))) ?_
      rintro x r3 w3 ⟨h3, h4, h5, h6⟩
      refine ⟨h3, h4, ?_, h6.trans e2⟩
      rw [h5, e1, append_append]
      simp
    · cases h

theorem stops_copyIn_cut (hc : Calm ch) (bufs : Nat → Nat) (ino : Ino) {data rest : Bytes} {e : Err}
    {w : World} (h : Delivers r data (.err e) rest) (hI : ∀ w' d, w'.fs = w.fs.append ino d → w'.out = w.out → I w') :
    (copyIn bufs ino).stops ch I r w (fun x r' w' => x = .err e ∧ r' = { r with input := rest, pending := [] } ∧
      (∃ d, w'.fs = w.fs.append ino d) ∧ w'.out = w.out) := by
  obtain ⟨k, outs, r', h1, h2, _, hk, h5⟩ := h (fun j => bufs j + 1) (fun _ => Nat.succ_pos _)
  have := stops_copyInF_cut hc bufs ino { r with input := rest, pending := [] } e k 0 _ [] outs r r' w
    (by simpa using h1) h2 (by simpa using h5) hk hI
  have this' : (copyInF bufs ino (r.input.length + r.pending.length + 1) 0 []).stops ch I r w
      (fun x r' w' => x = .err e ∧ r' = { r with input := rest, pending := [] } ∧
      (∃ d, w'.fs = w.fs.append ino d) ∧ w'.out = w.out) := ?_
  · exact this'
  refine stops_mono this ?_
  rintro x r3 w3 ⟨e1, e2, e3, e4⟩
  exact ⟨e1, e2, ⟨_, e3⟩, e4⟩

/-- The handler of an upload whose data cannot be read to the end: all that is left is an error. -/
theorem stops_put_cut {oid : Bytes} {as : List Packet} {r1 : Rdr} {data rest : Bytes} {e : Err} {w : World}
    (hc : Calm ch) (ho : IsOid oid) (ha : AreSized as)
    (h1 : readToType .delim r = (.ok (as.map fun p => p.data?.getD []), r1)) (hdel : Delivers r1 data (.err e) rest)
    (hr : Rep cfg s w.fs) (hd : Ready cfg w.fs)
    (hI : ∀ w', w'.out = w.out → Rep cfg s w'.fs → I w') :
    (putObject cfg oid).stops ch I r w (fun x r' w' => x = .err e ∧
      r' = { r1 with input := rest, pending := [] } ∧ w'.out = w.out ∧ Rep cfg s w'.fs ∧ Ready cfg w'.fs) := by
  obtain ⟨kv, sz, n, hkv, rfl, hsz, hn⟩ := ha
  obtain ⟨m, hm, hget⟩ := C09_args_exact kv hkv
  have hoid : oidNew oid = pure oid := by simp [oidNew, (oidValid_iff oid).mpr ho]
  unfold putObject
  rw [hoid]
  refine stops_pure_bind ?_
  rw [argPackets_data] at h1
  refine stops_rdr_bind h1 ?_
  refine stops_ofRes_bind hm ?_
  refine stops_ofRes_bind (a := n) (by unfold sizeFromArgs; rw [hget, hsz]; exact num_parse hn) ?_
  generalize hfs : w.fs = fs at *
  obtain ⟨sfx, hname⟩ := FS.freshName_dir fs (incompleteDir cfg.root) (oid ++ (ch w.tick).rand)
  obtain ⟨hun, hund⟩ := FS.freshName_unused fs (incompleteDir cfg.root) (oid ++ (ch w.tick).rand)
  generalize hpath : fs.freshName (incompleteDir cfg.root) (oid ++ (ch w.tick).rand) = p at *
  have quiet : ∀ fs', FS.Evo cfg.root fs.next fs fs' → (∀ q, q ≠ p → fs'.get q = fs.get q) → Rep cfg s fs' := by
    intro fs' h2 h3
    exact hr.same h2 fun q hq => h3 q (by rw [hname]; exact hq _)
  refine stops_bind (P := fun x r' w' => x = .err e ∧ r' = { r1 with input := rest, pending := [] } ∧
    w'.out = w.out ∧ Rep cfg s w'.fs ∧ Ready cfg w'.fs) ?_ ?_
  · unfold startUpload
    refine stops_op_bind (hI w rfl (hfs ▸ hr)) (fs' := fs.create p cfg.uid 0o600) (x := .ok (p, fs.next))
      (by simp only [sem, hc w.tick, hfs, hd.incompleteDir, if_true, hpath]) (fun _ => rfl) ?_
    intro w' e1 e2
    refine stops_ofIo_bind ?_
    have evo : ∀ d, FS.Evo cfg.root fs.next fs ((fs.create p cfg.uid 0o600).append fs.next d) := fun d =>
      (FS.Evo.create fs p cfg.uid _ (Nat.le_refl _)).trans (FS.Evo.append _ _ _ (Nat.le_refl _))
    unfold M.stops
    rw [M.wp_onFail]
    refine M.wp_mono (m := copyIn cfg.copyBuf fs.next >>= fun data => pure (p, data))
      (Q := fun x r' w' => x = .err e ∧ r' = { r1 with input := rest, pending := [] } ∧
        (∃ d, w'.fs = (fs.create p cfg.uid 0o600).append fs.next d) ∧ w'.out = w.out) ?_ ?_
    · refine stops_bind (stops_copyIn_cut hc cfg.copyBuf fs.next hdel ?_) ?_
      · intro w'' d g1 g2
        rw [e1] at g1
        exact hI w'' (g2.trans e2) (by rw [g1]; exact quiet _ (evo d) fun q hq => by simp [hq])
      rintro x r' w2 ⟨rfl, rfl, ⟨d, h3⟩, h4⟩
      exact ⟨rfl, rfl, ⟨d, by rw [h3, e1]⟩, h4.trans e2⟩
    · rintro x r' w2 ⟨rfl, rfl, ⟨d, h3⟩, h4⟩
      simp only [Res.elim_err]
      refine M.wp_mono (stops_dropFile hc (by rw [h3]; simp)
        (hI w2 h4 (by rw [h3]; exact quiet _ (evo d) fun q hq => by simp [hq]))) ?_
      rintro x r' w3 ⟨_, rfl, f2, f3⟩
      have hevo : FS.Evo cfg.root fs.next fs w3.fs := by
        rw [f2, h3]; exact (evo d).trans (FS.Evo.delName _ _)
      refine ⟨trivial, rfl, f3.trans h4, quiet _ hevo fun q hq => ?_, hevo.ready hd⟩
      rw [f2, h3]
      simp [hq]
  · rintro x r' w' ⟨rfl, h⟩
    exact ⟨rfl, h⟩

theorem cutErr_status (fin : IoErr) (fs : FS) :
    StatusFor (errorStatus (cutErr fin)) (denial 500 (cutMessage fin.text)) fs := by
  refine ⟨⟨rfl, c500, rfl, by simp [denial]⟩, ?_, by simp [cutMessage]⟩
  simp [errorStatus, clientError, Status.failure, Err.display, Err.kindText, cutMessage, Err.ofIo, Err.toIo]

/-- A command that ends with an error. -/
theorem stops_failed {code : Nat} {msg l rest1 : Bytes} {hw : Bytes} {r r' : Rdr} {w : World} {cmd : Bytes} {e : Err}
    {args : List Bytes} (hc : Calm ch) (hf : Frame (.data l) hw) (hi : r.input = hw ++ rest1) (hl : l ≠ [])
    (hwords : commandWords l = cmd :: args) (hq : cmd ≠ b!"quit")
    (hst : ∀ fs, StatusFor (errorStatus e) (denial code msg) fs)
    (hd : (dispatch cfg mode cmd args.head?).stops ch (MidTurn cfg mode ch s (.nonsense code msg) w.out) { r with input := rest1 } w
      (fun x r2 w' => x = .err e ∧ r2 = r' ∧ w'.out = w.out ∧ Rep cfg s w'.fs ∧ Ready cfg w'.fs)) :
    (turn cfg mode).stops ch (MidTurn cfg mode ch s (.nonsense code msg) w.out) r w
      (TurnReplied cfg mode ch s (.nonsense code msg) .again r' w.out) := by
  obtain ⟨t, ht⟩ := clock_exists cfg ch
  unfold turn
  refine stops_bind (P := fun x r2 w2 => x = .ok (.ok (.data l)) ∧ r2 = { r with input := rest1 } ∧ w2 = w) ?_ ?_
  · unfold M.stops
    rw [M.wp_attempt, M.wp_rdr, readPacket_frame hf r rest1 hi]
    exact show _ ∧ _ ∧ _ from ⟨rfl, rfl, rfl⟩
  rintro x r2 w ⟨rfl, rfl, rfl⟩
  simp only [Res.elim_ok, Packet.data?, hl, if_false, hwords, List.head?_cons, Option.getD_some, List.tail_cons, hq,
    false_and]
  refine stops_bind (P := fun x r2 w2 => x = .ok (.error e) ∧ r2 = r' ∧ w2.out = w.out ∧ Rep cfg s w2.fs ∧ Ready cfg w2.fs) ?_ ?_
  · unfold M.stops
    rw [M.wp_attempt]
    refine M.wp_mono hd ?_
    rintro x r2 w2 ⟨rfl, h⟩
    exact ⟨rfl, h⟩
  rintro x r2 w2 ⟨rfl, rfl, e1, hr, hrd⟩
  simp only [Res.elim_ok]
  refine stops_bind (stops_still (all_sendStatus _ r2) (runs_status (hst w2.fs) hc) ?_) ?_
  · rintro w' h1 h2 ⟨x, r', wf, ⟨_, _, _, b, h3, h4⟩, h5⟩
    exact .inr (.inl ⟨t, t, b, ht, ht, h4, by rw [← e1, ← h3]; exact h5, by rw [h1]; exact hr⟩)
  rintro x r3 w3 ⟨⟨rfl, rfl, f1, b, f2, f3⟩, _⟩
  exact ⟨rfl, rfl, t, t, b, ht, ht, by rw [f2, e1], f3, by rw [f1]; exact hr, by rw [f1]; exact hrd⟩

/-! ### Whole sessions -/

/-- **A request that breaks off.** -/
theorem stops_turn_broken {q : Said} {ps : List Packet} {wire part : Bytes} {w : World}
    (hc : Calm ch) (hsha : ∀ b, (cfg.sha b).length = 32) (hclk : ∀ t, Clock cfg ch t → TimeOk cfg t)
    (hb : BreaksOff mode r.fin.text ps part q) (hF : Frames ps wire) (hi : r.input = wire ++ part) (hp : r.pending = [])
    (hfin : r.fin.kind = .unexpectedEof) (hr : Rep cfg s w.fs) (hd : Ready cfg w.fs) :
    (turn cfg mode).stops ch (MidTurn cfg mode ch s q w.out) r w
      (TurnReplied cfg mode ch s q .again { r with input := [] } w.out) := by
  have first : ∀ {l : Bytes} {qs : List Packet}, ps = .data l :: qs → ∃ v u, wire = v ++ u ∧ Frame (.data l) v ∧ Frames qs u := by
    rintro l qs rfl
    obtain ⟨v, u, rfl, hv, hu⟩ := frames_split (ps := [Packet.data l]) (by simpa using hF)
    exact ⟨v, u, rfl, frames_singleton hv, hu⟩
  cases hb with
  | @heard _ ps' _ q hcom hh hpart =>
    obtain ⟨more, hF', he⟩ := turn_completed (cfg := cfg) (r := r) hcom hF hpart hfin
    have e : ({ r with input := wire ++ part } : Rdr) = r := by rw [← hi]
    rw [e] at he
    refine stops_congr he ?_
    cases q with
    | ask q =>
      exact stops_turn_means (rest := []) hc hsha hclk hh hF' (by simp) hp hr hd
    | nonsense code msg =>
      exact stops_turn_denied (rest := []) hc hh hF' (by simp) hr hd
  | @putArgs l oid _ more as hm hl ho ha hpart =>
    subst hm
    obtain ⟨v, u, rfl, hv, hu⟩ := first rfl
    rw [List.append_assoc] at hi
    obtain ⟨h1, h2⟩ := commandLine_words hl
    refine stops_failed hc hv hi h2 h1 (by decide) (cutErr_status r.fin) ?_
    have := stops_put_cut (cfg := cfg) (s := s) (w := w)
      (I := MidTurn cfg .upload ch s (.nonsense 500 (cutMessage r.fin.text)) w.out) hc ho ha
      (readToType_part (r := { r with input := u ++ part }) hu (areSized_delim ha) hpart rfl hfin)
      (delivers_cut (r := { r with input := [] }) (ds := []) (by simp) .nil ⟨.flush, _, .flush, trivial, List.nil_prefix, by decide⟩ rfl)
      hr hd fun w' h1 h2 => .inl ⟨h1, h2⟩
    refine stops_mono this ?_
    rintro x r' w' ⟨f1, f2, f3⟩
    exact ⟨f1, by rw [f2, ← hp], f3⟩
  | @putData l oid _ more ds as hm hl ho ha hds hpart =>
    subst hm
    obtain ⟨v, u, rfl, hv, hu⟩ := first rfl
    rw [List.append_assoc] at hi
    obtain ⟨h1, h2⟩ := commandLine_words hl
    refine stops_failed hc hv hi h2 h1 (by decide) (cutErr_status r.fin) ?_
    have hu : Frames ((as ++ [.delim]) ++ ds.map .data) u := by simpa using hu
    obtain ⟨u1, u2, rfl, hu1, hu2⟩ := frames_split hu
    have := stops_put_cut (cfg := cfg) (s := s) (w := w)
      (I := MidTurn cfg .upload ch s (.nonsense 500 (cutMessage r.fin.text)) w.out) hc ho ha
      (readToType_any (r := { r with input := u1 ++ u2 ++ part }) (rest := u2 ++ part) hu1 (areSized_delim ha) (by simp))
      (delivers_cut (r := { r with input := u2 ++ part }) hds hu2 hpart rfl) hr hd fun w' h1 h2 => .inl ⟨h1, h2⟩
    refine stops_mono this ?_
    rintro x r' w' ⟨f1, f2, f3⟩
    exact ⟨f1, by rw [f2, ← hp], f3⟩

/-- What a session leads to, and what holds whenever it is stopped. -/
theorem stops_cutTalk (hc : Calm ch) (hsha : ∀ b, (cfg.sha b).length = 32)
    (hclk : ∀ t, Clock cfg ch t → TimeOk cfg t) {text : Bytes} {qs : List Said} {wire : Bytes} (hs : CutTalk mode text qs wire) :
    ∀ (s : Store) (f : Nat) (r : Rdr) (w : World), r.input = wire → r.pending = [] →
    r.fin.kind = .unexpectedEof → r.fin.text = text → wire.length < f → Rep cfg s w.fs → Ready cfg w.fs →
    (processF cfg mode f).stops ch (Progress cfg mode ch s qs w.out) r w (fun x _ w' => x = .ok () ∧
      ∃ ws s', w'.out = w.out ++ ws.flatten ∧ Conversation cfg mode ch s qs ws s' ∧ Rep cfg s' w'.fs) := by
  have step : ∀ {q : Said} {qs : List Said} {w1 ws ws' : Bytes}, 4 ≤ w1.length → ws'.length ≤ ws.length →
      (∀ (s : Store) (r : Rdr) (w : World), r.input = w1 ++ ws → r.pending = [] → r.fin.kind = .unexpectedEof →
        r.fin.text = text → Rep cfg s w.fs → Ready cfg w.fs →
        (turn cfg mode).stops ch (MidTurn cfg mode ch s q w.out) r w
          (TurnReplied cfg mode ch s q .again { r with input := ws' } w.out)) →
      (∀ (s : Store) (f : Nat) (r : Rdr) (w : World), r.input = ws' → r.pending = [] →
        r.fin.kind = .unexpectedEof → r.fin.text = text → ws'.length < f → Rep cfg s w.fs → Ready cfg w.fs →
        (processF cfg mode f).stops ch (Progress cfg mode ch s qs w.out) r w (fun x _ w' => x = .ok () ∧
          ∃ ws s', w'.out = w.out ++ ws.flatten ∧ Conversation cfg mode ch s qs ws s' ∧ Rep cfg s' w'.fs)) →
      (∀ (s : Store) (f : Nat) (r : Rdr) (w : World), r.input = w1 ++ ws → r.pending = [] →
        r.fin.kind = .unexpectedEof → r.fin.text = text → (w1 ++ ws).length < f → Rep cfg s w.fs → Ready cfg w.fs →
        (processF cfg mode f).stops ch (Progress cfg mode ch s (q :: qs) w.out) r w (fun x _ w' => x = .ok () ∧
          ∃ ws s', w'.out = w.out ++ ws.flatten ∧ Conversation cfg mode ch s (q :: qs) ws s' ∧ Rep cfg s' w'.fs)) := by
    intro q qs w1 ws ws' hlen hle one ih s f r w hi hp hfin htx hf hr hd
    obtain ⟨f, rfl⟩ : ∃ g, f = g + 1 := ⟨f - 1, by omega⟩
    rw [processF]
    refine stops_bind (stops_weaken (one s r w hi hp hfin htx hr hd) fun _ h => h.progress) ?_
    rintro x r' w' ⟨rfl, rfl, t, t', b, ht, ht', h1, h2, h3, h4⟩
    simp only [Res.elim_ok]
    have := ih _ f { r with input := ws' } w' rfl hp hfin htx (by simp only [List.length_append] at hf; omega) h3 h4
    rw [h1] at this
    refine stops_mono (stops_weaken this fun _ h => h.cons ht ht' h2) ?_
    rintro x r2 w2 ⟨rfl, b2, s2, g1, g2, g3⟩
    exact ⟨rfl, b :: b2, s2, by rw [g1, List.append_assoc, List.flatten_cons], .cons ht ht' rfl h2 g2, g3⟩
  have long : ∀ {ps : List Packet} {w : Bytes}, ps ≠ [] → Frames ps w → 4 ≤ w.length := by
    intro ps w hne hF
    have := frames_length hF
    have := List.length_pos_iff.mpr hne
    omega
  have eof : ∀ {part : Bytes}, Part part →
      ∀ (s : Store) (f : Nat) (r : Rdr) (w : World), r.input = part → r.pending = [] →
        r.fin.kind = .unexpectedEof → r.fin.text = text → part.length < f → Rep cfg s w.fs → Ready cfg w.fs →
        (processF cfg mode f).stops ch (Progress cfg mode ch s [] w.out) r w (fun x _ w' => x = .ok () ∧
          ∃ ws s', w'.out = w.out ++ ws.flatten ∧ Conversation cfg mode ch s [] ws s' ∧ Rep cfg s' w'.fs) := by
    intro part hpart s f r w hi hp hfin htx hf hr hd
    obtain ⟨f, rfl⟩ : ∃ g, f = g + 1 := ⟨f - 1, by omega⟩
    rw [processF]
    refine stops_bind (P := fun x r' w' => x = .ok .done ∧ w' = w) ?_ ?_
    · obtain ⟨p, v, h1, h2, h3⟩ := hpart
      have h := readPacket_truncated h1 r h2 h3 hi
      unfold turn
      refine stops_bind (P := fun x r2 w2 => x = .ok (.error (Err.ofIo r.fin)) ∧ w2 = w) ?_ ?_
      · unfold M.stops
        rw [M.wp_attempt, M.wp_rdr, h]
        exact show _ ∧ _ from ⟨rfl, rfl⟩
      rintro x r2 w2 ⟨rfl, rfl⟩
      have hk : (Err.ofIo r.fin).ioKind = .unexpectedEof := hfin
      simp only [Res.elim_ok, hk, if_true]
      exact ⟨rfl, rfl⟩
    rintro x r' w' ⟨rfl, rfl⟩
    exact ⟨rfl, [], s, by simp, .nil, hr⟩
  induction hs with
  | eof hpart => exact eof hpart
  | @quit l w1 rest hl hF =>
    intro s f r w hi hp hfin htx hf hr hd
    obtain ⟨f, rfl⟩ : ∃ g, f = g + 1 := ⟨f - 1, by omega⟩
    rw [processF]
    refine stops_bind (stops_weaken (stops_turn_quit hc hl hF hi hr hd) fun _ h => h.progress) ?_
    rintro x r' w' ⟨rfl, rfl, t, t', b, ht, ht', h1, h2, h3, h4⟩
    exact ⟨rfl, [b], _, by simpa using h1, .cons ht ht' rfl h2 .nil, h3⟩
  | @heard q qs ps w1 ws he hF _ ih =>
    cases q with
    | ask q =>
      exact step (long (means_ne he) hF) (Nat.le_refl _)
        (fun s r w hi hp _ _ hr hd => stops_turn_means hc hsha hclk he hF hi hp hr hd) ih
    | nonsense code msg =>
      exact step (long (denied_ne he) hF) (Nat.le_refl _)
        (fun s r w hi hp _ _ hr hd => stops_turn_denied hc he hF hi hr hd) ih
  | @broken q ps w1 part hb hF =>
    have hne : ps ≠ [] := by
      cases hb with
      | heard h => cases h <;> simp
      | _ => simp
    exact step (ws' := []) (long hne hF) (Nat.zero_le _)
      (fun s r w hi hp hfin htx hr hd => stops_turn_broken hc hsha hclk (htx ▸ hb) hF hi hp hfin hr hd) (eof part_nil)

theorem stops_program_cutTalk (hc : Calm ch) (hsha : ∀ b, (cfg.sha b).length = 32)
    (hclk : ∀ t, Clock cfg ch t → TimeOk cfg t) {qs : List Said} {w : World} (hs : CutTalk mode r.fin.text qs r.input)
    (hp : r.pending = []) (hfin : r.fin.kind = .unexpectedEof) (hr : Rep cfg s w.fs) :
    (runProgram cfg (Mode.operation mode)).stops ch (Progress cfg mode ch s qs (w.out ++ b!"000eversion=1\n0000")) r w
      (fun x _ w' => x = .ok () ∧ ∃ ws s', w'.out = w.out ++ b!"000eversion=1\n0000" ++ ws.flatten ∧
        Conversation cfg mode ch s qs ws s' ∧ Rep cfg s' w'.fs) := by
  unfold runProgram
  refine stops_bind (stops_createDirectories hc hr fun w' h1 h2 => .begun (by simp [h1]) h2) ?_
  rintro x r' w1 ⟨rfl, rfl, e1, hr1, hd1⟩
  simp only [Res.elim_ok]
  have hcap : encMsg b!"version=1\n" ++ b!"0000" = b!"000eversion=1\n0000" := by decide
  have hcaps := prints_sendCapabilities ch r' w1 hc
  rw [hcap] at hcaps
  refine stops_bind (stops_still (all_sendCapabilities r') hcaps ?_) ?_
  · rintro w' h1 h2 ⟨x, r2, wf, ⟨_, _, _, h3⟩, h4⟩
    exact .begun (by rw [← e1, ← h3]; exact h4) (h1 ▸ hr1)
  rintro x r2 w2 ⟨⟨rfl, rfl, e2, e3⟩, _⟩
  simp only [Res.elim_ok]
  have main := stops_cutTalk hc hsha hclk hs s (r2.input.length + 1) r2 w2 rfl hp hfin rfl (by omega)
    (by rw [e2]; exact hr1) (by rw [e2]; exact hd1)
  rw [e3, e1] at main
  cases mode with
  | upload => exact main
  | download => exact main

end Verif
