import Verif.Props.Align
/-! Property C52, exactly: after which executions of an upload the rest of it is left in the input. -/
namespace Verif
open Spec

variable {cfg : Cfg} {mode : Mode} {r r' : Rdr}

/-- Calls other than those that create or write a temporary file. -/
def NoCopy (o : Op) : Prop := ∀ x : Resp o, Event.CopyOk ⟨o, x⟩

/-- The ghost state says whether such a call failed. -/
abbrev Slip : Logic Prop := Logic.seen fun e => ¬ e.CopyOk

theorem Prog.wp_slip {α : Type} {p : Prog α} {Q : α → Prop} (h : p.wp (Logic.only fun _ => True) () (fun a _ => Q a))
    (ha : p.All NoCopy) {s t : Prop} (hs : s ↔ t) : p.wp Slip s (fun a s' => Q a ∧ (s' ↔ t)) := by
  induction p generalizing s with
  | ret a => exact ⟨h, hs⟩
  | call o k ih =>
    refine ⟨trivial, fun x _ => ih x (h.2 x trivial) (ha.2 x) ?_⟩
    show s ∨ ¬ Event.CopyOk ⟨o, x⟩ ↔ t
    rw [← hs]
    exact or_iff_left fun hn => hn (ha.1 x)

theorem M.Still.slip {α : Type} {m : M α} (h : m.Still) (ha : m.All NoCopy) (r : Rdr) (s : Prop) :
    m.wp Slip r s (fun _ r' s' => r' = r ∧ (s' ↔ s)) :=
  Prog.wp_slip (p := m r) (Q := fun x : Res α × Rdr => x.2 = r) (h (fun _ => True) r) (ha r) Iff.rfl

/-- If a call failed, at least `k` bytes are left. -/
def Behind (k : Nat) (r : Rdr) (s : Prop) : Prop := s → k ≤ r.input.length

/-- Steps after the data was read. -/
theorem M.Still.behind {α : Type} {m : M α} (h : m.Still) (ha : m.All NoCopy) {r : Rdr} {s : Prop} {k : Nat}
    (hb : Behind k r s) : m.wp Slip r s (fun _ r' s' => Behind k r' s') := by
  refine M.wp_mono (h.slip ha r s) ?_
  rintro x r' s' ⟨rfl, hs⟩ h
  exact hb (hs.mp h)

theorem noCopy_dropFile (p : Path) : (dropFile p).All NoCopy := by
  unfold dropFile
  exact .bind (.op fun _ => trivial) fun _ => .pure _

theorem noCopy_checkUpload (cfg : Cfg) (oid : Bytes) (n : Nat) (d : Bytes) : (checkUpload cfg oid n d).All NoCopy := by
  unfold checkUpload oidNew
  all_ops

theorem noCopy_finishUpload (cfg : Cfg) (oid : Bytes) (p : Path) : (finishUpload cfg oid p).All NoCopy := by
  unfold finishUpload fixPermissions
  refine .bind (.onFail (.bind (.op fun _ => trivial) fun _ => .bind (.ofIo _) fun _ => .bind (.op fun _ => trivial) fun _ => ?_)
    (noCopy_dropFile p)) fun _ => .bind (.op fun _ => trivial) fun _ => .bind (.ofIo _) fun _ => .bind (.op fun _ => trivial) fun _ => .ofIo _
  all_ops

theorem noCopy_sendStatus (st : Status) : (sendStatus st).All NoCopy :=
  (replies_sendStatus st).mono fun o h x => by
    cases o <;> trivial

/-- A piece of data was read and the terminator is still to come, or there was no data. -/
theorem read_behind {ds : List Bytes} {v rest : Bytes} (hs : ∀ d ∈ ds, d.length ≤ 65516)
    (hF : Frames (ds.map .data ++ [.flush]) v) (hi : r.input = v ++ rest) (n : Nat) :
    (∃ (d : Bytes) (ds' : List Bytes) (v' : Bytes) (r1 : Rdr), d ≠ [] ∧ r.read (n + 1) = (.ok d, r1) ∧ (∀ d ∈ ds', d.length ≤ 65516) ∧
      Frames (ds'.map .data ++ [.flush]) v' ∧ r1.input = v' ++ rest) ∨
    ∃ r1, r.read (n + 1) = (.ok [], r1) := by
  by_cases hp : r.pending = []
  · obtain ⟨u, z, rfl, hu, hz⟩ := frames_split hF
    have hlen := frames_length hu
    have hread : r.read (n + 1) = r.readLoopF (r.input.length + 1) (n + 1) := by
      simp only [Rdr.read, hp, List.length_nil, Nat.zero_min, Nat.lt_irrefl, if_false, gt_iff_lt, Rdr.readLoop]
    rw [hread]
    rcases readLoopF_data ds u (z ++ rest) (r.input.length + 1) (n + 1) r hu hs (by rw [hi, List.append_assoc]) hp
      (by rw [hi]; simp at hlen ⊢; omega) with ⟨_, he⟩ | ⟨d, ds2, w2, hd, _, hs2, hF2, he⟩
    · refine .inr ?_
      rw [he]
      obtain ⟨g, hg⟩ : ∃ g, r.input.length + 1 - ds.length = g + 1 :=
        ⟨r.input.length - ds.length, by rw [hi]; simp at hlen ⊢; omega⟩
      rw [hg, readLoopF_end (.inl rfl) (frames_singleton hz) g (n + 1) _ rfl]
      exact ⟨_, rfl⟩
    · refine .inl ⟨d.take (n + 1), ds2, w2 ++ z, _, ?_, he, hs2, frames_append hF2 hz, by simp⟩
      cases d with
      | nil => exact absurd rfl hd
      | cons => simp
  · have hk : 0 < min r.pending.length (n + 1) := by
      have := List.length_pos_iff.mpr hp
      omega
    refine .inl ⟨r.pending.take (min r.pending.length (n + 1)), ds, v,
      { r with pending := r.pending.drop (min r.pending.length (n + 1)) }, ?_, ?_, hs, hF, ?_⟩
    · intro e
      have := congrArg List.length e
      rw [List.length_take, List.length_nil] at this
      omega
    · simp only [Rdr.read, gt_iff_lt, hk, if_true]
    · exact hi

theorem frames_flush_length {ds : List Bytes} {v : Bytes} (h : Frames (ds.map .data ++ [.flush]) v) : 4 ≤ v.length := by
  obtain ⟨u, z, rfl, _, hz⟩ := frames_split h
  have := frame_length (frames_singleton hz)
  rw [List.length_append]; omega

theorem behind_copyInF (bufs : Nat → Nat) (ino : Ino) (rest : Bytes) : ∀ (f i : Nat) (acc : Bytes) (r : Rdr) (s : Prop)
    (ds : List Bytes) (v : Bytes), (∀ d ∈ ds, d.length ≤ 65516) → Frames (ds.map .data ++ [.flush]) v →
    r.input = v ++ rest → ¬ s →
    (copyInF bufs ino f i acc).wp Slip r s (fun _ r' s' => Behind (rest.length + 4) r' s')
  | 0, _, _, _, _, _, _, _, _, _, hn => by rw [copyInF, M.wp_panic]; exact fun h => absurd h hn
  | f + 1, i, acc, r, s, ds, v, hs, hF, hi, hn => by
    rw [copyInF, M.wp_bind, M.wp_rdr]
    rcases read_behind hs hF hi (bufs i) with ⟨d, ds', v', r1, hd, h1, h2, h3, h4⟩ | ⟨r1, h1⟩
    · rw [h1, Res.elim_ok, if_neg hd, M.wp_bind, M.wp_op]
      refine ⟨trivial, fun x _ => ?_⟩
      rw [Res.elim_ok, M.wp_bind, M.wp_ofIo]
      cases x with
      | ok a =>
        refine behind_copyInF bufs ino rest f (i + 1) (acc ++ d) r1 _ ds' v' h2 h3 h4 ?_
        rintro (h | h)
        · exact hn h
        · exact h rfl
      | error e =>
        intro _
        show _ ≤ r1.input.length
        have := frames_flush_length h3
        rw [h4, List.length_append]; omega
    · rw [h1, Res.elim_ok, if_pos rfl, M.wp_pure]
      exact fun h => absurd h hn

theorem behind_startUpload (cfg : Cfg) (oid : Bytes) {ds : List Bytes} {v rest : Bytes} {s : Prop}
    (hs : ∀ d ∈ ds, d.length ≤ 65516) (hF : Frames (ds.map .data ++ [.flush]) v) (hi : r.input = v ++ rest) (hn : ¬ s) :
    (startUpload cfg oid).wp Slip r s (fun _ r' s' => Behind (rest.length + 4) r' s') := by
  unfold startUpload
  rw [M.wp_bind, M.wp_op]
  refine ⟨trivial, fun x _ => ?_⟩
  rw [Res.elim_ok, M.wp_bind, M.wp_ofIo]
  cases x with
  | error e =>
    intro _
    show _ ≤ r.input.length
    have := frames_flush_length hF
    rw [hi, List.length_append]; omega
  | ok a =>
    obtain ⟨path, ino⟩ := a
    simp only [Res.elim_ok]
    rw [M.wp_onFail, M.wp_bind]
    have hc : (copyIn cfg.copyBuf ino).wp Slip r (s ∨ ¬ Event.CopyOk ⟨.createTemp (incompleteDir cfg.root) oid cfg.uid,
        .ok (path, ino)⟩) (fun _ r' s' => Behind (rest.length + 4) r' s') := by
      unfold M.wp copyIn
      refine behind_copyInF cfg.copyBuf ino rest _ 0 [] r _ ds v hs hF hi ?_
      rintro (h | h)
      · exact hn h
      · exact h ⟨_, rfl⟩
    refine M.wp_mono hc ?_
    rintro (a | e | _) r1 s1 h
    · exact h
    · exact (still_dropFile path).behind (noCopy_dropFile path) h
    · exact (still_dropFile path).behind (noCopy_dropFile path) h

theorem behind_put {oid : Bytes} {r1 : Rdr} {as : List Bytes} {args : Args} {n : Nat} {ds : List Bytes} {v rest : Bytes}
    {s : Prop} (ho : oidValid oid = true) (h1 : readToType .delim r = (.ok as, r1)) (ha : parseArgs as = .ok args)
    (hn : sizeFromArgs args = .ok n) (hs : ∀ d ∈ ds, d.length ≤ 65516) (hF : Frames (ds.map .data ++ [.flush]) v)
    (hi : r1.input = v ++ rest) (hs' : ¬ s) :
    (putObject cfg oid).wp Slip r s (fun _ r' s' => Behind (rest.length + 4) r' s') := by
  unfold putObject oidNew readToDelim
  rw [ho]
  have h0 : ∀ {β : Type} (f : Bytes → M β) r, ((if true = true then (pure oid : M Bytes) else
      M.throw (Err.simple .invalidLFSOid)) >>= f) r = f oid r := fun f r => rfl
  unfold M.wp
  rw [h0]
  change M.wp Slip (M.rdr (readToType .delim) >>= _) r s (fun _ r' s' => Behind (rest.length + 4) r' s')
  rw [M.wp_bind, M.wp_rdr, h1, Res.elim_ok, M.wp_bind, M.wp_ofRes, ha, Res.elim_ok, M.wp_bind, M.wp_ofRes, hn, Res.elim_ok,
    M.wp_bind]
  refine M.wp_mono (behind_startUpload cfg oid hs hF hi hs') ?_
  rintro (⟨p, d⟩ | e | _) r2 s2 h
  · rw [Res.elim_ok]
    exact M.Still.behind (.bind (.onFail (still_checkUpload _ _ _ _) (still_dropFile _)) fun _ =>
      .bind (still_finishUpload _ _ _) fun _ => .pure _)
      (.bind (.onFail (noCopy_checkUpload _ _ _ _) (noCopy_dropFile _)) fun _ =>
      .bind (noCopy_finishUpload _ _ _) fun _ => .pure _) h
  · exact h
  · exact h

/-- **C52**, exactly: after an upload, whatever the OS answered, the input is at the end of the request if and only if
the temporary file could be created and written. Otherwise data packets and the flush are still there, to be taken for
commands.

Full property: the input is at the end of the request in every case. That is false (`C52_refuted`). -/
theorem C52_exact_partial {oid data u rest : Bytes} {n : Nat} {ps : List Packet} {tr : List Event} {x : Res Turn}
    (hq : Encodes (.put oid n data) ps) (hF : Frames ps u) (hi : r.input = u ++ rest) (hp : r.pending = [])
    (h : (turn cfg .upload r).Finished tr (x, r')) : r'.input = rest ↔ ∀ e ∈ tr, e.CopyOk := by
  constructor
  · intro he
    apply Classical.byContradiction
    intro hno
    have hno : ∃ e ∈ tr, ¬ e.CopyOk := by
      apply Classical.byContradiction
      intro h
      exact hno fun e he => Classical.byContradiction fun hn => h ⟨e, he, hn⟩
    suffices H : (turn cfg .upload).wp Slip r False (fun _ r' s' => Behind (rest.length + 4) r' s') by
      have := seen_finished (p := turn cfg .upload r) (Q := fun (x : Res Turn × Rdr) s => Behind (rest.length + 4) x.2 s) H h
        (fun s s' hss hb hs => hb (hss.mpr hs)) hno
      simp only [he] at this
      omega
    cases hq with
    | @put l kv oid s data n ds hoid hl ha hsz hn hds hdata =>
      obtain ⟨v, u', rfl, hv, hu⟩ := frames_split (ps := [Packet.data l]) (by simpa using hF)
      have hrd := readPacket_frame (frames_singleton hv) r (u' ++ rest) (by rw [hi, List.append_assoc])
      obtain ⟨hw, hne⟩ := words_oid (cmd := b!"put-object") hoid (by decide) hl
      have hu : Frames ((argPackets kv ++ [.delim]) ++ (ds.map .data ++ [.flush])) u' := by simpa using hu
      obtain ⟨a, b, rfl, hua, hub⟩ := frames_split hu
      obtain ⟨m, hm, hg⟩ := C09_args_exact kv ha
      have h1 := readToDelim_args (r := { r with input := a ++ b ++ rest }) hua
        (show a ++ b ++ rest = a ++ (b ++ rest) by rw [List.append_assoc])
      have hsz' : sizeFromArgs m = .ok n := by
        unfold sizeFromArgs
        rw [hg, hsz]
        exact num_parse hn
      have hd := behind_put (cfg := cfg) (r1 := { r with input := b ++ rest }) (s := False)
        ((oidValid_iff oid).mpr hoid) h1 hm hsz' hds hub rfl id
      unfold M.wp
      rw [turn_data cfg .upload r _ l hne hrd]
      simp only [hw, List.head?_cons, Option.getD_some, List.tail_cons]
      rw [if_neg (by simp)]
      suffices hh : ∀ f : Except Err Status → M Turn, (∀ y, f y = (sendStatus (match y with
          | .ok st => st
          | .error e => errorStatus e) >>= fun _ => pure Turn.again)) →
          (M.attempt (dispatch cfg .upload b!"put-object" (some oid)) >>= f).wp Slip
            { r with input := a ++ b ++ rest } False (fun _ r' s' => Behind (rest.length + 4) r' s') by
        exact hh _ (fun y => by cases y <;> rfl)
      intro f hf
      rw [M.wp_bind, M.wp_attempt]
      refine M.wp_mono hd ?_
      have hsend : ∀ st r s, Behind (rest.length + 4) r s → (sendStatus st >>= fun _ => pure Turn.again : M Turn).wp Slip r s
          (fun _ r' s' => Behind (rest.length + 4) r' s') := fun st r s hb =>
        M.Still.behind (.bind (still_sendStatus _) fun _ => .pure _) (.bind (noCopy_sendStatus _) fun _ => .pure _) hb
      rintro (a | e | _) r' s' hb
      · rw [Res.elim_ok, Res.elim_ok, hf]; exact hsend _ _ _ hb
      · rw [Res.elim_err, Res.elim_ok, hf]; exact hsend _ _ _ hb
      · exact hb
  · intro hc
    exact congrArg Rdr.input (Logic.only_finished (P := Event.CopyOk)
      (Q := fun x r' => r' = { r with input := rest } ∧ x ≠ .ok .done) (turn_put hq hF hi hp) h hc).1

open Tests in
/-- `C52_exact_partial` on both sides: an upload during which a write fails leaves data behind, and one during which
all calls succeed does not. -/
example : (¬ ∀ e ∈ eventsOf (failAt 1 eio 0) broken, e.CopyOk) ∧
    (turnRun (failAt 1 eio 0) broken).1.2.input = enc [.data b!"123", .flush, .data b!"list-lock", .flush] ∧
    (∀ e ∈ eventsOf calm broken, e.CopyOk) ∧ (turnRun calm broken).1.2.input = enc [.data b!"list-lock", .flush] ∧
    Encodes (.put oidA 6 [b!"abc", b!"123"].flatten) (putA [b!"abc", b!"123"]) ∧ broken.pending = [] ∧
    broken.input = enc (putA [b!"abc", b!"123"]) ++ enc [.data b!"list-lock", .flush] := by
  have he : Encodes (.put oidA 6 [b!"abc", b!"123"].flatten) (putA [b!"abc", b!"123"]) := putA_encodes _ (by decide)
  have hi : broken.input = enc (putA [b!"abc", b!"123"]) ++ enc [.data b!"list-lock", .flush] := by decide +kernel
  have hl : (turnRun (failAt 1 eio 0) broken).1.2.input = enc [.data b!"123", .flush, .data b!"list-lock", .flush] := by
    decide +kernel
  refine ⟨fun hc => ?_, hl, copyOkB_ok (by decide +kernel), by decide +kernel, he, rfl, hi⟩
  have hf : (turn Tests.cfg .upload broken).Finished (eventsOf (failAt 1 eio 0) broken)
      (.ok .again, { broken with input := enc [.data b!"123", .flush, .data b!"list-lock", .flush] }) := by
    have h : (turnRun (failAt 1 eio 0) broken).1 =
        (.ok .again, { broken with input := enc [.data b!"123", .flush, .data b!"list-lock", .flush] }) := by decide +kernel
    rw [← h]
    exact Prog.run_finished _ _ _
  exact absurd ((C52_exact_partial he (frames_enc _ (by decide)) hi rfl hf).mpr hc) (by decide +kernel)

namespace Tests

/-- After the first of two uploads, during which a write failed. -/
def once : Rdr := ((turn cfg4 .upload (seeing [] twice)).run (failAt 1 eio 0) ⟨fsL, [], 0⟩).1.2

end Tests

open Tests in
/-- A session as in `C54_exact_partial`, with bytes left in the buffer: a write failed during an upload, and its flush
was then taken for a request. -/
example : ∃ tr r, Turns cfg4 .upload (seeing [] twice) tr r ∧ (seeing [] twice).pending = [] ∧ r.pending = b!"23" ∧
    r.input = enc (putA [b!"abc123"]) := by
  have h' : ∀ y : Res Turn × Rdr, y.1 = .ok .again → y = (.ok .again, y.2) := by rintro ⟨_, _⟩ rfl; rfl
  refine ⟨(turn cfg4 .upload (seeing [] twice)).events (failAt 1 eio 0) ⟨fsL, [], 0⟩ ++
      ((turn cfg4 .upload once).events calm ⟨fsL, [], 0⟩ ++ []),
    ((turn cfg4 .upload once).run calm ⟨fsL, [], 0⟩).1.2, .cons (r1 := once) ?_ (.cons ?_ .nil), rfl,
    by decide +kernel, by decide +kernel⟩
  · have h := Prog.run_finished (failAt 1 eio 0) (turn cfg4 .upload (seeing [] twice)) ⟨fsL, [], 0⟩
    have h2 : ((turn cfg4 .upload (seeing [] twice)).run (failAt 1 eio 0) ⟨fsL, [], 0⟩).1.1 = .ok .again := by decide +kernel
    rw [h' _ h2] at h
    exact h
  · have h := Prog.run_finished calm (turn cfg4 .upload once) ⟨fsL, [], 0⟩
    have h2 : ((turn cfg4 .upload once).run calm ⟨fsL, [], 0⟩).1.1 = .ok .again := by decide +kernel
    rw [h' _ h2] at h
    exact h

end Verif
