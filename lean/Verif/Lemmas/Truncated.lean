import Verif.Lemmas.Sync
/-! Requests that end in the middle. -/
namespace Verif
open Spec

/-- The logic that requires `A` of every call and considers responses satisfying `P`. -/
def Logic.calls (A : Op → Prop) (P : Event → Prop) : Logic Unit :=
  ⟨fun _ o => A o, fun s _ _ => s, fun _ o x => P ⟨o, x⟩⟩

theorem Logic.calls_did {A : Op → Prop} {P : Event → Prop} {α : Type} {p : Prog α} {Q : α → Unit → Prop}
    (h : p.wp (Logic.calls A P) () Q) {tr} (hd : p.Did tr) (hP : ∀ e ∈ tr, P e) : ∀ e ∈ tr, A e.1 := by
  have := Prog.wp_did h hd (Logic.legalTr_of_forall fun e he _ => hP e he)
  clear h hd hP
  induction tr with
  | nil => intro e he; cases he
  | cons e tr ih =>
    intro e' he'
    rcases List.mem_cons.mp he' with rfl | he'
    · exact this.1
    · exact ih this.2 e' he'

theorem M.All.calls {A : Op → Prop} {P : Event → Prop} {α : Type} {m : M α} (h : m.All A) (r : Rdr)
    {Q : Res α → Rdr → Unit → Prop} (hq : ∀ x r s, Q x r s) : m.wp (Logic.calls A P) r () Q :=
  Prog.wp_mono (Prog.All.wp (h r) () (fun _ ho => ho) (fun _ _ _ _ => rfl)) (fun _ _ _ => hq _ _ _)

/-- Arguments cut off: what was complete is what is read, or the error is reported. -/
theorem readToTypeF_truncated (typ : Packet) (ht : typ = .flush ∨ typ = .delim) {p : Packet} {wp part : Bytes}
    (hf : Frame p wp) (hpp : part <+: wp) (hpn : part ≠ wp) :
    ∀ (ds : List Bytes) (f : Nat) (r : Rdr) (w : Bytes),
    Frames (ds.map .data) w → r.input = w ++ part → ds.length < f →
    readToTypeF typ f r = (if r.fin.kind = .unexpectedEof then .ok ds else .err (Err.ofIo r.fin), { r with input := [] })
  | _, 0, _, _, _, _, h => by omega
  | [], f + 1, r, w, hF, hi, _ => by
    cases hF
    rw [List.nil_append] at hi
    simp only [readToTypeF, Rdr.next, readPacket_truncated hf r hpp hpn hi]
    have : (Err.ofIo r.fin).ioKind = r.fin.kind := rfl
    rw [this]
    by_cases h : r.fin.kind = .unexpectedEof <;> simp [h]
  | d :: ds, f + 1, r, w, hF, hi, hl => by
    simp only [List.map_cons] at hF
    generalize hps : ds.map Packet.data = ps at hF
    cases hF with
    | @cons _ _ w1 ws hf1 hF =>
      rw [List.append_assoc] at hi
      have hne : Packet.data d ≠ typ := by rcases ht with rfl | rfl <;> simp
      have ih := readToTypeF_truncated typ ht hf hpp hpn ds f { r with input := ws ++ part } ws (hps ▸ hF) rfl
        (by simp only [List.length_cons] at hl; omega)
      simp only [readToTypeF, next_frame hf1 r _ hi, if_neg hne, ih, Packet.data?, Option.getD_some]
      by_cases h : r.fin.kind = .unexpectedEof <;> simp [h]

/-- A proper prefix of `ds` and a terminator: some of the data packets and a part of the next packet. -/
theorem frames_cut {ds : List Bytes} {t : Packet} {w inp : Bytes} (hF : Frames (ds.map .data ++ [t]) w)
    (hpre : inp <+: w) (hne : inp ≠ w) : ∃ (ds1 ds2 : List Bytes) (p : Packet) (w1 wp part : Bytes),
      ds = ds1 ++ ds2 ∧ Frames (ds1.map .data) w1 ∧ Frame p wp ∧ part <+: wp ∧ part ≠ wp ∧ inp = w1 ++ part := by
  obtain ⟨ps1, p, ps2, w1, wp, part, hps, hF1, hf, hpp, hpn, hi⟩ := frames_prefix hF inp hpre hne
  have hle : ps1.length ≤ ds.length := by
    have := congrArg List.length hps
    simp at this; omega
  have hps1 : ps1 = (ds.map Packet.data).take ps1.length := by
    have := congrArg (List.take ps1.length) hps
    rw [List.take_append_of_le_length (by simpa using hle), List.take_append_of_le_length
      (Nat.le_refl _), List.take_of_length_le (Nat.le_refl _)] at this
    exact this.symm
  refine ⟨ds.take ps1.length, ds.drop ps1.length, p, w1, wp, part, (List.take_append_drop _ _).symm, ?_, hf, hpp,
    hpn, hi⟩
  rw [List.map_take, ← hps1]
  exact hF1

theorem readToType_truncated {typ : Packet} (ht : typ = .flush ∨ typ = .delim) {ds : List Bytes} {t : Packet}
    {w : Bytes} {r : Rdr} (hF : Frames (ds.map .data ++ [t]) w) (hpre : r.input <+: w) (hne : r.input ≠ w) :
    ∃ ds1 ds2, ds = ds1 ++ ds2 ∧ readToType typ r =
      (if r.fin.kind = .unexpectedEof then .ok ds1 else .err (Err.ofIo r.fin), { r with input := [] }) := by
  obtain ⟨ds1, ds2, p, w1, wp, part, h1, h2, h3, h4, h5, h6⟩ := frames_cut hF hpre hne
  refine ⟨ds1, ds2, h1, readToTypeF_truncated typ ht h3 h4 h5 ds1 _ r w1 h2 h6 ?_⟩
  have := frames_length h2
  rw [h6]; simp at this ⊢; omega

/-! ### Copying data that is cut off -/

theorem copyInF_err {A : Op → Prop} {P : Event → Prop} (hA : ∀ i b, A (.write i b)) (bufs : Nat → Nat) (ino : Ino)
    (e : Err) (r2 : Rdr) : ∀ (k i f : Nat) (acc : Bytes) (outs : List Bytes) (r r' : Rdr),
    reads (fun j => bufs (i + j) + 1) k r = some (outs, r') → (∀ o ∈ outs, o ≠ []) →
    r'.read (bufs (i + k) + 1) = (.err e, r2) →
    (copyInF bufs ino f i acc).wp (Logic.calls A P) r () (fun x _ _ => ∀ a, x ≠ .ok a)
  | _, _, 0, _, _, _, _, _, _, _ => by rw [copyInF, M.wp_panic]; intro a h; cases h
  | 0, i, f + 1, acc, outs, r, r', h, _, he => by
    simp only [reads, Option.some.injEq, Prod.mk.injEq] at h
    obtain ⟨rfl, rfl⟩ := h
    rw [copyInF, M.wp_bind, M.wp_rdr]
    simp only [Nat.add_zero] at he
    rw [he]
    intro a h; cases h
  | k + 1, i, f + 1, acc, outs, r, r', h, hne, he => by
    rw [reads] at h
    split at h
    · rename_i d r1 hd
      simp only [Option.map_eq_some_iff, Prod.mk.injEq] at h
      obtain ⟨⟨outs', r1'⟩, h1, rfl, rfl⟩ := h
      have h1' : reads (fun j => bufs (i + 1 + j) + 1) k r1 = some (outs', r1') := by
        have : (fun j => bufs (i + 1 + j) + 1) = fun j => bufs (i + (j + 1)) + 1 := by
          funext j; rw [Nat.add_assoc, Nat.add_comm 1 j]
        rw [this]; exact h1
      have ih := copyInF_err (P := P) hA bufs ino e r2 k (i + 1) f (acc ++ d) outs' r1 r1' h1'
        (fun o ho => hne o (by simp [ho])) (by rw [Nat.add_assoc, Nat.add_comm 1 k]; exact he)
      rw [copyInF, M.wp_bind, M.wp_rdr]
      have hd : r.read (bufs i + 1) = (.ok d, r1) := hd
      rw [hd, Res.elim_ok, if_neg (hne d (by simp)), M.wp_bind, M.wp_op]
      refine ⟨hA _ _, fun x _ => ?_⟩
      rw [Res.elim_ok, M.wp_bind, M.wp_ofIo]
      cases x with
      | ok a => exact ih
      | error e => intro a h; cases h
    · cases h

theorem copyIn_err {A : Op → Prop} {P : Event → Prop} (hA : ∀ i b, A (.write i b)) (bufs : Nat → Nat) (ino : Ino)
    {ds : List Bytes} (hs : ∀ d ∈ ds, d.length ≤ 65516) {w : Bytes} (hF : Frames (ds.map .data ++ [.flush]) w)
    {r : Rdr} (hpre : r.input <+: w) (hne : r.input ≠ w) (hp : r.pending = []) :
    (copyIn bufs ino).wp (Logic.calls A P) r () (fun x _ _ => ∀ a, x ≠ .ok a) := by
  obtain ⟨k, outs, r', e, r'', h1, h2, _, h4, _⟩ := C07_truncation_detected ds hs .flush (.inl rfl) w hF r hpre hne hp
    (fun j => bufs j + 1) (fun _ => Nat.succ_pos _)
  exact copyInF_err hA bufs ino e r'' k 0 _ [] outs r r' (by simpa using h1) h2 (by simpa using h4)

/-- What an upload may do before it is accepted: make, fill and remove a file in `incomplete`. -/
def Harmless (root : Path) : Op → Prop
  | .createTemp d _ _ => d = root ++ [b!"incomplete"]
  | .write _ _ => True
  | .unlink p => ∃ n, p = root ++ [b!"incomplete", n]
  | o => o.mutates = false

theorem harmless_looks {root : Path} {o : Op} (h : o.mutates = false) : Harmless root o := by
  cases o <;> first | exact h | cases h

theorem startUpload_err {cfg : Cfg} {oid : Bytes} {ds : List Bytes} (hs : ∀ d ∈ ds, d.length ≤ 65516) {w : Bytes}
    (hF : Frames (ds.map .data ++ [.flush]) w) {r : Rdr} (hpre : r.input <+: w) (hne : r.input ≠ w)
    (hp : r.pending = []) : (startUpload cfg oid).wp (Logic.calls (Harmless cfg.root) Event.Possible) r ()
      (fun x _ _ => ∀ a, x ≠ .ok a) := by
  unfold startUpload
  rw [M.wp_bind, M.wp_op]
  refine ⟨rfl, fun x hx => ?_⟩
  rw [Res.elim_ok, M.wp_bind, M.wp_ofIo]
  cases x with
  | error e => intro a h; cases h
  | ok a =>
    obtain ⟨path, ino⟩ := a
    obtain ⟨sfx, hpath⟩ : ∃ sfx, path = incompleteDir cfg.root ++ [oid ++ sfx] := hx
    have hdrop : ∀ {x : Res (Path × Bytes)}, (∀ a, x ≠ .ok a) → ∀ r, (dropFile path).wp
        (Logic.calls (Harmless cfg.root) Event.Possible) r () (fun _ _ _ => ∀ a, x ≠ .ok a) := by
      intro x hx r
      unfold dropFile
      rw [M.wp_bind, M.wp_op]
      refine ⟨⟨oid ++ sfx, by rw [hpath]; simp [incompleteDir]⟩, fun _ _ => hx⟩
    simp only [Res.elim_ok]
    rw [M.wp_onFail, M.wp_bind]
    refine M.wp_mono (copyIn_err (fun _ _ => trivial) cfg.copyBuf ino hs hF hpre hne hp) ?_
    rintro (a | e | _) r1 s1 h
    · exact absurd rfl (h a)
    · exact hdrop (by intro a h; cases h) r1
    · exact hdrop (by intro a h; cases h) r1

/-- An upload cut off after its command line does nothing but make and remove a temporary file. -/
theorem put_truncated {cfg : Cfg} {oid : Bytes} {as ds : List Bytes} (hs : ∀ d ∈ ds, d.length ≤ 65516) {w : Bytes}
    (hF : Frames ((as.map .data ++ [.delim]) ++ (ds.map .data ++ [.flush])) w) {r : Rdr} (hpre : r.input <+: w)
    (hne : r.input ≠ w) (hp : r.pending = []) :
    (putObject cfg oid).wp (Logic.calls (Harmless cfg.root) Event.Possible) r () (fun x _ _ => ∀ a, x ≠ .ok a) := by
  obtain ⟨u, v, rfl, hu, hv⟩ := frames_split hF
  -- where the data starts, whatever is left is a proper prefix of it
  obtain ⟨y, r1, h1, h2, h3, h4⟩ : ∃ y r1, readToType .delim r = (y, r1) ∧ r1.input <+: v ∧ r1.input ≠ v ∧
      r1.pending = [] := by
    by_cases hl : r.input.length < u.length
    · have hpu : r.input <+: u := List.prefix_of_prefix_length_le hpre (List.prefix_append _ _) (by omega)
      obtain ⟨ds1, ds2, _, h⟩ := readToType_truncated (.inr rfl) (r := r) hu hpu (by intro e; rw [e] at hl; omega)
      refine ⟨_, _, h, List.nil_prefix, ?_, hp⟩
      have := frames_length hv
      intro e
      rw [← e] at this
      simp at this
    · have hw : u <+: r.input := List.prefix_of_prefix_length_le (List.prefix_append _ _) hpre (by omega)
      obtain ⟨inp', hi⟩ := hw
      refine ⟨_, _, readToType_frames (.inr rfl) hu hi.symm, ?_, ?_, hp⟩
      · rw [← hi] at hpre
        exact (List.prefix_append_right_inj u).mp hpre
      · intro e
        exact hne (by rw [← hi]; exact congrArg _ e)
  unfold putObject oidNew readToDelim
  rw [M.wp_bind]
  have hnot : ∀ e : Err, ∀ a : Status, (Res.err e : Res Status) ≠ .ok a := fun e a h => by cases h
  have hnot' : ∀ a : Status, (Res.panic : Res Status) ≠ .ok a := fun a h => by cases h
  split
  · rw [M.wp_pure, Res.elim_ok, M.wp_bind, M.wp_rdr, h1]
    cases y with
    | err e => exact hnot e
    | panic => exact hnot'
    | ok items =>
      rw [Res.elim_ok, M.wp_bind, M.wp_ofRes]
      cases parseArgs items with
      | err e => exact hnot e
      | panic => exact hnot'
      | ok args =>
        rw [Res.elim_ok, M.wp_bind, M.wp_ofRes]
        cases sizeFromArgs args with
        | err e => exact hnot e
        | panic => exact hnot'
        | ok n =>
          rw [Res.elim_ok, M.wp_bind]
          refine M.wp_mono (startUpload_err hs hv h2 h3 h4) ?_
          rintro (a | e | _) r2 s2 h
          · exact absurd rfl (h a)
          · exact hnot e
          · exact hnot'
  · rw [M.wp_throw]; exact hnot _

/-- A turn on a command line, when the handler is known. -/
theorem turn_calls {A : Op → Prop} {P : Event → Prop} {cfg : Cfg} {mode : Mode} {l : Bytes} {cmd : Bytes} {args : List Bytes}
    {r r1 : Rdr} (h : r.readPacket = (.ok (.data l), r1)) (hl : l ≠ []) (hw : commandWords l = cmd :: args)
    (hq : cmd ≠ b!"quit") (hA : ∀ o : Op, o.mutates = false → A o)
    (hd : (dispatch cfg mode cmd args.head?).wp (Logic.calls A P) r1 () (fun _ _ _ => True)) :
    (turn cfg mode).wp (Logic.calls A P) r () (fun _ _ _ => True) := by
  unfold M.wp
  rw [turn_data cfg mode r r1 l hl h]
  simp only [hw, List.head?_cons, Option.getD_some, List.tail_cons, hq, false_and, if_false]
  suffices hh : ∀ f : Except Err Status → M Turn, (∀ y, f y = (sendStatus (match y with
      | .ok st => st
      | .error e => errorStatus e) >>= fun _ => pure Turn.again)) →
      (M.attempt (dispatch cfg mode cmd args.head?) >>= f).wp (Logic.calls A P) r1 () (fun _ _ _ => True) by
    exact hh _ (fun y => by cases y <;> rfl)
  intro f hf
  have hst : ∀ st r, (sendStatus st >>= fun _ => pure Turn.again : M Turn).wp (Logic.calls A P) r () (fun _ _ _ => True) :=
    fun st r => M.All.calls (.bind ((replies_sendStatus st).mono hA) fun _ => .pure _) r (fun _ _ _ => trivial)
  rw [M.wp_bind, M.wp_attempt]
  refine M.wp_mono hd ?_
  rintro (a | e | _) r' s' _
  · rw [Res.elim_ok, Res.elim_ok, hf]; exact hst _ _
  · rw [Res.elim_err, Res.elim_ok, hf]; exact hst _ _
  · trivial

/-- A turn on a command line that is not complete. -/
theorem turn_no_command {A : Op → Prop} {P : Event → Prop} {cfg : Cfg} {mode : Mode} {p : Packet} {w : Bytes}
    {r : Rdr} (hf : Frame p w) (hpre : r.input <+: w) (hne : r.input ≠ w) :
    (turn cfg mode).wp (Logic.calls A P) r () (fun x _ _ => x ≠ .ok .again) := by
  unfold turn
  rw [M.wp_bind, M.wp_attempt, M.wp_rdr, readPacket_truncated hf r hpre hne rfl, Res.elim_err, Res.elim_ok]
  simp only []
  split
  · exact show _ ≠ _ from by simp
  · exact show _ ≠ _ from by simp

end Verif
