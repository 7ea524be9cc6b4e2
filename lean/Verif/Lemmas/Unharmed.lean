import Verif.Spec.Unharmed
import Verif.Lemmas.Any
import Verif.Lemmas.FaultyTurn
/-! Any bytes at all, when nothing fails. -/
namespace Verif
open Spec

variable {ch : Nat → Choice} {cfg : Cfg} {s : Store} {mode : Mode} {r : Rdr}

/-! ### `unlock` of what is no ID -/

/-- Reading whatever file the client has named. -/
theorem runs_lockFromId_any (hc : Calm ch) {id : Bytes} {w : World} :
    (lockFromId cfg id).runs ch r w (fun x r' w' => r' = r ∧ w'.fs = w.fs ∧ w'.out = w.out ∧
      (x = .ok none ∨ (∃ l, x = .ok (some (lockInfo cfg l))) ∨ ∃ e, x = .err e)) := by
  unfold lockFromId
  have fail : ∀ {e : IoErr} {w' : World}, w'.fs = w.fs → w'.out = w.out →
      (if e.kind = .notFound then pure none else M.throw (Err.ofIo e) : M (Option LockInfo)).runs ch r w'
        (fun x r' w' => r' = r ∧ w'.fs = w.fs ∧ w'.out = w.out ∧
          (x = .ok none ∨ (∃ l, x = .ok (some (lockInfo cfg l))) ∨ ∃ e, x = .err e)) := by
    intro e w' e1 e2
    split
    · exact ⟨rfl, e1, e2, .inl rfl⟩
    · exact ⟨rfl, e1, e2, .inr (.inr ⟨_, rfl⟩)⟩
  cases hres : w.fs.resolve (.join (locksDir cfg.root) id) with
  | error e =>
    exact runs_op_bind (fs' := w.fs) (x := .error e) (by simp only [sem, hc w.tick, hres]) (fun _ => rfl)
      fun w' e1 e2 => fail e1 e2
  | ok p =>
    cases hg : w.fs.get p with
    | none =>
      cases hd : w.fs.isDir p with
      | false =>
        exact runs_op_bind (fs' := w.fs) (x := .error enoent) (by simp only [sem, hc w.tick, hres, hg, hd]; rfl) (fun _ => rfl)
          fun w' e1 e2 => fail e1 e2
      | true =>
        refine runs_op_bind (fs' := w.fs) (x := .ok none) (by simp only [sem, hc w.tick, hres, hg, hd]; rfl) (fun _ => rfl) ?_
        intro w' e1 e2
        refine runs_op_bind (fs' := w.fs) (x := ([], some eisdir)) (by simp only [sem, hc w'.tick, e1]; rfl) (fun _ => rfl) ?_
        intro w2 e3 e4
        exact ⟨rfl, e3, e4.trans e2, .inr (.inr ⟨_, rfl⟩)⟩
    | some i =>
      refine runs_op_bind (fs' := w.fs) (x := .ok (some i)) (by simp only [sem, hc w.tick, hres, hg]) (fun _ => rfl) ?_
      intro w' e1 e2
      refine runs_op_bind (fs' := w.fs) (x := (cutChunks (ch w'.tick).chunks (w.fs.inodes i).data, none))
        (by simp only [sem, hc w'.tick, e1]) (fun _ => rfl) ?_
      intro w2 e3 e4
      simp only
      refine runs_bind (P := fun x r' w' => r' = r ∧ w'.fs = w.fs ∧ w'.out = w.out ∧
        x = .ok (ownerName cfg (w.fs.inodes i).uid)) ?_ ?_
      · unfold userForFile
        refine runs_op_bind (fs' := w.fs) (x := .ok ⟨(w.fs.inodes i).data.length, (w.fs.inodes i).uid⟩)
          (by simp only [sem, hc w2.tick, e3, hres, hg]) (fun _ => rfl) ?_
        intro w3 e5 e6
        exact ⟨rfl, e5, by rw [e6, e4, e2], by rw [userName_eq]⟩
      · rintro x r' w3 ⟨rfl, e5, e6, rfl⟩
        simp only [Res.elim_ok, cutChunks_flatten]
        cases parseLock (w.fs.inodes i).data with
        | none => exact ⟨rfl, e5, e6, .inr (.inr ⟨_, rfl⟩)⟩
        | some tp => exact ⟨rfl, e5, e6, .inr (.inl ⟨⟨tp.2, tp.1, (w.fs.inodes i).uid⟩, rfl⟩)⟩

/-- Every error is told with 400 or 500. -/
theorem statusFor_error (e : Err) (fs : FS) :
    ∃ code msg, code ∈ [400, 404, 500] ∧ StatusFor (errorStatus e) (denial code msg) fs := by
  unfold errorStatus
  split
  · refine ⟨400, b!"error: " ++ e.display ++ b!"\n", by simp, ⟨rfl, c400, rfl, by simp [denial]⟩, ?_⟩
    simp [denial, Status.failure]
  · refine ⟨500, b!"internal error: " ++ e.display ++ b!"\n", by simp, ⟨rfl, c500, rfl, by simp [denial]⟩, ?_⟩
    simp [denial, Status.failure]

/-- The lock of a file goes away with the file of its record. -/
theorem rep_release {fs : FS} {path : Bytes} (hr : Rep cfg s fs) :
    Rep cfg (s.release cfg path) (fs.delName (lockFile cfg.root (lockName cfg.sha path))) := by
  have hevo : FS.Evo cfg.root fs.next fs (fs.delName (lockFile cfg.root (lockName cfg.sha path))) := FS.Evo.delName _ _
  have hget : ∀ q, (fs.delName (lockFile cfg.root (lockName cfg.sha path))).get q =
      if q = lockFile cfg.root (lockName cfg.sha path) then none else fs.get q := fun q => FS.get_delName _ _ _
  refine hr.locks_changed hevo _ ?_ ?_ ?_ ?_ ?_
  · intro q hq
    rw [hget, if_neg (hq _)]
  · intro m hm
    rw [List.mem_filter, decide_eq_true_eq] at hm
    obtain ⟨j, h1, h2, h3⟩ := hr.locks m hm.1
    have hj := hevo.ino j (hr.bound _ _ h1)
    refine ⟨j, ?_, hj.1.trans h2, hj.2.trans h3⟩
    rw [hget, if_neg (fun e => hm.2 (lockFile_inj e)), h1]
  · intro n hn'
    rw [hget] at hn'
    split at hn'
    · cases hn'
    · rename_i hne
      obtain ⟨m, hm, rfl⟩ := hr.only n hn'
      refine ⟨m, ?_, rfl⟩
      rw [List.mem_filter, decide_eq_true_eq]
      exact ⟨hm, fun e => hne (by rw [e])⟩
  · exact hr.sorted.filter _
  · intro m hm
    exact hr.times m (List.mem_filter.mp hm).1

/-- What the handler does. -/
def OddHandled (cfg : Cfg) (ch : Nat → Choice) (s : Store) (q : Said) (r' : Rdr) (out : Bytes)
    (x : Res Status) (r : Rdr) (w : World) : Prop :=
  r = r' ∧ w.out = out ∧ Ready cfg w.fs ∧ ((∃ a s' st, outcome x = some st ∧ ServedAs cfg .upload ch s q a s' ∧ Rep cfg s' w.fs ∧
    StatusFor st a w.fs) ∨ (x = .panic ∧ Rep cfg s w.fs))

theorem stops_unlock_odd {I : World → Prop} {items : List Packet} {u rest id : Bytes} {w : World}
    (hc : Calm ch) (hid : ¬ IsOid id) (hv : utf8Valid id = true)
    (hF : Frames (items ++ [.flush]) u) (hn : .flush ∉ items) (hi : r.input = u ++ rest)
    (hr : Rep cfg s w.fs) (hd : Ready cfg w.fs)
    (hI1 : ∀ w', w'.out = w.out → Rep cfg s w'.fs → I w') :
    (unlockCmd cfg id).stops ch I r w (OddHandled cfg ch s (.ask (.unlock id)) { r with input := rest } w.out) := by
  have hodd : NoLockId (.ask (.unlock id)) := ⟨id, rfl, hid⟩
  unfold unlockCmd
  refine stops_rdr_bind (readToType_any hF hn hi) ?_
  simp only [hv, Bool.not_true, Bool.false_eq_true, if_false]
  refine stops_bind (stops_looks (looks_lockFromId cfg id) (runs_lockFromId_any hc) fun w' h1 h2 => hI1 w' h2 (h1 ▸ hr)) ?_
  rintro x r' w' ⟨rfl, e1, e2, rfl | ⟨l, rfl⟩ | ⟨e, rfl⟩⟩
  · simp only [Res.elim_ok]
    refine ⟨rfl, e2, e1 ▸ hd, .inl ⟨_, s, _, rfl, .refused hodd rfl (code := 404) (msg := b!"not found\n") (by simp), e1 ▸ hr, ?_⟩⟩
    exact statusFor_notFound _
  · simp only [Res.elim_ok]
    cases hfmt : cfg.fmtTime l.time with
    | none =>
      have : lockArgs cfg (lockInfo cfg l) = (M.panic >>= fun ts => pure [b!"id=" ++ lockId cfg l.path ++ b!"\n",
          b!"path=" ++ l.path ++ b!"\n", b!"locked-at=" ++ ts ++ b!"\n", b!"ownername=" ++ ownerName cfg l.uid ++ b!"\n"]) := by
        unfold lockArgs fmtTimestamp lockInfo
        simp only [hfmt]
      rw [this]
      exact ⟨rfl, e2, e1 ▸ hd, .inr ⟨rfl, e1 ▸ hr⟩⟩
    | some ts =>
      have : lockArgs cfg (lockInfo cfg l) = pure (lockFields cfg l) := by
        unfold lockArgs fmtTimestamp lockInfo
        simp only [hfmt, lockId_eq, lockFields, timeText]
        rfl
      rw [this]
      refine stops_pure_bind ?_
      have hpath : lockPath cfg (lockInfo cfg l).path = lockFile cfg.root (lockName cfg.sha l.path) := lockPath_eq _ _
      cases hf : s.find cfg (lockName cfg.sha l.path) with
      | some held =>
        obtain ⟨i, hg, _⟩ := hr.lock_some hf
        refine stops_bind (P := fun x r' w' => r' = { r with input := rest } ∧
          w'.fs = w.fs.delName (lockFile cfg.root (lockName cfg.sha l.path)) ∧ w'.out = w.out ∧ x = .ok (.ok ())) ?_ ?_
        · unfold M.stops
          rw [M.wp_attempt]
          unfold lockUnlock
          rw [hpath]
          refine stops_op_bind (hI1 w' e2 (e1 ▸ hr)) (fs' := w.fs.delName (lockFile cfg.root (lockName cfg.sha l.path))) (x := .ok ())
            (by simp only [sem, hc w'.tick, e1, hg, Option.isSome_some, if_true]) (fun _ => rfl) ?_
          intro w2 e3 e4
          exact show _ ∧ _ ∧ _ ∧ _ from ⟨rfl, e3, e4.trans e2, rfl⟩
        · rintro x r' w2 ⟨rfl, e3, e4, rfl⟩
          simp only [Res.elim_ok]
          refine ⟨rfl, e4, ?_, .inl ⟨_, _, _, rfl, .released hodd rfl hf (by simp [hfmt]), ?_, ?_⟩⟩
          · rw [e3]; exact (FS.Evo.delName (root := cfg.root) (b := w.fs.next) _ _).ready hd
          · rw [e3]; exact rep_release hr
          · exact ⟨⟨rfl, c200, rfl, lockFields_ne _ _⟩, rfl, rfl⟩
      | none =>
        have hg := hr.lock_none hf
        refine stops_bind (P := fun x r' w' => r' = { r with input := rest } ∧
          w'.fs = w.fs ∧ w'.out = w.out ∧ x = .ok (.error (Err.ofIo enoent))) ?_ ?_
        · unfold M.stops
          rw [M.wp_attempt]
          unfold lockUnlock
          rw [hpath]
          refine stops_op_bind (hI1 w' e2 (e1 ▸ hr)) (fs' := w.fs) (x := .error enoent)
            (by simp only [sem, hc w'.tick, e1, hg, hr.lock_notDir]; rfl) (fun _ => rfl) ?_
          intro w2 e3 e4
          exact show _ ∧ _ ∧ _ ∧ _ from ⟨rfl, e3, e4.trans e2, rfl⟩
        · rintro x r' w2 ⟨rfl, e3, e4, rfl⟩
          have hk : (Err.ofIo enoent).ioKind = .notFound := rfl
          simp only [Res.elim_ok, hk, if_true]
          refine ⟨rfl, e4, e3 ▸ hd, .inl ⟨_, s, _, rfl, .refused hodd rfl (code := 404) (msg := b!"not found\n") (by simp), e3 ▸ hr, ?_⟩⟩
          exact statusFor_notFound _
  · obtain ⟨code, msg, h1, h2⟩ := statusFor_error e w'.fs
    exact ⟨rfl, e2, e1 ▸ hd, .inl ⟨_, s, _, rfl, .refused hodd rfl h1, e1 ▸ hr, h2⟩⟩

/-! ### One request -/

/-- What a turn does with any bytes. -/
def TurnServed (cfg : Cfg) (mode : Mode) (ch : Nat → Choice) (s : Store) (q : Said) (r' : Rdr) (out : Bytes)
    (x : Res Turn) (r : Rdr) (w : World) : Prop :=
  (x = .ok .again ∧ r = r' ∧ ∃ a b s', ServedAs cfg mode ch s q a s' ∧ w.out = out ++ b ∧ Sends a b ∧ Rep cfg s' w.fs ∧
    Ready cfg w.fs) ∨
  (x = .panic ∧ NoLockId q ∧ mode = .upload ∧ w.out = out ∧ Rep cfg s w.fs)

theorem Spec.Partway.none {qs : List Said} {out : Bytes} {w : World} (h1 : w.out <+: out) (h2 : Rep cfg s w.fs) :
    Partway cfg mode ch s qs out w := ⟨0, [], s, .nil, by simpa using h1, .inl h2⟩

theorem Spec.Partway.one {q : Said} {qs : List Said} {out b : Bytes} {a : Answer} {s' : Store} {w : World}
    (h : ServedAs cfg mode ch s q a s') (hb : Sends a b) (h1 : w.out <+: out ++ b) (h2 : Rep cfg s' w.fs) :
    Partway cfg mode ch s (q :: qs) out w := ⟨1, [b], s', .cons h hb .nil, by simpa using h1, .inl h2⟩

theorem stops_turn_odd {id : Bytes} {ps : List Packet} {wire rest : Bytes} {w : World} {qs : List Said} (hc : Calm ch)
    (hm : OddAsks id ps) (hF : Frames ps wire) (hi : r.input = wire ++ rest) (hr : Rep cfg s w.fs) (hd : Ready cfg w.fs) :
    (turn cfg .upload).stops ch (Partway cfg .upload ch s (.ask (.unlock id) :: qs) w.out) r w
      (TurnServed cfg .upload ch s (.ask (.unlock id)) { r with input := rest } w.out) := by
  cases hm with
  | @mk l more items hl hid ht hn =>
    obtain ⟨v, u, rfl, hv, hu⟩ := frames_split (ps := [Packet.data l]) (by simpa using hF)
    have hv := frames_singleton hv
    rw [List.append_assoc] at hi
    obtain ⟨hw, hne⟩ := commandLine_words hl
    unfold turn
    refine stops_bind (P := fun x r2 w2 => x = .ok (.ok (.data l)) ∧ r2 = { r with input := u ++ rest } ∧ w2 = w) ?_ ?_
    · unfold M.stops
      rw [M.wp_attempt, M.wp_rdr, readPacket_frame hv r (u ++ rest) hi]
      exact show _ ∧ _ ∧ _ from ⟨rfl, rfl, rfl⟩
    rintro x r2 w ⟨rfl, rfl, rfl⟩
    have hq : b!"unlock" ≠ b!"quit" := by decide
    simp only [Res.elim_ok, Packet.data?, hne, if_false, hw, List.head?_cons, Option.getD_some, List.tail_cons, hq, false_and]
    refine stops_bind (P := fun x r2 w2 => ∃ y, OddHandled cfg ch s (.ask (.unlock id)) { r with input := rest } w.out y r2 w2 ∧
      x = match y with | .ok st => .ok (.ok st) | .err e => .ok (.error e) | .panic => .panic) ?_ ?_
    · unfold M.stops
      rw [M.wp_attempt]
      refine M.wp_mono (stops_unlock_odd (r := { r with input := u ++ rest }) hc hid (utf8Valid_iff.mpr ht) hu hn rfl hr hd
        fun w' h1 h2 => .none (by rw [h1]; exact List.prefix_refl _) h2) ?_
      rintro (st | e | _) r2 w2 h <;> exact ⟨_, h, rfl⟩
    rintro x r2 w2 ⟨y, ⟨rfl, e1, hd2, ⟨a, s', st, hy, ha, hr2, hst⟩ | ⟨rfl, hr2⟩⟩, rfl⟩
    · have fin : (sendStatus st >>= fun _ => (pure Turn.again : M Turn)).stops ch
          (Partway cfg .upload ch s (.ask (.unlock id) :: qs) w.out) { r with input := rest } w2
          (TurnServed cfg .upload ch s (.ask (.unlock id)) { r with input := rest } w.out) := by
        refine stops_bind (stops_still (all_sendStatus st _) (runs_status hst hc) ?_) ?_
        · rintro w' h1 h2 ⟨x, r', wf, ⟨_, _, _, b, h3, h4⟩, h5⟩
          exact .one ha h4 (by rw [← e1, ← h3]; exact h5) (h1 ▸ hr2)
        rintro x r3 w3 ⟨⟨rfl, rfl, f1, b, f2, f3⟩, _⟩
        exact .inl ⟨rfl, rfl, a, b, s', ha, by rw [f2, e1], f3, f1 ▸ hr2, f1 ▸ hd2⟩
      cases y with
      | ok st' => cases hy; exact fin
      | err e => cases hy; exact fin
      | panic => cases hy
    · exact .inr ⟨rfl, ⟨id, rfl, hid⟩, rfl, e1, hr2⟩

/-! ### Requests that the simple server knows -/

theorem means_notOdd {ps : List Packet} {q : Request} (h : Spec.Means mode ps q) : ¬ NoLockId (.ask q) := by
  rintro ⟨id, e, hid⟩
  cases e
  cases h with
  | unlock _ ho _ => exact hid ho

theorem heard_notOdd {ps : List Packet} {q : Said} (h : Heard mode ps q) : ¬ NoLockId q := by
  cases q with
  | ask q => exact means_notOdd h
  | nonsense code msg => rintro ⟨id, e, _⟩; cases e

theorem takes_notOdd {text : Bytes} {q : Said} {b rest : Bytes} (h : Takes mode text q b rest) : ¬ NoLockId q := by
  cases h with
  | heard h _ => exact heard_notOdd h
  | broken h _ _ _ =>
    cases h with
    | heard _ h _ => exact heard_notOdd h
    | putArgs => rintro ⟨id, e, _⟩; cases e
    | putData => rintro ⟨id, e, _⟩; cases e
  | garbled => rintro ⟨id, e, _⟩; cases e
  | tooLong => rintro ⟨id, e, _⟩; cases e

theorem conversation_dealt {qs : List Said} {ws : List Bytes} {s' : Store} (h : Conversation cfg mode ch s qs ws s')
    (ho : ∀ q ∈ qs, ¬ NoLockId q) : Dealt cfg mode ch s qs ws s' := by
  induction h with
  | nil => exact .nil
  | @cons s s' s'' q qs t t' a w ws ht ht' ha hs _ ih =>
    have := ServedAs.usual (cfg := cfg) (mode := mode) (s := s) (ho q (by simp)) ht ht'
    rw [ha] at this
    exact .cons this hs (ih fun q hq => ho q (by simp [hq]))

theorem MidTurn.partway {q : Said} {qs : List Said} {out : Bytes} {w : World} (ho : ¬ NoLockId q)
    (h : MidTurn cfg mode ch s q out w) : Partway cfg mode ch s (q :: qs) out w := by
  rcases h with ⟨h1, h2⟩ | ⟨t, t', b, ht, ht', h1, h2, h3⟩ | ⟨path, t, t', b, rfl, ht, ht', h1, h2, h3 | h3⟩
  · exact ⟨0, [], s, .nil, by simp [h1], .inl h2⟩
  · exact ⟨1, [b], _, .cons (.usual ho ht ht') h1 .nil, by simpa using h2, .inl h3⟩
  · exact ⟨0, [], s, .nil, by simp [h2], .inr ⟨path, .inl rfl, h3⟩⟩
  · exact ⟨1, [b], _, .cons (.usual ho ht ht') h1 .nil, by simp [h2], .inr ⟨path, .inr rfl, h3⟩⟩

theorem Spec.Partway.cons {q : Said} {qs : List Said} {out b : Bytes} {a : Answer} {s' : Store} {w : World}
    (ha : ServedAs cfg mode ch s q a s') (hb : Sends a b) (h : Partway cfg mode ch s' qs (out ++ b) w) :
    Partway cfg mode ch s (q :: qs) out w := by
  obtain ⟨k, ws, s', h1, h2, h3⟩ := h
  refine ⟨k + 1, b :: ws, s', .cons ha hb h1, by simpa using h2, h3.imp_right ?_⟩
  rintro ⟨path, h4, h5⟩
  refine ⟨path, h4.imp id ?_, h5⟩
  intro h6
  rw [List.take_succ_cons, List.getLast?_cons, h6]
  rfl

theorem takes_stops {q : Said} {b rest : Bytes} {w : World} {qs : List Said}
    (hc : Calm ch) (hsha : ∀ b, (cfg.sha b).length = 32) (hclk : ∀ t, Clock cfg ch t → TimeOk cfg t)
    (ht : Takes mode r.fin.text q b rest) (hi : r.input = b) (hp : r.pending = []) (hck : r.checked = false)
    (hfin : r.fin.kind = .unexpectedEof) (hr : Rep cfg s w.fs) (hd : Ready cfg w.fs) :
    (turn cfg mode).stops ch (Partway cfg mode ch s (q :: qs) w.out) r w
      (TurnServed cfg mode ch s q { r with input := rest } w.out) := by
  have ho := takes_notOdd ht
  have fin : (turn cfg mode).stops ch (MidTurn cfg mode ch s q w.out) r w
      (TurnReplied cfg mode ch s q .again { r with input := rest } w.out) →
      (turn cfg mode).stops ch (Partway cfg mode ch s (q :: qs) w.out) r w
        (TurnServed cfg mode ch s q { r with input := rest } w.out) := by
    intro h
    refine stops_mono (stops_weaken h fun _ h => h.partway ho) ?_
    rintro x r' w' ⟨rfl, rfl, t, t', b, ht, ht', h1, h2, h3, h4⟩
    exact .inl ⟨rfl, rfl, _, b, _, .usual ho ht ht', h1, h2, h3, h4⟩
  cases ht with
  | heard he hF => exact fin (stops_turn_lax hc hsha hclk he hF hi hp hck hr hd)
  | broken hb hF ht hlong => exact fin (stops_turn_broken_lax hc hsha hclk hb hF ht hlong hi hp hck hfin hr hd)
  | garbled hg hF hb => exact fin (stops_turn_garbled hc hg hF hb hi hp hck hr hd)
  | @tooLong ps n w1 h rest hup hF hl hn =>
    obtain ⟨l, oid, more, as, ds, rfl, rfl, hcl, ho, ha, hds⟩ := hup
    exact fin (stops_turn_putErr hc hcl ho ha hds hF hi hp hck
      (readOne_tooLong (r := { r with input := h ++ rest }) hl hn hck rfl) dataErr_status hr hd)

/-- **One request**, whatever the bytes are. -/
theorem finds_stops {q : Said} {b rest : Bytes} {w : World} {qs : List Said}
    (hc : Calm ch) (hsha : ∀ b, (cfg.sha b).length = 32) (hclk : ∀ t, Clock cfg ch t → TimeOk cfg t)
    (ht : Finds mode r.fin.text q b rest) (hi : r.input = b) (hp : r.pending = []) (hck : r.checked = false)
    (hfin : r.fin.kind = .unexpectedEof) (hr : Rep cfg s w.fs) (hd : Ready cfg w.fs) :
    (turn cfg mode).stops ch (Partway cfg mode ch s (q :: qs) w.out) r w
      (TurnServed cfg mode ch s q { r with input := rest } w.out) := by
  cases ht with
  | takes ht => exact takes_stops hc hsha hclk ht hi hp hck hfin hr hd
  | @odd id ps w1 rest hm hodd hF =>
    subst hm
    obtain ⟨u, hu, e⟩ := turn_odd_lax (cfg := cfg) hodd hF hi hck
    exact stops_congr e (stops_turn_odd (r := { r with input := u ++ rest }) hc hodd hu rfl hr hd)
  | @oddCut id ps ps' w1 t hm hcom hodd hF ht =>
    subst hm
    obtain ⟨u, hu, e⟩ := turn_cut_lax (cfg := cfg) hcom hF ht hi hck hfin
    exact stops_congr e (stops_turn_odd (r := { r with input := u ++ [] }) hc hodd hu rfl hr hd)

/-! ### Whole sessions -/

theorem finds_shorter {text : Bytes} {q : Said} {b rest : Bytes} (h : Finds mode text q b rest) : rest.length < b.length := by
  have long : ∀ {ps : List Packet} {w rest : Bytes}, ps ≠ [] → LaxFrames ps w → rest.length < (w ++ rest).length := by
    intro ps w rest hne hF
    have := laxFrames_length hF
    have := List.length_pos_iff.mpr hne
    rw [List.length_append]
    omega
  have long' : ∀ {ps : List Packet} {w h rest : Bytes}, ps ≠ [] → LaxFrames ps w → rest.length < (w ++ (h ++ rest)).length := by
    intro ps w h rest hne hF
    have := long (rest := rest) hne hF
    simp only [List.length_append] at this ⊢
    omega
  have cut : ∀ {ps : List Packet} {w t : Bytes}, ps ≠ [] → LaxFrames ps w → ([] : Bytes).length < (w ++ t).length := by
    intro ps w t hne hF
    have := long (rest := t) hne hF
    simp only [List.length_nil]
    omega
  cases h with
  | takes h =>
    cases h with
    | @heard q ps w rest he hF =>
      refine long ?_ hF
      cases q with
      | ask q => exact means_ne he
      | nonsense code msg => exact denied_ne he
    | broken hb hF _ _ =>
      refine cut ?_ hF
      cases hb with
      | heard h => cases h <;> simp
      | _ => simp
    | garbled hg hF _ => exact long' (garbled_ne hg) hF
    | tooLong hup hF _ _ => exact long' (garbled_ne (.putData hup)) hF
  | odd _ hodd hF =>
    refine long ?_ hF
    cases hodd
    simp
  | oddCut _ hcom _ hF _ =>
    refine cut ?_ hF
    cases hcom <;> simp

/-- How the loop ends. -/
def LoopEnds (cfg : Cfg) (mode : Mode) (ch : Nat → Choice) (s : Store) (qs : List Said) (e : Ending) (out : Bytes)
    (x : Res Unit) (w : World) : Prop :=
  ∃ ws s', w.out = out ++ ws.flatten ∧ Rep cfg s' w.fs ∧ (Dealt cfg mode ch s qs ws s' ∧ x = e.res ∨
    ∃ k q, qs[k]? = some q ∧ NoLockId q ∧ mode = .upload ∧ Dealt cfg mode ch s (qs.take k) ws s' ∧ x = .panic)

theorem stops_sense (hc : Calm ch) (hsha : ∀ b, (cfg.sha b).length = 32)
    (hclk : ∀ t, Clock cfg ch t → TimeOk cfg t) {text : Bytes} {qs : List Said} {e : Ending} {wire : Bytes}
    (hs : Sense mode text qs e wire) :
    ∀ (s : Store) (f : Nat) (r : Rdr) (w : World), r.input = wire → r.pending = [] → r.checked = false →
    r.fin.kind = .unexpectedEof → r.fin.text = text → wire.length < f → Rep cfg s w.fs → Ready cfg w.fs →
    (processF cfg mode f).stops ch (Partway cfg mode ch s qs w.out) r w (fun x _ w' => LoopEnds cfg mode ch s qs e w.out x w') := by
  have dull : ∀ {qs : List Said} {e : Ending} {wire : Bytes}, Any mode text qs e wire → (∀ q ∈ qs, ¬ NoLockId q) →
      ∀ (s : Store) (f : Nat) (r : Rdr) (w : World), r.input = wire → r.pending = [] → r.checked = false →
      r.fin.kind = .unexpectedEof → r.fin.text = text → wire.length < f → Rep cfg s w.fs → Ready cfg w.fs →
      (processF cfg mode f).stops ch (Partway cfg mode ch s qs w.out) r w
        (fun x _ w' => LoopEnds cfg mode ch s qs e w.out x w') := by
    intro qs e wire ha ho s f r w hi hp hck hfin htx hf hr hd
    refine stops_mono (stops_weaken (stops_any hc hsha hclk ha s f r w hi hp hck hfin htx hf hr hd) ?_) ?_
    · rintro w' ⟨k, ws, s', h1, h2, h3⟩
      exact ⟨k, ws, s', conversation_dealt h1 fun q hq => ho q (List.mem_of_mem_take hq), h2, h3⟩
    · rintro x r' w' ⟨h1, ws, s', h2, h3, h4⟩
      exact ⟨ws, s', h2, h4, .inl ⟨conversation_dealt h3 ho, h1⟩⟩
  induction hs with
  | eof ht => exact dull (.eof ht) (by simp)
  | bad hb => exact dull (.bad hb) (by simp)
  | quit hl hF => exact dull (.quit hl hF) (by rintro q hq ⟨id, e, _⟩; simp at hq; rw [hq] at e; cases e)
  | @next q qs e b rest ht _ ih =>
    intro s f r w hi hp hck hfin htx hf hr hd
    have hlt : rest.length < b.length := finds_shorter ht
    obtain ⟨f, rfl⟩ : ∃ g, f = g + 1 := ⟨f - 1, by omega⟩
    rw [processF]
    refine stops_bind (finds_stops hc hsha hclk (htx ▸ ht) hi hp hck hfin hr hd) ?_
    rintro x r' w' (⟨rfl, rfl, a, b', s1, ha, h1, h2, h3, h4⟩ | ⟨rfl, h1, h2, h3, h4⟩)
    · simp only [Res.elim_ok]
      have := ih s1 f { r with input := rest } w' rfl hp hck hfin htx (by omega) h3 h4
      rw [h1] at this
      refine stops_mono (stops_weaken this fun _ h => h.cons ha h2) ?_
      rintro x r2 w2 ⟨ws, s2, g1, g2, ⟨g3, g4⟩ | ⟨k, q', g3, g4, g5, g6, g7⟩⟩
      · exact ⟨b' :: ws, s2, by rw [g1, List.append_assoc, List.flatten_cons], g2, .inl ⟨.cons ha h2 g3, g4⟩⟩
      · exact ⟨b' :: ws, s2, by rw [g1, List.append_assoc, List.flatten_cons], g2,
          .inr ⟨k + 1, q', by simpa using g3, g4, g5, .cons ha h2 g6, g7⟩⟩
    · exact ⟨[], s, by simp [h3], h4, .inr ⟨0, q, rfl, h1, h2, .nil, rfl⟩⟩

theorem stops_program_sense (hc : Calm ch) (hsha : ∀ b, (cfg.sha b).length = 32)
    (hclk : ∀ t, Clock cfg ch t → TimeOk cfg t) {qs : List Said} {e : Ending} {w : World} (hs : Sense mode r.fin.text qs e r.input)
    (hp : r.pending = []) (hck : r.checked = false) (hfin : r.fin.kind = .unexpectedEof) (hr : Rep cfg s w.fs) :
    (runProgram cfg (Mode.operation mode)).stops ch (Partway cfg mode ch s qs (w.out ++ b!"000eversion=1\n0000")) r w
      (fun x _ w' => LoopEnds cfg mode ch s qs e (w.out ++ b!"000eversion=1\n0000") x w') := by
  unfold runProgram
  refine stops_bind (stops_createDirectories hc hr fun w' h1 h2 => .none (by simp [h1]) h2) ?_
  rintro x r' w1 ⟨rfl, rfl, e1, hr1, hd1⟩
  simp only [Res.elim_ok]
  have hcap : encMsg b!"version=1\n" ++ b!"0000" = b!"000eversion=1\n0000" := by decide
  have hcaps := prints_sendCapabilities ch r' w1 hc
  rw [hcap] at hcaps
  refine stops_bind (stops_still (all_sendCapabilities r') hcaps ?_) ?_
  · rintro w' h1 h2 ⟨x, r2, wf, ⟨_, _, _, h3⟩, h4⟩
    exact .none (by rw [← e1, ← h3]; exact h4) (h1 ▸ hr1)
  rintro x r2 w2 ⟨⟨rfl, rfl, e2, e3⟩, _⟩
  simp only [Res.elim_ok]
  have main := stops_sense hc hsha hclk hs s (r2.input.length + 1) r2 w2 rfl hp hck hfin rfl (by omega)
    (by rw [e2]; exact hr1) (by rw [e2]; exact hd1)
  rw [e3, e1] at main
  cases mode with
  | upload => exact main
  | download => exact main

end Verif
