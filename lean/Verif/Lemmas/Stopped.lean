import Verif.Spec.Again
import Verif.Props.Meaning
/-! Sessions run alone without I/O errors, and killed. -/
namespace Verif
open Spec

variable {ch : Nat → Choice} {cfg : Cfg} {s : Store} {mode : Mode} {I : World → Prop}

theorem stopped_wp {α : Type} : ∀ (n : Nat) {p : Prog α} {w : World} {Q : α → World → Prop},
    p.wp (Logic.stop ch I) w Q → (∀ a w, Q a w → I w) → I (stopped ch n p w)
  | 0, .ret a, w, _, h, hq => hq a w h
  | 0, .call _ _, _, _, h, _ => h.1
  | _ + 1, .ret a, w, _, h, hq => hq a w h
  | n + 1, .call _ _, _, _, h, hq => stopped_wp n (h.2 _ rfl) hq

/-! ### One request -/

/-- What holds whenever a turn is stopped. -/
def MidTurn (cfg : Cfg) (mode : Mode) (ch : Nat → Choice) (s : Store) (q : Said) (out : Bytes) (w : World) : Prop :=
  w.out = out ∧ Rep cfg s w.fs ∨
  (∃ t t' b, Clock cfg ch t ∧ Clock cfg ch t' ∧ Sends (reply cfg mode s t t' q).1 b ∧ w.out <+: out ++ b ∧
    Rep cfg (reply cfg mode s t t' q).2 w.fs) ∨
  ∃ path t t' b, q = .ask (.lock path) ∧ Clock cfg ch t ∧ Clock cfg ch t' ∧ Sends (reply cfg mode s t t' q).1 b ∧ w.out = out ∧
    (RepBut cfg s path w.fs ∨ RepBut cfg (reply cfg mode s t t' q).2 path w.fs)

theorem sends_exists {a : Answer} (hc : a.code ∈ statusCodes) (ha : ∀ l ∈ a.args, l ≠ [])
    (hb : a.body = .none ∨ ∃ ls, a.body = .lines ls ∧ ∀ l ∈ ls, l ≠ []) : ∃ b, Sends a b := by
  rcases hb with hb | ⟨ls, hb, hl⟩
  · exact ⟨_, sends_replyWith (st := ⟨a.code, some a.args, none, none⟩) (data := none) ⟨rfl, hc, rfl, ha⟩ (by rw [hb]; rfl)⟩
  · refine ⟨_, sends_replyWith (st := ⟨a.code, some a.args, none, none⟩) (data := some ls) ⟨rfl, hc, rfl, ha⟩ ?_⟩
    rw [hb]
    exact ⟨_, rfl, linesPackets_msgChunks ls hl⟩

theorem sends_put (oid data : Bytes) (n : Nat) (t t' : Int) : ∃ b, Sends (answer cfg mode s t t' (.put oid n data)).1 b := by
  cases h : putError cfg oid n data with
  | none =>
    simp only [answer, h]
    exact sends_exists c200 (by simp) (.inl rfl)
  | some m =>
    simp only [answer, h]
    exact sends_exists c400 (by simp [badRequest]) (.inr ⟨_, rfl, by simp⟩)

theorem sends_lock (path : Bytes) (t t' : Int) : ∃ b, Sends (answer cfg mode s t t' (.lock path)).1 b := by
  cases h : s.find cfg (lockName cfg.sha path) with
  | none =>
    simp only [answer, h]
    exact sends_exists c201 (lockFields_ne _ _) (.inl rfl)
  | some l =>
    simp only [answer, h]
    split
    · exact sends_exists c409 (lockFields_ne _ _) (.inr ⟨_, rfl, by simp⟩)
    · exact sends_exists c400 (by simp [clash, badRequest]) (.inr ⟨_, rfl, by simp⟩)

theorem all_replies : (∀ b, (outBytes b).All (fun o => o.mutates = false)) ∧
    (∀ b, (send b).All (fun o => o.mutates = false)) ∧ (∀ ms, (sendAll ms).All (fun o => o.mutates = false)) ∧
    sendFlush.All (fun o => o.mutates = false) := by
  have ob : ∀ b, (outBytes b).All (fun o => o.mutates = false) := fun b => by
    unfold outBytes; exact .bind (.op rfl) fun _ => .ofIo _
  have wc : ∀ cs, (writeChunks cs).All (fun o => o.mutates = false) := by
    intro cs
    induction cs with
    | nil => exact .pure _
    | cons c cs ih => exact .bind (.bind (ob _) fun _ => ob _) fun _ => ih
  have sa : ∀ ms, (sendAll ms).All (fun o => o.mutates = false) := by
    intro ms
    induction ms with
    | nil => exact .pure _
    | cons m ms ih => exact .bind (wc _) fun _ => ih
  have sf : sendFlush.All (fun o => o.mutates = false) := by
    unfold sendFlush; exact .bind (ob _) fun _ => .bind (.op rfl) fun _ => .ofIo _
  exact ⟨ob, fun b => wc _, sa, sf⟩

theorem all_sendStatus (st : Status) : (sendStatus st).All (fun o => o.mutates = false) := by
  obtain ⟨ob, se, sa, sf⟩ := all_replies
  have co : ∀ h, (copyOut h).All (fun o => o.mutates = false) := by
    intro h
    unfold copyOut
    refine .bind (.op rfl) fun x => ?_
    obtain ⟨cs, e⟩ := x
    refine .bind (sa _) fun _ => ?_
    cases e <;> first | exact .pure _ | exact .throw _
  unfold sendStatus sendDelim
  repeat' first
    | exact se _ | exact sa _ | exact sf | exact ob _ | exact co _ | exact .pure _
    | refine M.All.bind ?_ (fun _ => ?_)
    | split

theorem all_sendCapabilities : sendCapabilities.All (fun o => o.mutates = false) :=
  .bind (all_replies.2.1 _) fun _ => all_replies.2.2.2

/-- A command served by a handler. -/
theorem stops_handled {q : Request} {l rest1 : Bytes} {hw : Bytes} {r r' : Rdr} {w : World} {cmd : Bytes}
    {args : List Bytes} (hc : Calm ch) (hf : Frame (.data l) hw) (hi : r.input = hw ++ rest1) (hl : l ≠ [])
    (hwords : commandWords l = cmd :: args) (hq : cmd ≠ b!"quit")
    (hd : (dispatch cfg mode cmd args.head?).stops ch (MidTurn cfg mode ch s (.ask q) w.out) { r with input := rest1 } w
      (Handled cfg mode ch s q r' w.out)) :
    (turn cfg mode).stops ch (MidTurn cfg mode ch s (.ask q) w.out) r w (Turned cfg mode ch s q .again r' w.out) := by
  unfold turn
  refine stops_bind (P := fun x r2 w2 => x = .ok (.ok (.data l)) ∧ r2 = { r with input := rest1 } ∧ w2 = w) ?_ ?_
  · unfold M.stops
    rw [M.wp_attempt, M.wp_rdr, readPacket_frame hf r rest1 hi]
    exact show _ ∧ _ ∧ _ from ⟨rfl, rfl, rfl⟩
  rintro x r2 w ⟨rfl, rfl, rfl⟩
  simp only [Res.elim_ok, Packet.data?, hl, if_false, hwords, List.head?_cons, Option.getD_some, List.tail_cons, hq,
    false_and]
  refine stops_bind (P := fun x r2 w2 => ∃ y, Handled cfg mode ch s q r' w.out y r2 w2 ∧
    x = match y with | .ok st => .ok (.ok st) | .err e => .ok (.error e) | .panic => .panic) ?_ ?_
  · unfold M.stops
    rw [M.wp_attempt]
    refine M.wp_mono hd ?_
    rintro (st | e | _) r2 w2 h <;> exact ⟨_, h, rfl⟩
  rintro x r2 w2 ⟨y, ⟨rfl, e1, t, t', st, ht, ht', hy, hr, hrd, hst⟩, rfl⟩
  have fin : (sendStatus st >>= fun _ => (pure Turn.again : M Turn)).stops ch (MidTurn cfg mode ch s (.ask q) w.out) r2 w2
      (Turned cfg mode ch s q .again r2 w.out) := by
    refine stops_bind (stops_still (all_sendStatus st r2) (runs_status hst hc) ?_) ?_
    · rintro w' h1 h2 ⟨x, r', wf, ⟨_, _, _, b, h3, h4⟩, h5⟩
      exact .inr (.inl ⟨t, t', b, ht, ht', h4, by rw [← e1, ← h3]; exact h5, by rw [h1]; exact hr⟩)
    rintro x r3 w3 ⟨⟨rfl, rfl, f1, b, f2, f3⟩, _⟩
    exact ⟨rfl, rfl, t, t', b, ht, ht', by rw [f2, e1], f3, by rw [f1]; exact hr, by rw [f1]; exact hrd⟩
  cases y with
  | ok st' => cases hy; exact fin
  | err e => cases hy; exact fin
  | panic => cases hy

/-- **One request.** -/
theorem stops_turn_means {q : Request} {ps : List Packet} {wire rest : Bytes} {w : World} {r : Rdr}
    (hc : Calm ch) (hsha : ∀ b, (cfg.sha b).length = 32) (hclk : ∀ t, Clock cfg ch t → TimeOk cfg t)
    (he : Spec.Means mode ps q) (hF : Frames ps wire) (hi : r.input = wire ++ rest) (hp : r.pending = [])
    (hr : Rep cfg s w.fs) (hd : Ready cfg w.fs) :
    (turn cfg mode).stops ch (MidTurn cfg mode ch s (.ask q) w.out) r w
      (Turned cfg mode ch s q .again { r with input := rest } w.out) := by
  have none : Frames (argPackets [] ++ [.flush]) b!"0000" := .cons .flush .nil
  have hI0 : ∀ w' : World, w'.fs = w.fs → w'.out = w.out → MidTurn cfg mode ch s (.ask q) w.out w' :=
    fun w' h1 h2 => .inl ⟨h2, h1 ▸ hr⟩
  have hI1 : ∀ w' : World, w'.out = w.out → Rep cfg s w'.fs → MidTurn cfg mode ch s (.ask q) w.out w' :=
    fun w' h1 h2 => .inl ⟨h1, h2⟩
  cases he with
  | @version _ l more items hl hn =>
    obtain ⟨v, u, rfl, hv, hu⟩ := frames_split (ps := [Packet.data l]) (by simpa using hF)
    rw [List.append_assoc] at hi
    obtain ⟨h1, h2⟩ := commandLine_words hl
    refine stops_handled hc (frames_singleton hv) hi h2 h1 (by decide) ?_
    refine stops_congr (m' := versionCmd) (r' := { r with input := b!"0000" ++ rest }) ?_
      (stops_looks looks_versionCmd (runs_version (r := { r with input := b!"0000" ++ rest }) none rfl hr hd) hI0)
    show versionCmd _ = _
    unfold versionCmd readToFlush
    rw [rdr_ret (readToType_any (r := { r with input := u ++ rest }) hu hn rfl), rdr_ret (flush_again r rest)]
  | @batch _ l kv items ls hl ha hh hb =>
    obtain ⟨v, u, rfl, hv, hu⟩ := frames_split (ps := [Packet.data l]) (by simpa using hF)
    have hu : Frames ((argPackets kv ++ [.delim]) ++ (ls.map .data ++ [.flush])) u := by simpa using hu
    obtain ⟨u1, u2, rfl, hu1, hu2⟩ := frames_split hu
    rw [List.append_assoc, List.append_assoc] at hi
    obtain ⟨h1, h2⟩ := commandLine_words hl
    refine stops_handled hc (frames_singleton hv) hi h2 h1 (by decide) ?_
    cases mode with
    | upload => exact stops_looks (looks_batchCmd _ _ _) (runs_batch hc ha hh hb hu1 hu2 rfl hr hd rfl) hI0
    | download => exact stops_looks (looks_batchCmd _ _ _) (runs_batch hc ha hh hb hu1 hu2 rfl hr hd rfl) hI0
  | @put l more kv oid sz n ds t hl ho ha hs hn hds ht =>
    obtain ⟨v, u, rfl, hv, hu⟩ := frames_split (ps := [Packet.data l]) (by simpa using hF)
    have hu : Frames ((argPackets kv ++ [.delim]) ++ (ds.map .data ++ [t])) u := by simpa using hu
    obtain ⟨u1, u2, rfl, hu1, hu2⟩ := frames_split hu
    rw [List.append_assoc, List.append_assoc] at hi
    obtain ⟨h1, h2⟩ := commandLine_words hl
    have hput := stops_put (mode := .upload) (ch := ch) (cfg := cfg) (s := s) (w := w)
      (I := MidTurn cfg .upload ch s (.ask (.put oid n ds.flatten)) w.out)
      (r := { r with input := u1 ++ (u2 ++ rest) }) ht hc hsha ho ha hs hn hds hu1 hu2 rfl hr hd hI1 (by
        intro w' t t' e1 ht ht' e2
        simp only [hp, List.nil_append] at e2
        obtain ⟨b, hb⟩ := sends_put (cfg := cfg) (mode := .upload) (s := s) oid ds.flatten n t t'
        exact .inr (.inl ⟨t, t', b, ht, ht', hb, e1 ▸ List.prefix_append _ _, e2⟩))
    simp only [hp, List.nil_append] at hput
    rw [← hp] at hput
    exact stops_handled hc (frames_singleton hv) hi h2 h1 (by decide) hput
  | @verify l more kv oid sz n hl ho ha hs hn =>
    obtain ⟨v, u, rfl, hv, hu⟩ := frames_split (ps := [Packet.data l]) hF
    rw [List.append_assoc] at hi
    obtain ⟨h1, h2⟩ := commandLine_words hl
    exact stops_handled hc (frames_singleton hv) hi h2 h1 (by decide)
      (stops_looks (looks_verifyObject _ _) (runs_verify hc ho ha hs hn hu rfl hr hd) hI0)
  | @get l more kv oid hl ho ha =>
    obtain ⟨v, u, rfl, hv, hu⟩ := frames_split (ps := [Packet.data l]) hF
    rw [List.append_assoc] at hi
    obtain ⟨h1, h2⟩ := commandLine_words hl
    exact stops_handled hc (frames_singleton hv) hi h2 h1 (by decide)
      (stops_looks (looks_getObject _ _) (runs_get hc ho ha hu rfl hr hd) hI0)
  | @lock l kv path ref hl ha hpa href =>
    obtain ⟨v, u, rfl, hv, hu⟩ := frames_split (ps := [Packet.data l]) hF
    rw [List.append_assoc] at hi
    obtain ⟨h1, h2⟩ := commandLine_words hl
    refine stops_handled hc (frames_singleton hv) hi h2 h1 (by decide)
      (stops_lock hc hsha hclk ha hpa href hu rfl hr hd hI1 ?_ ?_)
    · intro w' t t' e1 ht ht' e2
      obtain ⟨b, hb⟩ := sends_lock (cfg := cfg) (mode := .upload) (s := s) path t t'
      exact .inr (.inl ⟨t, t', b, ht, ht', hb, e1 ▸ List.prefix_append _ _, e2⟩)
    · intro w' t t' e1 ht ht' hsome hn hrec e2
      obtain ⟨b, hb⟩ := sends_lock (cfg := cfg) (mode := .upload) (s := s) path t t'
      exact .inr (.inr ⟨path, t, t', b, rfl, ht, ht', hb, e1, e2.imp (⟨hsome, ·, hn, hrec⟩) (⟨hsome, ·, hn, hrec⟩)⟩)
  | @listLocks _ l kv limit hl ha hlim =>
    obtain ⟨v, u, rfl, hv, hu⟩ := frames_split (ps := [Packet.data l]) hF
    rw [List.append_assoc] at hi
    obtain ⟨h1, h2⟩ := commandLine_words hl
    exact stops_handled hc (frames_singleton hv) hi h2 h1 (by decide)
      (stops_looks (looks_listLocks _ _) (runs_listLocks hc hsha ha hlim rfl rfl hu rfl hr hd) hI0)
  | @unlock l id more items hl hid hn =>
    obtain ⟨v, u, rfl, hv, hu⟩ := frames_split (ps := [Packet.data l]) (by simpa using hF)
    rw [List.append_assoc] at hi
    obtain ⟨h1, h2⟩ := commandLine_words hl
    refine stops_handled hc (frames_singleton hv) hi h2 h1 (by decide) ?_
    refine stops_congr (m' := unlockCmd cfg id) (r' := { r with input := b!"0000" ++ rest }) ?_
      (stops_unlock (r := { r with input := b!"0000" ++ rest }) hc hid none rfl hr hd hI1)
    show unlockCmd cfg id _ = _
    unfold unlockCmd readToFlush
    rw [rdr_ret (readToType_any (r := { r with input := u ++ rest }) hu hn rfl), rdr_ret (flush_again r rest)]

theorem stops_turn_denied {code : Nat} {msg : Bytes} {ps : List Packet} {wire rest : Bytes} {w : World} {r : Rdr}
    (hc : Calm ch) (he : Denied mode ps code msg) (hF : Frames ps wire) (hi : r.input = wire ++ rest)
    (hr : Rep cfg s w.fs) (hd : Ready cfg w.fs) :
    (turn cfg mode).stops ch (MidTurn cfg mode ch s (.nonsense code msg) w.out) r w
      (TurnReplied cfg mode ch s (.nonsense code msg) .again { r with input := rest } w.out) := by
  have hall : ((turn cfg mode) r).All (fun o => o.mutates = false) := by
    rw [turn_denied he hF hi]
    exact (M.All.bind (all_sendStatus _) fun _ => .pure _ :
      (sendStatus (Status.failure code msg) >>= fun _ => (pure Turn.again : M Turn)).All _) _
  refine stops_mono (stops_still hall (runs_turn_denied hc he hF hi hr hd) ?_) fun _ _ _ h => h.1
  rintro w' h1 h2 ⟨x, r', wf, ⟨_, _, t, t', b, ht, ht', h3, h4, _⟩, h5⟩
  exact .inr (.inl ⟨t, t', b, ht, ht', h4, h3 ▸ h5, h1 ▸ hr⟩)

theorem stops_turn_quit {l wire rest : Bytes} {w : World} {r : Rdr} (hc : Calm ch) (hl : CommandLine l [b!"quit"])
    (hF : Frames [.data l] wire) (hi : r.input = wire ++ rest) (hr : Rep cfg s w.fs) (hd : Ready cfg w.fs) :
    (turn cfg mode).stops ch (MidTurn cfg mode ch s (.ask .quit) w.out) r w
      (Turned cfg mode ch s .quit .done { r with input := rest } w.out) := by
  have hall : ((turn cfg mode) r).All (fun o => o.mutates = false) := by
    obtain ⟨h1, h2⟩ := commandLine_words hl
    rw [turn_data cfg mode r _ l h2 (readPacket_frame (frames_singleton hF) r rest hi)]
    simp only [h1, List.head?_cons, Option.getD_some, List.tail_cons, List.head?_nil, and_self, if_true]
    exact (M.All.bind (all_sendStatus _) fun _ => .pure _ :
      (sendStatus Status.success >>= fun _ => (pure Turn.done : M Turn)).All _) _
  refine stops_mono (stops_still hall (runs_turn_quit hc hl hF hi hr hd) ?_) fun _ _ _ h => h.1
  rintro w' h1 h2 ⟨x, r', wf, ⟨_, _, t, t', b, ht, ht', h3, h4, _⟩, h5⟩
  exact .inr (.inl ⟨t, t', b, ht, ht', h4, h3 ▸ h5, h1 ▸ hr⟩)

/-! ### Whole sessions -/

theorem MidTurn.progress {q : Said} {qs : List Said} {out : Bytes} {w : World} (h : MidTurn cfg mode ch s q out w) :
    Progress cfg mode ch s (q :: qs) out w := by
  rcases h with ⟨h1, h2⟩ | ⟨t, t', b, ht, ht', h1, h2, h3⟩ | ⟨path, t, t', b, rfl, ht, ht', h1, h2, h3 | h3⟩
  · exact ⟨0, [], s, .nil, by simp [h1], .inl h2⟩
  · exact ⟨1, [b], _, .cons ht ht' rfl h1 .nil, by simpa using h2, .inl h3⟩
  · exact ⟨0, [], s, .nil, by simp [h2], .inr ⟨path, .inl rfl, h3⟩⟩
  · exact ⟨1, [b], _, .cons ht ht' rfl h1 .nil, by simp [h2], .inr ⟨path, .inr rfl, h3⟩⟩

theorem Spec.Progress.cons {q : Said} {qs : List Said} {out b : Bytes} {w : World} {t t' : Int} (ht : Clock cfg ch t)
    (ht' : Clock cfg ch t') (hb : Sends (reply cfg mode s t t' q).1 b)
    (h : Progress cfg mode ch (reply cfg mode s t t' q).2 qs (out ++ b) w) : Progress cfg mode ch s (q :: qs) out w := by
  obtain ⟨k, ws, s', h1, h2, h3⟩ := h
  refine ⟨k + 1, b :: ws, s', .cons ht ht' rfl hb h1, by simpa using h2, h3.imp_right ?_⟩
  rintro ⟨path, h4, h5⟩
  refine ⟨path, h4.imp id ?_, h5⟩
  intro h6
  rw [List.take_succ_cons, List.getLast?_cons, h6]
  rfl

theorem stops_talk (hc : Calm ch) (hsha : ∀ b, (cfg.sha b).length = 32)
    (hclk : ∀ t, Clock cfg ch t → TimeOk cfg t) {qs : List Said} {wire : Bytes} (hs : Talk mode qs wire) :
    ∀ (s : Store) (f : Nat) (r : Rdr) (w : World), r.input = wire → r.pending = [] →
    r.fin.kind = .unexpectedEof → wire.length < f → Rep cfg s w.fs → Ready cfg w.fs →
    (processF cfg mode f).stops ch (Progress cfg mode ch s qs w.out) r w (fun _ _ w' => Progress cfg mode ch s qs w.out w') := by
  have step : ∀ {q : Said} {qs : List Said} {w1 ws : Bytes}, 4 ≤ w1.length →
      (∀ (s : Store) (r : Rdr) (w : World), r.input = w1 ++ ws → r.pending = [] → Rep cfg s w.fs → Ready cfg w.fs →
        (turn cfg mode).stops ch (MidTurn cfg mode ch s q w.out) r w
          (TurnReplied cfg mode ch s q .again { r with input := ws } w.out)) →
      (∀ (s : Store) (f : Nat) (r : Rdr) (w : World), r.input = ws → r.pending = [] →
        r.fin.kind = .unexpectedEof → ws.length < f → Rep cfg s w.fs → Ready cfg w.fs →
        (processF cfg mode f).stops ch (Progress cfg mode ch s qs w.out) r w
          (fun _ _ w' => Progress cfg mode ch s qs w.out w')) →
      (∀ (s : Store) (f : Nat) (r : Rdr) (w : World), r.input = w1 ++ ws → r.pending = [] →
        r.fin.kind = .unexpectedEof → (w1 ++ ws).length < f → Rep cfg s w.fs → Ready cfg w.fs →
        (processF cfg mode f).stops ch (Progress cfg mode ch s (q :: qs) w.out) r w
          (fun _ _ w' => Progress cfg mode ch s (q :: qs) w.out w')) := by
    intro q qs w1 ws hlen one ih s f r w hi hp hfin hf hr hd
    obtain ⟨f, rfl⟩ : ∃ g, f = g + 1 := ⟨f - 1, by omega⟩
    rw [processF]
    refine stops_bind (stops_weaken (one s r w hi hp hr hd) fun _ h => h.progress) ?_
    rintro x r' w' ⟨rfl, rfl, t, t', b, ht, ht', h1, h2, h3, h4⟩
    simp only [Res.elim_ok]
    have := ih _ f { r with input := ws } w' rfl hp hfin (by simp only [List.length_append] at hf; omega) h3 h4
    rw [h1] at this
    exact stops_mono (stops_weaken this fun _ h => h.cons ht ht' h2) fun _ _ _ h => h.cons ht ht' h2
  have long : ∀ {ps : List Packet} {w : Bytes}, ps ≠ [] → Frames ps w → 4 ≤ w.length := by
    intro ps w hne hF
    have := frames_length hF
    have := List.length_pos_iff.mpr hne
    omega
  induction hs with
  | eof =>
    intro s f r w hi hp hfin hf hr hd
    obtain ⟨f, rfl⟩ : ∃ g, f = g + 1 := ⟨f - 1, by omega⟩
    rw [processF]
    refine stops_bind (P := fun x r' w' => x = .ok .done ∧ r' = r ∧ w' = w) ?_ ?_
    · have h : r.readPacket = (.err (Err.ofIo r.fin), r) := by
        obtain ⟨i, p, f, c⟩ := r
        simp only at hi
        subst hi
        rfl
      unfold turn
      refine stops_bind (P := fun x r2 w2 => x = .ok (.error (Err.ofIo r.fin)) ∧ r2 = r ∧ w2 = w) ?_ ?_
      · unfold M.stops
        rw [M.wp_attempt, M.wp_rdr, h]
        exact show _ ∧ _ ∧ _ from ⟨rfl, rfl, rfl⟩
      rintro x r2 w2 ⟨rfl, rfl, rfl⟩
      have hk : (Err.ofIo r2.fin).ioKind = .unexpectedEof := hfin
      simp only [Res.elim_ok, hk, if_true]
      exact ⟨rfl, rfl, rfl⟩
    rintro x r' w' ⟨rfl, rfl, rfl⟩
    exact ⟨0, [], s, .nil, by simp, .inl hr⟩
  | @quit l w1 rest hl hF =>
    intro s f r w hi hp hfin hf hr hd
    obtain ⟨f, rfl⟩ : ∃ g, f = g + 1 := ⟨f - 1, by omega⟩
    rw [processF]
    refine stops_bind (stops_weaken (stops_turn_quit hc hl hF hi hr hd) fun _ h => h.progress) ?_
    rintro x r' w' ⟨rfl, rfl, t, t', b, ht, ht', h1, h2, h3, h4⟩
    exact ⟨1, [b], _, .cons ht ht' rfl h2 .nil, by simp [h1], .inl h3⟩
  | ask he hF _ ih =>
    exact step (long (means_ne he) hF) (fun s r w hi hp hr hd => stops_turn_means hc hsha hclk he hF hi hp hr hd) ih
  | nonsense he hF _ ih =>
    exact step (long (denied_ne he) hF) (fun s r w hi hp hr hd => stops_turn_denied hc he hF hi hr hd) ih

theorem Spec.Progress.begun {qs : List Said} {out b : Bytes} {w : World} (h1 : w.out <+: out ++ b) (h2 : Rep cfg s w.fs) :
    Progress cfg mode ch s qs (out ++ b) w := ⟨0, [], s, .nil, by simpa using h1, .inl h2⟩

theorem stops_program_talk (hc : Calm ch) (hsha : ∀ b, (cfg.sha b).length = 32)
    (hclk : ∀ t, Clock cfg ch t → TimeOk cfg t) {qs : List Said} {w : World} {r : Rdr} (hs : Talk mode qs r.input)
    (hp : r.pending = []) (hfin : r.fin.kind = .unexpectedEof) (hr : Rep cfg s w.fs) :
    (runProgram cfg (Mode.operation mode)).stops ch (Progress cfg mode ch s qs (w.out ++ b!"000eversion=1\n0000")) r w
      (fun _ _ w' => Progress cfg mode ch s qs (w.out ++ b!"000eversion=1\n0000") w') := by
  unfold runProgram
  refine stops_bind (stops_createDirectories hc hr fun w' h1 h2 => .begun (by simp [h1]) h2) ?_
  rintro x r' w1 ⟨rfl, rfl, e1, hr1, hd1⟩
  simp only [Res.elim_ok]
  have hcap : encMsg b!"version=1\n" ++ b!"0000" = b!"000eversion=1\n0000" := by decide
  have hcaps := prints_sendCapabilities ch r' w1 hc
  rw [hcap] at hcaps
  refine stops_bind (stops_still (all_sendCapabilities r') hcaps ?_) ?_
  · rintro w' h1 h2 ⟨x, r2, wf, ⟨_, _, _, h3⟩, h4⟩
    exact .begun (by rw [← e1, ← h3]; exact h4) (h1 ▸ hr1)
  rintro x r2 w2 ⟨⟨rfl, rfl, e2, e3⟩, _⟩
  simp only [Res.elim_ok]
  have main := stops_talk hc hsha hclk hs s (r2.input.length + 1) r2 w2 rfl hp hfin (by omega)
    (by rw [e2]; exact hr1) (by rw [e2]; exact hd1)
  rw [e3, e1] at main
  cases mode with
  | upload => exact main
  | download => exact main

end Verif
