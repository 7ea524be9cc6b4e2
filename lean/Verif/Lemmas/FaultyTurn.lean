import Verif.Lemmas.Faulty
import Verif.Props.Report
import Verif.Props.AnyOne
/-! A turn of the command loop, whatever bytes arrive and whatever the OS answers. -/
namespace Verif
open Spec

variable {cfg : Cfg} {mode : Mode} {r r1 r2 r' : Rdr} {tr : List Event} {x : Res Turn} {text : Bytes}

/-! ### Replies that are known -/

theorem Says.reader {st : Status} {a : Answer} (h : Says st a) (hb : a.body ≠ .none) : st.messages.isSome := by
  obtain ⟨-, h⟩ := h
  split at h
  · contradiction
  · rw [h.1]; rfl
  · exact h.elim

/-- A status without a file is sent. -/
theorem status_sent {st : Status} {a : Answer} (hs : Says st a) (hr : st.reader = none)
    (h : ((sendStatus st >>= fun _ => (pure Turn.again : M Turn)) r).Finished tr (x, r')) (ho : ∀ e ∈ tr, e.OutOk) :
    x = .ok .again ∧ r' = r ∧ Sends a (output tr) ∧ ∀ e ∈ tr, e.1.outputs = true := by
  obtain ⟨t1, t2, ⟨z, r1⟩, rfl, h1, h2⟩ := Prog.finished_bind.mp h
  have hout : ∀ e ∈ t1, e.1.outputs = true := Prog.All.did (P := fun o => o.outputs = true) (C41_only_output st hr r) h1.did
  obtain ⟨k1, k2⟩ := sends_says hs
  obtain ⟨rfl, rfl, u, e, k3⟩ := outs_finished (outs_emits (emits_sendStatus st k2) r []) h1 (fun e he => ho e (by simp [he]))
  rw [List.nil_append] at e
  subst e
  cases h2
  rw [List.append_nil, k3]
  exact ⟨rfl, rfl, k1, hout⟩

theorem outputs_temps {t : List Event} (h : ∀ e ∈ t, e.1.outputs = true) : OnlyTemps t := by
  intro e he
  have := h e he
  obtain ⟨o, y⟩ := e
  cases o <;> first | trivial | cases this

theorem says_of_status {st : Status} {code : Nat} {msg : Bytes} (h : ∀ fs, StatusFor st (denial code msg) fs) :
    Says st (denial code msg) :=
  have fs : FS := ⟨[], [], fun _ => ⟨[], 0, 0, []⟩, 0⟩
  ⟨(h fs).1, (h fs).2⟩

/-- A turn that makes no call but for its reply. -/
theorem refused_turn {st : Status} {code : Nat} {msg : Bytes} (hs : Says st (denial code msg)) (hr : st.reader = none)
    (e : turn cfg mode r = (sendStatus st >>= fun _ => (pure .again : M Turn)) r2)
    (h : (turn cfg mode r).Finished tr (x, r')) (ho : ∀ e ∈ tr, e.OutOk) :
    x = .ok .again ∧ HonestSaid cfg mode tr (.nonsense code msg) ∧ r' = r2 := by
  rw [e] at h
  obtain ⟨h1, h2, h3, h4⟩ := status_sent hs hr h ho
  exact ⟨h1, ⟨outputs_temps h4, _, h3, .inl rfl⟩, h2⟩

theorem denied_turn {ps : List Packet} {code : Nat} {msg u rest : Bytes} (hd : Denied mode ps code msg) (hF : Frames ps u)
    (hi : r.input = u ++ rest) (h : (turn cfg mode r).Finished tr (x, r')) (ho : ∀ e ∈ tr, e.OutOk) :
    x = .ok .again ∧ HonestSaid cfg mode tr (.nonsense code msg) ∧ r' = { r with input := rest } :=
  refused_turn ⟨denied_means hd, rfl, by simpa using (denied_code hd).2⟩ rfl (turn_denied hd hF hi) h ho

/-! ### Requests that are no uploads -/

theorem told_honest {q : Request} (h : TurnTold cfg mode q x tr) :
    x = .panic ∨ (x = .ok (turnOf q) ∧ HonestReply cfg mode q tr) ∨
    ∃ e oid h cs e', x = .err e ∧ q = .get oid ∧ (⟨.readAll h, (cs, some e')⟩ : Event) ∈ tr := by
  rcases h with h | ⟨h1, a, h2, h3⟩ | h
  · exact .inl h
  · refine .inr (.inl ⟨h1, a, h2, h3 true (.inl rfl), ?_⟩)
    rintro (h | h)
    · exact (h3 true (.inl rfl)).strict h
    · exact h3 false (.inr h)
  · exact .inr (.inr h)

theorem told_each {m : M Status} {q : Request} {r : Rdr} (h : ∀ lax, m.told r [] (fun x _ s => Honest lax cfg mode q x s)) :
    m.told r [] (fun x _ s => Replied cfg mode q x s) :=
  told_mono (told_forall h) fun _ _ _ h => .inl fun lax _ => h lax

theorem args_turn {q : Request} {l : Bytes} {ws : List Bytes} {items : List Packet} {u rest : Bytes} (hl : CommandLine l ws)
    (hc : ArgCommand mode ws) (hn : .flush ∉ items) (hq : q ≠ .quit) (hF : Frames (.data l :: (items ++ [.flush])) u)
    (hi : r.input = u ++ rest)
    (hd : ∀ u', Frames (items ++ [.flush]) u' → (dispatch cfg mode (ws.head?.getD []) ws.tail.head?).told { r with input := u' ++ rest } []
        (fun x _ s => Replied cfg mode q x s))
    (h : (turn cfg mode r).Finished tr (x, r')) :
    r' = { r with input := rest } ∧ ((∀ e ∈ tr, e.OutOk) → TurnTold cfg mode q x tr) := by
  obtain ⟨v, u', rfl, hv, hu⟩ := frames_split (ps := [Packet.data l]) (by simpa using hF)
  have hv := frames_singleton hv
  have hi' : r.input = v ++ (u' ++ rest) := by rw [hi, List.append_assoc]
  obtain ⟨hw, hne⟩ := commandLine_words hl
  have hrd := readPacket_frame hv r (u' ++ rest) hi'
  obtain ⟨cmd, args, rfl, hq', hend⟩ := argCommand_dispatch (P := fun _ => True) (cfg := cfg) hc
    (readToType_any (r := { r with input := u' ++ rest }) hu hn rfl)
  refine ⟨?_, turn_told hv hi' hne hw hq' hq (hd u' hu) h⟩
  exact (Logic.only_finished (P := fun _ => True) (Q := fun x r' => r' = { r with input := rest } ∧ x ≠ .ok .done)
    (turn_endsAt hrd hne hw hq' hend) h fun _ _ => trivial).1

/-- An `unlock` of what is no ID. -/
theorem odd_turn {id : Bytes} {ps : List Packet} {u rest : Bytes} (hm : OddAsks id ps) (hF : Frames ps u)
    (hi : r.input = u ++ rest) (h : (turn cfg .upload r).Finished tr (x, r')) :
    r' = { r with input := rest } ∧ ((∀ e ∈ tr, e.OutOk) → TurnTold cfg .upload (.unlock id) x tr) := by
  cases hm with
  | mk hl _ ht hn =>
    exact args_turn hl .unlock hn (by simp) hF hi (fun u' hu =>
      told_each fun lax => told_unlock (utf8Valid_iff.mpr ht) (readToType_any (r := { r with input := u' ++ rest }) hu hn rfl)) h

/-- A request that is no upload, in the format. -/
theorem asked_turn {q : Request} {ps : List Packet} {u rest : Bytes} (hm : Spec.Means mode ps q) (hq : ∀ o n d, q ≠ .put o n d)
    (hF : Frames ps u) (hi : r.input = u ++ rest) (h : (turn cfg mode r).Finished tr (x, r')) (ho : ∀ e ∈ tr, e.OutOk) :
    TurnTold cfg mode q x tr ∧ r' = { r with input := rest } := by
  have first : ∀ {l : Bytes} {qs : List Packet}, ps = .data l :: qs → ∃ v u', u = v ++ u' ∧ Frame (.data l) v ∧ Frames qs u' ∧
      r.input = v ++ (u' ++ rest) := by
    rintro l qs rfl
    obtain ⟨v, u', rfl, hv, hu⟩ := frames_split (ps := [Packet.data l]) (by simpa using hF)
    exact ⟨v, u', rfl, frames_singleton hv, hu, by rw [hi, List.append_assoc]⟩
  have args : ∀ {l : Bytes} {ws : List Bytes} {items : List Packet}, ps = .data l :: (items ++ [.flush]) → CommandLine l ws →
      ArgCommand mode ws → .flush ∉ items → q ≠ .quit →
      (∀ u', Frames (items ++ [.flush]) u' → (dispatch cfg mode (ws.head?.getD []) ws.tail.head?).told { r with input := u' ++ rest } []
        (fun x _ s => Replied cfg mode q x s)) →
      TurnTold cfg mode q x tr ∧ r' = { r with input := rest } := by
    rintro l ws items rfl hl hc hn hq hd
    obtain ⟨h1, h2⟩ := args_turn hl hc hn hq hF hi hd h
    exact ⟨h2 ho, h1⟩
  cases hm with
  | version hl hn =>
    exact args rfl hl .version hn (by simp) fun u' hu =>
      told_each fun lax => told_version (readToType_any (r := { r with input := u' ++ rest }) hu hn rfl)
  | @batch _ l kv items ls hl ha hh hb =>
    obtain ⟨v, u', rfl, hv, hu, hi'⟩ := first (qs := argPackets kv ++ .delim :: ls.map .data ++ [.flush]) rfl
    obtain ⟨hw, hne⟩ := commandLine_words hl
    have hu : Frames ((argPackets kv ++ [.delim]) ++ (ls.map .data ++ [.flush])) u' := by simpa using hu
    obtain ⟨a, b, rfl, hua, hub⟩ := frames_split hu
    have h1 := readToType_any (r := { r with input := a ++ b ++ rest }) hua (argPackets_delim kv)
      (show a ++ b ++ rest = a ++ (b ++ rest) by rw [List.append_assoc])
    have h2 := readToType_any (r := { r with input := b ++ rest }) hub (by simp) rfl
    obtain ⟨m, hm, _⟩ := C09_args_exact kv ha
    rw [argPackets_data] at h1
    have hend : (dispatch cfg mode b!"batch" none).EndsAt (fun _ => True) { r with input := a ++ b ++ rest } { r with input := rest } := by
      cases mode
      · exact endsAt_batch h1 hm h2
      · exact endsAt_batch h1 hm h2
    refine ⟨turn_told hv hi' hne hw (by decide) (by simp) ?_ h ho, ?_⟩
    · cases mode with
      | upload => exact told_replied (told_batch (rest := rest) ha hh hb hua hub (by simp) rfl)
      | download => exact told_replied (told_batch (rest := rest) ha hh hb hua hub (by simp) rfl)
    · exact (Logic.only_finished (P := fun _ => True) (Q := fun x r' => r' = { r with input := rest } ∧ x ≠ .ok .done)
        (turn_endsAt (readPacket_frame hv r _ hi') hne hw (by decide) hend) h fun _ _ => trivial).1
  | put => exact absurd rfl (hq _ _ _)
  | verify hl ho' ha hs hn =>
    exact args rfl hl .verify (argPackets_flush _) (by simp) fun u' hu =>
      told_each fun lax => told_verify ho' ha hs hn hu rfl
  | @get l more kv oid hl ho' ha =>
    refine args rfl hl .get (argPackets_flush _) (by simp) fun u' hu => ?_
    refine told_mono (told_get (mode := .download) ho' ha hu rfl) ?_
    rintro x r s (k | ⟨k, st, k1, k2, k3⟩)
    · exact .inl fun lax _ => k lax
    · exact .inr ⟨oid, k, st, rfl, k1, k2, k3⟩
  | lock hl ha hpa href =>
    exact args rfl hl .lock (argPackets_flush _) (by simp) fun u' hu => told_each fun lax => told_lock ha hpa href hu rfl
  | listLocks hl ha hlim =>
    exact args rfl hl .listLocks (argPackets_flush _) (by simp) fun u' hu =>
      told_replied (told_listLocks ha hlim rfl rfl hu rfl)
  | unlock hl hid hn =>
    exact args rfl hl .unlock hn (by simp) fun u' hu =>
      told_each fun lax => told_unlock (oid_utf8 hid) (readToType_any (r := { r with input := u' ++ rest }) hu hn rfl)

/-! ### Uploads -/

/-- A turn consists of what the handler does, and the reply. -/
theorem turn_parts {l cmd : Bytes} {args : List Bytes} (hl : CommandLine l (cmd :: args)) (hq : cmd ≠ b!"quit")
    (hr : r.readPacket = (.ok (.data l), r1)) (h : (turn cfg mode r).Finished tr (x, r')) :
    ∃ t1 t2 res, tr = t1 ++ t2 ∧ (dispatch cfg mode cmd args.head? r1).Finished t1 (res, r') ∧
      ∀ e, res = .err e → ((sendStatus (errorStatus e) >>= fun _ => (pure Turn.again : M Turn)) r').Finished t2 (x, r') := by
  obtain ⟨hw, hne⟩ := commandLine_words hl
  have hq2 : ¬ ((commandWords l).head?.getD [] = b!"quit" ∧ (commandWords l).tail.head? = none) := by
    rw [hw]
    exact fun h => hq h.1
  rw [turn_data cfg mode r _ l hne hr, if_neg hq2, hw] at h
  simp only [List.head?_cons, Option.getD_some, List.tail_cons] at h
  obtain ⟨u1, t2, ⟨res', r2'⟩, rfl, h1, h2⟩ := Prog.finished_bind.mp h
  obtain ⟨t1, u2, ⟨res, r2⟩, rfl, h3, h4⟩ := Prog.finished_bind.mp h1
  have still : ∀ {st : Status} {ra rb : Rdr} {t : List Event},
      ((sendStatus st >>= fun _ => (pure Turn.again : M Turn)) ra).Finished t (x, rb) → rb = ra := by
    intro st ra rb t hf
    exact Logic.only_finished (P := fun _ => True) (Q := fun _ r' => r' = ra)
      ((M.Still.bind (still_sendStatus st) fun _ => .pure _ :
        (sendStatus st >>= fun _ => (pure Turn.again : M Turn)).Still) (fun _ => True) ra) hf fun _ _ => trivial
  rcases res with st | e | _ <;> cases h4
  · obtain rfl := still (st := st) h2
    exact ⟨t1, t2, .ok st, by simp, h3, by rintro e ⟨⟩⟩
  · obtain rfl := still (st := errorStatus e) h2
    refine ⟨t1, t2, .err e, by simp, h3, ?_⟩
    rintro e ⟨⟩
    exact h2
  · cases h2
    exact ⟨t1, [], .panic, by simp, h3, by rintro e ⟨⟩⟩

theorem num_sized {kv : List (Bytes × Bytes)} {sz : Bytes} {n : Nat} (ha : ArgsOk kv) (hs : lookup kv b!"size" = some sz)
    (hn : Num sz n) : AreSized (argPackets kv) := by
  obtain ⟨h1, h2⟩ := (C10_integer_exact sz n).1.mp (num_parse hn)
  exact ⟨kv, sz, n, ha, rfl, hs, by omega, h2⟩

/-- An upload that arrives. -/
theorem put_turn {l oid sz data rest : Bytes} {more : List Bytes} {kv : List (Bytes × Bytes)} {n : Nat}
    (hsha : ∀ b, (cfg.sha b).length = 32) (hl : CommandLine l (b!"put-object" :: oid :: more)) (ho' : IsOid oid) (ha : ArgsOk kv)
    (hs : lookup kv b!"size" = some sz) (hn : Num sz n) {u : Bytes} (hi : r.input = encPacket (.data l) ++ u)
    (hf : Frame (.data l) (encPacket (.data l)))
    (hargs : readToType .delim { r with input := u } = (.ok ((argPackets kv).map fun p => p.data?.getD []), r1))
    (hdel : Delivers r1 data (.ok []) rest)
    (h : (turn cfg .upload r).Finished tr (x, r')) (ho : ∀ e ∈ tr, e.OutOk) :
    TurnTold cfg .upload (.put oid n data) x tr ∧ StopsAt r1 { r1 with input := rest, pending := [] } r' tr := by
  obtain ⟨hw, hne⟩ := commandLine_words hl
  constructor
  · refine turn_told hf hi hne hw (by decide) (by simp) (told_each fun lax => ?_) h ho
    rw [argPackets_data] at hargs
    refine told_put_from hsha ho' ha hs hn hargs fun ino s => ?_
    refine told_mono (copied_copyIn cfg.copyBuf ino (.inl rfl) hdel) ?_
    rintro y r3 s3 ⟨t, rfl, h1, h2⟩
    refine ⟨t, rfl, ?_, ?_⟩
    · intro a b z hm
      obtain ⟨d, w, e⟩ := h1 _ hm
      cases e
    · rcases h2 with ⟨rfl, -, h3⟩ | ⟨h3, -⟩
      · exact .inl ⟨rfl, h3⟩
      · exact .inr h3
  · obtain ⟨t1, t2, res, rfl, h1, -⟩ := turn_parts hl (by decide) (readPacket_frame hf r u hi) h
    have := hist_finished (told_put_stops (.inl rfl) ho' (num_sized ha hs hn) hargs hdel) h1
    rw [List.nil_append] at this
    exact this.1.grow fun e he => List.mem_append_left _ he

/-- An upload whose data cannot be read to the end. -/
theorem broken_put_turn {l oid data rest msg : Bytes} {more : List Bytes} {as : List Packet} {e : Err}
    (hl : CommandLine l (b!"put-object" :: oid :: more)) (ho' : IsOid oid) (ha : AreSized as)
    {u : Bytes} (hrd : r.readPacket = (.ok (.data l), { r with input := u }))
    (hargs : readToType .delim { r with input := u } = (.ok (as.map fun p => p.data?.getD []), r1))
    (hdel : Delivers r1 data (.err e) rest) (hst : ∀ fs, StatusFor (errorStatus e) (denial 500 msg) fs)
    (h : (turn cfg .upload r).Finished tr (x, r')) (ho : ∀ e ∈ tr, e.OutOk) :
    x = .ok .again ∧ HonestSaid cfg .upload tr (.nonsense 500 msg) ∧ StopsAt r1 { r1 with input := rest, pending := [] } r' tr := by
  obtain ⟨t1, t2, res, rfl, h1, h2⟩ := turn_parts hl (by decide) hrd h
  have := hist_finished (told_put_stops (.inr ⟨e, rfl⟩) ho' ha hargs hdel) h1
  rw [List.nil_append] at this
  obtain ⟨h3, h4⟩ := this
  obtain ⟨hot, h5⟩ := h4 e rfl
  have ht1 : output t1 = [] := by
    have hl : (Logic.out false).LegalTr [] t1 :=
      Logic.legalTr_of_forall fun e he s => ⟨ho e (by simp [he]), fun h => by cases h⟩
    have := Prog.wp_finished (wp_dispatch_out false cfg _ _ _ _ []) h1 hl
    rw [Logic.out_fold] at this
    simpa using this.1
  have ho2 : ∀ e ∈ t2, e.OutOk := fun e he => ho e (by simp [he])
  have hst' := h3.grow (t := t1 ++ t2) fun e he => List.mem_append_left _ he
  rcases h5 with rfl | ⟨⟨e1, h6, h7⟩, e2, rfl⟩
  · obtain ⟨k1, -, k2, k3⟩ := status_sent (says_of_status hst) (errorStatus_reader _) (h2 _ rfl) ho2
    exact ⟨k1, ⟨onlyTemps_append hot (outputs_temps k3), _, by rw [output_append, ht1]; exact k2, .inl rfl⟩, hst'⟩
  · obtain ⟨k1, -, k2, k3⟩ := status_sent (says_internal (e := Err.ofIo e2) rfl) (errorStatus_reader _) (h2 _ rfl) ho2
    exact ⟨k1, ⟨onlyTemps_append hot (outputs_temps k3), _, by rw [output_append, ht1]; exact k2,
      .inr ⟨⟨e1, List.mem_append_left _ h6, h7⟩, _, rfl⟩⟩, hst'⟩

/-! ### Any bytes -/

/-- How a turn ends at which the server takes what it reads for `q`. -/
def TurnEnds (cfg : Cfg) (mode : Mode) (q : Said) (rest : Bytes) (r : Rdr) (x : Res Turn) (r' : Rdr) (tr : List Event) : Prop :=
  (x = .panic ∧ ∃ a, q = .ask a) ∨
  (x = .ok .again ∧ HonestSaid cfg mode tr (q.after r.pending) ∧
    ((∃ left', NextLeft r.pending left' q ∧ r' = { r with input := rest, pending := left' }) ∨
     (MayUpload q ∧ (∃ e ∈ tr, ¬ e.CopyOk) ∧ r.Later r' ∧ r'.input.length < r.input.length))) ∨
  ∃ e oid h cs e', x = .err e ∧ q = .ask (.get oid) ∧ (⟨.readAll h, (cs, some e')⟩ : Event) ∈ tr

theorem heard_turn {q : Said} {ps : List Packet} {u rest : Bytes} (he : Heard mode ps q) (hq : ∀ o n d, q ≠ .ask (.put o n d))
    (hF : Frames ps u) (e : turn cfg mode r = turn cfg mode { r with input := u ++ rest })
    (h : (turn cfg mode r).Finished tr (x, r')) (ho : ∀ e ∈ tr, e.OutOk) : TurnEnds cfg mode q rest r x r' tr := by
  rw [e] at h
  cases q with
  | nonsense code msg =>
    obtain ⟨h1, h2, h3⟩ := denied_turn (r := { r with input := u ++ rest }) he hF rfl h ho
    exact .inr (.inl ⟨h1, h2, .inl ⟨r.pending, .inl rfl, h3⟩⟩)
  | ask q =>
    replace he : Spec.Means mode ps q := he
    have hq' : ∀ o n d, q ≠ .put o n d := fun o n d e => hq o n d (by rw [e])
    obtain ⟨h1, h2⟩ := asked_turn (r := { r with input := u ++ rest }) he hq' hF rfl h ho
    have ht : turnOf q = .again := by cases he <;> rfl
    have ha : (Said.ask q).after r.pending = .ask q := by cases he <;> first | rfl | exact absurd rfl (hq' _ _ _)
    have hn : NextLeft r.pending r.pending (.ask q) := by cases he <;> first | rfl | exact absurd rfl (hq' _ _ _)
    rcases told_honest h1 with h | ⟨h, h'⟩ | ⟨e1, oid, k, cs, e2, h, rfl, h'⟩
    · exact .inl ⟨h, q, rfl⟩
    · exact .inr (.inl ⟨by rw [h, ht], by rw [ha]; exact h', .inl ⟨_, hn, h2⟩⟩)
    · exact .inr (.inr ⟨e1, oid, k, cs, e2, h, rfl, h'⟩)

theorem stopsAt_next {q : Said} {u rest : Bytes} (hs : StopsAt { r with input := u } { r with input := rest, pending := [] } r' tr)
    (hu : u <:+ r.input) (hl : u.length < r.input.length) (hm : MayUpload q) (hn : NextLeft r.pending [] q) :
    (∃ left', NextLeft r.pending left' q ∧ r' = { r with input := rest, pending := left' }) ∨
     (MayUpload q ∧ (∃ e ∈ tr, ¬ e.CopyOk) ∧ r.Later r' ∧ r'.input.length < r.input.length) := by
  rcases hs with rfl | ⟨h1, h2⟩
  · exact .inl ⟨[], hn, rfl⟩
  · have h3 : r.Later { r with input := u } := ⟨rfl, rfl, hu, .inl (List.suffix_refl _)⟩
    have h4 : r'.input.length ≤ u.length := h2.input.length_le
    exact .inr ⟨hm, h1, h3.trans h2, by omega⟩

/-- An upload whose data cannot be read to the end. -/
theorem upload_turn {l oid msg : Bytes} {more ds : List Bytes} {as : List Packet} {wire tail rest : Bytes} {e : Err}
    (hl : CommandLine l (b!"put-object" :: oid :: more)) (ho' : IsOid oid) (ha : AreSized as)
    (hds : ∀ d ∈ ds, d.length ≤ 65516) (hF : LaxFrames (.data l :: as ++ .delim :: ds.map .data) wire)
    (hi : r.input = wire ++ tail) (hck : r.checked = false)
    (h1 : ({ r with input := tail, pending := [] } : Rdr).readOne = (.err e, { r with input := rest, pending := [] }))
    (hst : ∀ fs, StatusFor (errorStatus (Err.ofIo e.toIo)) (denial 500 msg) fs)
    (h : (turn cfg .upload r).Finished tr (x, r')) (ho : ∀ e ∈ tr, e.OutOk) :
    TurnEnds cfg .upload (.nonsense 500 msg) rest r x r' tr := by
  have hF : LaxFrames (.data l :: ((as ++ [.delim]) ++ ds.map .data)) wire := by simpa using hF
  obtain ⟨v, u, rfl, hv, hu⟩ := laxFrames_first hF
  obtain ⟨u1, u2, rfl, hu1, hu2⟩ := laxFrames_split hu
  have hi' : r.input = v ++ (u1 ++ (u2 ++ tail)) := by rw [hi]; simp
  have hargs := readToType_lax (r := { r with input := u1 ++ (u2 ++ tail) }) hu1 (areSized_delim ha) rfl hck
  have hdel : Delivers { r with input := u2 ++ tail } (r.pending ++ ds.flatten) (.err (Err.ofIo e.toIo)) rest :=
    delivers_pending _ { r with input := u2 ++ tail } rfl
      (delivers_lax (r := { r with input := u2 ++ tail, pending := [] }) hds hu2 hck rfl rfl
        (delivers_err (r := { r with input := tail, pending := [] }) rfl h1))
  obtain ⟨k1, k2, k3⟩ := broken_put_turn hl ho' ha (readPacket_lax hv hck hi') hargs hdel hst h ho
  have := laxFrame_length hv
  exact .inr (.inl ⟨k1, k2, stopsAt_next k3 ⟨v ++ u1, by rw [hi']; simp⟩ (by rw [hi']; simp; omega) rfl (.inr rfl)⟩)

/-- Packets after which comes something else end the turn at once, unless they are an upload. -/
theorem turn_garbled {code : Nat} {msg : Bytes} {ps : List Packet} {wire h rest : Bytes}
    (hg : Garbled mode ps code msg) (hF : LaxFrames ps wire) (hb : BadHeader h)
    (hi : r.input = wire ++ (h ++ rest)) (hck : r.checked = false) :
    (∃ er, (∀ fs, StatusFor (errorStatus er) (denial code msg) fs) ∧
      turn cfg mode r = (sendStatus (errorStatus er) >>= fun _ => (pure .again : M Turn)) { r with input := rest }) ∨
    (Uploading mode ps ∧ code = 500 ∧ msg = b!"internal error: fatal: I/O error: " ++ badHeader ++ b!"\n") := by
  have ends : ∀ {l cmd : Bytes} {args : List Bytes} {qs : List Packet} {er : Err}, ps = .data l :: qs → CommandLine l (cmd :: args) →
      cmd ≠ b!"quit" → (∀ fs, StatusFor (errorStatus er) (denial code msg) fs) →
      (∀ u, LaxFrames qs u → dispatch cfg mode cmd args.head? { r with input := u ++ (h ++ rest) } =
        .ret (.err er, { r with input := rest })) →
      (∃ er, (∀ fs, StatusFor (errorStatus er) (denial code msg) fs) ∧
        turn cfg mode r = (sendStatus (errorStatus er) >>= fun _ => (pure .again : M Turn)) { r with input := rest }) ∨
      (Uploading mode ps ∧ code = 500 ∧ msg = b!"internal error: fatal: I/O error: " ++ badHeader ++ b!"\n") := by
    rintro l cmd args qs er rfl hl hq hst hdis
    obtain ⟨v, u, rfl, hv, hu⟩ := laxFrames_first hF
    have hi' : r.input = v ++ (u ++ (h ++ rest)) := by rw [hi]; simp
    exact .inl ⟨er, hst, turn_ret (readPacket_lax hv hck hi') hl (fun h => hq h.1) (hdis u hu) rfl⟩
  cases hg with
  | @args l ws items hl hac hn1 hn2 hn =>
    have bad := fun u hu => readToType_bad (typ := .flush) (ps := items) (r := { r with input := u ++ (h ++ rest) }) hu hn hb rfl hck
    cases hac with
    | version => exact ends rfl hl (by decide) badErr_status fun u hu => rdr_err (bad u hu)
    | verify => exact ends rfl hl (by decide) badErr_status fun u hu => rdr_err (bad u hu)
    | get => exact ends rfl hl (by decide) badErr_status fun u hu => rdr_err (bad u hu)
    | lock => exact absurd rfl hn1
    | listLocks => exact absurd rfl hn2
    | unlock => exact ends rfl hl (by decide) badErr_status fun u hu => rdr_err (bad u hu)
  | @parse l ws items hl hac hx hn =>
    have bad := fun u hu => readToType_bad (typ := .flush) (ps := items) (r := { r with input := u ++ (h ++ rest) }) hu hn hb rfl hck
    rcases hx with rfl | rfl
    · cases hac with
      | lock => exact ends rfl hl (by decide) parseErr_status fun u hu => flushParse_err (bad u hu)
    · cases hac with
      | listLocks => exact ends rfl hl (by decide) parseErr_status fun u hu => flushParse_err (bad u hu)
  | @batchArgs l as hl hn =>
    refine ends rfl hl (by decide) badErr_status fun u hu => ?_
    have hbad := readToType_bad (r := { r with input := u ++ (h ++ rest) }) hu hn hb rfl hck
    cases mode
    · exact bind_err (bind_err (m := readToDelim) (by show Prog.ret (readToType _ _) = _; rw [hbad]))
    · exact bind_err (bind_err (m := readToDelim) (by show Prog.ret (readToType _ _) = _; rw [hbad]))
  | @batch l as items hl ha hn =>
    refine ends (qs := as ++ .delim :: items) rfl hl (by decide) parseErr_status fun u hu => ?_
    have hu : LaxFrames ((as ++ [.delim]) ++ items) u := by simpa using hu
    obtain ⟨u1, u2, rfl, hu1, hu2⟩ := laxFrames_split hu
    have hbad := readToType_bad (r := { r with input := u2 ++ (h ++ rest) }) hu2 hn hb rfl hck
    have h1 := readToType_lax (r := { r with input := u1 ++ (u2 ++ (h ++ rest)) }) hu1 (areArgs_delim ha) rfl hck
    obtain ⟨kv, hkv, rfl⟩ := ha
    obtain ⟨m, hm, _⟩ := C09_args_exact kv hkv
    rw [argPackets_data] at h1
    have key : ∀ x y, batchCmd cfg x y { r with input := u1 ++ u2 ++ (h ++ rest) } =
        .ret (.err (Err.wrapOther .parseError badErr.display), { r with input := rest }) := by
      intro x y
      refine bind_err ?_
      unfold readBatch readToDelim
      rw [List.append_assoc, rdr_ret h1, ofRes_ret hm]
      exact flushParse_err hbad
    cases mode
    · exact key _ _
    · exact key _ _
  | @putArgs l oid more as hm hl ho' hn =>
    subst hm
    refine ends rfl hl (by decide) badErr_status fun u hu => ?_
    have hbad := readToType_bad (r := { r with input := u ++ (h ++ rest) }) hu hn hb rfl hck
    show putObject cfg oid _ = _
    unfold putObject
    rw [oidNew_ret ho']
    exact rdr_err hbad
  | putData hup => exact .inr ⟨hup, rfl, rfl⟩

theorem garbled_turn {code : Nat} {msg : Bytes} {ps : List Packet} {wire h rest : Bytes}
    (hg : Garbled mode ps code msg) (hF : LaxFrames ps wire) (hb : BadHeader h)
    (hi : r.input = wire ++ (h ++ rest)) (hck : r.checked = false)
    (hf : (turn cfg mode r).Finished tr (x, r')) (ho : ∀ e ∈ tr, e.OutOk) :
    TurnEnds cfg mode (.nonsense code msg) rest r x r' tr := by
  rcases turn_garbled (cfg := cfg) hg hF hb hi hck with ⟨er, hst, e⟩ | ⟨hup, rfl, rfl⟩
  · obtain ⟨k1, k2, k3⟩ := refused_turn (says_of_status hst) (errorStatus_reader _) e hf ho
    exact .inr (.inl ⟨k1, k2, .inl ⟨r.pending, .inl rfl, k3⟩⟩)
  · obtain ⟨l, oid, more, as, ds, rfl, rfl, hl, ho', ha, hds⟩ := hup
    exact upload_turn hl ho' ha hds hF hi hck (readOne_bad (r := { r with input := h ++ rest, pending := [] }) hb hck rfl)
      dataErr_status hf ho

theorem completed_notPut {ps ps' : List Packet} {o d : Bytes} {n : Nat} (h : Completed mode ps ps')
    (hm : Spec.Means mode ps' (.put o n d)) : False := by
  cases hm with
  | @put l more kv oid s n ds t hl =>
    generalize hps : Packet.data l :: argPackets kv ++ Packet.delim :: ds.map Packet.data ++ [t] = ps' at h
    cases h with
    | args hl' hc _ =>
      simp only [List.cons_append, List.cons.injEq, Packet.data.injEq] at hps
      obtain ⟨rfl, -⟩ := hps
      rw [← commandLine_unique hl hl'] at hc
      cases hc
    | batch hl' =>
      simp only [List.cons_append, List.cons.injEq, Packet.data.injEq] at hps
      obtain ⟨rfl, -⟩ := hps
      exact absurd (commandLine_unique hl hl') (by simp)
    | batchNone hl' =>
      simp only [List.cons_append, List.cons.injEq, Packet.data.injEq] at hps
      obtain ⟨rfl, -⟩ := hps
      exact absurd (commandLine_unique hl hl') (by simp)
    | batchArgs hl' =>
      simp only [List.cons_append, List.cons.injEq, Packet.data.injEq] at hps
      obtain ⟨rfl, -⟩ := hps
      exact absurd (commandLine_unique hl hl') (by simp)
    | @putArgs l' _ _ as _ _ _ hd _ =>
      have e : (Packet.data l :: argPackets kv ++ Packet.delim :: ds.map Packet.data) ++ [t] = (Packet.data l' :: as) ++ [.delim] := hps
      have e := (List.append_inj' e rfl).1
      simp only [List.cons_append, List.cons.injEq] at e
      exact hd (by rw [← e.2]; simp)

theorem broken_turn {q : Said} {ps : List Packet} {wire t : Bytes} 
    (hb : BreaksOff mode r.fin.text ps [] q) (hF : LaxFrames ps wire) (ht : LaxPart t) (hlong : Uploading mode ps → ¬ TooLong t)
    (hi : r.input = wire ++ t) (hck : r.checked = false) (hfin : r.fin.kind = .unexpectedEof)
    (h : (turn cfg mode r).Finished tr (x, r')) (ho : ∀ e ∈ tr, e.OutOk) : TurnEnds cfg mode q [] r x r' tr := by
  have e : ({ r with input := wire ++ t } : Rdr) = r := by rw [← hi]
  cases hb with
  | @heard _ ps' _ q hcom hh hpart =>
    have h1 := turn_short_cut (cfg := cfg) (r := r) hcom hF ht hck hfin
    obtain ⟨more, h2, h3⟩ := turn_completed (cfg := cfg) (r := r) hcom (laxFrames_frames hF) hpart hfin
    rw [e] at h1
    rw [List.append_nil] at h3
    refine heard_turn hh ?_ h2 (h1.trans (h3.trans (by rw [List.append_nil]))) h ho
    rintro o n d rfl
    exact completed_notPut hcom hh
  | @putArgs l oid _ more as hm hl ho' ha hpart =>
    subst hm
    obtain ⟨v, u, rfl, hv, hu⟩ := laxFrames_first hF
    have hi' : r.input = v ++ (u ++ t) := by rw [hi]; simp
    have := laxFrame_length hv
    obtain ⟨k1, k2, k3⟩ := broken_put_turn hl ho' ha (readPacket_lax hv hck hi')
      (readToType_laxPart (r := { r with input := u ++ t }) hu (areSized_delim ha) ht rfl hck hfin)
      (delivers_cut (r := { r with input := [] }) (ds := []) (by simp) .nil ⟨.flush, _, .flush, trivial, List.nil_prefix, by decide⟩ rfl)
      (cutErr_status r.fin) h ho
    exact .inr (.inl ⟨k1, k2, stopsAt_next k3 List.nil_suffix (by rw [hi']; simp; omega) rfl (.inr rfl)⟩)
  | @putData l oid _ more ds as hm hl ho' ha hds hpart =>
    subst hm
    exact upload_turn hl ho' ha hds hF hi hck
      (readOne_laxPart (r := { r with input := t, pending := [] }) ht (hlong ⟨l, oid, more, as, ds, rfl, rfl, hl, ho', ha, hds⟩) hck rfl)
      (cutErr_status r.fin) h ho

/-- One turn, if this is no odd `unlock`. -/
theorem takes_turn {q : Said} {b rest : Bytes} (hsha : ∀ b, (cfg.sha b).length = 32) (ht : Takes mode r.fin.text q b rest)
    (hi : r.input = b) (hck : r.checked = false) (hk : r.fin.kind = .unexpectedEof)
    (h : (turn cfg mode r).Finished tr (x, r')) (ho : ∀ e ∈ tr, e.OutOk) : TurnEnds cfg mode q rest r x r' tr := by
  cases ht with
  | @heard _ ps w _ he hF =>
    have e : ({ r with input := w ++ rest } : Rdr) = r := by rw [← hi]
    by_cases hq : ∀ o n d, q ≠ .ask (.put o n d)
    · have hs : Short mode ps := by
        cases q with
        | ask q => exact means_short he fun o n d e => hq o n d (by rw [e])
        | nonsense code msg => exact denied_short he
      have h1 := turn_short (cfg := cfg) (r := r) (rest := rest) hs hF hck
      rw [e] at h1
      exact heard_turn he hq (laxFrames_frames hF) h1 h ho
    obtain ⟨oid, n, data, rfl⟩ : ∃ o n d, q = .ask (.put o n d) := by
      simpa only [not_forall, not_not] using hq
    replace he : Spec.Means mode ps (.put oid n data) := he
    cases he with
    | @put l more kv _ sz _ ds t hl ho' ha hs hn hds ht =>
      have hF : LaxFrames (.data l :: ((argPackets kv ++ [.delim]) ++ (ds.map .data ++ [t]))) w := by simpa using hF
      obtain ⟨v, u, rfl, hv, hu⟩ := laxFrames_first hF
      obtain ⟨u1, u2, rfl, hu1, hu2⟩ := laxFrames_split hu
      obtain ⟨u3, u4, rfl, hu3, hu4⟩ := laxFrames_split hu2
      obtain ⟨u5, u6, rfl, hu5, hu6⟩ := laxFrames_first hu4
      cases hu6
      have hi' : r.input = v ++ (u1 ++ (u3 ++ (u5 ++ rest))) := by rw [hi]; simp
      have h1 := turn_head (cfg := cfg) (mode := .upload) (r := r) (u := u1 ++ (u3 ++ (u5 ++ rest))) hv hck
      rw [← hi'] at h1
      have h := h
      rw [h1] at h
      have hargs := readToType_lax (r := { r with input := u1 ++ (u3 ++ (u5 ++ rest)) }) hu1 (argPackets_delim kv) rfl hck
      have htf : Fits t := by rcases ht with rfl | rfl <;> exact trivial
      have hdel : Delivers { r with input := u3 ++ (u5 ++ rest) } (r.pending ++ ds.flatten) (.ok []) rest :=
        delivers_pending _ { r with input := u3 ++ (u5 ++ rest) } rfl
          (delivers_lax (r := { r with input := u3 ++ (u5 ++ rest), pending := [] }) hds hu3 hck rfl rfl
            (delivers_term (r := { r with input := u5 ++ rest, pending := [] }) ht rfl (readOne_lax hu5 htf hck rfl)))
      obtain ⟨k1, k2⟩ := put_turn (r := { r with input := encPacket (.data l) ++ (u1 ++ (u3 ++ (u5 ++ rest))) }) hsha hl ho' ha hs hn rfl
        (laxFrame_frame hv) hargs hdel h ho
      have := laxFrame_length hv
      rcases told_honest k1 with k | ⟨k, k'⟩ | ⟨_, _, _, _, _, _, k, _⟩
      · exact .inl ⟨k, _, rfl⟩
      · exact .inr (.inl ⟨k, k', stopsAt_next k2 ⟨v ++ u1, by rw [hi']; simp⟩ (by rw [hi']; simp; omega) trivial rfl⟩)
      · cases k
  | broken hb hF hp hlong => exact broken_turn hb hF hp hlong hi hck hk h ho
  | garbled hg hF hb => exact garbled_turn hg hF hb hi hck h ho
  | @tooLong ps n w hd rest hup hF hl hn =>
    obtain ⟨l, oid, more, as, ds, rfl, rfl, hcl, ho', ha, hds⟩ := hup
    exact upload_turn hcl ho' ha hds hF hi hck
      (readOne_tooLong (r := { r with input := hd ++ rest, pending := [] }) hl hn hck rfl) dataErr_status h ho

theorem told_ends {id rest : Bytes} (h : TurnTold cfg mode (.unlock id) x tr) (hr : r' = { r with input := rest }) :
    TurnEnds cfg mode (.ask (.unlock id)) rest r x r' tr := by
  rcases told_honest h with h | ⟨h, h'⟩ | ⟨_, _, _, _, _, _, h, _⟩
  · exact .inl ⟨h, _, rfl⟩
  · exact .inr (.inl ⟨h, h', .inl ⟨_, rfl, hr⟩⟩)
  · cases h

/-- Packets that break off in the bytes `t` of one are taken for complete ones. -/
theorem turn_cut_lax {ps ps' : List Packet} {w t : Bytes} (hcom : Completed mode ps ps') (hF : LaxFrames ps w) (ht : LaxPart t)
    (hi : r.input = w ++ t) (hck : r.checked = false) (hfin : r.fin.kind = .unexpectedEof) :
    ∃ u, Frames ps' u ∧ turn cfg mode r = turn cfg mode { r with input := u ++ [] } := by
  have h1 := turn_short_cut (cfg := cfg) (r := r) hcom hF ht hck hfin
  obtain ⟨more, h2, h3⟩ := turn_completed (cfg := cfg) (r := r) hcom (laxFrames_frames hF) part_nil hfin
  rw [show ({ r with input := w ++ t } : Rdr) = r by rw [← hi]] at h1
  rw [List.append_nil] at h3
  exact ⟨_, h2, h1.trans (h3.trans (by rw [List.append_nil]))⟩

theorem turn_odd_lax {id : Bytes} {ps : List Packet} {w rest : Bytes} (hm : OddAsks id ps) (hF : LaxFrames ps w)
    (hi : r.input = w ++ rest) (hck : r.checked = false) :
    ∃ u, Frames ps u ∧ turn cfg .upload r = turn cfg .upload { r with input := u ++ rest } := by
  have hs : Short .upload ps := by
    cases hm with
    | mk hl _ _ hn => exact .args hl .unlock hn
  have h1 := turn_short (cfg := cfg) (r := r) (rest := rest) hs hF hck
  rw [show ({ r with input := w ++ rest } : Rdr) = r by rw [← hi]] at h1
  exact ⟨_, laxFrames_frames hF, h1⟩

/-- One turn, whatever is read. -/
theorem finds_turn {q : Said} {b rest : Bytes} (hsha : ∀ b, (cfg.sha b).length = 32) (hf : Finds mode r.fin.text q b rest)
    (hi : r.input = b) (hck : r.checked = false) (hk : r.fin.kind = .unexpectedEof)
    (h : (turn cfg mode r).Finished tr (x, r')) (ho : ∀ e ∈ tr, e.OutOk) : TurnEnds cfg mode q rest r x r' tr := by
  cases hf with
  | takes ht => exact takes_turn hsha ht hi hck hk h ho
  | @odd id ps w rest hm hodd hF =>
    subst hm
    obtain ⟨u, hu, e⟩ := turn_odd_lax (cfg := cfg) hodd hF hi hck
    rw [e] at h
    obtain ⟨h1, h2⟩ := odd_turn (r := { r with input := u ++ rest }) hodd hu rfl h
    exact told_ends (h2 ho) h1
  | @oddCut id ps ps' w t hm hcom hodd hF ht =>
    subst hm
    obtain ⟨u, hu, e⟩ := turn_cut_lax (cfg := cfg) hcom hF ht hi hck hk
    rw [e] at h
    obtain ⟨h1, h2⟩ := odd_turn (r := { r with input := u ++ [] }) hodd hu rfl h
    exact told_ends (h2 ho) h1

end Verif
