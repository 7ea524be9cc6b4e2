import Verif.Spec.Align
import Verif.Props.Sync
/-! Property C69: what the server takes for a packet is a packet of the client's. And what C08 leaves open: the exact
effect of a request that breaks off. -/
namespace Verif
open Spec

variable {cfg : Cfg} {mode : Mode} {r r' : Rdr}

/-! ### C69 -/

theorem turns_le {tr : List Event} (h : Turns cfg mode r tr r') : r.Le r' := by
  induction h with
  | nil => exact .refl _
  | cons h1 _ ih =>
    exact Rdr.Le.trans (Prog.wp_finished (turn_again cfg mode _) h1 (Logic.legalTr_of_forall fun _ _ _ => trivial)).1 ih

/-- **C69**: the client sends packets of at most 65520 bytes, and possibly stops in the middle of one. However many
requests there were, sensible or not, accepted or refused, and whatever the OS answered: what is left to be read before
the next request begins at the beginning of one of the packets, or there is nothing left. -/
theorem C69_boundary {ps : List Packet} {tail : Bytes} {tr : List Event} (hc : Client ps tail r.input)
    (h : Turns cfg mode r tr r') : (∃ ps', ps' <:+ ps ∧ Client ps' tail r'.input) ∨ r'.input = [] := by
  obtain ⟨hs, ht, w, hF, hi⟩ := hc
  rcases (turns_le h).along ps w tail (fun p hp => hs p hp) hF hi with ⟨ps', w', h1, h2, h3⟩ | ⟨_, h⟩
  · exact .inl ⟨ps', h1, fun p hp => hs p (h1.subset hp), ht, w', h2, h3⟩
  · exact .inr (h ht)

/-- **C69**: what the server then takes for a command is one of the packets the client sent; and it has never been read
before, since the packets after it are what remains. -/
theorem C69_command {ps : List Packet} {tail : Bytes} {tr : List Event} {p : Packet} {r'' : Rdr}
    (hc : Client ps tail r.input) (h : Turns cfg mode r tr r') (hp : r'.readPacket = (.ok p, r'')) :
    ∃ before after, ps = before ++ p :: after ∧ Client after tail r''.input := by
  rcases C69_boundary hc h with ⟨ps', ⟨before, rfl⟩, hs, ht, w, hF, hi⟩ | h
  · cases hF with
    | nil =>
      obtain ⟨q, v, h1, _, h3, h4⟩ := ht
      rw [readPacket_truncated h1 r' h3 h4 (by simpa using hi)] at hp
      cases hp
    | @cons q ps w ws hf hF =>
      rw [readPacket_frame hf r' (ws ++ tail) (by rw [hi, List.append_assoc])] at hp
      cases hp
      exact ⟨before, ps, rfl, fun p hp => hs p (by simp [hp]), ht, ws, hF, rfl⟩
  · rw [readPacket_truncated .flush r' (part := []) (by simp) (by decide) h] at hp
    cases hp

/-- A packet that is too large for the data of an upload is given up after its header. -/
theorem read_oversized {d v rest : Bytes} (hv : Frame (.data d) v) (hd : 65516 < d.length) (hi : r.input = v ++ rest)
    (hp : r.pending = []) (n : Nat) :
    r.read n = (.err (Err.ofIo (Err.simple .badPktlineHeader).toIo), { r with input := d ++ rest }) := by
  cases hv with
  | data h d hh =>
    have := readOne_header r h (d ++ rest) _ hh (by rw [hi, List.append_assoc])
    rw [if_neg (by omega), if_neg (by omega), if_neg (by omega), if_pos (by omega)] at this
    simp only [Rdr.read, hp, List.length_nil, Nat.zero_min, gt_iff_lt, Nat.lt_irrefl, if_false, Rdr.readLoop,
      Rdr.readLoopF, this]

/-- **C69**, the size is needed: if the data of an upload begins with a larger packet, the upload is refused with the
reader inside this packet. Its content is what is taken for commands next (`C69_inside`). -/
theorem C69_oversized {l u v oid d s rest : Bytes} {kv : List (Bytes × Bytes)} {n : Nat} {tr : List Event} {t : Turn}
    (hoid : IsOid oid) (hl : IsLine (b!"put-object " ++ oid) l) (ha : ArgsOk kv) (hs : lookup kv b!"size" = some s)
    (hn : Num s n) (hu : Frames (.data l :: argPackets kv ++ [.delim]) u) (hv : Frame (.data d) v)
    (hd : 65516 < d.length) (hi : r.input = u ++ v ++ rest) (hp : r.pending = [])
    (h : (turn cfg .upload r).Finished tr (.ok t, r')) (hc : ∀ e ∈ tr, e.CopyOk) :
    t = .again ∧ r' = { r with input := d ++ rest } := by
  suffices H : (turn cfg .upload).wp (Logic.only Event.CopyOk) r ()
      (fun x r' _ => r' = { r with input := d ++ rest } ∧ x ≠ .ok .done) by
    have H := Logic.only_finished (P := Event.CopyOk) (Q := fun x r' => r' = { r with input := d ++ rest } ∧ x ≠ .ok .done)
      H h hc
    refine ⟨?_, H.1⟩
    cases t with
    | again => rfl
    | done => exact absurd rfl H.2
  obtain ⟨a, b, rfl, hva, hub⟩ := frames_split (ps := [Packet.data l]) (by simpa using hu)
  have hrd := readPacket_frame (frames_singleton hva) r (b ++ (v ++ rest)) (by rw [hi]; simp only [List.append_assoc])
  obtain ⟨hw, hne⟩ := words_oid (cmd := b!"put-object") hoid (by decide) hl
  obtain ⟨m, hm, hg⟩ := C09_args_exact kv ha
  have h1 := readToDelim_args (r := { r with input := b ++ (v ++ rest) }) hub rfl
  refine turn_endsAt hrd hne hw (by decide) ?_
  have hsz : sizeFromArgs m = .ok n := by
    unfold sizeFromArgs
    rw [hg, hs]
    exact num_parse hn
  show (putObject cfg oid).EndsAt _ _ _
  unfold putObject oidNew readToDelim
  rw [(oidValid_iff oid).mpr hoid]
  have h0 : ∀ {β : Type} (f : Bytes → M β) r, ((if true = true then (pure oid : M Bytes) else
      M.throw (Err.simple .invalidLFSOid)) >>= f) r = f oid r := fun f r => rfl
  unfold M.EndsAt M.wp
  rw [h0]
  refine M.endsAt_rdr_bind h1 (M.endsAt_ofRes_bind hm (M.endsAt_ofRes_bind hsz ?_))
  have hcopy : ∀ ino, copyIn cfg.copyBuf ino { r with input := v ++ rest } =
      .ret (.err (Err.ofIo (Err.simple .badPktlineHeader).toIo), { r with input := d ++ rest }) := by
    intro ino
    have := read_oversized (r := { r with input := v ++ rest }) hv hd rfl hp (cfg.copyBuf 0 + 1)
    unfold copyIn
    rw [copyInF]
    show M.bind (M.rdr _) _ _ = _
    simp only [M.bind, M.rdr, this]
    rfl
  unfold M.EndsAt
  rw [M.wp_bind]
  unfold startUpload
  rw [M.wp_bind, M.wp_op]
  refine ⟨trivial, fun x hx => ?_⟩
  obtain ⟨⟨path, ino⟩, rfl⟩ : ∃ a, x = .ok a := hx
  rw [Res.elim_ok, M.wp_bind, M.wp_ofIo]
  simp only [Res.elim_ok]
  rw [M.wp_onFail, M.wp_bind]
  unfold M.wp
  rw [hcopy]
  exact M.wp_mono (still_dropFile path Event.CopyOk _) fun _ _ _ h => h

/-- **C69**: a packet contained in the data is then taken for the next command. -/
theorem C69_inside {d p' rest : Bytes} {p : Packet} (hi : r.input = d ++ rest) (hp : Frame p p') (hd : p' <+: d) :
    ∃ more, r.readPacket = (.ok p, { r with input := more ++ rest }) := by
  obtain ⟨more, rfl⟩ := hd
  exact ⟨more, readPacket_frame hp r (more ++ rest) (by rw [hi, List.append_assoc])⟩

/-! ### C08 -/

theorem M.bind_at {α β : Type} {m : M α} {f : α → M β} {r r1 : Rdr} (h : m r = m r1) : (m >>= f) r = (m >>= f) r1 := by
  show Prog.bind (m r) _ = Prog.bind (m r1) _
  rw [h]

theorem M.attempt_at {α : Type} {m : M α} {r r1 : Rdr} (h : m r = m r1) : M.attempt m r = M.attempt m r1 := by
  show Prog.bind (m r) _ = Prog.bind (m r1) _
  rw [h]

/-- **C08**, what a request that breaks off does: exactly what the request does that consists of its complete packets and
a flush. So `lock` and `unlock` are executed if the packets that were complete suffice.

Full property: a request that breaks off has no effect. That is false (`C08_refuted`). -/
theorem C08_exact_partial {l v w part : Bytes} {ws items : List Bytes} (hl : CommandLine l ws) (hc : ArgCommand mode ws)
    (hv : Frame (.data l) v) (hw : Frames (items.map .data) w) (hpart : CutOff part)
    (hfin : r.fin.kind = .unexpectedEof) :
    turn cfg mode { r with input := v ++ w ++ part } = turn cfg mode { r with input := v ++ w ++ b!"0000" } := by
  obtain ⟨hws, hnl⟩ := commandLine_words hl
  rw [turn_data cfg mode _ _ l hnl (readPacket_frame hv { r with input := v ++ w ++ part } (w ++ part)
      (by simp only [List.append_assoc])),
    turn_data cfg mode _ _ l hnl (readPacket_frame hv { r with input := v ++ w ++ b!"0000" } (w ++ b!"0000")
      (by simp only [List.append_assoc]))]
  obtain ⟨q, y, h1, _, h3, h4⟩ := hpart
  have e1 : readToType .flush { r with input := w ++ part } = (.ok items, { r with input := [] }) := by
    have := readToTypeF_truncated .flush (.inl rfl) h1 h3 h4 items ((w ++ part).length + 1)
      { r with input := w ++ part } w hw rfl (by have := frames_length hw; simp at this ⊢; omega)
    rw [if_pos hfin] at this
    exact this
  have e2 : readToType .flush { r with input := w ++ b!"0000" } = (.ok items, { r with input := [] }) :=
    readToType_frames (.inl rfl) (frames_append hw (.cons .flush .nil)) (by simp)
  have e : readToFlush { r with input := w ++ part } = readToFlush { r with input := w ++ b!"0000" } := by
    show Prog.ret (readToType .flush _) = Prog.ret (readToType .flush _)
    rw [e1, e2]
  have e' : readToFlushParse { r with input := w ++ part } = readToFlushParse { r with input := w ++ b!"0000" } :=
    M.bind_at (M.attempt_at e)
  have key : ∀ a b : M Turn, ∀ c, (¬ c → a { r with input := w ++ part } = a { r with input := w ++ b!"0000" }) → ∀ _ : Decidable c, ¬ c →
      (if c then b else a) { r with input := w ++ part } = (if c then b else a) { r with input := w ++ b!"0000" } := by
    intro a b c h _ hn
    rw [if_neg hn]; exact h hn
  rw [hws]
  cases hc with
  | version => exact key _ _ _ (fun _ => M.bind_at (M.attempt_at (M.bind_at e))) _ (by simp)
  | verify => exact key _ _ _ (fun _ => M.bind_at (M.attempt_at (M.bind_at e))) _ (by simp)
  | get => exact key _ _ _ (fun _ => M.bind_at (M.attempt_at (M.bind_at e))) _ (by simp)
  | lock => exact key _ _ _ (fun _ => M.bind_at (M.attempt_at (M.bind_at e'))) _ (by decide)
  | listLocks => exact key _ _ _ (fun _ => M.bind_at (M.attempt_at (M.bind_at e'))) _ (by decide)
  | unlock => exact key _ _ _ (fun _ => M.bind_at (M.attempt_at (M.bind_at e))) _ (by simp)

/-! ### Concrete cases -/

namespace Tests

theorem client_enc (ps : List Packet) (h : ps.all Packet.short = true) (h' : ∀ p ∈ ps, Fits p) : Client ps [] (enc ps) :=
  ⟨h', ⟨.flush, _, .flush, trivial, by simp, by decide⟩, enc ps, frames_enc ps h, (List.append_nil _).symm⟩

/-- The data of the first upload cannot be written. -/
def broken : Rdr := seeing (putA [b!"abc", b!"123"] ++ [.data b!"list-lock", .flush]) []

/-- An upload whose data is one packet that is too large and begins with a request. -/
def evilPad (n : Nat) : Bytes := b!"0015unlock 0123456789" ++ b!"0000" ++ List.replicate n 0
def smuggled : Bytes := evilPad 65500
theorem smuggled_length : smuggled.length = 65525 := by
  have : ∀ n, (evilPad n).length = 25 + n := fun n => by simp [evilPad]; omega
  exact this _
def oversized : Rdr := seeing [.data (b!"put-object " ++ oidA ++ b!"\n"), .data b!"size=6\n", .delim, .data smuggled] []

end Tests

open Tests in
/-- **C69** holds where C52 fails: the rest of the upload is taken for commands, but packet by packet. -/
example : ∃ tr r', Turns Tests.cfg .upload broken tr r' ∧
    Client (putA [b!"abc", b!"123"] ++ [.data b!"list-lock", .flush]) [] broken.input ∧
    r'.input = enc [.data b!"123", .flush, .data b!"list-lock", .flush] := by
  refine ⟨eventsOf (failAt 1 eio 0) broken ++ [], { broken with input := enc [.data b!"123", .flush, .data b!"list-lock", .flush] }, .cons ?_ .nil, ?_, rfl⟩
  · have h : (turnRun (failAt 1 eio 0) broken).1 =
        (.ok .again, { broken with input := enc [.data b!"123", .flush, .data b!"list-lock", .flush] }) := by decide +kernel
    rw [← h]
    exact Prog.run_finished _ _ _
  · have h : broken.input = enc (putA [b!"abc", b!"123"] ++ [.data b!"list-lock", .flush]) := by decide +kernel
    rw [h]
    refine client_enc _ (by decide +kernel) ?_
    intro p hp
    have : ∀ p ∈ (putA [b!"abc", b!"123"] ++ [.data b!"list-lock", .flush]), (match p with | .data d => decide (d.length ≤ 65516) | _ => true) = true := by
      decide +kernel
    have := this p hp
    cases p <;> simp_all [Fits]

open Tests in
/-- The hypotheses of `C69_oversized` hold for an upload whose data begins with a request to remove a lock. -/
example : ∃ tr r', (turn Tests.cfg .upload oversized).Finished tr (.ok .again, r') ∧ (∀ e ∈ tr, e.CopyOk) ∧
    oversized.pending = [] ∧ 65516 < smuggled.length ∧ Frame (.data smuggled) (encPacket (.data smuggled)) ∧
    Frame (.data b!"unlock 0123456789") b!"0015unlock 0123456789" := by
  refine ⟨eventsOf calm oversized, (turnRun calm oversized).1.2, ?_, copyOkB_ok (by decide +kernel), rfl,
    by rw [smuggled_length]; decide, frame_encPacket _ (by rintro d ⟨⟩; rw [smuggled_length]; decide), .data b!"0015" _ ⟨rfl, by decide⟩⟩
  have h : (turnRun calm oversized).1.1 = .ok .again := by decide +kernel
  have h' : ∀ y : Res Turn × Rdr, y.1 = .ok .again → y = (.ok .again, y.2) := by rintro ⟨_, _⟩ rfl; rfl
  exact h' _ h ▸ Prog.run_finished _ _ _

/-- The hypotheses of `C08_exact_partial` hold for a request to remove a lock that breaks off in its terminator. -/
example : CommandLine b!"unlock x\n" [b!"unlock", b!"x"] ∧ ArgCommand .upload [b!"unlock", b!"x"] ∧
    Frame (.data b!"unlock x\n") b!"000dunlock x\n" ∧ Frames (([] : List Bytes).map .data) [] ∧ CutOff b!"00" :=
  ⟨⟨b!"unlock x", .cons (x := b!"unlock") (w := b!"x") (by decide) (.one (by decide)), by decide, .inl rfl⟩, .unlock,
    .data b!"000d" b!"unlock x\n" ⟨rfl, by decide⟩, .nil, .flush, _, .flush, trivial, ⟨b!"00", rfl⟩, by decide⟩

end Verif
