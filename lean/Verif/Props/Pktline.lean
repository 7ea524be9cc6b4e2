import Verif.Lemmas.Pktline
/-! Properties C01–C07: the pkt-line reader and writer. -/
namespace Verif
open Spec

/-! ### C01 -/

/-- **C01.** What `write_packet` writes is the wire form of the packet, and `read_packet` on it,
whatever follows, returns the packet and leaves exactly what followed. -/
theorem C01_packet_roundtrip (p : Packet) (h : ∀ d, p = .data d → d.length ≤ 65531) :
    Frame p (encPacket p) ∧
    ∀ (r : Rdr) (rest : Bytes), r.input = encPacket p ++ rest →
      r.readPacket = (.ok p, { r with input := rest }) :=
  ⟨frame_encPacket p h, fun r rest hi => readPacket_frame (frame_encPacket p h) r rest hi⟩

example : Frame (.data b!"abc") b!"0007abc" := Frame.data b!"0007" b!"abc" ⟨rfl, by decide⟩
example : encPacket (.data b!"abc") = b!"0007abc" := by decide

/-- The wire form of a packet is unique, so any conforming writer's output is read the same. -/
theorem C01_read_any_frame (p : Packet) (w : Bytes) (hf : Frame p w) (r : Rdr) (rest : Bytes)
    (hi : r.input = w ++ rest) :
    w = encPacket p ∧ r.readPacket = (.ok p, { r with input := rest }) :=
  ⟨frame_unique hf, readPacket_frame hf r rest hi⟩

/-- Sequences of packets: reading `n` packets from the concatenation of their wire forms. -/
def readPackets : Nat → Rdr → Option (List Packet × Rdr)
  | 0, r => some ([], r)
  | n + 1, r =>
    match r.readPacket with
    | (.ok p, r) => (readPackets n r).map (fun x => (p :: x.1, x.2))
    | _ => none

theorem C01_sequence (ps : List Packet) (w : Bytes) (hF : Frames ps w) :
    ∀ (r : Rdr) (rest : Bytes), r.input = w ++ rest →
      readPackets ps.length r = some (ps, { r with input := rest }) := by
  induction hF with
  | nil => intro r rest hi; simp at hi; simp [readPackets, ← hi]
  | @cons p ps w ws hf _ ih =>
    intro r rest hi
    have h1 := readPacket_frame hf r (ws ++ rest) (by rw [hi, List.append_assoc])
    simp only [List.length_cons, readPackets, h1]
    rw [ih { r with input := ws ++ rest } rest rfl]; rfl

/-- Beyond the limit the format cannot express the packet: the header written has five digits and
is read back as a different packet (so the bound in `C01_packet_roundtrip` is the right one). -/
theorem C01_bound_needed (d : Bytes) (h : d.length = 65532) : (hex4 (d.length + 4)).length = 5 ∧
    ¬ ∃ w, Frame (.data d) w := by
  constructor
  · rw [h]; decide
  · rintro ⟨w, hw⟩
    cases hw with
    | data hd _ hh => have := isHeader_lt hh; omega

/-! ### C02 -/

theorem chunksF_spec (k : Nat) (hk : 0 < k) : ∀ (f : Nat) (s : Bytes), s.length ≤ f →
    (chunksF f k s).flatten = s ∧ ∀ c ∈ chunksF f k s, 1 ≤ c.length ∧ c.length ≤ k
  | 0, s, h => by
    have : s = [] := List.length_eq_zero_iff.mp (by omega)
    subst this; simp [chunksF]
  | f + 1, [], _ => by simp [chunksF]
  | f + 1, x :: xs, h => by
    have ih := chunksF_spec k hk f ((x :: xs).drop k) (by simp at h ⊢; omega)
    rw [chunksF]
    · refine ⟨?_, ?_⟩
      · rw [List.flatten_cons, ih.1, List.take_append_drop]
      · intro c hc
        rcases List.mem_cons.mp hc with rfl | hc
        · simp; omega
        · exact ih.2 c hc
    · simp

theorem chunks_spec (k : Nat) (hk : 0 < k) (s : Bytes) :
    (chunks k s).flatten = s ∧ ∀ c ∈ chunks k s, 1 ≤ c.length ∧ c.length ≤ k :=
  chunksF_spec k hk _ s (Nat.le_refl _)

theorem frames_map_encData : ∀ (cs : List Bytes), (∀ c ∈ cs, c.length ≤ 65531) →
    Frames (cs.map .data) ((cs.map encData).flatten)
  | [], _ => Frames.nil
  | c :: cs, h => by
    have h1 : Frame (.data c) (encData c) := frame_encPacket (.data c) (by
      intro d e; cases e; exact h c (by simp))
    have := Frames.cons h1 (frames_map_encData cs (fun c hc => h c (by simp [hc])))
    simpa using this

/-- **C02.** The emitted bytes are the wire form of data packets with 1 to 65516 bytes each,
carrying the buffer in order; all of it is reported as written; nothing is emitted for nothing. -/
theorem C02_write_framing (s : Bytes) :
    ∃ cs : List Bytes, Frames (cs.map .data) (writeStream s).1 ∧
      (∀ c ∈ cs, 1 ≤ c.length ∧ c.length ≤ 65516) ∧ cs.flatten = s ∧
      (writeStream s).2 = s.length ∧ (s = [] → (writeStream s).1 = []) := by
  have h := chunks_spec maxPacketLen (by decide) s
  refine ⟨chunks maxPacketLen s, ?_, h.2, h.1, ?_, ?_⟩
  · exact frames_map_encData _ (fun c hc => by
      have := (h.2 c hc).2
      simp only [maxPacketLen] at this
      omega)
  · have : ((chunks maxPacketLen s).map List.length).sum = (chunks maxPacketLen s).flatten.length := by
      rw [List.length_flatten]
    simp only [writeStream]
    rw [this, h.1]
  · intro e; subst e; rfl

example : (writeStream b!"hello\n").1 = b!"000ahello\n" := by decide

/-! ### C03 -/

/-- **C03**, with bytes left from before: these come first. -/
theorem C03_stream_left (ds : List Bytes) (hs : ∀ d ∈ ds, d.length ≤ 65516) (t : Packet)
    (ht : t = .flush ∨ t = .delim) (w : Bytes) (hF : Frames (ds.map .data ++ [t]) w)
    (rest : Bytes) (r : Rdr) (hi : r.input = w ++ rest)
    (sizes : Nat → Nat) (hpos : ∀ i, 0 < sizes i) :
    ∃ (k : Nat) (outs : List Bytes) (r' : Rdr),
      reads sizes k r = some (outs, r') ∧ (∀ o ∈ outs, o ≠ []) ∧ outs.flatten = r.pending ++ ds.flatten ∧
      (∀ i (h : i < outs.length), (outs[i]).length ≤ sizes i) ∧
      r'.read (sizes k) = (.ok [], { r with input := rest, pending := [] }) := by
  obtain ⟨u, v, rfl, hu, hv⟩ := frames_split hF
  obtain ⟨k, outs, ds', w', h1, h2, h3, h4, h5, h6, h7, h8⟩ :=
    reads_data _ ds u (v ++ rest) sizes r rfl hu hs (by rw [hi, List.append_assoc]) hpos
  refine ⟨k, outs, _, h1, h3, h4, h8, ?_⟩
  have hv' := frames_singleton hv
  have hlen := frames_length h5
  simp only [Rdr.read, List.length_nil, Nat.zero_min, Nat.lt_irrefl, if_false, gt_iff_lt,
    Rdr.readLoop]
  rcases readLoopF_data ds' w' (v ++ rest) ((w' ++ (v ++ rest)).length + 1) (sizes k)
    { r with input := w' ++ (v ++ rest), pending := [] } h5 h7 rfl rfl (by simp at hlen ⊢; omega)
    with ⟨_, he⟩ | ⟨d, ds2, w2, hd, hcat, _⟩
  · rw [he]
    obtain ⟨g, hg⟩ : ∃ g, (w' ++ (v ++ rest)).length + 1 - ds'.length = g + 1 :=
      ⟨(w' ++ (v ++ rest)).length - ds'.length, by simp at hlen ⊢; omega⟩
    rw [hg, readLoopF_end ht hv' g (sizes k) _ rfl]
  · rw [h6] at hcat
    exact absurd (List.append_eq_nil_iff.mp hcat.symm).1 hd

/-- **C03.** Reading data packets ended by `t` with any positive buffer sizes: finitely many
non-empty pieces (none larger than its buffer) whose concatenation is the payload, then 0, and the
reader is right behind the terminator with nothing buffered. -/
theorem C03_stream_read (ds : List Bytes) (hs : ∀ d ∈ ds, d.length ≤ 65516) (t : Packet)
    (ht : t = .flush ∨ t = .delim) (w : Bytes) (hF : Frames (ds.map .data ++ [t]) w)
    (rest : Bytes) (r : Rdr) (hi : r.input = w ++ rest) (hp : r.pending = [])
    (sizes : Nat → Nat) (hpos : ∀ i, 0 < sizes i) :
    ∃ (k : Nat) (outs : List Bytes) (r' : Rdr),
      reads sizes k r = some (outs, r') ∧ (∀ o ∈ outs, o ≠ []) ∧ outs.flatten = ds.flatten ∧
      (∀ i (h : i < outs.length), (outs[i]).length ≤ sizes i) ∧
      r'.read (sizes k) = (.ok [], { r with input := rest, pending := [] }) := by
  have := C03_stream_left ds hs t ht w hF rest r hi sizes hpos
  rwa [hp] at this

/-- A concrete instance: two packets, one of them empty, read one byte at a time and with a
large buffer. -/
example : reads (fun _ => 1) 3 (Rdr.new b!"0006ab00040005c0000xyz" eofErr true) =
    some ([b!"a", b!"b", b!"c"], { Rdr.new b!"0000xyz" eofErr true with pending := [] }) := by
  decide +kernel
example : Frames ([b!"ab", [], b!"c"].map .data ++ [.flush]) b!"0006ab00040005c0000" :=
  Frames.cons (Frame.data b!"0006" b!"ab" ⟨rfl, by decide⟩)
    (Frames.cons (Frame.data b!"0004" [] ⟨rfl, by decide⟩)
      (Frames.cons (Frame.data b!"0005" b!"c" ⟨rfl, by decide⟩)
        (Frames.cons Frame.flush Frames.nil)))

/-! ### C04 -/

/-- The full property: a zero-length read returns 0 and does not change what later reads return. -/
def ZeroReadHarmless : Prop :=
  ∀ r : Rdr, ∃ r', r.read 0 = (.ok [], r') ∧
    ∀ (sizes : Nat → Nat) (k : Nat), (reads sizes k r').map (·.1) = (reads sizes k r).map (·.1)

/-- **C04 is false of the code**: with the bytes of a packet buffered, a zero-length read fetches
the next packet over them, and they are lost. -/
theorem C04_zero_read_refuted : ¬ ZeroReadHarmless := by
  intro h
  obtain ⟨r', h1, h2⟩ := h ⟨b!"0005b0000", b!"a", eofErr, true⟩
  have hr : r' = ((⟨b!"0005b0000", b!"a", eofErr, true⟩ : Rdr).read 0).2 := by rw [h1]
  have := h2 (fun _ => 10) 1
  rw [hr] at this
  revert this
  decide +kernel

/-- A zero-length read also swallows the end of the data. -/
theorem C04_zero_read_eats_terminator :
    (⟨b!"00000005x0000", [], eofErr, true⟩ : Rdr).read 0 =
      (.ok [], ⟨b!"0005x0000", [], eofErr, true⟩) := by
  decide +kernel

/-- What is true: with nothing buffered and a non-empty data packet next, a zero-length read only
buffers that packet, and later reads return the same pieces and leave the same reader. Missing:
states with buffered bytes or with a terminator next, where the property fails. -/
theorem C04_zero_read_partial (r : Rdr) (d w tl : Bytes) (hd : d ≠ []) (hs : d.length ≤ 65516)
    (hf : Frame (.data d) w) (hi : r.input = w ++ tl) (hp : r.pending = []) :
    ∃ r', r.read 0 = (.ok [], r') ∧
      ∀ (sizes : Nat → Nat) (k : Nat), (∀ i, 0 < sizes i) → 0 < k →
        reads sizes k r' = reads sizes k r := by
  have hone := readOne_frame hf (p := .data d) hs r tl hi
  have hread : ∀ n, r.read n = (.ok (d.take n), { r with input := tl, pending := d.drop n }) := by
    intro n
    simp only [Rdr.read, hp, List.length_nil, Nat.zero_min, gt_iff_lt, Nat.lt_irrefl, if_false,
      Rdr.readLoop, Rdr.readLoopF, hone, hd]
    by_cases hn : n ≥ maxPacketLen
    · have : d.length ≤ n := Nat.le_trans hs hn
      simp only [hn, if_true]
      rw [List.take_of_length_le this, List.drop_of_length_le this]
    · simp only [hn, if_false]
  refine ⟨{ r with input := tl, pending := d }, by rw [hread]; simp, ?_⟩
  intro sizes k hpos hk
  obtain ⟨j, rfl⟩ : ∃ j, k = j + 1 := ⟨k - 1, by omega⟩
  have h0 := hpos 0
  have hdl := List.length_pos_iff.mpr hd
  have : ({ r with input := tl, pending := d } : Rdr).read (sizes 0) = r.read (sizes 0) := by
    rw [hread]
    simp only [Rdr.read]
    rw [if_pos (by show min d.length (sizes 0) > 0; omega)]
    by_cases hn : d.length ≤ sizes 0
    · rw [Nat.min_eq_left hn, List.take_of_length_le (Nat.le_refl _), List.take_of_length_le hn,
        List.drop_of_length_le (Nat.le_refl _), List.drop_of_length_le hn]
    · rw [Nat.min_eq_right (by omega)]
  simp only [reads, this]

example : Frame (.data b!"b") b!"0005b" := Frame.data b!"0005" b!"b" ⟨rfl, by decide⟩

/-! ### C05 -/

/-- The full property. -/
def HeaderStrict (checked : Bool) : Prop :=
  ∀ (h : Bytes) (n : Nat), parseHeader checked h = .ok n ↔ IsHeader h n

/-- **C05 is false of the code**, in both build profiles: `:` is accepted as a digit 10. -/
theorem C05_header_refuted (checked : Bool) : ¬ HeaderStrict checked := by
  intro h
  have h1 : parseHeader checked b!"000:" = .ok 10 := by cases checked <;> decide +kernel
  have h2 := (h _ _).mp h1
  exact absurd h2.2 (by decide)

/-- Worse, `g` at the front overflows: a panic when overflow checks are on, and otherwise the
header `fg00` is taken for a flush packet. -/
theorem C05_overflow : parseHeader true b!"fg00" = .panic ∧ parseHeader false b!"fg00" = .ok 0 := by
  decide +kernel

/-- The bytes the reader wrongly accepts besides hexadecimal digits. -/
def lax (x : UInt8) : Prop := x = 58 ∨ x = 103

theorem headerDigit_cases (x : UInt8) :
    lax x ∨ headerDigit x = hexDigits.idxOf? x := by
  have := forall_u8 (fun x => decide (x = 58 ∨ x = 103) || decide (headerDigit x = hexDigits.idxOf? x))
    (by decide +kernel) x
  simpa [lax] using this

/-- What is true: on headers without `:` and `g` the parser is exact, every rejected header gives
`BadPktlineHeader`, and no header outside `[0-9:a-g]{4}` is accepted. Missing: headers containing
`:` or `g`. -/
theorem C05_header_partial (checked : Bool) (h : Bytes) :
    ((∀ x ∈ h, ¬ lax x) → ∀ n, parseHeader checked h = .ok n ↔ IsHeader h n) ∧
    ((∀ x ∈ h, ¬ lax x) → (¬ ∃ n, IsHeader h n) →
      parseHeader checked h = .err (Err.simple .badPktlineHeader)) ∧
    (∀ n, parseHeader checked h = .ok n →
      h.length = 4 ∧ ∀ x ∈ h, lax x ∨ x ∈ hexDigits) := by
  have key : (∀ x ∈ h, ¬ lax x) →
      (∃ n, IsHeader h n) ∨ parseHeader checked h = .err (Err.simple .badPktlineHeader) := by
    intro hl
    match h, hl with
    | [x, y, z, t], hl =>
      have hx := (headerDigit_cases x).resolve_left (hl x (by simp))
      have hy := (headerDigit_cases y).resolve_left (hl y (by simp))
      have hz := (headerDigit_cases z).resolve_left (hl z (by simp))
      have ht := (headerDigit_cases t).resolve_left (hl t (by simp))
      cases ha : hexDigits.idxOf? x with
      | none => right; simp [parseHeader, hx, ha]
      | some a =>
        cases hb : hexDigits.idxOf? y with
        | none => right; simp [parseHeader, hy, hb]
        | some b =>
          cases hc : hexDigits.idxOf? z with
          | none => right; simp [parseHeader, hz, hc]
          | some c =>
            cases hd : hexDigits.idxOf? t with
            | none => right; simp [parseHeader, ht, hd]
            | some d =>
              left
              exact ⟨_, rfl, by simp [hexValue?, ha, hb, hc, hd]; rfl⟩
    | [], _ => exact .inr rfl
    | [_], _ => exact .inr rfl
    | [_, _], _ => exact .inr rfl
    | [_, _, _], _ => exact .inr rfl
    | _ :: _ :: _ :: _ :: _ :: _, _ => exact .inr rfl
  refine ⟨?_, ?_, ?_⟩
  · intro hl n
    constructor
    · intro hp
      rcases key hl with ⟨m, hm⟩ | he
      · rw [parseHeader_isHeader checked hm] at hp
        cases hp; exact hm
      · rw [he] at hp; cases hp
    · exact parseHeader_isHeader checked
  · intro hl hn
    exact (key hl).resolve_left hn
  · intro n hp
    match h, hp with
    | [x, y, z, t], hp =>
      refine ⟨rfl, ?_⟩
      have one : ∀ x, (headerDigit x).isSome → lax x ∨ x ∈ hexDigits := by
        intro x hx
        rcases headerDigit_cases x with h | h
        · exact .inl h
        · right
          rw [h] at hx
          cases hi : hexDigits.idxOf? x with
          | none => simp [hi] at hx
          | some v =>
            have := List.isSome_idxOf? (l := hexDigits) (a := x)
            rw [hi] at this
            exact this.mp rfl
      have dig : ∀ {q : Option Nat}, q ≠ none → q.isSome := by
        intro q hq; cases q with
        | none => exact absurd rfl hq
        | some _ => rfl
      intro u hu
      apply one; apply dig; intro hnone
      have : parseHeader checked [x, y, z, t] = .err (Err.simple .badPktlineHeader) := by
        simp only [List.mem_cons, List.not_mem_nil, or_false] at hu
        simp only [parseHeader]
        rcases hu with rfl | rfl | rfl | rfl
        · simp [hnone]
        · simp [hnone]
        · simp [hnone]
        · simp [hnone]
      rw [this] at hp; cases hp
    | [], hp => cases hp
    | [_], hp => cases hp
    | [_, _], hp => cases hp
    | [_, _, _], hp => cases hp
    | _ :: _ :: _ :: _ :: _ :: _, hp => cases hp

example : (∀ x ∈ b!"00ff", ¬ lax x) ∧ IsHeader b!"00ff" 255 := by
  refine ⟨?_, rfl, by decide⟩
  intro x hx
  simp [lax] at hx ⊢
  rcases hx with rfl | rfl | rfl <;> decide

/-! ### C06 -/

theorem readOne_small {r r' : Rdr} {d : Bytes} (h : r.readOne = (.ok (.data d), r')) :
    d.length ≤ 65516 := by
  unfold Rdr.readOne at h
  split at h
  · cases h
  · split at h
    · cases h
    · cases h
    · split at h
      · cases h
      · split at h
        · cases h
        · split at h
          · cases h
          · split at h
            · cases h
            · rename_i hm
              simp only [maxPacketLen] at hm
              split at h
              · cases h
              · rename_i he
                cases h
                have := (readExact_ok he).1
                omega

/-- **C06.** No header (well formed or not) makes the streaming reader take a packet of more than
65516 bytes, a single `read` never returns more than 65516 new bytes, and the reserved lengths 2
and 3 are refused by both readers with `BadPktlineHeader`. -/
theorem C06_oversized_reserved (r : Rdr) :
    (∀ d r', r.readOne = (.ok (.data d), r') → d.length ≤ 65516) ∧
    (∀ h rest n, r.input = h ++ rest → IsHeader h n → n > 65520 →
      r.readOne = (.err (Err.simple .badPktlineHeader), { r with input := rest })) ∧
    (∀ h rest n, r.input = h ++ rest → IsHeader h n → n = 2 ∨ n = 3 →
      r.readOne = (.err (Err.simple .badPktlineHeader), { r with input := rest }) ∧
      r.readPacket = (.err (Err.simple .badPktlineHeader), { r with input := rest })) := by
  refine ⟨fun d r' h => readOne_small h, ?_, ?_⟩
  · intro h rest n hi hh hn
    rw [readOne_header r h rest n hh hi]
    rw [if_neg (by omega), if_neg (by omega), if_neg (by omega), if_pos hn]
  · intro h rest n hi hh hn
    rw [readOne_header r h rest n hh hi, readPacket_header r h rest n hh hi]
    rw [if_neg (by omega), if_neg (by omega), if_pos hn, if_neg (by omega), if_neg (by omega),
      if_pos hn]
    exact ⟨rfl, rfl⟩

theorem readLoopF_small : ∀ (f n : Nat) (r r' : Rdr) (d : Bytes), r.pending.length ≤ 65516 →
    r.readLoopF f n = (.ok d, r') → d.length ≤ 65516 ∧ r'.pending.length ≤ 65516
  | 0, _, _, _, _, _, h => by cases h
  | f + 1, n, r, r', d, hp, h => by
    have fr : ∀ {res : Res Packet} {r1 : Rdr}, r.readOne = (res, r1) → r1.pending = r.pending :=
      fun h1 => (readOne_adv h1).pending
    unfold Rdr.readLoopF at h
    split at h
    · rename_i h1; cases h; refine ⟨by simp, by rw [fr h1]; exact hp⟩
    · rename_i h1; cases h; refine ⟨by simp, by rw [fr h1]; exact hp⟩
    · rename_i dd r1 h1
      have hl := readOne_small h1
      split at h
      · split at h
        · exact readLoopF_small f n _ r' d (by rw [fr h1]; exact hp) h
        · cases h; exact ⟨hl, by rw [fr h1]; exact hp⟩
      · split at h
        · exact readLoopF_small f n _ r' d (by rw [fr h1]; exact hp) h
        · cases h; refine ⟨by simp; omega, by simp; omega⟩
    · cases h
    · cases h

/-- At the level of `io::Read::read`: on any input, from any state the reader can reach, no call
returns more than 65516 bytes. -/
theorem C06_read_bounded (n : Nat) (r r' : Rdr) (d : Bytes) (hp : r.pending.length ≤ 65516)
    (h : r.read n = (.ok d, r')) : d.length ≤ 65516 ∧ r'.pending.length ≤ 65516 := by
  unfold Rdr.read at h
  simp only at h
  split at h
  · cases h; refine ⟨by simp; omega, by simp; omega⟩
  · exact readLoopF_small _ _ _ _ _ hp h

example : IsHeader b!"fff1" 65521 ∧ IsHeader b!"0002" 2 ∧ IsHeader b!"0003" 3 :=
  ⟨⟨rfl, by decide⟩, ⟨rfl, by decide⟩, ⟨rfl, by decide⟩⟩

/-! ### C07 -/

/-- A proper prefix of a sequence of frames is some whole frames and a proper prefix of one. -/
theorem frames_prefix {ps : List Packet} {w : Bytes} (hF : Frames ps w) :
    ∀ (inp : Bytes), inp <+: w → inp ≠ w →
    ∃ (ps1 : List Packet) (p : Packet) (ps2 : List Packet) (w1 wp part : Bytes),
      ps = ps1 ++ p :: ps2 ∧ Frames ps1 w1 ∧ Frame p wp ∧ part <+: wp ∧ part ≠ wp ∧
      inp = w1 ++ part := by
  induction hF with
  | nil =>
    intro inp hp hne
    exact absurd (List.prefix_nil.mp hp) hne
  | @cons p ps w ws hf hFs ih =>
    intro inp hp hne
    by_cases hl : inp.length < w.length
    · refine ⟨[], p, ps, [], w, inp, rfl, Frames.nil, hf, ?_, ?_, rfl⟩
      · exact List.prefix_of_prefix_length_le hp (List.prefix_append _ _) (by omega)
      · intro e; subst e; omega
    · have hw : w <+: inp :=
        List.prefix_of_prefix_length_le (List.prefix_append _ _) hp (by omega)
      obtain ⟨inp', rfl⟩ := hw
      have hp' : inp' <+: ws := (List.prefix_append_right_inj w).mp hp
      have hne' : inp' ≠ ws := fun e => hne (by rw [e])
      obtain ⟨ps1, q, ps2, w1, wp, part, rfl, h2, h3, h4, h5, rfl⟩ := ih inp' hp' hne'
      exact ⟨p :: ps1, q, ps2, w ++ w1, wp, part, rfl, Frames.cons hf h2, h3, h4, h5,
        by rw [List.append_assoc]⟩

/-- **C07.** If the stream stops (with error kind `fin.kind`) anywhere before the end of the
terminator, any positive read schedule returns non-empty pieces forming a prefix of the data and
then an error of that kind; end of data is never reported. For an ended stream that kind is
`UnexpectedEof`. -/
theorem C07_truncation_detected (ds : List Bytes) (hs : ∀ d ∈ ds, d.length ≤ 65516) (t : Packet)
    (ht : t = .flush ∨ t = .delim) (w : Bytes) (hF : Frames (ds.map .data ++ [t]) w)
    (r : Rdr) (hpre : r.input <+: w) (hne : r.input ≠ w) (hp : r.pending = [])
    (sizes : Nat → Nat) (hpos : ∀ i, 0 < sizes i) :
    ∃ (k : Nat) (outs : List Bytes) (r' : Rdr) (e : Err) (r'' : Rdr),
      reads sizes k r = some (outs, r') ∧ (∀ o ∈ outs, o ≠ []) ∧ outs.flatten <+: ds.flatten ∧
      r'.read (sizes k) = (.err e, r'') ∧ e.ioKind = r.fin.kind := by
  obtain ⟨ps1, p, ps2, w1, wp, part, hps, hF1, hf, hpp, hpn, hi⟩ := frames_prefix hF r.input hpre hne
  -- the whole frames before the cut are data packets
  obtain ⟨ds1, ds2, hds, hps1, hsm⟩ : ∃ ds1 ds2 : List Bytes, ds = ds1 ++ ds2 ∧
      ps1 = ds1.map .data ∧ p.small := by
    have hle : ps1.length ≤ ds.length := by
      have := congrArg List.length hps
      simp at this; omega
    have hps1 : ps1 = (ds.map Packet.data).take ps1.length := by
      have := congrArg (List.take ps1.length) hps
      rw [List.take_append_of_le_length (by simpa using hle), List.take_append_of_le_length
        (Nat.le_refl _), List.take_of_length_le (Nat.le_refl _)] at this
      exact this.symm
    refine ⟨ds.take ps1.length, ds.drop ps1.length, (List.take_append_drop _ _).symm, ?_, ?_⟩
    · rw [List.map_take]; exact hps1
    · have hmem : p ∈ ds.map Packet.data ++ [t] := by rw [hps]; simp
      rcases List.mem_append.mp hmem with h | h
      · obtain ⟨d, hd, rfl⟩ := List.mem_map.mp h
        exact hs d hd
      · simp at h; subst h
        rcases ht with rfl | rfl <;> trivial
  have hs1 : ∀ d ∈ ds1, d.length ≤ 65516 := fun d hd => hs d (by rw [hds]; simp [hd])
  rw [hps1] at hF1
  obtain ⟨k, outs, ds', w', h1, h2, h3, h4, h5, h6, h7, h8⟩ :=
    reads_data _ ds1 w1 part sizes r rfl hF1 hs1 hi hpos
  have hlen := frames_length h5
  refine ⟨k, outs, _, Err.ofIo (Err.ofIo r.fin).toIo, { r with input := [], pending := [] }, h1, h3, ?_, ?_, rfl⟩
  · rw [h4, hp, hds]; simp
  · simp only [Rdr.read, List.length_nil, Nat.zero_min, Nat.lt_irrefl, if_false, gt_iff_lt,
      Rdr.readLoop]
    rcases readLoopF_data ds' w' part ((w' ++ part).length + 1) (sizes k)
      { r with input := w' ++ part, pending := [] } h5 h7 rfl rfl (by simp at hlen ⊢; omega)
      with ⟨_, he⟩ | ⟨d, ds2, w2, hd, hcat, _⟩
    · rw [he]
      obtain ⟨g, hg⟩ : ∃ g, (w' ++ part).length + 1 - ds'.length = g + 1 :=
        ⟨(w' ++ part).length - ds'.length, by simp at hlen ⊢; omega⟩
      rw [hg, readLoopF_truncated hf hsm hpp hpn g (sizes k) _ rfl]
    · rw [h6] at hcat
      exact absurd (List.append_eq_nil_iff.mp hcat.symm).1 hd

/-- A concrete instance: the stream ends after the header of the terminator's first two bytes. -/
example : (Rdr.new b!"0006ab00" eofErr true).input <+: b!"0006ab0000" ∧
    Frames ([b!"ab"].map .data ++ [.flush]) b!"0006ab0000" :=
  ⟨⟨b!"00", rfl⟩, Frames.cons (Frame.data b!"0006" b!"ab" ⟨rfl, by decide⟩)
    (Frames.cons Frame.flush Frames.nil)⟩

end Verif
