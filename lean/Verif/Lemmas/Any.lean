import Verif.Spec.Any
import Verif.Lemmas.Cut
import Verif.Props.PktlineExact
/-! Reading any bytes. -/
namespace Verif
open Spec

variable {ch : Nat → Choice} {cfg : Cfg} {s : Store} {mode : Mode} {I : World → Prop} {r : Rdr}

/-! ### Packets -/

theorem lax_parse (h : Bytes) (n : Nat) : parseHeader false h = .ok n ↔ Lax h n := by
  rw [(C05_exact_partial false h).1 n]
  constructor
  · rintro ⟨a, b, c, d, h1, h2, _⟩; exact ⟨a, b, c, d, h1, h2⟩
  · rintro ⟨a, b, c, d, h1, h2⟩; exact ⟨a, b, c, d, h1, h2, by simp⟩

theorem lax_length {h : Bytes} {n : Nat} (hl : Lax h n) : h.length = 4 := by
  obtain ⟨a, b, c, d, h1, _⟩ := hl
  have := congrArg List.length h1
  simpa using this

theorem lax_lt {h : Bytes} {n : Nat} (hl : Lax h n) : n < 65536 := by
  obtain ⟨a, b, c, d, _, rfl⟩ := hl
  exact Nat.mod_lt _ (by omega)

theorem lax_unique {h : Bytes} {n m : Nat} (h1 : Lax h n) (h2 : Lax h m) : n = m := by
  have := ((lax_parse h n).mpr h1).symm.trans ((lax_parse h m).mpr h2)
  simpa using this

theorem lax_dec (h : Bytes) : (∃ n, Lax h n) ∨ parseHeader false h = .err (Err.simple .badPktlineHeader) := by
  obtain ⟨-, -, h3, -⟩ := C05_exact_partial false h
  by_cases hx : ∃ a b c d, LaxHeader h a b c d
  · obtain ⟨a, b, c, d, hh⟩ := hx
    exact .inl ⟨_, a, b, c, d, hh, rfl⟩
  · exact .inr (h3.mp hx)

theorem laxFrame_length {p : Packet} {w : Bytes} (h : LaxFrame p w) : 4 ≤ w.length := by
  cases h with
  | flush h => rw [lax_length h]; omega
  | delim h => rw [lax_length h]; omega
  | data h => rw [List.length_append, lax_length h]; omega

theorem laxFrames_length {ps : List Packet} {w : Bytes} (h : LaxFrames ps w) : 4 * ps.length ≤ w.length := by
  induction h with
  | nil => simp
  | cons h _ ih => have := laxFrame_length h; simp; omega

theorem laxFrames_append {ps qs : List Packet} {u v : Bytes} (h1 : LaxFrames ps u) (h2 : LaxFrames qs v) :
    LaxFrames (ps ++ qs) (u ++ v) := by
  induction h1 with
  | nil => exact h2
  | cons h _ ih => rw [List.append_assoc]; exact .cons h ih

theorem laxFrames_split {ps qs : List Packet} {w : Bytes} (h : LaxFrames (ps ++ qs) w) :
    ∃ u v, w = u ++ v ∧ LaxFrames ps u ∧ LaxFrames qs v := by
  induction ps generalizing w with
  | nil => exact ⟨[], w, rfl, .nil, h⟩
  | cons p ps ih =>
    cases h with
    | cons h1 h2 =>
      obtain ⟨u, v, rfl, h3, h4⟩ := ih h2
      exact ⟨_ ++ u, v, by simp, .cons h1 h3, h4⟩

theorem laxFrames_first {p : Packet} {ps : List Packet} {w : Bytes} (h : LaxFrames (p :: ps) w) :
    ∃ u v, w = u ++ v ∧ LaxFrame p u ∧ LaxFrames ps v := by
  cases h with
  | cons h1 h2 => exact ⟨_, _, rfl, h1, h2⟩

/-- Every packet that was accepted can also be sent as the format says. -/
theorem laxFrame_frame {p : Packet} {w : Bytes} (h : LaxFrame p w) : Frame p (encPacket p) := by
  cases h with
  | flush => exact .flush
  | delim => exact .delim
  | data h => exact frame_encPacket _ (by rintro d ⟨⟩; have := lax_lt h; omega)

theorem laxFrames_frames {ps : List Packet} {w : Bytes} (h : LaxFrames ps w) : Frames ps (ps.map encPacket).flatten := by
  induction h with
  | nil => exact .nil
  | cons h _ ih => exact .cons (laxFrame_frame h) ih

theorem readExact_at {n : Nat} {a b : Bytes} (hi : r.input = a ++ b) (hn : a.length = n) :
    r.readExact n = (Except.ok a, { r with input := b }) := by
  unfold Rdr.readExact
  rw [if_pos (by rw [hi, List.length_append]; omega), hi, ← hn, List.take_left, List.drop_left]

theorem readPacket_lax {p : Packet} {w rest : Bytes} (hf : LaxFrame p w) (hck : r.checked = false) (hi : r.input = w ++ rest) :
    r.readPacket = (.ok p, { r with input := rest }) := by
  unfold Rdr.readPacket
  cases hf with
  | flush h =>
    rw [readExact_at hi (lax_length h)]
    simp only [hck, (lax_parse _ _).mpr h, if_true]
  | delim h =>
    rw [readExact_at hi (lax_length h)]
    simp only [hck, (lax_parse _ _).mpr h, if_true]
    rfl
  | @data h d hl =>
    rw [List.append_assoc] at hi
    rw [readExact_at hi (lax_length hl)]
    simp only [hck, (lax_parse _ _).mpr hl]
    rw [if_neg (by omega), if_neg (by omega), if_neg (by omega),
      readExact_at (r := { r with input := d ++ rest, checked := false }) rfl (a := d) (b := rest) (by omega)]

theorem readOne_lax {p : Packet} {w rest : Bytes} (hf : LaxFrame p w) (hfit : Fits p) (hck : r.checked = false)
    (hi : r.input = w ++ rest) : r.readOne = (.ok p, { r with input := rest }) := by
  unfold Rdr.readOne
  cases hf with
  | flush h =>
    rw [readExact_at hi (lax_length h)]
    simp only [hck, (lax_parse _ _).mpr h, if_true]
  | delim h =>
    rw [readExact_at hi (lax_length h)]
    simp only [hck, (lax_parse _ _).mpr h, if_true]
    rfl
  | @data h d hl =>
    rw [List.append_assoc] at hi
    rw [readExact_at hi (lax_length hl)]
    simp only [hck, (lax_parse _ _).mpr hl]
    have : d.length ≤ 65516 := hfit
    rw [if_neg (by omega), if_neg (by omega), if_neg (by omega), if_neg (by simp only [maxPacketLen]; omega),
      readExact_at (r := { r with input := d ++ rest, checked := false }) rfl (a := d) (b := rest) (by omega)]

theorem readPacket_laxPart {t : Bytes} (ht : LaxPart t) (hck : r.checked = false) (hi : r.input = t) :
    r.readPacket = (.err (Err.ofIo r.fin), { r with input := [] }) := by
  unfold Rdr.readPacket
  rcases ht with ht | ⟨h, d, n, rfl, hl, hn⟩
  · unfold Rdr.readExact
    rw [if_neg (by rw [hi]; omega)]
  · rw [readExact_at hi (lax_length hl)]
    simp only [hck, (lax_parse _ _).mpr hl]
    rw [if_neg (by omega), if_neg (by omega), if_neg (by omega)]
    unfold Rdr.readExact
    rw [if_neg (by simp only; omega)]

theorem readOne_laxPart {t : Bytes} (ht : LaxPart t) (hlong : ¬ TooLong t) (hck : r.checked = false) (hi : r.input = t) :
    r.readOne = (.err (Err.ofIo r.fin), { r with input := [] }) := by
  unfold Rdr.readOne
  rcases ht with ht | ⟨h, d, n, rfl, hl, hn⟩
  · unfold Rdr.readExact
    rw [if_neg (by rw [hi]; omega)]
  · rw [readExact_at hi (lax_length hl)]
    simp only [hck, (lax_parse _ _).mpr hl]
    have : n ≤ 65520 := by
      by_contra hc
      exact hlong ⟨h, n, d, rfl, hl, by omega⟩
    rw [if_neg (by omega), if_neg (by omega), if_neg (by omega), if_neg (by simp only [maxPacketLen]; omega)]
    unfold Rdr.readExact
    rw [if_neg (by simp only; omega)]

abbrev badErr : Err := Err.simple .badPktlineHeader

theorem readPacket_bad {h rest : Bytes} (hb : BadHeader h) (hck : r.checked = false) (hi : r.input = h ++ rest) :
    r.readPacket = (.err badErr, { r with input := rest }) := by
  unfold Rdr.readPacket
  rw [readExact_at hi hb.1]
  rcases lax_dec h with ⟨n, hn⟩ | he
  · simp only [hck, (lax_parse _ _).mpr hn]
    have := hb.2 n hn
    rw [if_neg (by omega), if_neg (by omega), if_pos (by omega)]
  · simp only [hck, he]

theorem readOne_bad {h rest : Bytes} (hb : BadHeader h) (hck : r.checked = false) (hi : r.input = h ++ rest) :
    r.readOne = (.err badErr, { r with input := rest }) := by
  unfold Rdr.readOne
  rw [readExact_at hi hb.1]
  rcases lax_dec h with ⟨n, hn⟩ | he
  · simp only [hck, (lax_parse _ _).mpr hn]
    have := hb.2 n hn
    rw [if_neg (by omega), if_neg (by omega), if_pos (by omega)]
  · simp only [hck, he]

theorem readOne_tooLong {h rest : Bytes} {n : Nat} (hl : Lax h n) (hn : 65520 < n) (hck : r.checked = false)
    (hi : r.input = h ++ rest) : r.readOne = (.err badErr, { r with input := rest }) := by
  unfold Rdr.readOne
  rw [readExact_at hi (lax_length hl)]
  simp only [hck, (lax_parse _ _).mpr hl]
  rw [if_neg (by omega), if_neg (by omega), if_neg (by omega), if_pos (by simp only [maxPacketLen]; omega)]

/-! ### Arguments -/

/-- What `readToType` finds after packets that it does not look for. -/
theorem readToTypeF_after (typ : Packet) (x : Res (List Bytes)) (tail : Bytes) (r1 : Rdr) :
    ∀ (ps : List Packet) (f : Nat) (r : Rdr) (w : Bytes),
    LaxFrames ps w → typ ∉ ps → r.input = w ++ tail → r.checked = false → ps.length < f →
    (∀ g, readToTypeF typ (g + 1) { r with input := tail } = (x, r1)) →
    readToTypeF typ f r = (match x with
      | .ok l => (.ok ((ps.map fun p => p.data?.getD []) ++ l), r1)
      | .err e => (.err e, r1)
      | .panic => (.panic, r1))
  | _, 0, _, _, _, _, _, _, h, _ => by omega
  | [], f + 1, r, w, hF, _, hi, _, _, hx => by
    cases hF
    rw [List.nil_append] at hi
    have := hx f
    have e : ({ r with input := tail } : Rdr) = r := by rw [← hi]
    rw [e] at this
    rw [this]
    cases x <;> simp
  | q :: ps, f + 1, r, w, hF, hn, hi, hck, hl, hx => by
    obtain ⟨w1, ws, rfl, hf1, hF⟩ := laxFrames_first hF
    rw [List.append_assoc] at hi
    have hne : q ≠ typ := fun h => hn (by simp [h])
    have ih := readToTypeF_after typ x tail r1 ps f { r with input := ws ++ tail } ws hF
      (fun h => hn (List.mem_cons_of_mem _ h)) rfl hck (by simp only [List.length_cons] at hl; omega) hx
    simp only [readToTypeF, Rdr.next, readPacket_lax hf1 hck hi, if_neg hne, ih]
    cases x <;> simp

theorem readToType_after {typ : Packet} {x : Res (List Bytes)} {tail w : Bytes} {r1 : Rdr} {ps : List Packet}
    (hF : LaxFrames ps w) (hn : typ ∉ ps) (hi : r.input = w ++ tail) (hck : r.checked = false)
    (hx : ∀ g, readToTypeF typ (g + 1) { r with input := tail } = (x, r1)) :
    readToType typ r = (match (generalizing := false) x with
      | .ok l => (.ok ((ps.map fun p => p.data?.getD []) ++ l), r1)
      | .err e => (.err e, r1)
      | .panic => (.panic, r1)) := by
  refine readToTypeF_after typ x tail r1 ps _ r w hF hn hi hck ?_ hx
  have := laxFrames_length hF
  rw [hi]; simp; omega

theorem readToType_lax {typ : Packet} {ps : List Packet} {w rest : Bytes} (hF : LaxFrames (ps ++ [typ]) w) (hn : typ ∉ ps)
    (hi : r.input = w ++ rest) (hck : r.checked = false) :
    readToType typ r = (.ok (ps.map fun p => p.data?.getD []), { r with input := rest }) := by
  obtain ⟨u, v, rfl, hu, hv⟩ := laxFrames_split hF
  obtain ⟨v1, v2, rfl, hv1, hv2⟩ := laxFrames_first hv
  cases hv2
  have := readToType_after (r := r) (typ := typ) (x := .ok []) (r1 := { r with input := rest }) (tail := v1 ++ rest) hu hn
    (by simpa using hi) hck fun g => by
      simp only [readToTypeF, Rdr.next, readPacket_lax (r := { r with input := v1 ++ rest }) hv1 hck rfl, if_true]
  simpa using this

theorem readToType_laxPart {typ : Packet} {ps : List Packet} {w t : Bytes} (hF : LaxFrames ps w) (hn : typ ∉ ps)
    (ht : LaxPart t) (hi : r.input = w ++ t) (hck : r.checked = false) (hk : r.fin.kind = .unexpectedEof) :
    readToType typ r = (.ok (ps.map fun p => p.data?.getD []), { r with input := [] }) := by
  have := readToType_after (r := r) (typ := typ) (x := .ok []) (r1 := { r with input := [] }) (tail := t) hF hn
    hi hck fun g => by
      have hk' : (Err.ofIo r.fin).ioKind = .unexpectedEof := hk
      simp only [readToTypeF, Rdr.next, readPacket_laxPart (r := { r with input := t }) ht hck rfl, hk', if_true]
  simpa using this

theorem readToType_bad {typ : Packet} {ps : List Packet} {w h rest : Bytes} (hF : LaxFrames ps w) (hn : typ ∉ ps)
    (hb : BadHeader h) (hi : r.input = w ++ (h ++ rest)) (hck : r.checked = false) :
    readToType typ r = (.err badErr, { r with input := rest }) := by
  have := readToType_after (r := r) (typ := typ) (x := .err badErr) (r1 := { r with input := rest }) (tail := h ++ rest) hF hn
    hi hck fun g => by
      have hk' : badErr.ioKind ≠ .unexpectedEof := by decide
      simp only [readToTypeF, Rdr.next, readPacket_bad (r := { r with input := h ++ rest }) hb hck rfl, if_neg hk']
  simpa using this

/-! ### The data of an upload -/

theorem read_pos {n : Nat} (hn : 0 < n) (hp : r.pending ≠ []) :
    r.read n = (.ok (r.pending.take n), { r with pending := r.pending.drop n }) := by
  have : 0 < r.pending.length := List.length_pos_iff.mpr hp
  unfold Rdr.read
  simp only
  rw [if_pos (by omega)]
  by_cases h : n ≤ r.pending.length
  · rw [Nat.min_eq_right h]
  · rw [Nat.min_eq_left (by omega), List.take_length, List.drop_length, List.take_of_length_le (by omega),
      List.drop_of_length_le (by omega)]

theorem delivers_pending {data rest : Bytes} {x : Res Bytes} : ∀ (m : Nat) (r : Rdr), r.pending.length = m →
    Delivers { r with pending := [] } data x rest → Delivers r (r.pending ++ data) x rest := by
  intro m
  induction m using Nat.strongRecOn with
  | ind m ih =>
    intro r hm h
    by_cases hp : r.pending = []
    · have e : ({ r with pending := [] } : Rdr) = r := by rw [← hp]
      rw [e] at h
      rw [hp]
      exact h
    intro sizes hpos
    have hlen : 0 < r.pending.length := List.length_pos_iff.mpr hp
    have h0 := hpos 0
    obtain ⟨k, outs, r', h1, h2, h3, h4, h5⟩ := ih (r.pending.drop (sizes 0)).length (by rw [List.length_drop]; omega)
      { r with pending := r.pending.drop (sizes 0) } rfl h (fun i => sizes (i + 1)) (fun i => hpos _)
    refine ⟨k + 1, r.pending.take (sizes 0) :: outs, r', ?_, ?_, ?_, ?_, h5⟩
    · simp only [reads, read_pos h0 hp, h1, Option.map_some]
    · intro o ho
      rcases List.mem_cons.mp ho with rfl | ho
      · intro he
        rcases List.take_eq_nil_iff.mp he with he | he
        · omega
        · exact hp he
      · exact h2 o ho
    · rw [List.flatten_cons, h3, ← List.append_assoc, List.take_append_drop]
    · simp only [List.length_drop] at h4
      omega

theorem read_loop {n : Nat} (hp : r.pending = []) : r.read n = r.readLoop n := by
  unfold Rdr.read
  simp [hp]

theorem delivers_term {t : Packet} {rest : Bytes} (ht : t = .flush ∨ t = .delim) (hp : r.pending = [])
    (h : r.readOne = (.ok t, { r with input := rest })) : Delivers r [] (.ok []) rest := by
  intro sizes hpos
  refine ⟨0, [], r, rfl, by simp, rfl, by omega, ?_⟩
  have e : ({ r with input := rest, pending := [] } : Rdr) = { r with input := rest } := by rw [← hp]
  rw [read_loop hp, Rdr.readLoop, Rdr.readLoopF, h, e]
  rcases ht with rfl | rfl <;> rfl

theorem delivers_err {e : Err} {rest : Bytes} (hp : r.pending = [])
    (h : r.readOne = (.err e, { r with input := rest })) : Delivers r [] (.err (Err.ofIo e.toIo)) rest := by
  intro sizes hpos
  refine ⟨0, [], r, rfl, by simp, rfl, by omega, ?_⟩
  have e' : ({ r with input := rest, pending := [] } : Rdr) = { r with input := rest } := by rw [← hp]
  rw [read_loop hp, Rdr.readLoop, Rdr.readLoopF, h, e']

theorem delivers_cons {d data rest u : Bytes} {x : Res Bytes} (hp : r.pending = []) (hfit : d.length ≤ 65516)
    (h : r.readOne = (.ok (.data d), { r with input := u })) (hlen : u.length + d.length < r.input.length)
    (hd : Delivers { r with input := u } data x rest) : Delivers r (d ++ data) x rest := by
  intro sizes hpos
  by_cases h0 : d = []
  · subst h0
    obtain ⟨k, outs, r', h1, h2, h3, h4, h5⟩ := hd sizes hpos
    have skip : ∀ n, r.read n = ({ r with input := u } : Rdr).read n := by
      intro n
      rw [read_loop hp, read_loop (r := { r with input := u }) hp, Rdr.readLoop, Rdr.readLoop, Rdr.readLoopF, h]
      simp only [if_true, ite_self]
      exact Rdr.readLoop_fuel _ _ _ _ (by simpa using hlen) (by simp)
    simp only at h4
    cases k with
    | zero =>
      simp only [reads, Option.some.injEq, Prod.mk.injEq] at h1
      obtain ⟨rfl, rfl⟩ := h1
      exact ⟨0, [], r, rfl, by simp, h3, by omega, by rw [skip]; exact h5⟩
    | succ k =>
      refine ⟨k + 1, outs, r', ?_, h2, h3, by simp at hlen; omega, h5⟩
      rw [reads] at h1 ⊢
      rw [skip]
      exact h1
  · have hn := hpos 0
    have hread : r.read (sizes 0) = (.ok (d.take (sizes 0)), { r with input := u, pending := d.drop (sizes 0) }) := by
      rw [read_loop hp, Rdr.readLoop, Rdr.readLoopF, h]
      simp only [h0, if_false]
      split
      · rename_i hge
        have hge : 65516 ≤ sizes 0 := hge
        rw [List.take_of_length_le (by omega), List.drop_of_length_le (by omega), ← hp]
      · rfl
    obtain ⟨k, outs, r', h1, h2, h3, h4, h5⟩ := delivers_pending _ { r with input := u, pending := d.drop (sizes 0) } rfl
      (by
        have e : ({ r with input := u, pending := [] } : Rdr) = { r with input := u } := by rw [← hp]
        simp only [e]
        exact hd) (fun i => sizes (i + 1)) (fun i => hpos _)
    refine ⟨k + 1, d.take (sizes 0) :: outs, r', ?_, ?_, ?_, ?_, h5⟩
    · simp only [reads, hread, h1, Option.map_some]
    · intro o ho
      rcases List.mem_cons.mp ho with rfl | ho
      · intro he
        rcases List.take_eq_nil_iff.mp he with he | he
        · omega
        · exact h0 he
      · exact h2 o ho
    · rw [List.flatten_cons, h3, ← List.append_assoc, List.take_append_drop]
    · simp only [List.length_drop] at h4
      omega

/-- Data, and then whatever ends it. -/
theorem delivers_lax {x : Res Bytes} {rest tail : Bytes} : ∀ {ds : List Bytes} {w : Bytes} {r : Rdr},
    (∀ d ∈ ds, d.length ≤ 65516) → LaxFrames (ds.map .data) w → r.checked = false → r.pending = [] → r.input = w ++ tail →
    Delivers { r with input := tail } [] x rest → Delivers r ds.flatten x rest
  | [], w, r, _, hF, _, _, hi, h => by
    cases hF
    rw [List.nil_append] at hi
    have e : ({ r with input := tail } : Rdr) = r := by rw [← hi]
    rw [e] at h
    exact h
  | d :: ds, w, r, hs, hF, hck, hp, hi, h => by
    obtain ⟨w1, ws, rfl, hf1, hF⟩ := laxFrames_first hF
    rw [List.append_assoc] at hi
    rw [List.flatten_cons]
    refine delivers_cons hp (hs d (by simp)) (readOne_lax hf1 (hs d (by simp)) hck hi) ?_
      (delivers_lax (r := { r with input := ws ++ tail }) (fun d hd => hs d (by simp [hd])) hF hck hp rfl h)
    rw [hi]
    cases hf1 with
    | data hl => simp [lax_length hl]; omega

/-! ### The same turn -/

theorem turn_read {ra rb : Rdr} (h : ra.readPacket = rb.readPacket) : turn cfg mode ra = turn cfg mode rb := by
  show Prog.bind (Prog.bind (.ret (ra.readPacket)) _) _ = Prog.bind (Prog.bind (.ret (rb.readPacket)) _) _
  rw [h]

theorem turn_alike {l : Bytes} {ws : List Bytes} {ra rb a b : Rdr} (hl : CommandLine l ws)
    (ha : ra.readPacket = (.ok (.data l), a)) (hb : rb.readPacket = (.ok (.data l), b))
    (hq : ¬ (ws.head?.getD [] = b!"quit" ∧ ws.tail.head? = none))
    (h : dispatch cfg mode (ws.head?.getD []) ws.tail.head? a = dispatch cfg mode (ws.head?.getD []) ws.tail.head? b) :
    turn cfg mode ra = turn cfg mode rb := by
  obtain ⟨hws, hnl⟩ := commandLine_words hl
  rw [turn_data cfg mode _ _ l hnl ha, turn_data cfg mode _ _ l hnl hb, hws, if_neg hq]
  exact M.bind_at (M.attempt_at h)

theorem argCommand_quit {ws : List Bytes} (h : ArgCommand mode ws) : ¬ (ws.head?.getD [] = b!"quit" ∧ ws.tail.head? = none) := by
  cases h <;> simp

theorem dispatch_flush {ws : List Bytes} {a b : Rdr} (hc : ArgCommand mode ws) (h : readToType .flush a = readToType .flush b) :
    dispatch cfg mode (ws.head?.getD []) ws.tail.head? a = dispatch cfg mode (ws.head?.getD []) ws.tail.head? b := by
  have e : readToFlush a = readToFlush b := by
    show Prog.ret (readToType .flush _) = Prog.ret (readToType .flush _)
    rw [h]
  have e' : readToFlushParse a = readToFlushParse b := M.bind_at (M.attempt_at e)
  cases hc with
  | version => exact M.bind_at e
  | verify => exact M.bind_at e
  | get => exact M.bind_at e
  | lock => exact M.bind_at e'
  | listLocks => exact M.bind_at e'
  | unlock => exact M.bind_at e

theorem batch_delim {a b : Rdr} (h : readToType .delim a = readToType .delim b) :
    dispatch cfg mode b!"batch" none a = dispatch cfg mode b!"batch" none b := by
  have e : readToDelim a = readToDelim b := by
    show Prog.ret (readToType .delim _) = Prog.ret (readToType .delim _)
    rw [h]
  cases mode
  · exact M.bind_at (M.bind_at e)
  · exact M.bind_at (M.bind_at e)

theorem batch_flush {as : List Packet} {a a' b b' : Rdr} (has : AreArgs as)
    (h1 : readToType .delim a = (.ok (as.map fun p => p.data?.getD []), a'))
    (h2 : readToType .delim b = (.ok (as.map fun p => p.data?.getD []), b'))
    (h : readToType .flush a' = readToType .flush b') :
    dispatch cfg mode b!"batch" none a = dispatch cfg mode b!"batch" none b := by
  obtain ⟨kv, hkv, rfl⟩ := has
  obtain ⟨m, hm, _⟩ := C09_args_exact kv hkv
  rw [argPackets_data] at h1 h2
  have e : readToFlush a' = readToFlush b' := by
    show Prog.ret (readToType .flush _) = Prog.ret (readToType .flush _)
    rw [h]
  have e' : readToFlushParse a' = readToFlushParse b' := M.bind_at (M.attempt_at e)
  have key : ∀ x y, batchCmd cfg x y a = batchCmd cfg x y b := by
    intro x y
    refine M.bind_at ?_
    unfold readBatch readToDelim
    rw [rdr_ret h1, rdr_ret h2, ofRes_ret hm, ofRes_ret hm]
    exact M.bind_at e'
  cases mode
  · exact key _ _
  · exact key _ _

theorem put_delim {oid : Bytes} {more : List Bytes} {a b : Rdr} (ho : IsOid oid) (h : readToType .delim a = readToType .delim b) :
    dispatch cfg .upload b!"put-object" (oid :: more).head? a = dispatch cfg .upload b!"put-object" (oid :: more).head? b := by
  have e : readToDelim a = readToDelim b := by
    show Prog.ret (readToType .delim _) = Prog.ret (readToType .delim _)
    rw [h]
  show putObject cfg oid _ = putObject cfg oid _
  unfold putObject
  rw [oidNew_ret ho, oidNew_ret ho]
  exact M.bind_at e

/-- The packets of a request, but for an upload with its data. -/
inductive Short (mode : Mode) : List Packet → Prop
  | one {p : Packet} : Short mode [p]
  | args {l : Bytes} {ws : List Bytes} {items : List Packet} : CommandLine l ws → ArgCommand mode ws → .flush ∉ items →
      Short mode (.data l :: items ++ [.flush])
  | batch {l : Bytes} {as items : List Packet} : CommandLine l [b!"batch"] → AreArgs as → .flush ∉ items →
      Short mode (.data l :: as ++ .delim :: items ++ [.flush])
  | batchArgs {l : Bytes} {as : List Packet} : CommandLine l [b!"batch"] → .delim ∉ as →
      Short mode (.data l :: as ++ [.delim])
  | putArgs {l oid : Bytes} {more : List Bytes} {as : List Packet} : mode = .upload →
      CommandLine l (b!"put-object" :: oid :: more) → IsOid oid → .delim ∉ as →
      Short mode (.data l :: as ++ [.delim])

theorem argPackets_flush (kv : List (Bytes × Bytes)) : Packet.flush ∉ argPackets kv := by
  simp [argPackets]

theorem denied_short {ps : List Packet} {code : Nat} {msg : Bytes} (h : Denied mode ps code msg) : Short mode ps := by
  cases h with
  | single _ => exact .one
  | args hl hc _ hn _ => exact .args hl hc hn
  | oid hl hc _ _ =>
    rcases hc with ⟨rfl, rfl⟩ | ⟨rfl, rfl⟩
    · exact .args hl .verify (argPackets_flush _)
    · exact .args hl .get (argPackets_flush _)
  | verify hm hl _ _ _ => subst hm; exact .args hl .verify (argPackets_flush _)
  | lock hm hl _ _ => subst hm; exact .args hl .lock (argPackets_flush _)
  | limit hl _ _ _ => exact .args hl .listLocks (argPackets_flush _)
  | noLimit hl _ _ _ => exact .args hl .listLocks (argPackets_flush _)
  | unlock hm hl _ hn => subst hm; exact .args hl .unlock hn
  | batchArgs hl hn _ => exact .batchArgs hl hn
  | hashAlgo hl ha _ _ _ hn => exact .batch hl ⟨_, ha, rfl⟩ hn
  | @batchLine l kv its ls p rest code msg hl ha _ _ hp _ hn =>
    have := Short.batch (mode := mode) (l := l) (as := argPackets kv) (items := ls.map .data ++ p :: rest) hl ⟨_, ha, rfl⟩
      (by simp [hn, Ne.symm hp])
    simpa using this
  | putOid _ _ _ => exact .one
  | putArgs hm hl ho hn _ => exact .putArgs hm hl ho hn
  | putSize hm hl ho _ _ => exact .putArgs hm hl ho (argPackets_delim _)

theorem means_short {ps : List Packet} {q : Request} (h : Spec.Means mode ps q) (hq : ∀ o n d, q ≠ .put o n d) : Short mode ps := by
  cases h with
  | version hl hn => exact .args hl .version hn
  | batch hl ha _ _ => exact .batch hl ⟨_, ha, rfl⟩ (by simp)
  | put => exact absurd rfl (hq _ _ _)
  | verify hl _ _ _ _ => exact .args hl .verify (argPackets_flush _)
  | get hl _ _ => exact .args hl .get (argPackets_flush _)
  | lock hl _ _ _ => exact .args hl .lock (argPackets_flush _)
  | listLocks hl _ _ => exact .args hl .listLocks (argPackets_flush _)
  | unlock hl _ hn => exact .args hl .unlock hn

/-- A request as the format says, in place of one with odd headers. -/
theorem turn_short {ps : List Packet} {w rest : Bytes} (h : Short mode ps) (hF : LaxFrames ps w) (hck : r.checked = false) :
    turn cfg mode { r with input := w ++ rest } = turn cfg mode { r with input := (ps.map encPacket).flatten ++ rest } := by
  have hS := laxFrames_frames hF
  have first : ∀ {l : Bytes} {qs : List Packet}, ps = .data l :: qs → ∃ v u, w = v ++ u ∧ LaxFrames qs u ∧
      ∀ t, ({ r with input := v ++ u ++ t } : Rdr).readPacket = (.ok (.data l), { r with input := u ++ t }) := by
    rintro l qs rfl
    obtain ⟨v, u, rfl, hv, hu⟩ := laxFrames_first hF
    exact ⟨v, u, rfl, hu, fun t => readPacket_lax (r := { r with input := v ++ u ++ t }) hv hck (by simp)⟩
  have strict : ∀ {l : Bytes} {qs : List Packet}, ps = .data l :: qs → Frames qs (qs.map encPacket).flatten ∧
      ∀ t, ({ r with input := (ps.map encPacket).flatten ++ t } : Rdr).readPacket =
        (.ok (.data l), { r with input := (qs.map encPacket).flatten ++ t }) := by
    rintro l qs rfl
    cases hF with
    | cons h1 h2 =>
      exact ⟨laxFrames_frames h2, fun t => readPacket_frame (laxFrame_frame h1) _ _ (by simp)⟩
  cases h with
  | @one p =>
    obtain ⟨v, u, rfl, hv, hu⟩ := laxFrames_first hF
    cases hu
    refine turn_read ?_
    rw [readPacket_lax (r := { r with input := v ++ [] ++ rest }) (rest := rest) hv hck (by simp),
      readPacket_frame (laxFrame_frame hv) { r with input := ([p].map encPacket).flatten ++ rest } rest (by simp)]
  | @args l ws items hl hc hn =>
    obtain ⟨v, u, rfl, hu, h1⟩ := first rfl
    obtain ⟨hu', h2⟩ := strict rfl
    refine turn_alike hl (h1 rest) (h2 rest) (argCommand_quit hc) (dispatch_flush hc ?_)
    rw [readToType_lax (r := { r with input := u ++ rest }) hu hn rfl hck]
    exact (readToType_any (r := { r with input := _ ++ rest }) hu' hn rfl).symm
  | @batch l as items hl ha hn =>
    obtain ⟨v, u, rfl, hu, h1⟩ := first (qs := as ++ .delim :: items ++ [.flush]) rfl
    obtain ⟨hu', h2⟩ := strict (qs := as ++ .delim :: items ++ [.flush]) rfl
    have hu : LaxFrames ((as ++ [.delim]) ++ (items ++ [.flush])) u := by simpa using hu
    obtain ⟨u1, u2, rfl, hu1, hu2⟩ := laxFrames_split hu
    refine turn_alike hl (h1 rest) (h2 rest) (by simp) ?_
    have hx : ((as ++ Packet.delim :: items ++ [Packet.flush]).map encPacket).flatten =
      ((as ++ [Packet.delim]).map encPacket).flatten ++ ((items ++ [Packet.flush]).map encPacket).flatten := by simp
    refine batch_flush ha
      (readToType_lax (r := { r with input := u1 ++ u2 ++ rest }) (rest := u2 ++ rest) hu1 (areArgs_delim ha) (by simp) hck)
      (readToType_any (r := { r with input := _ ++ rest }) (rest := ((items ++ [Packet.flush]).map encPacket).flatten ++ rest)
        (laxFrames_frames hu1) (areArgs_delim ha) (by rw [hx, List.append_assoc])) ?_
    rw [readToType_lax (r := { r with input := u2 ++ rest }) hu2 hn rfl hck]
    exact (readToType_any (r := { r with input := _ ++ rest }) (laxFrames_frames hu2) hn rfl).symm
  | @batchArgs l as hl hn =>
    obtain ⟨v, u, rfl, hu, h1⟩ := first rfl
    obtain ⟨hu', h2⟩ := strict rfl
    refine turn_alike hl (h1 rest) (h2 rest) (by simp) (batch_delim ?_)
    rw [readToType_lax (r := { r with input := u ++ rest }) hu hn rfl hck]
    exact (readToType_any (r := { r with input := _ ++ rest }) hu' hn rfl).symm
  | @putArgs l oid more as hm hl ho hn =>
    subst hm
    obtain ⟨v, u, rfl, hu, h1⟩ := first rfl
    obtain ⟨hu', h2⟩ := strict rfl
    refine turn_alike hl (h1 rest) (h2 rest) (by simp) (put_delim (more := more) ho ?_)
    rw [readToType_lax (r := { r with input := u ++ rest }) hu hn rfl hck]
    exact (readToType_any (r := { r with input := _ ++ rest }) hu' hn rfl).symm

/-- The same for a request that breaks off. -/
theorem turn_short_cut {ps ps' : List Packet} {w t : Bytes} (h : Completed mode ps ps') (hF : LaxFrames ps w) (ht : LaxPart t)
    (hck : r.checked = false) (hk : r.fin.kind = .unexpectedEof) :
    turn cfg mode { r with input := w ++ t } = turn cfg mode { r with input := (ps.map encPacket).flatten } := by
  have first : ∀ {l : Bytes} {qs : List Packet}, ps = .data l :: qs → ∃ v u, w = v ++ u ∧ LaxFrames qs u ∧
      ∀ t, ({ r with input := v ++ u ++ t } : Rdr).readPacket = (.ok (.data l), { r with input := u ++ t }) := by
    rintro l qs rfl
    obtain ⟨v, u, rfl, hv, hu⟩ := laxFrames_first hF
    exact ⟨v, u, rfl, hu, fun t => readPacket_lax (r := { r with input := v ++ u ++ t }) hv hck (by simp)⟩
  have strict : ∀ {l : Bytes} {qs : List Packet}, ps = .data l :: qs → Frames qs (qs.map encPacket).flatten ∧
      ({ r with input := (ps.map encPacket).flatten } : Rdr).readPacket =
        (.ok (.data l), { r with input := (qs.map encPacket).flatten }) := by
    rintro l qs rfl
    cases hF with
    | cons h1 h2 =>
      exact ⟨laxFrames_frames h2, readPacket_frame (laxFrame_frame h1) _ _ (by simp)⟩
  cases h with
  | @args l ws items hl hc hn =>
    obtain ⟨v, u, rfl, hu, h1⟩ := first rfl
    obtain ⟨hu', h2⟩ := strict rfl
    refine turn_alike hl (h1 t) h2 (argCommand_quit hc) (dispatch_flush hc ?_)
    rw [readToType_laxPart (r := { r with input := u ++ t }) hu hn ht rfl hck hk]
    exact (readToType_part (r := { r with input := (items.map encPacket).flatten }) hu' hn part_nil (by simp) hk).symm
  | @batch l as items hl ha hn =>
    obtain ⟨v, u, rfl, hu, h1⟩ := first (qs := as ++ .delim :: items) rfl
    obtain ⟨hu', h2⟩ := strict (qs := as ++ .delim :: items) rfl
    have hu : LaxFrames ((as ++ [.delim]) ++ items) u := by simpa using hu
    obtain ⟨u1, u2, rfl, hu1, hu2⟩ := laxFrames_split hu
    refine turn_alike hl (h1 t) h2 (by simp) ?_
    refine batch_flush ha
      (readToType_lax (r := { r with input := u1 ++ u2 ++ t }) (rest := u2 ++ t) hu1 (areArgs_delim ha) (by simp) hck)
      (readToType_any (r := { r with input := ((as ++ Packet.delim :: items).map encPacket).flatten }) (rest := (items.map encPacket).flatten)
        (laxFrames_frames hu1) (areArgs_delim ha) (by simp)) ?_
    rw [readToType_laxPart (r := { r with input := u2 ++ t }) hu2 hn ht rfl hck hk]
    exact (readToType_part (r := { r with input := (items.map encPacket).flatten }) (laxFrames_frames hu2) hn part_nil (by simp) hk).symm
  | @batchNone l as hl ha =>
    obtain ⟨v, u, rfl, hu, h1⟩ := first rfl
    obtain ⟨hu', h2⟩ := strict rfl
    refine turn_alike hl (h1 t) h2 (by simp) (batch_delim ?_)
    rw [readToType_laxPart (r := { r with input := u ++ t }) hu (areArgs_delim ha) ht rfl hck hk]
    exact (readToType_part (r := { r with input := (as.map encPacket).flatten }) hu' (areArgs_delim ha) part_nil (by simp) hk).symm
  | @batchArgs l as hl hn _ =>
    obtain ⟨v, u, rfl, hu, h1⟩ := first rfl
    obtain ⟨hu', h2⟩ := strict rfl
    refine turn_alike hl (h1 t) h2 (by simp) (batch_delim ?_)
    rw [readToType_laxPart (r := { r with input := u ++ t }) hu hn ht rfl hck hk]
    exact (readToType_part (r := { r with input := (as.map encPacket).flatten }) hu' hn part_nil (by simp) hk).symm
  | @putArgs l oid more as hm hl ho hn _ =>
    subst hm
    obtain ⟨v, u, rfl, hu, h1⟩ := first rfl
    obtain ⟨hu', h2⟩ := strict rfl
    refine turn_alike hl (h1 t) h2 (by simp) (put_delim (more := more) ho ?_)
    rw [readToType_laxPart (r := { r with input := u ++ t }) hu hn ht rfl hck hk]
    exact (readToType_part (r := { r with input := (as.map encPacket).flatten }) hu' hn part_nil (by simp) hk).symm

/-! ### One request -/

theorem turn_head {p : Packet} {v u : Bytes} (hv : LaxFrame p v) (hck : r.checked = false) :
    turn cfg mode { r with input := v ++ u } = turn cfg mode { r with input := encPacket p ++ u } := by
  refine turn_read ?_
  rw [readPacket_lax (r := { r with input := v ++ u }) hv hck rfl,
    readPacket_frame (laxFrame_frame hv) { r with input := encPacket p ++ u } u rfl]

theorem stops_turn_lax {q : Said} {ps : List Packet} {wire rest : Bytes} {w : World}
    (hc : Calm ch) (hsha : ∀ b, (cfg.sha b).length = 32) (hclk : ∀ t, Clock cfg ch t → TimeOk cfg t)
    (he : Heard mode ps q) (hF : LaxFrames ps wire) (hi : r.input = wire ++ rest) (hp : r.pending = []) (hck : r.checked = false)
    (hr : Rep cfg s w.fs) (hd : Ready cfg w.fs) :
    (turn cfg mode).stops ch (MidTurn cfg mode ch s q w.out) r w
      (TurnReplied cfg mode ch s q .again { r with input := rest } w.out) := by
  have e : ({ r with input := wire ++ rest } : Rdr) = r := by rw [← hi]
  have short : ∀ (_ : Short mode ps), (turn cfg mode).stops ch (MidTurn cfg mode ch s q w.out) r w
      (TurnReplied cfg mode ch s q .again { r with input := rest } w.out) := by
    intro hs
    have h := turn_short (cfg := cfg) (r := r) (rest := rest) hs hF hck
    rw [e] at h
    refine stops_congr h ?_
    cases q with
    | ask q => exact stops_turn_means hc hsha hclk he (laxFrames_frames hF) rfl hp hr hd
    | nonsense code msg => exact stops_turn_denied hc he (laxFrames_frames hF) rfl hr hd
  cases q with
  | nonsense code msg => exact short (denied_short he)
  | ask q =>
    by_cases hq : ∀ o n d, q ≠ .put o n d
    · exact short (means_short he hq)
    replace he : Spec.Means mode ps q := he
    cases he with
    | @put l more kv oid sz n ds t hl ho ha hs hn hds ht =>
      have hF : LaxFrames (.data l :: ((argPackets kv ++ [.delim]) ++ (ds.map .data ++ [t]))) wire := by simpa using hF
      obtain ⟨v, u, rfl, hv, hu⟩ := laxFrames_first hF
      obtain ⟨u1, u2, rfl, hu1, hu2⟩ := laxFrames_split hu
      obtain ⟨u3, u4, rfl, hu3, hu4⟩ := laxFrames_split hu2
      obtain ⟨u5, u6, rfl, hu5, hu6⟩ := laxFrames_first hu4
      cases hu6
      have h := turn_head (cfg := cfg) (mode := .upload) (r := r) (u := u1 ++ (u3 ++ (u5 ++ rest))) hv hck
      have e1 : v ++ (u1 ++ (u3 ++ (u5 ++ []))) ++ rest = v ++ (u1 ++ (u3 ++ (u5 ++ rest))) := by simp
      rw [e1] at e
      rw [e] at h
      refine stops_congr h ?_
      obtain ⟨h1, h2⟩ := commandLine_words hl
      have hargs := readToType_lax (r := { r with input := u1 ++ (u3 ++ (u5 ++ rest)) }) hu1 (argPackets_delim kv) rfl hck
      rw [argPackets_data] at hargs
      have htf : Fits t := by rcases ht with rfl | rfl <;> exact trivial
      have hdel : Delivers { r with input := u3 ++ (u5 ++ rest) } ds.flatten (.ok []) rest :=
        delivers_lax (r := { r with input := u3 ++ (u5 ++ rest) }) hds hu3 hck hp rfl
          (delivers_term (r := { r with input := u5 ++ rest }) ht hp (readOne_lax hu5 htf hck rfl))
      have hput := stops_put_from (mode := .upload) (ch := ch) (cfg := cfg) (s := s) (w := w)
        (I := MidTurn cfg .upload ch s (.ask (.put oid n ds.flatten)) w.out) hc hsha ho ha hs hn hargs hdel hr hd
        (fun w' h1 h2 => .inl ⟨h1, h2⟩) (by
          intro w' t t' e1 ht ht' e2
          obtain ⟨b, hb⟩ := sends_put (cfg := cfg) (mode := .upload) (s := s) oid ds.flatten n t t'
          exact .inr (.inl ⟨t, t', b, ht, ht', hb, e1 ▸ List.prefix_append _ _, e2⟩))
      rw [← hp] at hput
      exact stops_handled (r := { r with input := encPacket (.data l) ++ (u1 ++ (u3 ++ (u5 ++ rest))) }) hc
        (laxFrame_frame hv) rfl h2 h1 (by decide) hput
    | _ => exact absurd (fun _ _ _ => by simp) hq

theorem badErr_status (fs : FS) :
    StatusFor (errorStatus badErr) (denial 400 (b!"error: " ++ badHeader ++ b!"\n")) fs :=
  ⟨⟨rfl, by decide, rfl, by simp [denial]⟩, rfl, by decide⟩

theorem parseErr_status (fs : FS) :
    StatusFor (errorStatus (Err.wrapOther .parseError badErr.display)) (denial 500 b!"internal error: parse error\n") fs :=
  ⟨⟨rfl, by decide, rfl, by simp [denial]⟩, rfl, by decide⟩

theorem dataErr_status (fs : FS) :
    StatusFor (errorStatus (Err.ofIo badErr.toIo)) (denial 500 (b!"internal error: fatal: I/O error: " ++ badHeader ++ b!"\n")) fs :=
  ⟨⟨rfl, by decide, rfl, by simp [denial]⟩, rfl, by decide⟩

theorem rdr_err {α β : Type} {f : Rdr → Res α × Rdr} {g : α → M β} {e : Err} {r1 : Rdr} (h : f r = (.err e, r1)) :
    (M.rdr f >>= g) r = .ret (.err e, r1) := by
  have h' : M.rdr f r = .ret (.err e, r1) := by
    unfold M.rdr
    rw [h]
  change M.bind _ _ _ = _
  unfold M.bind
  rw [h']
  rfl

theorem flushParse_err {β : Type} {g : List Bytes → M β} {e : Err} {r1 : Rdr} (h : readToType .flush r = (.err e, r1)) :
    (readToFlushParse >>= g) r = .ret (.err (Err.wrapOther .parseError e.display), r1) := by
  show Prog.bind (Prog.bind (Prog.bind (.ret (readToType .flush r)) _) _) _ = _
  rw [h]
  rfl

theorem bind_err {α β : Type} {m : M α} {g : α → M β} {e : Err} {r1 : Rdr} (h : m r = .ret (.err e, r1)) :
    (m >>= g) r = .ret (.err e, r1) := by
  show Prog.bind (m r) _ = _
  rw [h]
  rfl

/-- An upload whose data cannot be read to the end. -/
theorem stops_turn_putErr {l oid msg : Bytes} {more ds : List Bytes} {as : List Packet} {wire tail rest : Bytes} {e : Err} {w : World}
    (hc : Calm ch) (hl : CommandLine l (b!"put-object" :: oid :: more)) (ho : IsOid oid) (ha : AreSized as)
    (hds : ∀ d ∈ ds, d.length ≤ 65516) (hF : LaxFrames (.data l :: as ++ .delim :: ds.map .data) wire)
    (hi : r.input = wire ++ tail) (hp : r.pending = []) (hck : r.checked = false)
    (h1 : ({ r with input := tail } : Rdr).readOne = (.err e, { r with input := rest }))
    (hst : ∀ fs, StatusFor (errorStatus (Err.ofIo e.toIo)) (denial 500 msg) fs)
    (hr : Rep cfg s w.fs) (hd : Ready cfg w.fs) :
    (turn cfg .upload).stops ch (MidTurn cfg .upload ch s (.nonsense 500 msg) w.out) r w
      (TurnReplied cfg .upload ch s (.nonsense 500 msg) .again { r with input := rest } w.out) := by
  have hF : LaxFrames (.data l :: ((as ++ [.delim]) ++ ds.map .data)) wire := by simpa using hF
  obtain ⟨v, u, rfl, hv, hu⟩ := laxFrames_first hF
  obtain ⟨u1, u2, rfl, hu1, hu2⟩ := laxFrames_split hu
  have h := turn_head (cfg := cfg) (mode := .upload) (r := r) (u := u1 ++ (u2 ++ tail)) hv hck
  have e : ({ r with input := v ++ (u1 ++ (u2 ++ tail)) } : Rdr) = r := by
    have : v ++ (u1 ++ (u2 ++ tail)) = r.input := by rw [hi]; simp
    rw [this]
  rw [e] at h
  refine stops_congr h ?_
  obtain ⟨w1, w2⟩ := commandLine_words hl
  refine stops_failed hc (laxFrame_frame hv) rfl w2 w1 (by decide) hst ?_
  have := stops_put_cut (cfg := cfg) (s := s) (w := w) (I := MidTurn cfg .upload ch s (.nonsense 500 msg) w.out) hc ho ha
    (readToType_lax (r := { r with input := u1 ++ (u2 ++ tail) }) hu1 (areSized_delim ha) rfl hck)
    (delivers_lax (r := { r with input := u2 ++ tail }) hds hu2 hck hp rfl
      (delivers_err (r := { r with input := tail }) hp h1)) hr hd fun w' h1 h2 => .inl ⟨h1, h2⟩
  refine stops_mono this ?_
  rintro x r' w' ⟨f1, f2, f3⟩
  exact ⟨f1, by rw [f2, ← hp], f3⟩

theorem stops_turn_broken_lax {q : Said} {ps : List Packet} {wire t : Bytes} {w : World}
    (hc : Calm ch) (hsha : ∀ b, (cfg.sha b).length = 32) (hclk : ∀ t, Clock cfg ch t → TimeOk cfg t)
    (hb : BreaksOff mode r.fin.text ps [] q) (hF : LaxFrames ps wire) (ht : LaxPart t) (hlong : Uploading mode ps → ¬ TooLong t)
    (hi : r.input = wire ++ t) (hp : r.pending = []) (hck : r.checked = false)
    (hfin : r.fin.kind = .unexpectedEof) (hr : Rep cfg s w.fs) (hd : Ready cfg w.fs) :
    (turn cfg mode).stops ch (MidTurn cfg mode ch s q w.out) r w
      (TurnReplied cfg mode ch s q .again { r with input := [] } w.out) := by
  have e : ({ r with input := wire ++ t } : Rdr) = r := by rw [← hi]
  cases hb with
  | @heard _ ps' _ q hcom hh hpart =>
    have h := turn_short_cut (cfg := cfg) (r := r) hcom hF ht hck hfin
    rw [e] at h
    refine stops_congr h ?_
    exact stops_turn_broken (r := { r with input := (ps.map encPacket).flatten }) hc hsha hclk (.heard hcom hh hpart)
      (laxFrames_frames hF) (by simp) hp hfin hr hd
  | @putArgs l oid _ more as hm hl ho ha hpart =>
    subst hm
    obtain ⟨v, u, rfl, hv, hu⟩ := laxFrames_first hF
    have h := turn_head (cfg := cfg) (mode := .upload) (r := r) (u := u ++ t) hv hck
    rw [← List.append_assoc, e] at h
    refine stops_congr h ?_
    obtain ⟨h1, h2⟩ := commandLine_words hl
    refine stops_failed hc (laxFrame_frame hv) rfl h2 h1 (by decide) (cutErr_status r.fin) ?_
    have := stops_put_cut (cfg := cfg) (s := s) (w := w)
      (I := MidTurn cfg .upload ch s (.nonsense 500 (cutMessage r.fin.text)) w.out) hc ho ha
      (readToType_laxPart (r := { r with input := u ++ t }) hu (areSized_delim ha) ht rfl hck hfin)
      (delivers_cut (r := { r with input := [] }) (ds := []) (by simp) .nil ⟨.flush, _, .flush, trivial, List.nil_prefix, by decide⟩ rfl)
      hr hd fun w' h1 h2 => .inl ⟨h1, h2⟩
    refine stops_mono this ?_
    rintro x r' w' ⟨f1, f2, f3⟩
    exact ⟨f1, by rw [f2, ← hp], f3⟩
  | @putData l oid _ more ds as hm hl ho ha hds hpart =>
    subst hm
    exact stops_turn_putErr hc hl ho ha hds hF hi hp hck
      (readOne_laxPart (r := { r with input := t }) ht (hlong ⟨l, oid, more, as, ds, rfl, rfl, hl, ho, ha, hds⟩) hck rfl)
      (cutErr_status r.fin) hr hd

theorem stops_turn_garbled {code : Nat} {msg : Bytes} {ps : List Packet} {wire h rest : Bytes} {w : World}
    (hc : Calm ch) (hg : Garbled mode ps code msg) (hF : LaxFrames ps wire) (hb : BadHeader h)
    (hi : r.input = wire ++ (h ++ rest)) (hp : r.pending = []) (hck : r.checked = false)
    (hr : Rep cfg s w.fs) (hd : Ready cfg w.fs) :
    (turn cfg mode).stops ch (MidTurn cfg mode ch s (.nonsense code msg) w.out) r w
      (TurnReplied cfg mode ch s (.nonsense code msg) .again { r with input := rest } w.out) := by
  -- all but the last case: the handler ends at once
  have ends : ∀ {l : Bytes} {ws : List Bytes} {qs : List Packet} {er : Err}, ps = .data l :: qs → CommandLine l ws →
      ws ≠ [] → ws.head?.getD [] ≠ b!"quit" → (∀ fs, StatusFor (errorStatus er) (denial code msg) fs) →
      (∀ u, LaxFrames qs u → dispatch cfg mode (ws.head?.getD []) ws.tail.head? { r with input := u ++ (h ++ rest) } =
        .ret (.err er, { r with input := rest })) →
      (turn cfg mode).stops ch (MidTurn cfg mode ch s (.nonsense code msg) w.out) r w
        (TurnReplied cfg mode ch s (.nonsense code msg) .again { r with input := rest } w.out) := by
    rintro l ws qs er rfl hl hne hq hst hdis
    obtain ⟨v, u, rfl, hv, hu⟩ := laxFrames_first hF
    obtain ⟨cmd, args, rfl⟩ : ∃ cmd args, ws = cmd :: args := by
      cases ws with
      | nil => exact absurd rfl hne
      | cons a b => exact ⟨a, b, rfl⟩
    have hh := turn_head (cfg := cfg) (mode := mode) (r := r) (u := u ++ (h ++ rest)) hv hck
    have e : ({ r with input := v ++ (u ++ (h ++ rest)) } : Rdr) = r := by
      have : v ++ (u ++ (h ++ rest)) = r.input := by rw [hi]; simp
      rw [this]
    rw [e] at hh
    refine stops_congr hh ?_
    obtain ⟨h1, h2⟩ := commandLine_words hl
    refine stops_failed hc (laxFrame_frame hv) rfl h2 h1 hq hst ?_
    unfold M.stops M.wp
    have := hdis u hu
    simp only [List.head?_cons, Option.getD_some, List.tail_cons] at this
    rw [this]
    exact ⟨rfl, rfl, rfl, hr, hd⟩
  cases hg with
  | @args l ws items hl hac hn1 hn2 hn =>
    refine ends rfl hl (by cases hac <;> simp) (by cases hac <;> simp) badErr_status fun u hu => ?_
    have hbad := readToType_bad (r := { r with input := u ++ (h ++ rest) }) hu hn hb rfl hck
    cases hac with
    | version => exact rdr_err hbad
    | verify => exact rdr_err hbad
    | get => exact rdr_err hbad
    | lock => exact absurd rfl hn1
    | listLocks => exact absurd rfl hn2
    | unlock => exact rdr_err hbad
  | @parse l ws items hl hac hx hn =>
    refine ends rfl hl (by cases hac <;> simp) (by cases hac <;> simp) parseErr_status fun u hu => ?_
    have hbad := readToType_bad (r := { r with input := u ++ (h ++ rest) }) hu hn hb rfl hck
    rcases hx with rfl | rfl
    · cases hac with
      | lock => exact flushParse_err hbad
    · cases hac with
      | listLocks => exact flushParse_err hbad
  | @batchArgs l as hl hn =>
    refine ends rfl hl (by simp) (by decide) badErr_status fun u hu => ?_
    have hbad := readToType_bad (r := { r with input := u ++ (h ++ rest) }) hu hn hb rfl hck
    cases mode
    · exact bind_err (bind_err (m := readToDelim) (by show Prog.ret (readToType _ _) = _; rw [hbad]))
    · exact bind_err (bind_err (m := readToDelim) (by show Prog.ret (readToType _ _) = _; rw [hbad]))
  | @batch l as items hl ha hn =>
    refine ends (qs := as ++ .delim :: items) rfl hl (by simp) (by decide) parseErr_status fun u hu => ?_
    have hu : LaxFrames ((as ++ [.delim]) ++ items) u := by simpa using hu
    obtain ⟨u1, u2, rfl, hu1, hu2⟩ := laxFrames_split hu
    have hbad := readToType_bad (r := { r with input := u2 ++ (h ++ rest) }) hu2 hn hb rfl hck
    have h1 := readToType_lax (r := { r with input := u1 ++ (u2 ++ (h ++ rest)) }) hu1 (areArgs_delim ha) rfl hck
    obtain ⟨kv, hkv, rfl⟩ := ha
    obtain ⟨m, hm, _⟩ := C09_args_exact kv hkv
    rw [argPackets_data] at h1
    have key : ∀ x y, batchCmd cfg x y { r with input := u1 ++ u2 ++ (h ++ rest) } =
        .ret (.err (Err.wrapOther .parseError badErr.display), { r with input := rest }) := by
      intro x y
      refine bind_err ?_
      unfold readBatch readToDelim
      rw [List.append_assoc, rdr_ret h1, ofRes_ret hm]
      exact flushParse_err hbad
    cases mode
    · exact key _ _
    · exact key _ _
  | @putArgs l oid more as hm hl ho hn =>
    subst hm
    refine ends rfl hl (by simp) (by simp) badErr_status fun u hu => ?_
    have hbad := readToType_bad (r := { r with input := u ++ (h ++ rest) }) hu hn hb rfl hck
    show putObject cfg oid _ = _
    unfold putObject
    rw [oidNew_ret ho]
    exact rdr_err hbad
  | putData hup =>
    obtain ⟨l, oid, more, as, ds, rfl, rfl, hl, ho, ha, hds⟩ := hup
    exact stops_turn_putErr hc hl ho ha hds hF hi hp hck (readOne_bad (r := { r with input := h ++ rest }) hb hck rfl)
      dataErr_status hr hd

theorem garbled_ne {ps : List Packet} {code : Nat} {msg : Bytes} (h : Garbled mode ps code msg) : ps ≠ [] := by
  cases h with
  | putData h => obtain ⟨l, oid, more, as, ds, rfl, _⟩ := h; simp
  | _ => simp

/-! ### Whole sessions -/

/-- How the loop ends. -/
def Spec.Ending.res : Ending → Res Unit
  | .fine => .ok ()
  | .bad => .err badErr

theorem stops_any (hc : Calm ch) (hsha : ∀ b, (cfg.sha b).length = 32)
    (hclk : ∀ t, Clock cfg ch t → TimeOk cfg t) {text : Bytes} {qs : List Said} {e : Ending} {wire : Bytes}
    (hs : Any mode text qs e wire) :
    ∀ (s : Store) (f : Nat) (r : Rdr) (w : World), r.input = wire → r.pending = [] → r.checked = false →
    r.fin.kind = .unexpectedEof → r.fin.text = text → wire.length < f → Rep cfg s w.fs → Ready cfg w.fs →
    (processF cfg mode f).stops ch (Progress cfg mode ch s qs w.out) r w (fun x _ w' => x = e.res ∧
      ∃ ws s', w'.out = w.out ++ ws.flatten ∧ Conversation cfg mode ch s qs ws s' ∧ Rep cfg s' w'.fs) := by
  have step : ∀ {q : Said} {qs : List Said} {e : Ending} {w1 ws ws' : Bytes}, 4 ≤ w1.length → ws'.length ≤ ws.length →
      (∀ (s : Store) (r : Rdr) (w : World), r.input = w1 ++ ws → r.pending = [] → r.checked = false → r.fin.kind = .unexpectedEof →
        r.fin.text = text → Rep cfg s w.fs → Ready cfg w.fs →
        (turn cfg mode).stops ch (MidTurn cfg mode ch s q w.out) r w
          (TurnReplied cfg mode ch s q .again { r with input := ws' } w.out)) →
      (∀ (s : Store) (f : Nat) (r : Rdr) (w : World), r.input = ws' → r.pending = [] → r.checked = false →
        r.fin.kind = .unexpectedEof → r.fin.text = text → ws'.length < f → Rep cfg s w.fs → Ready cfg w.fs →
        (processF cfg mode f).stops ch (Progress cfg mode ch s qs w.out) r w (fun x _ w' => x = e.res ∧
          ∃ ws s', w'.out = w.out ++ ws.flatten ∧ Conversation cfg mode ch s qs ws s' ∧ Rep cfg s' w'.fs)) →
      (∀ (s : Store) (f : Nat) (r : Rdr) (w : World), r.input = w1 ++ ws → r.pending = [] → r.checked = false →
        r.fin.kind = .unexpectedEof → r.fin.text = text → (w1 ++ ws).length < f → Rep cfg s w.fs → Ready cfg w.fs →
        (processF cfg mode f).stops ch (Progress cfg mode ch s (q :: qs) w.out) r w (fun x _ w' => x = e.res ∧
          ∃ ws s', w'.out = w.out ++ ws.flatten ∧ Conversation cfg mode ch s (q :: qs) ws s' ∧ Rep cfg s' w'.fs)) := by
    intro q qs e w1 ws ws' hlen hle one ih s f r w hi hp hck hfin htx hf hr hd
    obtain ⟨f, rfl⟩ : ∃ g, f = g + 1 := ⟨f - 1, by omega⟩
    rw [processF]
    refine stops_bind (stops_weaken (one s r w hi hp hck hfin htx hr hd) fun _ h => h.progress) ?_
    rintro x r' w' ⟨rfl, rfl, t, t', b, ht, ht', h1, h2, h3, h4⟩
    simp only [Res.elim_ok]
    have := ih _ f { r with input := ws' } w' rfl hp hck hfin htx (by simp only [List.length_append] at hf; omega) h3 h4
    rw [h1] at this
    refine stops_mono (stops_weaken this fun _ h => h.cons ht ht' h2) ?_
    rintro x r2 w2 ⟨rfl, b2, s2, g1, g2, g3⟩
    exact ⟨rfl, b :: b2, s2, by rw [g1, List.append_assoc, List.flatten_cons], .cons ht ht' rfl h2 g2, g3⟩
  have long : ∀ {ps : List Packet} {w : Bytes}, ps ≠ [] → LaxFrames ps w → 4 ≤ w.length := by
    intro ps w hne hF
    have := laxFrames_length hF
    have := List.length_pos_iff.mpr hne
    omega
  have eof : ∀ {t : Bytes}, LaxPart t →
      ∀ (s : Store) (f : Nat) (r : Rdr) (w : World), r.input = t → r.pending = [] → r.checked = false →
        r.fin.kind = .unexpectedEof → r.fin.text = text → t.length < f → Rep cfg s w.fs → Ready cfg w.fs →
        (processF cfg mode f).stops ch (Progress cfg mode ch s [] w.out) r w (fun x _ w' => x = Ending.fine.res ∧
          ∃ ws s', w'.out = w.out ++ ws.flatten ∧ Conversation cfg mode ch s [] ws s' ∧ Rep cfg s' w'.fs) := by
    intro t ht s f r w hi hp hck hfin htx hf hr hd
    obtain ⟨f, rfl⟩ : ∃ g, f = g + 1 := ⟨f - 1, by omega⟩
    rw [processF]
    refine stops_bind (P := fun x r' w' => x = .ok .done ∧ w' = w) ?_ ?_
    · have h := readPacket_laxPart ht hck hi
      unfold turn
      refine stops_bind (P := fun x r2 w2 => x = .ok (.error (Err.ofIo r.fin)) ∧ w2 = w) ?_ ?_
      · unfold M.stops
        rw [M.wp_attempt, M.wp_rdr, h]
        exact show _ ∧ _ from ⟨rfl, rfl⟩
      rintro x r2 w2 ⟨rfl, rfl⟩
      have hk : (Err.ofIo r.fin).ioKind = .unexpectedEof := hfin
      simp only [Res.elim_ok, hk, if_true]
      exact ⟨rfl, rfl⟩
    rintro x r' w' ⟨rfl, rfl⟩
    exact ⟨rfl, [], s, by simp, .nil, hr⟩
  induction hs with
  | eof ht => exact eof ht
  | @bad h rest hb =>
    intro s f r w hi hp hck hfin htx hf hr hd
    obtain ⟨f, rfl⟩ : ∃ g, f = g + 1 := ⟨f - 1, by omega⟩
    rw [processF]
    refine stops_bind (P := fun x r' w' => x = .err badErr ∧ w' = w) ?_ ?_
    · have h := readPacket_bad hb hck hi
      unfold turn
      refine stops_bind (P := fun x r2 w2 => x = .ok (.error badErr) ∧ w2 = w) ?_ ?_
      · unfold M.stops
        rw [M.wp_attempt, M.wp_rdr, h]
        exact show _ ∧ _ from ⟨rfl, rfl⟩
      rintro x r2 w2 ⟨rfl, rfl⟩
      have hk : badErr.ioKind ≠ .unexpectedEof := by decide
      simp only [Res.elim_ok, hk, if_false]
      exact ⟨rfl, rfl⟩
    rintro x r' w' ⟨rfl, rfl⟩
    exact ⟨rfl, [], s, by simp, .nil, hr⟩
  | @quit l w1 rest hl hF =>
    intro s f r w hi hp hck hfin htx hf hr hd
    obtain ⟨f, rfl⟩ : ∃ g, f = g + 1 := ⟨f - 1, by omega⟩
    rw [processF]
    have hh := turn_head (cfg := cfg) (mode := mode) (r := r) (u := rest) hF hck
    have e : ({ r with input := w1 ++ rest } : Rdr) = r := by rw [← hi]
    rw [e] at hh
    have hFq : Frames [.data l] (encPacket (.data l)) := by
      have := Frames.cons (laxFrame_frame hF) .nil
      rwa [List.append_nil] at this
    have hq := stops_turn_quit (ch := ch) (cfg := cfg) (s := s) (mode := mode) (w := w) (rest := rest)
      (r := { r with input := encPacket (.data l) ++ rest }) hc hl hFq rfl hr hd
    refine stops_bind (stops_weaken (stops_congr hh hq) fun _ h => h.progress) ?_
    rintro x r' w' ⟨rfl, rfl, t, t', b, ht, ht', h1, h2, h3, h4⟩
    exact ⟨rfl, [b], _, by simpa using h1, .cons ht ht' rfl h2 .nil, h3⟩
  | @heard q qs e ps w1 rest he hF _ ih =>
    have hne : ps ≠ [] := by
      cases q with
      | ask q => exact means_ne he
      | nonsense code msg => exact denied_ne he
    exact step (long hne hF) (Nat.le_refl _)
      (fun s r w hi hp hck _ _ hr hd => stops_turn_lax hc hsha hclk he hF hi hp hck hr hd) ih
  | @broken q ps w1 t hb hF ht hlong =>
    have hne : ps ≠ [] := by
      cases hb with
      | heard h => cases h <;> simp
      | _ => simp
    exact step (ws' := []) (long hne hF) (Nat.zero_le _)
      (fun s r w hi hp hck hfin htx hr hd =>
        stops_turn_broken_lax hc hsha hclk (htx ▸ hb) hF ht hlong hi hp hck hfin hr hd) (eof (.inl (by simp)))
  | @garbled code msg qs e ps w1 h rest hg hF hb _ ih =>
    exact step (long (garbled_ne hg) hF) (by simp)
      (fun s r w hi hp hck _ _ hr hd => stops_turn_garbled hc hg hF hb hi hp hck hr hd) ih
  | @tooLong qs e ps n w1 h rest hup hF hl hn _ ih =>
    have hne := garbled_ne (.putData hup)
    obtain ⟨l, oid, more, as, ds, rfl, rfl, hcl, ho, ha, hds⟩ := hup
    exact step (long hne hF) (by simp)
      (fun s r w hi hp hck _ _ hr hd => stops_turn_putErr hc hcl ho ha hds hF hi hp hck
        (readOne_tooLong (r := { r with input := h ++ rest }) hl hn hck rfl) dataErr_status hr hd) ih

theorem stops_program_any (hc : Calm ch) (hsha : ∀ b, (cfg.sha b).length = 32)
    (hclk : ∀ t, Clock cfg ch t → TimeOk cfg t) {qs : List Said} {e : Ending} {w : World} (hs : Any mode r.fin.text qs e r.input)
    (hp : r.pending = []) (hck : r.checked = false) (hfin : r.fin.kind = .unexpectedEof) (hr : Rep cfg s w.fs) :
    (runProgram cfg (Mode.operation mode)).stops ch (Progress cfg mode ch s qs (w.out ++ b!"000eversion=1\n0000")) r w
      (fun x _ w' => x = e.res ∧ ∃ ws s', w'.out = w.out ++ b!"000eversion=1\n0000" ++ ws.flatten ∧
        Conversation cfg mode ch s qs ws s' ∧ Rep cfg s' w'.fs) := by
  unfold runProgram
  refine stops_bind (stops_createDirectories hc hr fun w' h1 h2 => .begun (by simp [h1]) h2) ?_
  rintro x r' w1 ⟨rfl, rfl, e1, hr1, hd1⟩
  simp only [Res.elim_ok]
  have hcap : encMsg b!"version=1\n" ++ b!"0000" = b!"000eversion=1\n0000" := by decide
  have hcaps := prints_sendCapabilities ch r' w1 hc
  rw [hcap] at hcaps
  refine stops_bind (stops_still (all_sendCapabilities r') hcaps ?_) ?_
  · rintro w' h1 h2 ⟨x, r2, wf, ⟨_, _, _, h3⟩, h4⟩
    exact .begun (by rw [← e1, ← h3]; exact h4) (h1 ▸ hr1)
  rintro x r2 w2 ⟨⟨rfl, rfl, e2, e3⟩, _⟩
  simp only [Res.elim_ok]
  have main := stops_any hc hsha hclk hs s (r2.input.length + 1) r2 w2 rfl hp hck hfin rfl (by omega)
    (by rw [e2]; exact hr1) (by rw [e2]; exact hd1)
  rw [e3, e1] at main
  cases mode with
  | upload => exact main
  | download => exact main

end Verif
