import Verif.Spec.Lax
import Verif.Lemmas.Fuel
import Verif.Props.Pktline
/-! C04 and C05, which are false of the code: what exactly the code does instead. -/
namespace Verif
open Spec

/-! ### C04 -/

/-- What the stream has next, apart from empty data packets: packet `p`, after which the reader is `r'`. -/
inductive Ahead : Rdr → Packet → Rdr → Prop
  | here {r p r'} : r.readOne = (.ok p, r') → p ≠ .data [] → Ahead r p r'
  | skip {r r1 p r'} : r.readOne = (.ok (.data []), r1) → Ahead r1 p r' → Ahead r p r'

/-- A zero-length read of `r` returns 0, and later reads (with non-empty buffers) return the same as without it. -/
def ZeroHarmless (r : Rdr) : Prop :=
  ∃ r', r.read 0 = (.ok [], r') ∧ ∀ (sizes : Nat → Nat) (k : Nat), (∀ i, 0 < sizes i) →
    (reads sizes k r').map (·.1) = (reads sizes k r).map (·.1)

theorem Ahead.pending {r r' : Rdr} {p : Packet} (h : Ahead r p r') : r'.pending = r.pending := by
  induction h with
  | here h _ => exact (readOne_adv h).pending
  | skip h _ ih => rw [ih, (readOne_adv h).pending]

theorem Ahead.less {r r' : Rdr} {p : Packet} (h : Ahead r p r') :
    r'.input.length + 4 + (p.data?.getD []).length ≤ r.input.length := by
  induction h with
  | here h _ => exact readOne_ok_len h
  | skip h _ ih => have := readOne_ok_len h; omega

/-- What the reading loop makes of packet `p`. -/
def taken (n : Nat) (p : Packet) (r' : Rdr) : Res Bytes × Rdr :=
  match p with
  | .data d => (.ok (d.take n), if n ≥ maxPacketLen then r' else { r' with pending := d.drop n })
  | _ => (.ok [], r')

theorem Ahead.loop {r r' : Rdr} {p : Packet} (h : Ahead r p r') (n : Nat) : ∀ f, r.input.length < f →
    Rdr.readLoopF f n r = taken n p r' := by
  induction h with
  | @here r p r' h hp =>
    intro f hf
    obtain ⟨g, rfl⟩ : ∃ g, f = g + 1 := ⟨f - 1, by omega⟩
    simp only [Rdr.readLoopF, h, taken]
    cases p with
    | flush => rfl
    | delim => rfl
    | data d =>
      have hd : d ≠ [] := fun e => hp (by rw [e])
      have hs := readOne_small h
      simp only [if_neg hd]
      by_cases hn : n ≥ maxPacketLen
      · have : d.length ≤ n := by simp only [maxPacketLen] at hn; omega
        simp only [if_pos hn, List.take_of_length_le this]
      · simp only [if_neg hn]
  | @skip r r1 p r' h _ ih =>
    intro f hf
    have := readOne_ok_len h
    obtain ⟨g, rfl⟩ : ∃ g, f = g + 1 := ⟨f - 1, by omega⟩
    rw [← ih g (by omega)]
    simp only [Rdr.readLoopF, h, if_true, ite_self]

/-- A loop that returns has found something. -/
theorem ahead_of_loop : ∀ (f n : Nat) (r r' : Rdr) (x : Bytes), Rdr.readLoopF f n r = (.ok x, r') →
    ∃ p r1, Ahead r p r1
  | 0, _, _, _, _, h => by cases h
  | f + 1, n, r, r', x, h => by
    simp only [Rdr.readLoopF] at h
    split at h
    · rename_i h1; exact ⟨_, _, .here h1 (by simp)⟩
    · rename_i h1; exact ⟨_, _, .here h1 (by simp)⟩
    · rename_i d r1 h1
      by_cases hd : d = []
      · subst hd
        simp only [if_true, ite_self] at h
        obtain ⟨p, r2, h2⟩ := ahead_of_loop f n r1 r' x h
        exact ⟨p, r2, .skip h1 h2⟩
      · exact ⟨_, _, .here h1 (by simpa using hd)⟩
    · cases h
    · cases h

/-- With nothing buffered, a read returns the beginning of the next packet and buffers the rest. -/
theorem Ahead.read {r r' : Rdr} {d : Bytes} (h : Ahead r (.data d) r') (hp : r.pending = []) (hd : d.length ≤ 65516)
    (n : Nat) : r.read n = (.ok (d.take n), { r' with pending := d.drop n }) := by
  have hl := h.loop n (r.input.length + 1) (Nat.lt_succ_self _)
  have hr := h.pending
  simp only [Rdr.read, hp, List.length_nil, Nat.zero_min, gt_iff_lt, Nat.lt_irrefl, if_false, Rdr.readLoop, hl, taken]
  by_cases hn : n ≥ maxPacketLen
  · have : d.length ≤ n := by simp only [maxPacketLen] at hn; omega
    rw [if_pos hn, List.drop_of_length_le this]
    rw [hp] at hr
    cases r'; simp only at hr; subst hr; rfl
  · rw [if_neg hn]

theorem Ahead.small {r r' : Rdr} {d : Bytes} (h : Ahead r (.data d) r') : d.length ≤ 65516 ∧ d ≠ [] := by
  generalize hq : Packet.data d = q at h
  induction h with
  | here h hp => subst hq; exact ⟨readOne_small h, fun e => hp (by rw [e])⟩
  | skip _ _ ih => exact ih hq

/-- The same packets are ahead, whatever is buffered. -/
theorem readOne_unbuffered {r r1 : Rdr} {x : Res Packet} (h : r.readOne = (x, r1)) :
    ({ r with pending := [] } : Rdr).readOne = (x, { r1 with pending := [] }) := by
  simp only [Rdr.readOne, Rdr.readExact] at h ⊢
  by_cases h4 : 4 ≤ r.input.length
  · simp only [if_pos h4] at h ⊢
    cases hq : parseHeader r.checked (List.take 4 r.input) with
    | err e => simp only [hq] at h ⊢; cases h; rfl
    | panic => simp only [hq] at h ⊢; cases h; rfl
    | ok size =>
      simp only [hq] at h ⊢
      by_cases hs : size - 4 ≤ (List.drop 4 r.input).length
      · simp only [if_pos hs] at h ⊢
        repeat' split at h
        all_goals (cases h; simp_all)
      · simp only [if_neg hs] at h ⊢
        repeat' split at h
        all_goals (cases h; simp_all <;> omega)
  · simp only [if_neg h4] at h ⊢; cases h; rfl

theorem Ahead.unbuffered {r r1 : Rdr} {p : Packet} (h : Ahead r p r1) :
    Ahead { r with pending := [] } p { r1 with pending := [] } := by
  induction h with
  | here h hp => exact .here (readOne_unbuffered h) hp
  | skip h _ ih => exact .skip (readOne_unbuffered h) ih

/-- Buffering the next packet makes no difference if nothing is buffered. -/
theorem Ahead.same {r r1 : Rdr} {d : Bytes} (ha : Ahead r (.data d) r1) (hp : r.pending = []) {sizes : Nat → Nat}
    {k : Nat} (hpos : ∀ i, 0 < sizes i) (hk : 0 < k) : reads sizes k { r1 with pending := d } = reads sizes k r := by
  obtain ⟨hs, hd⟩ := ha.small
  have hread := ha.read hp hs
  obtain ⟨j, rfl⟩ : ∃ j, k = j + 1 := ⟨k - 1, by omega⟩
  have h0 := hpos 0
  have hdl := List.length_pos_iff.mpr hd
  have : ({ r1 with pending := d } : Rdr).read (sizes 0) = r.read (sizes 0) := by
    rw [hread]
    simp only [Rdr.read]
    rw [if_pos (by show min d.length (sizes 0) > 0; omega)]
    by_cases hn : d.length ≤ sizes 0
    · rw [Nat.min_eq_left hn, List.take_of_length_le (Nat.le_refl _), List.take_of_length_le hn,
        List.drop_of_length_le (Nat.le_refl _), List.drop_of_length_le hn]
    · rw [Nat.min_eq_right (by omega)]
  simp only [reads, this]

/-- Successful reads of one byte each do not go on for ever. -/
theorem reads_finite : ∀ (k : Nat) (r : Rdr) (x : List Bytes × Rdr), reads (fun _ => 1) k r = some x → k ≤ r.left
  | 0, _, _, _ => Nat.zero_le _
  | k + 1, r, x, h => by
    simp only [reads] at h
    split at h
    · rename_i d r1 hr
      obtain ⟨y, hy, _⟩ := Option.map_eq_some_iff.mp h
      have ih := reads_finite k r1 y hy
      have : r1.left < r.left := by
        simp only [Rdr.read] at hr
        split at hr
        · cases hr; simp [Rdr.left]; omega
        · rename_i hk
          have hp : r.pending = [] := by
            cases hq : r.pending with
            | nil => rfl
            | cons a b => simp [hq] at hk
          obtain ⟨p, r2, ha⟩ := ahead_of_loop _ _ _ _ _ hr
          have hl := ha.loop 1 (r.input.length + 1) (Nat.lt_succ_self _)
          have hlen := ha.less
          have hpp := ha.pending
          simp only [Rdr.readLoop] at hr
          rw [hl] at hr
          unfold taken at hr
          cases p with
          | flush => cases hr; simp only [Rdr.left, hpp, hp, List.length_nil] at *; omega
          | delim => cases hr; simp only [Rdr.left, hpp, hp, List.length_nil] at *; omega
          | data d' =>
            have : ¬ 1 ≥ maxPacketLen := by decide
            simp only [if_neg this] at hr
            cases hr
            simp only [Rdr.left, hp, List.length_nil, Packet.data?, Option.getD_some, List.length_drop] at *
            omega
      omega
    · cases h

/-- One read more, in front. -/
theorem reads_one {r r1 : Rdr} {d : Bytes} (h : r.read 1 = (.ok d, r1)) (k : Nat) :
    (reads (fun _ => 1) (k + 1) r).isSome = (reads (fun _ => 1) k r1).isSome := by
  simp [reads, h]

/-- What is buffered is returned first, byte for byte. -/
theorem reads_pending : ∀ (p : Bytes) (r : Rdr), r.pending = p → ∀ k,
    (reads (fun _ => 1) (k + p.length) r).isSome = (reads (fun _ => 1) k { r with pending := [] }).isSome
  | [], r, hp, k => by
    have : ({ r with pending := [] } : Rdr) = r := by cases r; simp only at hp; subst hp; rfl
    rw [this]; rfl
  | a :: p, r, hp, k => by
    have h : r.read 1 = (.ok [a], { r with pending := p }) := by simp [Rdr.read, hp]
    rw [show k + (a :: p).length = (k + p.length) + 1 by simp; omega, reads_one h]
    exact reads_pending p _ rfl k

/-- **C04**, exactly: a zero-length read returns 0 and does no harm if and only if nothing is buffered and the stream
continues, perhaps after empty data packets, with data.

Full property: the left side for every reader. That is false (`C04_zero_read_refuted`); this says for which readers it
holds. -/
theorem C04_exact_partial (r : Rdr) :
    ZeroHarmless r ↔ r.pending = [] ∧ ∃ d r1, Ahead r (.data d) r1 := by
  constructor
  · rintro ⟨r', h0, hh⟩
    have hloop : Rdr.readLoopF (r.input.length + 1) 0 r = (.ok [], r') := by
      simpa [Rdr.read, Rdr.readLoop] using h0
    obtain ⟨p, r1, ha⟩ := ahead_of_loop _ _ _ _ _ hloop
    have hl := ha.loop 0 (r.input.length + 1) (Nat.lt_succ_self _)
    rw [hloop] at hl
    unfold taken at hl
    -- in all other cases the reader after it has fewer reads before it
    have key : ∀ j, (∀ k, (reads (fun _ => 1) k r').isSome = true → (reads (fun _ => 1) (k + (j + 1)) r).isSome = true) →
        False := by
      intro j hj
      have up : ∀ m, (reads (fun _ => 1) (m * (j + 1)) r').isSome = true := by
        intro m
        induction m with
        | zero => rw [Nat.zero_mul]; rfl
        | succ m ih =>
          have h1 := hj _ ih
          have h2 := hh (fun _ => 1) (m * (j + 1) + (j + 1)) (fun _ => Nat.one_pos)
          rw [Nat.succ_mul]
          rw [← Option.isSome_map, h2, Option.isSome_map]
          exact h1
      obtain ⟨x, hx⟩ := Option.isSome_iff_exists.mp (up (r'.left + 1))
      have := reads_finite _ _ _ hx
      have : r'.left + 1 ≤ (r'.left + 1) * (j + 1) := Nat.le_mul_of_pos_right _ (Nat.succ_pos _)
      omega
    -- what would be left to read, were nothing buffered
    have term : (∀ d, p ≠ .data d) → False := by
      intro hp
      have hr' : r' = r1 := by
        cases p with
        | data d => exact absurd rfl (hp d)
        | flush => exact (Prod.ext_iff.mp hl).2
        | delim => exact (Prod.ext_iff.mp hl).2
      have hpend := ha.pending
      have hread : ({ r with pending := [] } : Rdr).read 1 = (.ok [], { r1 with pending := [] }) := by
        have := ha.unbuffered.loop 1 (r.input.length + 1) (Nat.lt_succ_self _)
        simp only [Rdr.read, List.length_nil, Nat.zero_min, gt_iff_lt, Nat.lt_irrefl, if_false, Rdr.readLoop, this]
        unfold taken
        cases p with
        | data d => exact absurd rfl (hp d)
        | flush => rfl
        | delim => rfl
      refine key 0 (fun k hk => ?_)
      by_cases hle : r.pending.length ≤ k
      · obtain ⟨m, rfl⟩ : ∃ m, k = m + r.pending.length := ⟨k - r.pending.length, by omega⟩
        rw [show m + r.pending.length + (0 + 1) = (m + 1) + r.pending.length by omega, reads_pending _ r rfl,
          reads_one hread]
        rw [hr', ← hpend, reads_pending _ r1 rfl] at hk
        exact hk
      · have : (reads (fun _ => 1) (0 + r.pending.length) r).isSome = true := by
          rw [reads_pending _ r rfl]; rfl
        have mono : ∀ (a b : Nat) (r : Rdr), (reads (fun _ => 1) (a + b) r).isSome = true →
            (reads (fun _ => 1) a r).isSome = true := by
          intro a
          induction a with
          | zero => intros; rfl
          | succ a ih =>
            intro b r h
            rw [show a + 1 + b = (a + b) + 1 by omega] at h
            simp only [reads] at h ⊢
            split at h
            · rename_i h1; rw [Option.isSome_map] at h ⊢; exact ih b _ h
            · cases h
        exact mono (k + (0 + 1)) (r.pending.length - (k + 1)) r (by
          rw [show k + (0 + 1) + (r.pending.length - (k + 1)) = 0 + r.pending.length by omega]; exact this)
    cases p with
    | flush => exact (term (by simp)).elim
    | delim => exact (term (by simp)).elim
    | data d =>
      refine ⟨?_, d, r1, ha⟩
      cases hq : r.pending with
      | nil => rfl
      | cons a q =>
        exfalso
        have hr' : r' = { r1 with pending := d } := by
          have : ¬ 0 ≥ maxPacketLen := by decide
          simp only [if_neg this] at hl
          simpa using (Prod.ext_iff.mp hl).2
        refine key q.length (fun k hk => ?_)
        have := reads_pending (a :: q) r hq k
        rw [List.length_cons] at this
        rw [this]
        cases k with
        | zero => rfl
        | succ k =>
          rw [← ha.unbuffered.same rfl (fun _ => Nat.one_pos) (Nat.succ_pos k)]
          rw [hr'] at hk
          exact hk
  · rintro ⟨hp, d, r1, ha⟩
    obtain ⟨hs, hd⟩ := ha.small
    refine ⟨{ r1 with pending := d }, by rw [ha.read hp hs]; simp, fun sizes k hpos => ?_⟩
    cases k with
    | zero => rfl
    | succ k => rw [ha.same hp hpos (Nat.succ_pos k)]

/-- **C04**: where it does no harm, later reads leave the same reader, too. -/
theorem C04_same_partial {r r' : Rdr} (h : ZeroHarmless r) (h0 : r.read 0 = (.ok [], r')) {sizes : Nat → Nat} {k : Nat}
    (hpos : ∀ i, 0 < sizes i) (hk : 0 < k) : reads sizes k r' = reads sizes k r := by
  obtain ⟨hp, d, r1, ha⟩ := (C04_exact_partial r).mp h
  rw [ha.read hp ha.small.1] at h0
  simp only [List.take_zero, List.drop_zero, Prod.mk.injEq, true_and] at h0
  rw [← h0]
  exact ha.same hp hpos hk

/-- Data is ahead, for example, of frames as the writer makes them: some empty ones and one that is not. -/
theorem ahead_frames {es : List Bytes} {d w tl : Bytes} (hd : d ≠ []) (hs : d.length ≤ 65516) : ∀ {r : Rdr},
    (∀ e ∈ es, e = []) → Frames ((es ++ [d]).map .data) w → r.input = w ++ tl →
    Ahead r (.data d) { r with input := tl } := by
  induction es generalizing w with
  | nil =>
    intro r _ hF hi
    exact .here (readOne_frame (p := .data d) (frames_singleton hF) hs r tl hi) (by simpa using hd)
  | cons e es ih =>
    intro r he hF hi
    have : e = [] := he e (by simp)
    subst this
    cases hF with
    | cons hf hF' =>
      rename_i w1 w2
      exact .skip (readOne_frame (p := .data []) hf (by simp [Packet.small]) r (w2 ++ tl) (by rw [hi, List.append_assoc]))
        (ih (r := { r with input := w2 ++ tl }) (fun e h => he e (by simp [h])) hF' rfl)

/-- Both sides occur: an empty packet and then data; and data while something is buffered. -/
example : ZeroHarmless (Rdr.new b!"00040005b0000" eofErr false) :=
  (C04_exact_partial _).mpr ⟨rfl, b!"b", _, ahead_frames (es := [[]]) (w := b!"00040005b") (tl := b!"0000") (by decide)
    (by decide) (by simp) (Frames.cons (Frame.data b!"0004" [] ⟨rfl, by decide⟩)
      (Frames.cons (Frame.data b!"0005" b!"b" ⟨rfl, by decide⟩) Frames.nil)) rfl⟩
example : ¬ ZeroHarmless ⟨b!"0005b0000", b!"a", eofErr, false⟩ := fun h => by
  have := ((C04_exact_partial _).mp h).1
  cases this
example : ¬ ZeroHarmless (Rdr.new b!"0000" eofErr false) := fun h => by
  obtain ⟨_, d, r1, ha⟩ := (C04_exact_partial _).mp h
  have h0 : (Rdr.new b!"0000" eofErr false).readOne = (.ok .flush, Rdr.new [] eofErr false) := by decide +kernel
  cases ha with
  | here h _ => rw [h0] at h; cases h
  | skip h _ => rw [h0] at h; cases h

/-! ### C05 -/

theorem headerDigit_lax (x : UInt8) : headerDigit x = laxDigit x ∧ ∀ v, laxDigit x = some v → v ≤ 16 := by
  have := forall_u8 (fun x => decide (headerDigit x = laxDigit x) && (laxDigit x).all (fun v => decide (v ≤ 16)))
    (by decide +kernel) x
  simp only [Bool.and_eq_true, decide_eq_true_eq] at this
  refine ⟨this.1, fun v hv => ?_⟩
  have h2 := this.2
  rw [hv] at h2
  simpa using h2

theorem shl_sum {a b c d : Nat} (ha : a ≤ 16) (hb : b ≤ 16) (hc : c ≤ 16) (hd : d ≤ 16) :
    shl16 a 0 + shl16 b 1 + shl16 c 2 + shl16 d 3 = laxSum a b c d := by
  simp only [shl16, laxSum]
  split <;> omega

/-- **C05**, exactly: what the parser does with every header. It accepts four digits of its own, and takes them for the
sum of their values in 16 bits; where overflow is checked, it panics instead if the sum does not fit; everything else
is refused.

Full property: it accepts just the hexadecimal digits. That is false (`C05_header_refuted`); this says what it does
with all other headers. -/
theorem C05_exact_partial (checked : Bool) (h : Bytes) :
    (∀ n, parseHeader checked h = .ok n ↔ ∃ a b c d, LaxHeader h a b c d ∧ n = laxSum a b c d % 65536 ∧
      (checked = true → laxSum a b c d < 65536)) ∧
    (parseHeader checked h = .panic ↔ checked = true ∧ ∃ a b c d, LaxHeader h a b c d ∧ 65536 ≤ laxSum a b c d) ∧
    ((¬ ∃ a b c d, LaxHeader h a b c d) ↔ parseHeader checked h = .err (Err.simple .badPktlineHeader)) ∧
    (∀ e, parseHeader checked h = .err e → e = Err.simple .badPktlineHeader) := by
  by_cases hl : ∃ a b c d, LaxHeader h a b c d
  · obtain ⟨a, b, c, d, hh⟩ := hl
    have uniq : ∀ a' b' c' d', LaxHeader h a' b' c' d' → a' = a ∧ b' = b ∧ c' = c ∧ d' = d := by
      intro a' b' c' d' h'
      simp only [LaxHeader] at hh h'
      rw [hh] at h'
      simp only [List.cons.injEq, Option.some.injEq, and_true] at h'
      exact ⟨h'.1.symm, h'.2.1.symm, h'.2.2.1.symm, h'.2.2.2.symm⟩
    have hp : parseHeader checked h = if laxSum a b c d < 65536 then .ok (laxSum a b c d) else
        if checked then .panic else .ok (laxSum a b c d % 65536) := by
      have hh' := hh
      simp only [LaxHeader] at hh'
      match h, hh' with
      | [x, y, z, t], hh' =>
        simp only [List.map_cons, List.map_nil, List.cons.injEq, and_true] at hh'
        obtain ⟨hx, hy, hz, ht⟩ := hh'
        have dx := headerDigit_lax x
        have dy := headerDigit_lax y
        have dz := headerDigit_lax z
        have dt := headerDigit_lax t
        simp only [parseHeader, dx.1, dy.1, dz.1, dt.1, hx, hy, hz, ht]
        rw [shl_sum (dx.2 _ hx) (dy.2 _ hy) (dz.2 _ hz) (dt.2 _ ht)]
      | [], hh' => simp at hh'
      | [_], hh' => simp at hh'
      | [_, _], hh' => simp at hh'
      | [_, _, _], hh' => simp at hh'
      | _ :: _ :: _ :: _ :: _ :: _, hh' => simp at hh'
    refine ⟨fun n => ⟨fun hn => ⟨a, b, c, d, hh, ?_⟩, ?_⟩, ⟨fun hn => ?_, ?_⟩, ⟨fun hn => absurd ⟨a, b, c, d, hh⟩ hn, ?_⟩, ?_⟩
    · rw [hp] at hn
      split at hn
      · rename_i hlt; cases hn; exact ⟨(Nat.mod_eq_of_lt hlt).symm, fun _ => hlt⟩
      · split at hn
        · cases hn
        · rename_i hc; cases hn; exact ⟨rfl, fun h => absurd h hc⟩
    · rintro ⟨a', b', c', d', h', rfl, hc⟩
      obtain ⟨rfl, rfl, rfl, rfl⟩ := uniq _ _ _ _ h'
      rw [hp]
      split
      · rename_i hlt; rw [Nat.mod_eq_of_lt hlt]
      · rename_i hlt
        cases checked with
        | true => exact absurd (hc rfl) hlt
        | false => rfl
    · rw [hp] at hn
      split at hn
      · cases hn
      · rename_i hlt
        split at hn
        · rename_i hc; exact ⟨hc, a, b, c, d, hh, by omega⟩
        · cases hn
    · rintro ⟨rfl, a', b', c', d', h', hle⟩
      obtain ⟨rfl, rfl, rfl, rfl⟩ := uniq _ _ _ _ h'
      rw [hp, if_neg (by omega)]; rfl
    · intro he
      rw [hp] at he
      repeat' split at he
      all_goals cases he
    · intro e he
      rw [hp] at he
      repeat' split at he
      all_goals cases he
  · have hp : parseHeader checked h = .err (Err.simple .badPktlineHeader) := by
      match h, hl with
      | [x, y, z, t], hl =>
        have dx := headerDigit_lax x
        have dy := headerDigit_lax y
        have dz := headerDigit_lax z
        have dt := headerDigit_lax t
        simp only [parseHeader, dx.1, dy.1, dz.1, dt.1]
        cases hx : laxDigit x with
        | none => rfl
        | some a =>
          cases hy : laxDigit y with
          | none => rfl
          | some b =>
            cases hz : laxDigit z with
            | none => rfl
            | some c =>
              cases ht : laxDigit t with
              | none => rfl
              | some d => exact absurd ⟨a, b, c, d, by simp [LaxHeader, hx, hy, hz, ht]⟩ hl
      | [], _ => rfl
      | [_], _ => rfl
      | [_, _], _ => rfl
      | [_, _, _], _ => rfl
      | _ :: _ :: _ :: _ :: _ :: _, _ => rfl
    refine ⟨fun n => ⟨fun hn => ?_, fun ⟨a, b, c, d, h', _⟩ => absurd ⟨a, b, c, d, h'⟩ hl⟩,
      ⟨fun hn => ?_, fun ⟨_, a, b, c, d, h', _⟩ => absurd ⟨a, b, c, d, h'⟩ hl⟩, ⟨fun _ => hp, fun _ => hl⟩, ?_⟩
    · rw [hp] at hn; cases hn
    · rw [hp] at hn; cases hn
    · intro e he; rw [hp] at he; cases he; rfl

example : LaxHeader b!"0:g1" 0 10 16 1 ∧ parseHeader true b!"0:g1" = .ok (2560 + 256 + 1) := by
  constructor
  · show _ = _
    decide +kernel
  · decide +kernel
example : LaxHeader b!"fg00" 15 16 0 0 ∧ 65536 ≤ laxSum 15 16 0 0 := by
  constructor
  · show _ = _
    decide +kernel
  · decide
example : ¬ ∃ a b c d, LaxHeader b!"00G0" a b c d := by
  rintro ⟨a, b, c, d, h⟩
  have h0 : b!"00G0".map laxDigit = [some 0, some 0, none, some 0] := by decide +kernel
  rw [LaxHeader, h0] at h
  cases h

end Verif
