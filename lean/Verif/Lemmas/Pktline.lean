import Verif.Lemmas.Bytes
import Verif.Spec.Wire
/-! Lemmas about the pkt-line reader and writer. -/
namespace Verif
open Spec

/-- Decoding of one byte as a hexadecimal digit, with the reader's laxness made explicit. -/
theorem headerDigit_hexDigit (n : Nat) (h : n < 16) : headerDigit (hexDigit n) = some n := by
  have : (List.range 16).all (fun n => decide (headerDigit (hexDigit n) = some n)) = true := by
    decide
  have := List.all_eq_true.mp this n (by simpa using h)
  simpa using this

theorem idxOf_hexDigit (n : Nat) (h : n < 16) : hexDigits.idxOf? (hexDigit n) = some n := by
  have : (List.range 16).all (fun n => decide (hexDigits.idxOf? (hexDigit n) = some n)) = true := by
    decide
  have := List.all_eq_true.mp this n (by simpa using h)
  simpa using this

theorem headerDigit_of_idx (x : UInt8) (v : Nat) (h : hexDigits.idxOf? x = some v) :
    headerDigit x = some v ∧ v < 16 ∧ x = hexDigit v := by
  have := forall_u8 (fun x => match hexDigits.idxOf? x with
    | some v => decide (headerDigit x = some v ∧ v < 16 ∧ x = hexDigit v)
    | none => true) (by decide +kernel) x
  rw [h] at this
  simpa using this

theorem shl16_small (v : Nat) (h : v < 16) :
    shl16 v 0 = v * 4096 ∧ shl16 v 1 = v * 256 ∧ shl16 v 2 = v * 16 ∧ shl16 v 3 = v := by
  simp only [shl16]
  refine ⟨?_, ?_, ?_, ?_⟩ <;> simp <;> omega

theorem parseHeader_digits (c : Bool) (x y z t : UInt8) (a b d e : Nat)
    (ha : headerDigit x = some a) (hb : headerDigit y = some b) (hd : headerDigit z = some d)
    (he : headerDigit t = some e) (a16 : a < 16) (b16 : b < 16) (d16 : d < 16) (e16 : e < 16) :
    parseHeader c [x, y, z, t] = .ok (a * 4096 + b * 256 + d * 16 + e) := by
  simp only [parseHeader, ha, hb, hd, he, (shl16_small a a16).1, (shl16_small b b16).2.1,
    (shl16_small d d16).2.2.1, (shl16_small e e16).2.2.2]
  rw [if_pos (by omega)]

theorem isHeader_digits {h : Bytes} {n : Nat} (hh : IsHeader h n) :
    ∃ a b c d, h = [hexDigit a, hexDigit b, hexDigit c, hexDigit d] ∧ a < 16 ∧ b < 16 ∧ c < 16 ∧
      d < 16 ∧ n = a * 4096 + b * 256 + c * 16 + d := by
  obtain ⟨hl, hv⟩ := hh
  match h, hl with
  | [x, y, z, t], _ =>
    simp only [hexValue?, List.foldl_cons, List.foldl_nil] at hv
    cases ha : hexDigits.idxOf? x with
    | none => simp [ha] at hv
    | some a =>
      cases hb : hexDigits.idxOf? y with
      | none => simp [hb] at hv
      | some b =>
        cases hc : hexDigits.idxOf? z with
        | none => simp [hc] at hv
        | some c =>
          cases hd : hexDigits.idxOf? t with
          | none => simp [hd] at hv
          | some d =>
            simp only [ha, hb, hc, hd, Option.some.injEq] at hv
            obtain ⟨_, a16, rfl⟩ := headerDigit_of_idx _ _ ha
            obtain ⟨_, b16, rfl⟩ := headerDigit_of_idx _ _ hb
            obtain ⟨_, c16, rfl⟩ := headerDigit_of_idx _ _ hc
            obtain ⟨_, d16, rfl⟩ := headerDigit_of_idx _ _ hd
            exact ⟨a, b, c, d, rfl, a16, b16, c16, d16, by omega⟩

theorem parseHeader_isHeader (c : Bool) {h : Bytes} {n : Nat} (hh : IsHeader h n) :
    parseHeader c h = .ok n := by
  obtain ⟨a, b, d, e, rfl, a16, b16, d16, e16, rfl⟩ := isHeader_digits hh
  exact parseHeader_digits c _ _ _ _ a b d e (headerDigit_hexDigit a a16)
    (headerDigit_hexDigit b b16) (headerDigit_hexDigit d d16) (headerDigit_hexDigit e e16)
    a16 b16 d16 e16

theorem isHeader_hex4 (n : Nat) (h : n < 65536) : IsHeader (hex4 n) n := by
  refine ⟨hex4_length n h, ?_⟩
  rw [hex4_eq n h]
  simp only [hexValue?, List.foldl_cons, List.foldl_nil, idxOf_hexDigit _ (show n / 4096 < 16 by omega),
    idxOf_hexDigit _ (show n / 256 % 16 < 16 by omega), idxOf_hexDigit _ (show n / 16 % 16 < 16 by omega),
    idxOf_hexDigit _ (show n % 16 < 16 by omega)]
  congr 1; omega

theorem isHeader_lt {h : Bytes} {n : Nat} (hh : IsHeader h n) : n < 65536 := by
  obtain ⟨a, b, d, e, rfl, a16, b16, d16, e16, rfl⟩ := isHeader_digits hh
  omega

theorem isHeader_unique {h : Bytes} {n : Nat} (hh : IsHeader h n) : h = hex4 n := by
  obtain ⟨a, b, d, e, rfl, a16, b16, d16, e16, rfl⟩ := isHeader_digits hh
  rw [hex4_eq _ (by omega)]
  have h1 : (a * 4096 + b * 256 + d * 16 + e) / 4096 = a := by omega
  have h2 : (a * 4096 + b * 256 + d * 16 + e) / 256 % 16 = b := by omega
  have h3 : (a * 4096 + b * 256 + d * 16 + e) / 16 % 16 = d := by omega
  have h4 : (a * 4096 + b * 256 + d * 16 + e) % 16 = e := by omega
  rw [h1, h2, h3, h4]

theorem readExact_append (r : Rdr) (a b : Bytes) (h : r.input = a ++ b) :
    r.readExact a.length = (.ok a, { r with input := b }) := by
  simp [Rdr.readExact, h]

/-- `r'` is `r` after consuming some input and nothing else. -/
structure Rdr.Adv (r r' : Rdr) : Prop where
  fin : r'.fin = r.fin
  checked : r'.checked = r.checked
  pending : r'.pending = r.pending
  suffix : r'.input <:+ r.input

theorem Rdr.Adv.refl (r : Rdr) : r.Adv r := ⟨rfl, rfl, rfl, List.suffix_refl _⟩

theorem Rdr.Adv.trans {a b c : Rdr} (h1 : a.Adv b) (h2 : b.Adv c) : a.Adv c :=
  ⟨h2.fin.trans h1.fin, h2.checked.trans h1.checked, h2.pending.trans h1.pending,
    h2.suffix.trans h1.suffix⟩

theorem Rdr.Adv.len {a b : Rdr} (h : a.Adv b) : b.input.length ≤ a.input.length :=
  h.suffix.length_le

theorem readExact_adv {r r' : Rdr} {n : Nat} {x : Except IoErr Bytes}
    (h : r.readExact n = (x, r')) : r.Adv r' := by
  unfold Rdr.readExact at h
  split at h
  · cases h; exact ⟨rfl, rfl, rfl, List.drop_suffix _ _⟩
  · cases h; exact ⟨rfl, rfl, rfl, List.nil_suffix⟩

theorem readExact_ok {r r' : Rdr} {n : Nat} {d : Bytes} (h : r.readExact n = (.ok d, r')) :
    d.length = n ∧ r.input = d ++ r'.input ∧ r' = { r with input := r'.input } := by
  unfold Rdr.readExact at h
  split at h
  · cases h; refine ⟨by simp; omega, by simp, rfl⟩
  · cases h

theorem readPacket_adv {r r' : Rdr} {x : Res Packet} (h : r.readPacket = (x, r')) : r.Adv r' := by
  unfold Rdr.readPacket at h
  split at h
  · rename_i h1; cases h; exact readExact_adv h1
  · rename_i h1
    have a := readExact_adv h1
    split at h
    · cases h; exact a
    · cases h; exact a
    · split at h
      · cases h; exact a
      · split at h
        · cases h; exact a
        · split at h
          · cases h; exact a
          · split at h
            · rename_i h2; cases h; exact a.trans (readExact_adv h2)
            · rename_i h2; cases h; exact a.trans (readExact_adv h2)

theorem readOne_adv {r r' : Rdr} {x : Res Packet} (h : r.readOne = (x, r')) : r.Adv r' := by
  unfold Rdr.readOne at h
  split at h
  · rename_i h1; cases h; exact readExact_adv h1
  · rename_i h1
    have a := readExact_adv h1
    split at h
    · cases h; exact a
    · cases h; exact a
    · split at h
      · cases h; exact a
      · split at h
        · cases h; exact a
        · split at h
          · cases h; exact a
          · split at h
            · cases h; exact a
            · split at h
              · rename_i h2; cases h; exact a.trans (readExact_adv h2)
              · rename_i h2; cases h; exact a.trans (readExact_adv h2)

theorem readExact_short (r : Rdr) (n : Nat) (h : r.input.length < n) :
    r.readExact n = (.error r.fin, { r with input := [] }) := by
  have : ¬ n ≤ r.input.length := by omega
  simp [Rdr.readExact, this]

/-- What both packet readers do on a well-formed header. -/
theorem readPacket_header (r : Rdr) (h rest : Bytes) (n : Nat) (hh : IsHeader h n)
    (hi : r.input = h ++ rest) :
    r.readPacket =
      if n = 0 then (.ok .flush, { r with input := rest })
      else if n = 1 then (.ok .delim, { r with input := rest })
      else if n = 2 ∨ n = 3 then (.err (Err.simple .badPktlineHeader), { r with input := rest })
      else if n - 4 ≤ rest.length then
        (.ok (.data (rest.take (n - 4))), { r with input := rest.drop (n - 4) })
      else (.err (Err.ofIo r.fin), { r with input := [] }) := by
  have h4 : h.length = 4 := hh.1
  have := readExact_append r h rest hi
  rw [h4] at this
  rw [Rdr.readPacket, this]
  simp only [parseHeader_isHeader r.checked hh]
  split
  · rfl
  · split
    · rfl
    · split
      · rfl
      · simp only [Rdr.readExact]
        by_cases hc : n - 4 ≤ rest.length <;> simp only [hc, if_true, if_false]

theorem readOne_header (r : Rdr) (h rest : Bytes) (n : Nat) (hh : IsHeader h n)
    (hi : r.input = h ++ rest) :
    r.readOne =
      if n = 0 then (.ok .flush, { r with input := rest })
      else if n = 1 then (.ok .delim, { r with input := rest })
      else if n = 2 ∨ n = 3 then (.err (Err.simple .badPktlineHeader), { r with input := rest })
      else if n > 65520 then (.err (Err.simple .badPktlineHeader), { r with input := rest })
      else if n - 4 ≤ rest.length then
        (.ok (.data (rest.take (n - 4))), { r with input := rest.drop (n - 4) })
      else (.err (Err.ofIo r.fin), { r with input := [] }) := by
  have h4 : h.length = 4 := hh.1
  have := readExact_append r h rest hi
  rw [h4] at this
  rw [Rdr.readOne, this]
  simp only [parseHeader_isHeader r.checked hh, show maxPacketLen + 4 = 65520 from rfl]
  split
  · rfl
  · split
    · rfl
    · split
      · rfl
      · by_cases hm : n > 65520
        · simp only [hm, if_true]
        · simp only [Rdr.readExact]
          by_cases hc : n - 4 ≤ rest.length <;> simp only [hm, hc, if_true, if_false]

theorem isHeader_0 : IsHeader b!"0000" 0 := ⟨rfl, by decide⟩
theorem isHeader_1 : IsHeader b!"0001" 1 := ⟨rfl, by decide⟩

theorem readPacket_frame {p : Packet} {w : Bytes} (hf : Frame p w) (r : Rdr) (rest : Bytes)
    (hi : r.input = w ++ rest) : r.readPacket = (.ok p, { r with input := rest }) := by
  cases hf with
  | flush => rw [readPacket_header r _ rest 0 isHeader_0 hi]; rfl
  | delim => rw [readPacket_header r _ rest 1 isHeader_1 hi]; rfl
  | data h d hh =>
    rw [readPacket_header r h (d ++ rest) _ hh (by rw [hi, List.append_assoc])]
    rw [if_neg (by omega), if_neg (by omega), if_neg (by omega)]
    simp

/-- Payload of a packet fits the streaming reader. -/
def Packet.small : Packet → Prop
  | .data d => d.length ≤ 65516
  | _ => True

theorem readOne_frame {p : Packet} {w : Bytes} (hf : Frame p w) (hs : p.small) (r : Rdr)
    (rest : Bytes) (hi : r.input = w ++ rest) : r.readOne = (.ok p, { r with input := rest }) := by
  cases hf with
  | flush => rw [readOne_header r _ rest 0 isHeader_0 hi]; rfl
  | delim => rw [readOne_header r _ rest 1 isHeader_1 hi]; rfl
  | data h d hh =>
    simp only [Packet.small] at hs
    rw [readOne_header r h (d ++ rest) _ hh (by rw [hi, List.append_assoc])]
    rw [if_neg (by omega), if_neg (by omega), if_neg (by omega), if_neg (by omega)]
    simp

theorem frame_length {p : Packet} {w : Bytes} (hf : Frame p w) : 4 ≤ w.length := by
  cases hf with
  | flush => decide
  | delim => decide
  | data h d hh => have := hh.1; simp; omega

theorem frame_encPacket (p : Packet) (h : ∀ d, p = .data d → d.length ≤ 65531) :
    Frame p (encPacket p) := by
  cases p with
  | flush => exact Frame.flush
  | delim => exact Frame.delim
  | data d => exact Frame.data _ d (isHeader_hex4 _ (by have := h d rfl; omega))

theorem frame_unique {p : Packet} {w : Bytes} (hf : Frame p w) : w = encPacket p := by
  cases hf with
  | flush => rfl
  | delim => rfl
  | data h d hh => rw [isHeader_unique hh]; rfl

/-- The same for the reader of packets. -/
theorem readPacket_truncated {p : Packet} {w part : Bytes} (hf : Frame p w) (r : Rdr)
    (hp : part <+: w) (hne : part ≠ w) (hi : r.input = part) :
    r.readPacket = (.err (Err.ofIo r.fin), { r with input := [] }) := by
  obtain ⟨suf, hsuf⟩ := hp
  have hlen : part.length < w.length := by
    rw [← hsuf]
    have : suf ≠ [] := by
      intro e; subst e; simp at hsuf; exact hne hsuf
    have := List.length_pos_iff.mpr this
    simp; omega
  by_cases h4 : part.length < 4
  · rw [Rdr.readPacket, readExact_short r 4 (by rw [hi]; exact h4)]
  · cases hf with
    | flush => simp at hlen; omega
    | delim => simp at hlen; omega
    | data h d hh =>
      have hh4 := hh.1
      have e : part = h ++ part.drop 4 := by
        have h1 : part.take 4 = (h ++ d).take 4 := by rw [← hsuf, List.take_append_of_le_length (by omega)]
        have h2 : (h ++ d).take 4 = h := by rw [← hh4]; simp
        conv => lhs; rw [← List.take_append_drop 4 part, h1, h2]
      rw [readPacket_header r h (part.drop 4) _ hh (by rw [hi]; exact e)]
      rw [if_neg (by omega), if_neg (by omega), if_neg (by omega), if_neg]
      simp at hlen ⊢; omega

/-- Reading from a proper prefix of a packet fails with the source's final error. -/
theorem readOne_truncated {p : Packet} {w part : Bytes} (hf : Frame p w) (hs : p.small) (r : Rdr)
    (hp : part <+: w) (hne : part ≠ w) (hi : r.input = part) :
    r.readOne = (.err (Err.ofIo r.fin), { r with input := [] }) := by
  obtain ⟨suf, hsuf⟩ := hp
  have hlen : part.length < w.length := by
    rw [← hsuf]
    have : suf ≠ [] := by
      intro e; subst e; simp at hsuf; exact hne hsuf
    have := List.length_pos_iff.mpr this
    simp; omega
  by_cases h4 : part.length < 4
  · rw [Rdr.readOne, readExact_short r 4 (by rw [hi]; exact h4)]
  · cases hf with
    | flush => simp at hlen; omega
    | delim => simp at hlen; omega
    | data h d hh =>
      have hh4 := hh.1
      simp only [Packet.small] at hs
      have e : part = h ++ part.drop 4 := by
        have h1 : part.take 4 = (h ++ d).take 4 := by rw [← hsuf, List.take_append_of_le_length (by omega)]
        have h2 : (h ++ d).take 4 = h := by rw [← hh4]; simp
        conv => lhs; rw [← List.take_append_drop 4 part, h1, h2]
      rw [readOne_header r h (part.drop 4) _ hh (by rw [hi]; exact e)]
      rw [if_neg (by omega), if_neg (by omega), if_neg (by omega), if_neg (by omega), if_neg]
      simp at hlen ⊢; omega

end Verif

namespace Verif
open Spec

theorem frames_append {ps qs : List Packet} {v w : Bytes} (h1 : Frames ps v) (h2 : Frames qs w) :
    Frames (ps ++ qs) (v ++ w) := by
  induction h1 with
  | nil => exact h2
  | cons hf _ ih => rw [List.append_assoc]; exact Frames.cons hf ih

theorem frames_split {ps qs : List Packet} {w : Bytes} (h : Frames (ps ++ qs) w) :
    ∃ u v, w = u ++ v ∧ Frames ps u ∧ Frames qs v := by
  induction ps generalizing w with
  | nil => exact ⟨[], w, rfl, Frames.nil, h⟩
  | cons p ps ih =>
    cases h with
    | cons hf hs =>
      obtain ⟨u, v, rfl, hu, hv⟩ := ih hs
      exact ⟨_ ++ u, v, by rw [List.append_assoc], Frames.cons hf hu, hv⟩

theorem frames_singleton {p : Packet} {w : Bytes} (h : Frames [p] w) : Frame p w := by
  cases h with
  | cons hf hs => cases hs; simpa using hf

theorem frame_singleton {p : Packet} {w : Bytes} (h : Frame p w) : Frames [p] w := by
  have := Frames.cons h Frames.nil
  simpa using this

theorem frames_length {ps : List Packet} {w : Bytes} (h : Frames ps w) : 4 * ps.length ≤ w.length := by
  induction h with
  | nil => simp
  | cons hf _ ih => have := frame_length hf; simp; omega

/-- The streaming read over data packets: it skips empty ones, then returns (part of) the first
non-empty one and buffers the rest of it. -/
theorem readLoopF_data : ∀ (ds : List Bytes) (w tl : Bytes) (f n : Nat) (r : Rdr),
    Frames (ds.map .data) w → (∀ d ∈ ds, d.length ≤ 65516) → r.input = w ++ tl → r.pending = [] →
    ds.length < f →
    (ds.flatten = [] ∧ r.readLoopF f n = ({ r with input := tl } : Rdr).readLoopF (f - ds.length) n) ∨
    (∃ (d : Bytes) (ds' : List Bytes) (w' : Bytes), d ≠ [] ∧ ds.flatten = d ++ ds'.flatten ∧ (∀ d ∈ ds', d.length ≤ 65516) ∧
      Frames (ds'.map .data) w' ∧
      r.readLoopF f n = (.ok (d.take n), { r with input := w' ++ tl, pending := d.drop n }))
  | [], w, tl, f, n, r, hF, _, hi, _, _ => by
    cases hF
    left
    refine ⟨rfl, ?_⟩
    simp only [List.nil_append] at hi
    rw [← hi]; rfl
  | d :: ds, w, tl, f, n, r, hF, hs, hi, hp, hf => by
    cases hF with
    | @cons _ _ w1 ws hf1 hFs =>
      obtain ⟨g, rfl⟩ : ∃ g, f = g + 1 := ⟨f - 1, by simp at hf; omega⟩
      have hone := readOne_frame (p := .data d) hf1 (hs d (by simp)) r (ws ++ tl)
        (by rw [hi, List.append_assoc])
      rw [Rdr.readLoopF, hone]
      by_cases hd : d = []
      · subst hd
        have ih := readLoopF_data ds ws tl g n { r with input := ws ++ tl } hFs
          (fun d hd => hs d (by simp [hd])) rfl hp (by simp at hf; omega)
        simp only [if_true, ite_self]
        rcases ih with ⟨h1, h2⟩ | ⟨d', ds', w', h1, h2, h3, h4, h5⟩
        · left; refine ⟨by simpa using h1, ?_⟩
          rw [h2]; simp
        · right; exact ⟨d', ds', w', h1, by simpa using h2, h3, h4, h5⟩
      · right
        refine ⟨d, ds, ws, hd, by simp, fun d hd => hs d (by simp [hd]), hFs, ?_⟩
        simp only [hd, if_false]
        have hl := hs d (by simp)
        by_cases hn : n ≥ maxPacketLen
        · have : d.length ≤ n := Nat.le_trans hl hn
          simp only [hn, if_true]
          rw [List.take_of_length_le this, List.drop_of_length_le this, ← hp]
        · simp only [hn, if_false]

theorem readLoopF_end {t : Packet} {wt rest : Bytes} (ht : t = .flush ∨ t = .delim)
    (hF : Frame t wt) (f n : Nat) (r : Rdr) (hi : r.input = wt ++ rest) :
    r.readLoopF (f + 1) n = (.ok [], { r with input := rest }) := by
  have hs : t.small := by rcases ht with rfl | rfl <;> trivial
  rw [Rdr.readLoopF, readOne_frame hF hs r rest hi]
  rcases ht with rfl | rfl <;> rfl

theorem readLoopF_truncated {p : Packet} {w part : Bytes} (hF : Frame p w) (hs : p.small)
    (hp : part <+: w) (hne : part ≠ w) (f n : Nat) (r : Rdr) (hi : r.input = part) :
    r.readLoopF (f + 1) n = (.err (Err.ofIo (Err.ofIo r.fin).toIo), { r with input := [] }) := by
  rw [Rdr.readLoopF, readOne_truncated hF hs r hp hne hi]

/-- Draining the data under any schedule of positive read sizes. -/
theorem reads_data : ∀ (m : Nat) (ds : List Bytes) (w tl : Bytes) (sizes : Nat → Nat) (r : Rdr),
    r.pending.length + ds.flatten.length = m →
    Frames (ds.map .data) w → (∀ d ∈ ds, d.length ≤ 65516) → r.input = w ++ tl →
    (∀ i, 0 < sizes i) →
    ∃ (k : Nat) (outs ds' : List Bytes) (w' : Bytes), reads sizes k r = some (outs, { r with input := w' ++ tl, pending := [] }) ∧
      outs.length = k ∧ (∀ o ∈ outs, o ≠ []) ∧ outs.flatten = r.pending ++ ds.flatten ∧
      Frames (ds'.map .data) w' ∧ ds'.flatten = [] ∧ (∀ d ∈ ds', d.length ≤ 65516) ∧
      (∀ i (h : i < outs.length), (outs[i]).length ≤ sizes i) := by
  intro m
  induction m using Nat.strongRecOn with
  | ind m ih =>
    intro ds w tl sizes r hm hF hs hi hpos
    have key : ∀ (piece : Bytes) (r1 : Rdr) (ds1 : List Bytes) (w1 : Bytes), piece ≠ [] →
        r.read (sizes 0) = (.ok piece, r1) → r1.fin = r.fin → r1.checked = r.checked →
        Frames (ds1.map .data) w1 → (∀ d ∈ ds1, d.length ≤ 65516) → r1.input = w1 ++ tl →
        r.pending ++ ds.flatten = piece ++ (r1.pending ++ ds1.flatten) → piece.length ≤ sizes 0 →
        ∃ (k : Nat) (outs ds' : List Bytes) (w' : Bytes), reads sizes k r = some (outs, { r with input := w' ++ tl, pending := [] }) ∧
          outs.length = k ∧ (∀ o ∈ outs, o ≠ []) ∧ outs.flatten = r.pending ++ ds.flatten ∧
          Frames (ds'.map .data) w' ∧ ds'.flatten = [] ∧ (∀ d ∈ ds', d.length ≤ 65516) ∧
          (∀ i (h : i < outs.length), (outs[i]).length ≤ sizes i) := by
      intro piece r1 ds1 w1 hne hread hfin hchk hF1 hs1 hi1 hcat hlen
      have hpl := List.length_pos_iff.mpr hne
      have hcl := congrArg List.length hcat
      simp only [List.length_append] at hcl
      obtain ⟨k, outs, ds', w', h1, h2, h3, h4, h5, h6, h7, h8⟩ :=
        ih (r1.pending.length + ds1.flatten.length) (by omega) ds1 w1 tl (fun i => sizes (i + 1)) r1
          rfl hF1 hs1 hi1 (fun i => hpos (i + 1))
      refine ⟨k + 1, piece :: outs, ds', w', ?_, by simp [h2], ?_, ?_, h5, h6, h7, ?_⟩
      · rw [reads, hread]; simp only [h1, Option.map_some, hfin, hchk]
      · intro o ho
        rcases List.mem_cons.mp ho with rfl | ho
        · exact hne
        · exact h3 o ho
      · rw [List.flatten_cons, h4, hcat]
      · intro i hi
        cases i with
        | zero => simpa using hlen
        | succ i => simpa using h8 i (by simpa using hi)
    by_cases hp : r.pending = []
    · have hread : r.read (sizes 0) = r.readLoop (sizes 0) := by
        simp [Rdr.read, hp]
      have hfl : ds.length < r.input.length + 1 := by
        have := frames_length hF
        rw [hi]; simp at this ⊢; omega
      rcases readLoopF_data ds w tl (r.input.length + 1) (sizes 0) r hF hs hi hp hfl with
        ⟨he, _⟩ | ⟨d, ds', w', hd, hcat, hs', hF', hres⟩
      · refine ⟨0, [], ds, w, ?_, rfl, by simp, by simp [hp, he], hF, he, hs, by simp⟩
        simp only [reads]; rw [← hp, ← hi]
      · have h0 := hpos 0
        refine key (d.take (sizes 0)) _ ds' w' ?_ (hread.trans hres) rfl rfl hF' hs' rfl ?_ ?_
        · intro e
          rcases List.take_eq_nil_iff.mp e with h | h
          · omega
          · exact hd h
        · simp only [hp, List.nil_append, hcat]
          rw [← List.append_assoc, List.take_append_drop]
        · simp; omega
    · have hpl := List.length_pos_iff.mpr hp
      have h0 := hpos 0
      have hk : min r.pending.length (sizes 0) > 0 := by omega
      refine key (r.pending.take (min r.pending.length (sizes 0)))
        { r with pending := r.pending.drop (min r.pending.length (sizes 0)) } ds w ?_ ?_ rfl rfl hF hs hi ?_ ?_
      · intro e
        rcases List.take_eq_nil_iff.mp e with h | h
        · omega
        · exact hp h
      · simp only [Rdr.read, hk, if_true]
      · show r.pending ++ ds.flatten = _ ++ (r.pending.drop _ ++ ds.flatten)
        rw [← List.append_assoc, List.take_append_drop]
      · simp; omega

end Verif
