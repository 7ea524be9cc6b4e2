import Verif.Spec.Utf8
/-!
The model's UTF-8 decoding against Lean's encoding.
-/
namespace Verif
open Spec

/-- Second bytes allowed in a sequence of three. -/
def second3 (a b : Nat) : Prop := (a = 0xE0 ∧ 0xA0 ≤ b ∧ b ≤ 0xBF) ∨ (0xE1 ≤ a ∧ a ≤ 0xEC ∧ 0x80 ≤ b ∧ b ≤ 0xBF) ∨
  (a = 0xED ∧ 0x80 ≤ b ∧ b ≤ 0x9F) ∨ (0xEE ≤ a ∧ a ≤ 0xEF ∧ 0x80 ≤ b ∧ b ≤ 0xBF)

/-- Second bytes allowed in a sequence of four. -/
def second4 (a b : Nat) : Prop := (a = 0xF0 ∧ 0x90 ≤ b ∧ b ≤ 0xBF) ∨ (0xF1 ≤ a ∧ a ≤ 0xF3 ∧ 0x80 ≤ b ∧ b ≤ 0xBF) ∨
  (a = 0xF4 ∧ 0x80 ≤ b ∧ b ≤ 0x8F)

/-- The byte sequences that encode a character. -/
def Shape : Bytes → Prop
  | [a] => a.toNat < 128
  | [a, b] => 0xC2 ≤ a.toNat ∧ a.toNat < 0xE0 ∧ b.toNat / 64 = 2
  | [a, b, c] => second3 a.toNat b.toNat ∧ c.toNat / 64 = 2
  | [a, b, c, d] => second4 a.toNat b.toNat ∧ c.toNat / 64 = 2 ∧ d.toNat / 64 = 2
  | _ => False

theorem shape_enc (c : Char) : Shape (String.utf8EncodeChar c) := by
  have hv : c.val.toNat < 0xD800 ∨ (0xDFFF < c.val.toNat ∧ c.val.toNat < 0x110000) := c.valid
  unfold String.utf8EncodeChar
  generalize c.val.toNat = v at hv ⊢
  simp only
  split
  · simp only [Shape, UInt8.toNat_ofNat']; omega
  · split
    · simp only [Shape, UInt8.toNat_ofNat']; omega
    · split
      · simp only [Shape, second3, UInt8.toNat_ofNat']; omega
      · simp only [Shape, second4, UInt8.toNat_ofNat']; omega

theorem enc_val {v : Nat} (h : v.isValidChar) : String.utf8EncodeChar (Char.ofNatAux v h) =
    (if v ≤ 0x7f then [UInt8.ofNat v]
    else if v ≤ 0x7ff then [UInt8.ofNat (v / 64 % 0x20 + 0xc0), UInt8.ofNat (v % 0x40 + 0x80)]
    else if v ≤ 0xffff then [UInt8.ofNat (v / 4096 % 0x10 + 0xe0), UInt8.ofNat (v / 64 % 0x40 + 0x80), UInt8.ofNat (v % 0x40 + 0x80)]
    else [UInt8.ofNat (v / 262144 % 0x08 + 0xf0), UInt8.ofNat (v / 4096 % 0x40 + 0x80), UInt8.ofNat (v / 64 % 0x40 + 0x80),
      UInt8.ofNat (v % 0x40 + 0x80)]) := rfl

theorem u8_eq {a : UInt8} {n : Nat} (h : a.toNat = n % 256) : a = UInt8.ofNat n := by
  apply UInt8.toNat_inj.mp
  rw [UInt8.toNat_ofNat', h]

theorem enc_shape : ∀ {s : Bytes}, Shape s → ∃ c : Char, s = String.utf8EncodeChar c
  | [a], h => by
    simp only [Shape] at h
    have hv : Nat.isValidChar a.toNat := .inl (by omega)
    refine ⟨Char.ofNatAux a.toNat hv, ?_⟩
    rw [enc_val, if_pos (by omega), ← u8_eq (a := a) (by omega)]
  | [a, b], h => by
    simp only [Shape] at h
    have hv : Nat.isValidChar ((a.toNat - 0xC0) * 64 + (b.toNat - 0x80)) := .inl (by omega)
    refine ⟨Char.ofNatAux _ hv, ?_⟩
    rw [enc_val, if_neg (by omega), if_pos (by omega), ← u8_eq (a := a) (by omega), ← u8_eq (a := b) (by omega)]
  | [a, b, c], h => by
    simp only [Shape, second3] at h
    have hv : Nat.isValidChar ((a.toNat - 0xE0) * 4096 + (b.toNat - 0x80) * 64 + (c.toNat - 0x80)) := by
      simp only [Nat.isValidChar]; omega
    refine ⟨Char.ofNatAux _ hv, ?_⟩
    rw [enc_val, if_neg (by omega), if_neg (by omega), if_pos (by omega), ← u8_eq (a := a) (by omega),
      ← u8_eq (a := b) (by omega), ← u8_eq (a := c) (by omega)]
  | [a, b, c, d], h => by
    simp only [Shape, second4] at h
    have hv : Nat.isValidChar ((a.toNat - 0xF0) * 262144 + (b.toNat - 0x80) * 4096 + (c.toNat - 0x80) * 64 + (d.toNat - 0x80)) := by
      simp only [Nat.isValidChar]; omega
    refine ⟨Char.ofNatAux _ hv, ?_⟩
    rw [enc_val, if_neg (by omega), if_neg (by omega), if_neg (by omega), ← u8_eq (a := a) (by omega),
      ← u8_eq (a := b) (by omega), ← u8_eq (a := c) (by omega), ← u8_eq (a := d) (by omega)]
  | [], h => h.elim
  | _ :: _ :: _ :: _ :: _ :: _, h => h.elim

theorem exists_enc {P : Bytes → Prop} : (∃ c : Char, P (String.utf8EncodeChar c)) ↔ ∃ s, Shape s ∧ P s := by
  constructor
  · rintro ⟨c, h⟩; exact ⟨_, shape_enc c, h⟩
  · rintro ⟨s, hs, h⟩
    obtain ⟨c, rfl⟩ := enc_shape hs
    exact ⟨c, h⟩

/-- The first bytes of characters. -/
theorem starts_one {a : UInt8} : Starts [a] ↔ a.toNat < 128 ∨ (0xC2 ≤ a.toNat ∧ a.toNat < 0xF5) := by
  unfold Starts
  rw [exists_enc (P := fun e => [a] <+: e)]
  constructor
  · rintro ⟨s, hs, t, rfl⟩
    match t, hs with
    | [], hs => exact .inl hs
    | [b], hs => simp only [List.cons_append, List.nil_append, Shape] at hs; omega
    | [b, c], hs => simp only [List.cons_append, List.nil_append, Shape, second3] at hs; omega
    | [b, c, d], hs => simp only [List.cons_append, List.nil_append, Shape, second4] at hs; omega
    | _ :: _ :: _ :: _ :: _, hs => exact hs.elim
  · intro h
    have k : ∀ n : Nat, n < 256 → ∃ u : UInt8, u.toNat = n := fun n hn => ⟨UInt8.ofNat n, by rw [UInt8.toNat_ofNat']; omega⟩
    obtain ⟨u, hu⟩ := k 0x80 (by omega)
    obtain ⟨v, hv⟩ := k 0x90 (by omega)
    obtain ⟨w, hw⟩ := k 0xA0 (by omega)
    by_cases h1 : a.toNat < 128
    · exact ⟨[a], h1, List.prefix_rfl⟩
    · by_cases h2 : a.toNat < 0xE0
      · exact ⟨[a, u], by simp only [Shape]; omega, by simp⟩
      · by_cases h3 : a.toNat < 0xF0
        · by_cases h4 : a.toNat = 0xE0
          · exact ⟨[a, w, u], by simp only [Shape, second3]; omega, by simp⟩
          · exact ⟨[a, u, u], by simp only [Shape, second3]; omega, by simp⟩
        · by_cases h4 : a.toNat = 0xF0
          · exact ⟨[a, v, u, u], by simp only [Shape, second4]; omega, by simp⟩
          · exact ⟨[a, u, u, u], by simp only [Shape, second4]; omega, by simp⟩

theorem starts_two {a b : UInt8} : Starts [a, b] ↔ (0xC2 ≤ a.toNat ∧ a.toNat < 0xE0 ∧ b.toNat / 64 = 2) ∨
    second3 a.toNat b.toNat ∨ second4 a.toNat b.toNat := by
  unfold Starts
  rw [exists_enc (P := fun e => [a, b] <+: e)]
  constructor
  · rintro ⟨s, hs, t, rfl⟩
    match t, hs with
    | [], hs => exact .inl hs
    | [c], hs => exact .inr (.inl hs.1)
    | [c, d], hs => exact .inr (.inr hs.1)
    | _ :: _ :: _ :: _, hs => exact hs.elim
  · have k : (UInt8.ofNat 0x80).toNat / 64 = 2 := by decide
    rintro (h | h | h)
    · exact ⟨[a, b], h, List.prefix_rfl⟩
    · exact ⟨[a, b, UInt8.ofNat 0x80], ⟨h, k⟩, by simp⟩
    · exact ⟨[a, b, UInt8.ofNat 0x80, UInt8.ofNat 0x80], ⟨h, k, k⟩, by simp⟩

theorem starts_three {a b c : UInt8} : Starts [a, b, c] ↔ (second3 a.toNat b.toNat ∨ second4 a.toNat b.toNat) ∧
    c.toNat / 64 = 2 := by
  unfold Starts
  rw [exists_enc (P := fun e => [a, b, c] <+: e)]
  constructor
  · rintro ⟨s, hs, t, rfl⟩
    match t, hs with
    | [], hs => exact ⟨.inl hs.1, hs.2⟩
    | [d], hs => exact ⟨.inr hs.1, hs.2.1⟩
    | _ :: _ :: _, hs => exact hs.elim
  · have k : (UInt8.ofNat 0x80).toNat / 64 = 2 := by decide
    rintro ⟨h | h, hc⟩
    · exact ⟨[a, b, c], ⟨h, hc⟩, List.prefix_rfl⟩
    · exact ⟨[a, b, c, UInt8.ofNat 0x80], ⟨h, hc, k⟩, by simp⟩

theorem starts_four {a b c d : UInt8} : Starts [a, b, c, d] ↔ second4 a.toNat b.toNat ∧ c.toNat / 64 = 2 ∧
    d.toNat / 64 = 2 := by
  unfold Starts
  rw [exists_enc (P := fun e => [a, b, c, d] <+: e)]
  constructor
  · rintro ⟨s, hs, t, rfl⟩
    match t, hs with
    | [], hs => exact hs
    | _ :: _, hs => exact hs.elim
  · intro h; exact ⟨[a, b, c, d], h, List.prefix_rfl⟩

theorem utf8Next_shape : ∀ {e : Bytes} (t : Bytes), Shape e → utf8Next (e ++ t) = (true, e.length)
  | [a], t, h => by
    simp only [Shape] at h
    simp [utf8Next, byteAt, h]
  | [a, b], t, h => by
    simp only [Shape] at h
    simp only [utf8Next, byteAt, contAt, List.cons_append, List.nil_append, List.getD_cons_zero, List.getD_cons_succ]
    rw [if_neg (by omega), if_neg (by omega), if_pos (by omega), if_pos (by simp; omega)]
    rfl
  | [a, b, c], t, h => by
    simp only [Shape, second3] at h
    simp only [utf8Next, byteAt, contAt, List.cons_append, List.nil_append, List.getD_cons_zero, List.getD_cons_succ]
    rw [if_neg (by omega), if_neg (by omega), if_neg (by omega), if_pos (by omega), if_pos, if_pos (by simp; omega)]
    · rfl
    · simp only [Bool.or_eq_true, Bool.and_eq_true, decide_eq_true_eq]; omega
  | [a, b, c, d], t, h => by
    simp only [Shape, second4] at h
    simp only [utf8Next, byteAt, contAt, List.cons_append, List.nil_append, List.getD_cons_zero, List.getD_cons_succ]
    rw [if_neg (by omega), if_neg (by omega), if_neg (by omega), if_neg (by omega), if_pos (by omega), if_pos,
      if_pos (by simp; omega), if_pos (by simp; omega)]
    · rfl
    · simp only [Bool.or_eq_true, Bool.and_eq_true, decide_eq_true_eq]; omega
  | [], _, h => h.elim
  | _ :: _ :: _ :: _ :: _ :: _, _, h => h.elim

/-- What the decoder says about the head of a string: a character, or the longest beginning of one. -/
def NextOk (s : Bytes) (x : Bool × Nat) : Prop :=
  x.2 ≤ s.length ∧ 1 ≤ x.2 ∧ (x.1 = true → Shape (s.take x.2)) ∧
    (x.1 = false → (x.2 = 1 ∨ Starts (s.take x.2)) ∧ ∀ y, (s.drop x.2).head? = some y → ¬Starts (s.take x.2 ++ [y]))

theorem second3.range {a b : Nat} (h : second3 a b) : 0xE0 ≤ a ∧ a < 0xF0 ∧ b / 64 = 2 := by
  unfold second3 at h; omega
theorem second4.range {a b : Nat} (h : second4 a b) : 0xF0 ≤ a ∧ a < 0xF5 ∧ b / 64 = 2 := by
  unfold second4 at h; omega

theorem getD_cont {s : Bytes} {i : Nat} (h : (s.getD i 0).toNat / 64 = 2) : ∃ y t, s.drop i = y :: t ∧ s.getD i 0 = y := by
  cases hd : s.drop i with
  | nil =>
    rw [List.getD_eq_getElem?_getD, List.getElem?_eq_none (List.drop_eq_nil_iff.mp hd)] at h
    exact absurd h (by decide)
  | cons y t =>
    refine ⟨y, t, rfl, ?_⟩
    have : s[i]? = some y := by rw [← List.head?_drop, hd]; rfl
    rw [List.getD_eq_getElem?_getD, this]; rfl

theorem getD_head {s : Bytes} {i : Nat} {y : UInt8} (h : (s.drop i).head? = some y) : s.getD i 0 = y := by
  rw [List.head?_drop] at h
  rw [List.getD_eq_getElem?_getD, h]; rfl

/-- Two cases of the decoder: one byte that starts nothing longer. -/
theorem NextOk.one {a : UInt8} {t : Bytes} (h : ∀ y, t.head? = some y → ¬Starts [a, y]) : NextOk (a :: t) (false, 1) :=
  ⟨by simp, Nat.le_refl _, fun h => (by cases h), fun _ => ⟨.inl rfl, h⟩⟩

theorem NextOk.two {a b : UInt8} {t : Bytes} (h1 : Starts [a, b]) (h : ∀ y, t.head? = some y → ¬Starts [a, b, y]) :
    NextOk (a :: b :: t) (false, 2) :=
  ⟨by simp, by simp, fun h => (by cases h), fun _ => ⟨.inr h1, h⟩⟩

theorem NextOk.three {a b c : UInt8} {t : Bytes} (h1 : Starts [a, b, c])
    (h : ∀ y, t.head? = some y → ¬Starts [a, b, c, y]) : NextOk (a :: b :: c :: t) (false, 3) :=
  ⟨by simp, by simp, fun h => (by cases h), fun _ => ⟨.inr h1, h⟩⟩

theorem NextOk.whole {e t : Bytes} (h : Shape e) : NextOk (e ++ t) (true, e.length) := by
  refine ⟨by simp, ?_, fun _ => by simpa using h, fun h => by cases h⟩
  cases e with
  | nil => exact h.elim
  | cons => simp

theorem utf8Next_ok {s : Bytes} (hs : s ≠ []) : NextOk s (utf8Next s) := by
  obtain ⟨a, s, rfl⟩ := List.exists_cons_of_ne_nil hs
  simp only [utf8Next, byteAt, contAt, List.getD_cons_zero, List.getD_cons_succ]
  split
  · rename_i h; exact NextOk.whole (e := [a]) h
  rename_i h0
  split
  · rename_i h1
    refine .one fun y _ h => ?_
    rcases starts_two.mp h with h | h | h
    · omega
    · have := h.range; omega
    · have := h.range; omega
  rename_i h1
  split
  · rename_i h2
    split
    · rename_i h3
      rw [decide_eq_true_eq] at h3
      obtain ⟨y, t, h4, h5⟩ := getD_cont h3
      rw [List.drop_zero] at h4
      subst h4
      rw [h5] at h3
      exact NextOk.whole (e := [a, y]) ⟨by omega, h2, h3⟩
    · rename_i h3
      refine .one fun y hy h => ?_
      rw [getD_head (i := 0) hy] at h3
      rcases starts_two.mp h with h | h | h
      · exact h3 (decide_eq_true h.2.2)
      · have := h.range; omega
      · have := h.range; omega
  rename_i h2
  split
  · rename_i h3
    split
    · rename_i h4'
      have h4 : second3 a.toNat (s.getD 0 0).toNat := by
        simp only [Bool.or_eq_true, Bool.and_eq_true, decide_eq_true_eq] at h4'
        unfold second3; omega
      clear h4'
      obtain ⟨y, t, h5, h6⟩ := getD_cont h4.range.2.2
      rw [List.drop_zero] at h5
      subst h5
      rw [h6] at h4
      split
      · rename_i h7
        rw [decide_eq_true_eq, List.getD_cons_succ] at h7
        obtain ⟨z, u, h8, h9⟩ := getD_cont h7
        rw [List.drop_zero] at h8
        subst h8
        rw [h9] at h7
        exact NextOk.whole (e := [a, y, z]) ⟨h4, h7⟩
      · rename_i h7
        refine .two (starts_two.mpr (.inr (.inl h4))) fun z hz h => ?_
        rw [List.getD_cons_succ, getD_head (i := 0) hz] at h7
        exact h7 (decide_eq_true (starts_three.mp h).2)
    · rename_i h4
      refine .one fun y hy h => h4 ?_
      rw [getD_head (i := 0) hy]
      simp only [Bool.or_eq_true, Bool.and_eq_true, decide_eq_true_eq]
      rcases starts_two.mp h with h | h | h
      · omega
      · unfold second3 at h; omega
      · have := h.range; omega
  rename_i h3
  split
  · rename_i h4
    split
    · rename_i h5'
      have h5 : second4 a.toNat (s.getD 0 0).toNat := by
        simp only [Bool.or_eq_true, Bool.and_eq_true, decide_eq_true_eq] at h5'
        unfold second4; omega
      clear h5'
      obtain ⟨y, t, h6, h7⟩ := getD_cont h5.range.2.2
      rw [List.drop_zero] at h6
      subst h6
      rw [h7] at h5
      split
      · rename_i h8
        rw [decide_eq_true_eq, List.getD_cons_succ] at h8
        obtain ⟨z, u, h9, h10⟩ := getD_cont h8
        rw [List.drop_zero] at h9
        subst h9
        rw [h10] at h8
        split
        · rename_i h11
          rw [decide_eq_true_eq, List.getD_cons_succ, List.getD_cons_succ] at h11
          obtain ⟨w, v, h12, h13⟩ := getD_cont h11
          rw [List.drop_zero] at h12
          subst h12
          rw [h13] at h11
          exact NextOk.whole (e := [a, y, z, w]) ⟨h5, h8, h11⟩
        · rename_i h11
          refine .three (starts_three.mpr ⟨.inr h5, h8⟩) fun w hw h => ?_
          rw [List.getD_cons_succ, List.getD_cons_succ, getD_head (i := 0) hw] at h11
          exact h11 (decide_eq_true (starts_four.mp h).2.2)
      · rename_i h8
        refine .two (starts_two.mpr (.inr (.inr h5))) fun z hz h => ?_
        rw [List.getD_cons_succ, getD_head (i := 0) hz] at h8
        exact h8 (decide_eq_true (starts_three.mp h).2)
    · rename_i h5
      refine .one fun y hy h => h5 ?_
      rw [getD_head (i := 0) hy]
      simp only [Bool.or_eq_true, Bool.and_eq_true, decide_eq_true_eq]
      rcases starts_two.mp h with h | h | h
      · omega
      · have := h.range; omega
      · unfold second4 at h; omega
  · refine .one fun y _ h => ?_
    rcases starts_two.mp h with h | h | h
    · omega
    · have := h.range; omega
    · have := h.range; omega

/-- No character at the head. -/
theorem utf8Next_none {s : Bytes} (h : (utf8Next s).1 = false) (c : Char) : ¬String.utf8EncodeChar c <+: s := by
  rintro ⟨t, rfl⟩
  rw [utf8Next_shape t (shape_enc c)] at h
  cases h

theorem utf8ValidF_iff : ∀ (f : Nat) (s : Bytes), s.length ≤ f → (utf8ValidF f s = true ↔ Text s)
  | f, [], _ => by
    unfold utf8ValidF
    exact ⟨fun _ => ⟨[], rfl⟩, fun _ => rfl⟩
  | 0, a :: s, h => by simp at h
  | f + 1, a :: s, h => by
    rw [utf8ValidF, Bool.and_eq_true]
    · have hn := utf8Next_ok (s := a :: s) (by simp)
      have ih := utf8ValidF_iff f ((a :: s).drop (utf8Next (a :: s)).2) (by
        have := hn.2.1
        rw [List.length_drop]; omega)
      rw [ih]
      constructor
      · rintro ⟨h1, cs, h2⟩
        obtain ⟨c, hc⟩ := enc_shape (hn.2.2.1 h1)
        refine ⟨c :: cs, ?_⟩
        rw [List.flatMap_cons, ← hc, ← h2, List.take_append_drop]
      · rintro ⟨cs, hcs⟩
        cases cs with
        | nil => cases hcs
        | cons c cs =>
          rw [List.flatMap_cons] at hcs
          rw [hcs, utf8Next_shape _ (shape_enc c)]
          exact ⟨rfl, cs, by simp⟩
    · simp

theorem utf8Valid_iff {s : Bytes} : utf8Valid s = true ↔ Text s := utf8ValidF_iff _ _ (Nat.le_refl _)

theorem enc_fffd : String.utf8EncodeChar '�' = [0xEF, 0xBF, 0xBD] := by decide

theorem utf8LossyF_lossy : ∀ (f : Nat) (s : Bytes), s.length ≤ f → Lossy s (utf8LossyF f s)
  | 0, [], _ => .nil
  | _ + 1, [], _ => .nil
  | 0, a :: s, h => by simp at h
  | f + 1, a :: s, h => by
    rw [utf8LossyF]
    · have hn := utf8Next_ok (s := a :: s) (by simp)
      have ih := utf8LossyF_lossy f ((a :: s).drop (utf8Next (a :: s)).2) (by
        have := hn.2.1
        rw [List.length_drop]; omega)
      have hno := utf8Next_none (s := a :: s)
      generalize utf8Next (a :: s) = x at hn ih hno ⊢
      obtain ⟨ok, n⟩ := x
      obtain ⟨h1, h2, h3, h4⟩ := hn
      have e := List.take_append_drop n (a :: s)
      simp only at h1 h2 h3 h4 ih hno ⊢
      cases ok with
      | true =>
        obtain ⟨c, hc⟩ := enc_shape (h3 rfl)
        have := ih.char (c := c)
        rwa [← hc, e] at this
      | false =>
        obtain ⟨h5, h6⟩ := h4 rfl
        have := Lossy.bad (b := (a :: s).take n) (by
          intro h0
          have := congrArg List.length h0
          rw [List.length_take] at this
          simp only [List.length_nil] at this; omega) (by rw [e]; exact hno rfl) (by
          rcases h5 with h5 | h5
          · left; rw [List.length_take]; omega
          · exact .inr h5) h6 ih
        rw [e, enc_fffd] at this
        exact this
    · simp

/-- A string has one conversion. -/
theorem Spec.Lossy.unique {s t t' : Bytes} (h : Lossy s t) (h' : Lossy s t') : t = t' := by
  have starts_take : ∀ {b c : Bytes}, c <+: b → Starts b → Starts c := fun hp ⟨x, hx⟩ => ⟨x, hp.trans hx⟩
  induction h generalizing t' with
  | nil =>
    generalize hs : ([] : Bytes) = s at h'
    cases h' with
    | nil => rfl
    | char h => have := shape_enc ‹Char›; rw [(List.append_eq_nil_iff.mp hs.symm).1] at this; exact this.elim
    | bad hb => exact (hb (List.append_eq_nil_iff.mp hs.symm).1).elim
  | @char c s t h ih =>
    generalize hs : String.utf8EncodeChar c ++ s = u at h'
    cases h' with
    | nil => have := shape_enc c; rw [(List.append_eq_nil_iff.mp hs).1] at this; exact this.elim
    | @char c' s' t'' h' =>
      have e1 := utf8Next_shape s (shape_enc c)
      rw [hs, utf8Next_shape s' (shape_enc c')] at e1
      obtain ⟨e2, rfl⟩ := List.append_inj hs (congrArg Prod.snd e1).symm
      rw [ih h', e2]
    | bad _ hno => exact (hno c ⟨s, hs⟩).elim
  | @bad b s t hb hno h1 hmax h ih =>
    generalize hs : b ++ s = u at h'
    cases h' with
    | nil => exact (hb (List.append_eq_nil_iff.mp hs).1).elim
    | @char c' s' t'' h' => exact (hno c' ⟨s', hs.symm⟩).elim
    | @bad b' s' t'' hb' _ h1' hmax' h' =>
      -- neither of the two can be longer
      have key : ∀ {b b' s s' : Bytes}, b ≠ [] → b ++ s = b' ++ s' → (b'.length = 1 ∨ Starts b') →
          (∀ x, s.head? = some x → ¬Starts (b ++ [x])) → b'.length ≤ b.length := by
        intro b b' s s' hb hs h1' hmax
        apply Nat.le_of_not_lt
        intro hl
        have hb0 : 0 < b.length := List.length_pos_iff.mpr hb
        rcases h1' with h1' | h1'
        · omega
        · obtain ⟨d, rfl⟩ : b <+: b' := List.prefix_of_prefix_length_le ⟨s, rfl⟩ ⟨s', hs.symm⟩ (by omega)
          rw [List.append_assoc, List.append_cancel_left_eq] at hs
          cases d with
          | nil => simp at hl
          | cons x d =>
            exact hmax x (by rw [hs]; rfl) (starts_take ⟨d, by simp⟩ h1')
      have hl := Nat.le_antisymm (key hb' hs.symm h1 hmax') (key hb hs h1' hmax)
      obtain ⟨rfl, rfl⟩ := List.append_inj hs hl
      rw [ih h']

theorem lossy_iff {s t : Bytes} : Lossy s t ↔ t = utf8Lossy s :=
  ⟨fun h => h.unique (utf8LossyF_lossy _ _ (Nat.le_refl _)), fun h => h ▸ utf8LossyF_lossy _ _ (Nat.le_refl _)⟩

theorem Spec.Lossy.text {s t : Bytes} (h : Lossy s t) : Text t := by
  induction h with
  | nil => exact ⟨[], rfl⟩
  | @char c _ _ _ ih => obtain ⟨cs, rfl⟩ := ih; exact ⟨c :: cs, rfl⟩
  | bad _ _ _ _ _ ih => obtain ⟨cs, rfl⟩ := ih; exact ⟨'�' :: cs, rfl⟩

theorem Spec.Text.lossy {s : Bytes} (h : Text s) : Lossy s s := by
  obtain ⟨cs, rfl⟩ := h
  induction cs with
  | nil => exact .nil
  | cons c cs ih => exact ih.char

end Verif
