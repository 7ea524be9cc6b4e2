import Verif.Model.Bytes
/-! Lemmas about byte strings, formatting and parsing. -/
namespace Verif

/-- Check a property of all bytes by enumeration. -/
theorem forall_u8 (p : UInt8 → Bool) (h : (List.range 256).all (fun n => p (UInt8.ofNat n)) = true)
    (x : UInt8) : p x = true := by
  have := List.all_eq_true.mp h x.toNat (by simpa using x.toNat_lt)
  simpa using this

/-! ### Hexadecimal -/

theorem hexNatF_lt (f n : Nat) (h : n < 16) : hexNatF (f + 1) n = [hexDigit n] := by
  simp [hexNatF, h]

theorem hexNatF_ge (f n : Nat) (h : 16 ≤ n) :
    hexNatF (f + 1) n = hexNatF f (n / 16) ++ [hexDigit (n % 16)] := by
  have : ¬ n < 16 := by omega
  simp [hexNatF, this]

theorem hex4_eq (n : Nat) (h : n < 65536) :
    hex4 n = [hexDigit (n / 4096), hexDigit (n / 256 % 16), hexDigit (n / 16 % 16),
      hexDigit (n % 16)] := by
  have z : hexDigit 0 = 48 := by decide
  unfold hex4
  by_cases h1 : n < 16
  · have a1 : n / 4096 = 0 := by omega
    have a2 : n / 256 % 16 = 0 := by omega
    have a3 : n / 16 % 16 = 0 := by omega
    have a4 : n % 16 = n := by omega
    rw [hexNatF_lt _ _ h1, a1, a2, a3, a4, z]; rfl
  · obtain ⟨f, hf⟩ : ∃ f, n = f + 3 := ⟨n - 3, by omega⟩
    subst hf
    rw [hexNatF_ge _ _ (by omega)]
    by_cases h2 : f + 3 < 256
    · have a1 : (f + 3) / 4096 = 0 := by omega
      have a2 : (f + 3) / 256 % 16 = 0 := by omega
      have a3 : (f + 3) / 16 % 16 = (f + 3) / 16 := by omega
      rw [hexNatF_lt _ _ (by omega), a1, a2, a3, z]; rfl
    · rw [hexNatF_ge _ _ (by omega)]
      by_cases h3 : f + 3 < 4096
      · have a1 : (f + 3) / 4096 = 0 := by omega
        have a2 : (f + 3) / 256 % 16 = (f + 3) / 16 / 16 := by omega
        rw [hexNatF_lt _ _ (by omega), a1, a2, z]; rfl
      · rw [hexNatF_ge _ _ (by omega), hexNatF_lt _ _ (by omega)]
        have a1 : (f + 3) / 4096 = (f + 3) / 16 / 16 / 16 := by omega
        have a2 : (f + 3) / 256 % 16 = (f + 3) / 16 / 16 % 16 := by omega
        rw [a1, a2]; rfl

theorem hex4_length (n : Nat) (h : n < 65536) : (hex4 n).length = 4 := by
  rw [hex4_eq n h]; rfl

theorem hexEncode_length (b : Bytes) : (hexEncode b).length = 2 * b.length := by
  induction b with
  | nil => rfl
  | cons x xs ih => simp [hexEncode, ih]; omega

/-- Value of a lower-case hexadecimal digit produced by `hexDigit`. -/
def hexUndigit (x : UInt8) : Nat := if x.toNat < 58 then x.toNat - 48 else x.toNat - 87

theorem hexUndigit_hexDigit (n : Nat) (h : n < 16) : hexUndigit (hexDigit n) = n := by
  have : (List.range 16).all (fun n => decide (hexUndigit (hexDigit n) = n)) = true := by decide
  have := List.all_eq_true.mp this n (by simpa using h)
  simpa using this

theorem hexDigit_inj {m n : Nat} (hm : m < 16) (hn : n < 16) (h : hexDigit m = hexDigit n) :
    m = n := by
  rw [← hexUndigit_hexDigit m hm, ← hexUndigit_hexDigit n hn, h]

theorem hexEncode_inj : ∀ {a b : Bytes}, hexEncode a = hexEncode b → a = b
  | [], [], _ => rfl
  | [], _ :: _, h => by simp [hexEncode] at h
  | _ :: _, [], h => by simp [hexEncode] at h
  | x :: xs, y :: ys, h => by
    simp only [hexEncode, List.cons.injEq] at h
    obtain ⟨h1, h2, h3⟩ := h
    have hx := x.toNat_lt
    have hy := y.toNat_lt
    have e1 := hexDigit_inj (by omega) (by omega) h1
    have e2 := hexDigit_inj (by omega) (by omega) h2
    have : x.toNat = y.toNat := by omega
    rw [hexEncode_inj h3, UInt8.toNat_inj.mp this]

/-! ### Decimal -/

theorem isDigit_iff (x : UInt8) : isDigit x = true ↔ 48 ≤ x.toNat ∧ x.toNat ≤ 57 := by
  simp [isDigit, UInt8.le_iff_toNat_le]

theorem toNat_digit {n : Nat} (h : n < 10) : (UInt8.ofNat (48 + n)).toNat = 48 + n := by
  simp; omega

theorem isDigit_digit {n : Nat} (h : n < 10) : isDigit (UInt8.ofNat (48 + n)) = true := by
  rw [isDigit_iff, toNat_digit h]; omega

theorem natDecF_fuel : ∀ (f g n : Nat), n < f → n < g → natDecF f n = natDecF g n
  | 0, _, _, h, _ => by omega
  | _, 0, _, _, h => by omega
  | f + 1, g + 1, n, hf, hg => by
    unfold natDecF
    split
    · rfl
    · rw [natDecF_fuel f g (n / 10) (by omega) (by omega)]

theorem natDec_lt {n : Nat} (h : n < 10) : natDec n = [UInt8.ofNat (48 + n)] := by
  simp [natDec, natDecF, h]

theorem natDec_ge {n : Nat} (h : 10 ≤ n) :
    natDec n = natDec (n / 10) ++ [UInt8.ofNat (48 + n % 10)] := by
  have : ¬ n < 10 := by omega
  rw [natDec, natDecF]
  simp only [this, if_false]
  rw [natDec, natDecF_fuel n (n / 10 + 1) (n / 10) (by omega) (by omega)]

theorem natDec_ne_nil (n : Nat) : natDec n ≠ [] := by
  by_cases h : n < 10
  · simp [natDec_lt h]
  · simp [natDec_ge (Nat.le_of_not_lt h)]

theorem natDec_digits (n : Nat) : ∀ x ∈ natDec n, isDigit x = true := by
  induction n using Nat.strongRecOn with
  | ind n ih =>
    by_cases h : n < 10
    · simp only [natDec_lt h, List.mem_singleton, forall_eq]; exact isDigit_digit h
    · rw [natDec_ge (Nat.le_of_not_lt h)]
      intro x hx
      rcases List.mem_append.mp hx with hx | hx
      · exact ih _ (by omega) x hx
      · simp only [List.mem_singleton] at hx; subst hx; exact isDigit_digit (by omega)

/-- Value of a string of decimal digits (most significant first), continuing from `acc`. -/
def digitsVal (acc : Nat) (s : Bytes) : Nat := s.foldl (fun a d => a * 10 + (d.toNat - 48)) acc

theorem digitsVal_append (acc : Nat) (s t : Bytes) :
    digitsVal acc (s ++ t) = digitsVal (digitsVal acc s) t := by
  simp [digitsVal, List.foldl_append]

theorem digitsVal_cons (acc : Nat) (d : UInt8) (s : Bytes) :
    digitsVal acc (d :: s) = digitsVal (acc * 10 + (d.toNat - 48)) s := by
  rw [digitsVal, digitsVal, List.foldl_cons]

theorem digitsVal_mono (s : Bytes) : ∀ {a b : Nat}, a ≤ b → digitsVal a s ≤ digitsVal b s := by
  induction s with
  | nil => intro a b h; exact h
  | cons d s ih => intro a b h; rw [digitsVal_cons, digitsVal_cons]; apply ih; omega

theorem le_digitsVal (s : Bytes) : ∀ a, a ≤ digitsVal a s := by
  induction s with
  | nil => intro a; exact Nat.le_refl _
  | cons d s ih => intro a; rw [digitsVal_cons]; exact Nat.le_trans (by omega) (ih _)

theorem digitsVal_natDec (n : Nat) : digitsVal 0 (natDec n) = n := by
  induction n using Nat.strongRecOn with
  | ind n ih =>
    by_cases h : n < 10
    · rw [natDec_lt h]; simp only [digitsVal, List.foldl_cons, List.foldl_nil]
      rw [toNat_digit h]; omega
    · rw [natDec_ge (Nat.le_of_not_lt h), digitsVal_append, ih _ (by omega)]
      simp only [digitsVal, List.foldl_cons, List.foldl_nil]
      rw [toNat_digit (by omega)]; omega

/-- The digit loop accepts exactly digit strings whose value fits. -/
theorem digitsFold_eq (max : Nat) : ∀ (s : Bytes) (acc : Nat), acc ≤ max →
    digitsFold max acc s =
      if (∀ x ∈ s, isDigit x = true) ∧ digitsVal acc s ≤ max then some (digitsVal acc s) else none
  | [], acc, h => by simp [digitsFold, digitsVal, h]
  | d :: ds, acc, h => by
    rw [digitsFold]
    by_cases hd : isDigit d = true
    · simp only [hd, if_true]
      by_cases hm : acc * 10 + (d.toNat - 48) ≤ max
      · rw [if_pos hm, digitsFold_eq max ds _ hm]
        simp only [List.mem_cons, forall_eq_or_imp, hd, true_and, digitsVal_cons]
      · have : ¬ digitsVal acc (d :: ds) ≤ max := by
          have := le_digitsVal ds (acc * 10 + (d.toNat - 48))
          rw [digitsVal_cons]; omega
        simp [hm, this]
    · simp [hd]

theorem digitsFold_natDec (max n : Nat) (h : n ≤ max) : digitsFold max 0 (natDec n) = some n := by
  rw [digitsFold_eq max _ 0 (by omega), if_pos ⟨natDec_digits n, by rwa [digitsVal_natDec]⟩,
    digitsVal_natDec]

theorem natDec_head (n : Nat) : ∃ d ds, natDec n = d :: ds ∧ isDigit d = true := by
  cases h : natDec n with
  | nil => exact absurd h (natDec_ne_nil n)
  | cons d ds => exact ⟨d, ds, rfl, natDec_digits n d (by simp [h])⟩

theorem parseNat_natDec (max n : Nat) (h : n ≤ max) : parseNat max (natDec n) = some n := by
  obtain ⟨d, ds, e, hd⟩ := natDec_head n
  have h1 := digitsFold_natDec max n h
  rw [e] at h1 ⊢
  have : d ≠ 43 := by
    intro hc; subst hc; exact absurd hd (by decide)
  simp only [parseNat, this, if_false, h1]

theorem parseI64_intDec (i : Int) (h1 : -(i64Max + 1 : Int) ≤ i) (h2 : i ≤ i64Max) :
    parseI64 (intDec i) = some i := by
  cases i with
  | ofNat n =>
    obtain ⟨d, ds, e, hd⟩ := natDec_head n
    have hf := digitsFold_natDec i64Max n (by
      have : (Int.ofNat n) = (n : Int) := rfl
      omega)
    simp only [intDec]
    rw [e] at hf ⊢
    have h45 : d ≠ 45 := by intro hc; subst hc; exact absurd hd (by decide)
    have h43 : d ≠ 43 := by intro hc; subst hc; exact absurd hd (by decide)
    simp only [parseI64, h45, h43, if_false, hf]; rfl
  | negSucc n =>
    have hf := digitsFold_natDec (i64Max + 1) (n + 1) (by
      have : (Int.negSucc n) = -((n : Int) + 1) := rfl
      have : i64Max = 9223372036854775807 := rfl
      omega)
    simp only [intDec, List.cons_append, List.nil_append, parseI64, if_true,
      natDec_ne_nil, if_false, hf]
    rfl

/-! ### Splitting -/

theorem splitOn_ne_nil (sep : UInt8) : ∀ s, splitOn sep s ≠ []
  | [] => by simp [splitOn]
  | b :: bs => by
    unfold splitOn
    split
    · simp
    · split <;> simp

theorem splitOn_none (sep : UInt8) : ∀ s : Bytes, sep ∉ s → splitOn sep s = [s]
  | [], _ => rfl
  | b :: bs, h => by
    have hb : b ≠ sep := fun e => h (by simp [e])
    have ht : sep ∉ bs := fun e => h (by simp [e])
    simp [splitOn, hb, splitOn_none sep bs ht]

theorem splitOn_append (sep : UInt8) : ∀ (a b : Bytes), sep ∉ a →
    splitOn sep (a ++ sep :: b) = a :: splitOn sep b
  | [], b, _ => by simp [splitOn]
  | x :: xs, b, h => by
    have hb : x ≠ sep := fun e => h (by simp [e])
    have ht : sep ∉ xs := fun e => h (by simp [e])
    simp [splitOn, hb, splitOn_append sep xs b ht]

theorem splitOn_nosep (sep : UInt8) : ∀ (s : Bytes), ∀ p ∈ splitOn sep s, sep ∉ p
  | [] => by simp [splitOn]
  | b :: bs => by
    have ih := splitOn_nosep sep bs
    unfold splitOn
    split
    · intro p hp
      rcases List.mem_cons.mp hp with rfl | hp
      · simp
      · exact ih p hp
    · rename_i hb
      split
      · intro p hp; simp at hp; subst hp; simp; exact fun e => hb e.symm
      · rename_i p ps e
        rw [e] at ih
        intro q hq
        rcases List.mem_cons.mp hq with rfl | hq
        · have := ih p (by simp)
          simp; exact ⟨fun e => hb e.symm, this⟩
        · exact ih q (by simp [hq])

theorem splitN_ne_nil (sep : UInt8) : ∀ n s, splitN sep n s ≠ []
  | 0, _ => by simp [splitN]
  | _ + 1, [] => by simp [splitN]
  | n + 1, b :: bs => by
    unfold splitN
    split
    · simp
    · split <;> simp

theorem splitN_append (sep : UInt8) (n : Nat) : ∀ (a b : Bytes), sep ∉ a →
    splitN sep (n + 1) (a ++ sep :: b) = a :: splitN sep n b
  | [], b, _ => by simp [splitN]
  | x :: xs, b, h => by
    have hb : x ≠ sep := fun e => h (by simp [e])
    have ht : sep ∉ xs := fun e => h (by simp [e])
    simp [splitN, hb, splitN_append sep n xs b ht]

theorem splitN_join (sep : UInt8) : ∀ (n : Nat) (s : Bytes),
    List.intercalate [sep] (splitN sep n s) = s
  | 0, s => by simp [splitN, List.intercalate]
  | n + 1, [] => by simp [splitN, List.intercalate]
  | n + 1, b :: bs => by
    unfold splitN
    split
    · rename_i hb
      have ih := splitN_join sep n bs
      cases e : splitN sep n bs with
      | nil => exact absurd e (splitN_ne_nil _ _ _)
      | cons p ps =>
        rw [e] at ih
        subst hb
        simp [List.intercalate] at ih ⊢
        exact ih
    · have ih := splitN_join sep (n + 1) bs
      cases e : splitN sep (n + 1) bs with
      | nil => exact absurd e (splitN_ne_nil _ _ _)
      | cons p ps =>
        rw [e] at ih
        cases ps with
        | nil => simp [List.intercalate] at ih ⊢; exact ih
        | cons q qs => simp [List.intercalate] at ih ⊢; exact ih

/-! ### Order -/

theorem bytesLt_irrefl : ∀ a, bytesLt a a = false
  | [] => rfl
  | a :: as => by simp [bytesLt, bytesLt_irrefl as]

theorem bytesLt_trans : ∀ {a b c : Bytes}, bytesLt a b = true → bytesLt b c = true →
    bytesLt a c = true
  | [], [], _, h, _ => by simp [bytesLt] at h
  | [], _ :: _, [], _, h => by simp [bytesLt] at h
  | [], _ :: _, _ :: _, _, _ => rfl
  | _ :: _, [], _, h, _ => by simp [bytesLt] at h
  | _ :: _, _ :: _, [], _, h => by simp [bytesLt] at h
  | a :: as, b :: bs, c :: cs, h1, h2 => by
    simp only [bytesLt, UInt8.lt_iff_toNat_lt] at *
    split at h1
    · split at h2
      · rw [if_pos (by omega)]
      · split at h2
        · simp at h2
        · rw [if_pos (by omega)]
    · split at h1
      · simp at h1
      · split at h2
        · rw [if_pos (by omega)]
        · split at h2
          · simp at h2
          · rw [if_neg (by omega), if_neg (by omega)]
            exact bytesLt_trans h1 h2

theorem bytesLt_total : ∀ {a b : Bytes}, bytesLt a b = false → bytesLt b a = false → a = b
  | [], [], _, _ => rfl
  | [], _ :: _, h, _ => by simp [bytesLt] at h
  | _ :: _, [], _, h => by simp [bytesLt] at h
  | a :: as, b :: bs, h1, h2 => by
    simp only [bytesLt] at *
    split at h1
    · simp at h1
    · split at h1
      · rename_i h; simp [h] at h2
      · rename_i ha hb
        simp only [ha, hb, if_false] at h2
        have : a = b := by
          rw [UInt8.lt_iff_toNat_lt] at ha hb
          exact UInt8.toNat_inj.mp (by omega)
        rw [this, bytesLt_total h1 h2]

end Verif
