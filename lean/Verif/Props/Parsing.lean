import Mathlib.Data.List.Induction
import Verif.Lemmas.Bytes
import Verif.Spec.Text
import Verif.Model.Server
/-! Properties C09–C11, C31, C51: parsing of arguments, integers, object IDs and lock records. -/
namespace Verif
open Spec

/-! ### C09 -/

theorem splitEq_none {s : Bytes} : splitEq s = none ↔ (61 : UInt8) ∉ s := by
  induction s with
  | nil => simp [splitEq]
  | cons b bs ih =>
    unfold splitEq
    by_cases h : b = EQ
    · subst h; simp [EQ]
    · have h2 : ¬ b = 61 := h
      simp [h, ih, Ne.symm h2]

theorem splitEq_some {s k v : Bytes} :
    splitEq s = some (k, v) ↔ s = k ++ 61 :: v ∧ (61 : UInt8) ∉ k := by
  induction s generalizing k with
  | nil => simp [splitEq]
  | cons b bs ih =>
    unfold splitEq
    by_cases h : b = EQ
    · subst h
      simp only [if_true, Option.some.injEq, Prod.mk.injEq]
      constructor
      · rintro ⟨rfl, rfl⟩; exact ⟨rfl, by simp⟩
      · rintro ⟨h1, h2⟩
        cases k with
        | nil => simp [EQ] at h1; exact ⟨rfl, h1⟩
        | cons c cs => simp [EQ] at h1; exact absurd (by simp [← h1.1]) h2
    · simp only [h, if_false, Option.map_eq_some_iff, Prod.mk.injEq, Prod.exists]
      constructor
      · rintro ⟨k', v', h1, rfl, rfl⟩
        have := ih.mp h1
        refine ⟨by simp [this.1], ?_⟩
        simp only [List.mem_cons, not_or]
        exact ⟨fun e => h e.symm, this.2⟩
      · rintro ⟨h1, h2⟩
        cases k with
        | nil => simp at h1; exact absurd h1.1 h
        | cons c cs =>
          simp only [List.cons_append, List.cons.injEq] at h1
          obtain ⟨rfl, h1⟩ := h1
          exact ⟨cs, v, ih.mpr ⟨h1, fun e => h2 (by simp [e])⟩, rfl, rfl⟩

theorem splitEq_argLine {k : Bytes} (h : (61 : UInt8) ∉ k) (v : Bytes) :
    splitEq (argLine k v) = some (k, v ++ [10]) := by
  rw [splitEq_some]
  exact ⟨by simp [argLine], h⟩

theorem argLine_last (k v : Bytes) : (argLine k v).getLast? = some 10 := by
  rw [argLine, List.getLast?_append]; rfl

theorem Args.get_eq (m : Args) (k : Bytes) : Args.get m k = lookup m k := by
  induction m with
  | nil => rfl
  | cons e m ih =>
    obtain ⟨k', v⟩ := e
    simp only [Args.get, lookup, List.find?_cons]
    by_cases h : k' = k
    · simp [h]
    · simp [h, ih, lookup]

theorem lookup_isSome (m : List (Bytes × Bytes)) (k : Bytes) :
    (lookup m k).isSome ↔ k ∈ m.map (·.1) := by
  induction m with
  | nil => simp [lookup]
  | cons e m ih =>
    simp only [lookup, List.find?_cons, List.map_cons, List.mem_cons] at *
    by_cases h : e.1 = k
    · simp [h]
    · have : ¬ k = e.1 := fun e' => h e'.symm
      simp [h, this]

theorem parseArgsAux_good (kv : List (Bytes × Bytes)) (rest : List Bytes) : ∀ (m : Args),
    (∀ e ∈ kv, (61 : UInt8) ∉ e.1) → (kv.map (·.1)).Nodup →
    (∀ e ∈ kv, e.1 ∉ m.map (·.1)) →
    parseArgsAux m (kv.map (fun e => argLine e.1 e.2) ++ rest) = parseArgsAux (kv.reverse ++ m) rest := by
  induction kv with
  | nil => intro m _ _ _; rfl
  | cons e kv ih =>
    intro m h1 h2 h3
    obtain ⟨k, v⟩ := e
    have hk : (61 : UInt8) ∉ k := h1 (k, v) (by simp)
    have hm : (Args.get m k).isSome = false := by
      have := h3 (k, v) (by simp)
      rw [Args.get_eq]
      cases hc : (lookup m k).isSome with
      | false => rfl
      | true => exact absurd ((lookup_isSome m k).mp hc) this
    simp only [List.map_cons, List.cons_append, parseArgsAux, splitEq_argLine hk, argLine_last, NL, hm]
    simp only [ne_eq, not_true_eq_false, if_false, Bool.false_eq_true, List.dropLast_concat]
    rw [ih]
    · simp
    · exact fun e he => h1 e (by simp [he])
    · exact (List.nodup_cons.mp h2).2
    · intro e he
      simp only [List.map_cons, List.mem_cons, not_or]
      refine ⟨?_, h3 e (by simp [he])⟩
      intro hc
      have := (List.nodup_cons.mp h2).1
      exact this (List.mem_map.mpr ⟨e, he, hc⟩)

theorem lookup_reverse (kv : List (Bytes × Bytes)) (h : (kv.map (·.1)).Nodup) (k : Bytes) :
    lookup kv.reverse k = lookup kv k := by
  have uniq : ∀ e ∈ kv, lookup kv e.1 = some e.2 := by
    induction kv with
    | nil => simp
    | cons x kv ih =>
      intro e he
      simp only [lookup, List.find?_cons]
      rcases List.mem_cons.mp he with rfl | he
      · simp
      · have hn := (List.nodup_cons.mp h).1
        have : x.1 ≠ e.1 := fun hc => hn (List.mem_map.mpr ⟨e, he, hc.symm⟩)
        simp only [this, decide_false]
        exact ih (List.nodup_cons.mp h).2 e he
  cases hr : lookup kv.reverse k with
  | none =>
    cases hk : lookup kv k with
    | none => rfl
    | some v =>
      have h1 : k ∈ kv.map (·.1) := (lookup_isSome kv k).mp (by simp [hk])
      have h2 : (lookup kv.reverse k).isSome := (lookup_isSome kv.reverse k).mpr (by
        simpa using h1)
      simp [hr] at h2
  | some v =>
    simp only [lookup, Option.map_eq_some_iff] at hr
    obtain ⟨e, he, rfl⟩ := hr
    have hm := List.mem_of_find?_eq_some he
    have hp := List.find?_some he
    simp at hp
    subst hp
    exact (uniq e (by simpa using hm)).symm

/-- **C09**, success: the encoding of a well-formed argument list (values may be any bytes) parses
to exactly that mapping. -/
theorem C09_args_exact (kv : List (Bytes × Bytes)) (h : ArgsOk kv) :
    ∃ m, parseArgs (kv.map (fun e => argLine e.1 e.2)) = .ok m ∧ ∀ k, Args.get m k = lookup kv k := by
  have := parseArgsAux_good kv [] [] h.1 h.2 (by simp)
  refine ⟨kv.reverse, ?_, ?_⟩
  · simpa [parseArgs, parseArgsAux] using this
  · intro k; rw [Args.get_eq, lookup_reverse kv h.2]

/-- **C09**, failure: the first offending item decides the error. -/
theorem C09_args_errors (kv : List (Bytes × Bytes)) (h : ArgsOk kv) (bad : Bytes) (rest : List Bytes) :
    ((61 : UInt8) ∉ bad → ∃ e, parseArgs (kv.map (fun e => argLine e.1 e.2) ++ bad :: rest) = .err e ∧
      e.kind = .parseError) ∧
    (bad.getLast? ≠ some 10 → ∃ e, parseArgs (kv.map (fun e => argLine e.1 e.2) ++ bad :: rest) = .err e ∧
      e.kind = .parseError) ∧
    (∀ k v, bad = argLine k v → (61 : UInt8) ∉ k → k ∈ kv.map (·.1) →
      ∃ e, parseArgs (kv.map (fun e => argLine e.1 e.2) ++ bad :: rest) = .err e ∧
        e.kind = .extraData) := by
  have red := parseArgsAux_good kv (bad :: rest) [] h.1 h.2 (by simp)
  simp only [parseArgs, red]
  refine ⟨?_, ?_, ?_⟩
  · intro hb
    rw [parseArgsAux, splitEq_none.mpr hb]
    exact ⟨_, rfl, rfl⟩
  · intro hb
    rw [parseArgsAux]
    cases splitEq bad with
    | none => exact ⟨_, rfl, rfl⟩
    | some p => simp only [NL, ne_eq, hb, not_false_eq_true, if_true]; exact ⟨_, rfl, rfl⟩
  · intro k v hb hk hmem
    subst hb
    rw [parseArgsAux, splitEq_argLine hk]
    simp only [argLine_last, NL, ne_eq, not_true_eq_false, if_false]
    have : (Args.get (kv.reverse ++ []) k).isSome = true := by
      rw [Args.get_eq, List.append_nil, lookup_isSome]; simpa using hmem
    simp only [this, if_true]
    exact ⟨_, rfl, rfl⟩

/-- The two cases above are exhaustive: every list of items is a well-formed argument list, or
starts with one followed by an offending item. -/
theorem C09_exhaustive (items : List Bytes) :
    (∃ kv, ArgsOk kv ∧ items = kv.map (fun e => argLine e.1 e.2)) ∨
    (∃ kv bad rest, ArgsOk kv ∧ items = kv.map (fun e => argLine e.1 e.2) ++ bad :: rest ∧
      ((61 : UInt8) ∉ bad ∨ bad.getLast? ≠ some 10 ∨
        ∃ k v, bad = argLine k v ∧ (61 : UInt8) ∉ k ∧ k ∈ kv.map (·.1))) := by
  suffices H : ∀ (items : List Bytes) (pre : List (Bytes × Bytes)), ArgsOk pre →
      (∃ kv, ArgsOk kv ∧ pre.map (fun e => argLine e.1 e.2) ++ items = kv.map (fun e => argLine e.1 e.2)) ∨
      (∃ kv bad rest, ArgsOk kv ∧
        pre.map (fun e => argLine e.1 e.2) ++ items = kv.map (fun e => argLine e.1 e.2) ++ bad :: rest ∧
        ((61 : UInt8) ∉ bad ∨ bad.getLast? ≠ some 10 ∨
          ∃ k v, bad = argLine k v ∧ (61 : UInt8) ∉ k ∧ k ∈ kv.map (·.1))) by
    have := H items [] ⟨by simp, by simp⟩
    simpa using this
  intro items
  induction items with
  | nil => intro pre hp; left; exact ⟨pre, hp, by simp⟩
  | cons x xs ih =>
    intro pre hp
    by_cases h1 : (61 : UInt8) ∉ x
    · right; exact ⟨pre, x, xs, hp, rfl, .inl h1⟩
    · by_cases h2 : x.getLast? ≠ some 10
      · right; exact ⟨pre, x, xs, hp, rfl, .inr (.inl h2)⟩
      · cases hs : splitEq x with
        | none => exact absurd (splitEq_none.mp hs) h1
        | some p =>
          obtain ⟨k, v⟩ := p
          obtain ⟨hx, hk⟩ := splitEq_some.mp hs
          have hl : x.getLast? = some 10 := Classical.not_not.mp h2
          obtain ⟨ys, hys⟩ := List.getLast?_eq_some_iff.mp hl
          have hv : ∃ v', v = v' ++ [10] := by
            rw [hx] at hl
            cases hv : v with
            | nil => rw [hv] at hl; simp at hl
            | cons a as =>
              rw [hv] at hl
              have : (a :: as).getLast? = some 10 := by
                rw [List.getLast?_append, List.getLast?_cons_cons] at hl
                cases hq : (a :: as).getLast? with
                | none => simp at hq
                | some z => rw [hq] at hl; simpa using hl
              obtain ⟨zs, hzs⟩ := List.getLast?_eq_some_iff.mp this
              exact ⟨zs, hzs⟩
          obtain ⟨v', rfl⟩ := hv
          have hxa : x = argLine k v' := by rw [hx]; simp [argLine]
          by_cases h3 : k ∈ pre.map (·.1)
          · right; exact ⟨pre, x, xs, hp, rfl, .inr (.inr ⟨k, v', hxa, hk, h3⟩)⟩
          · have hp' : ArgsOk (pre ++ [(k, v')]) := by
              refine ⟨?_, ?_⟩
              · intro e he
                rcases List.mem_append.mp he with he | he
                · exact hp.1 e he
                · simp at he; subst he; exact hk
              · rw [List.map_append, List.nodup_append]
                refine ⟨hp.2, by simp, ?_⟩
                intro a ha b hb
                simp at hb; subst hb
                intro e; subst e; exact h3 ha
            have := ih (pre ++ [(k, v')]) hp'
            simp only [List.map_append, List.map_cons, List.map_nil, List.append_assoc,
              List.cons_append, List.nil_append, ← hxa] at this
            exact this

/-- Parsing arguments never panics. -/
theorem C09_no_panic (items : List Bytes) : parseArgs items ≠ .panic := by
  suffices H : ∀ (items : List Bytes) (m : Args), parseArgsAux m items ≠ .panic from H items []
  intro items
  induction items with
  | nil => intro m h; cases h
  | cons x xs ih =>
    intro m
    rw [parseArgsAux]
    split
    · intro h; cases h
    · split
      · intro h; cases h
      · split
        · intro h; cases h
        · exact ih _

example : ArgsOk [(b!"size", b!"32"), (b!"x", b!"a=b\nc"), ([], [])] := by
  refine ⟨?_, by decide⟩
  intro e he; simp at he
  rcases he with rfl | rfl | rfl <;> decide
example : parseArgs [b!"size=32\n", b!"x=a=b\nc\n", b!"=\n"] =
    .ok [([], []), (b!"x", b!"a=b\nc"), (b!"size", b!"32")] := by decide

/-! ### C10 -/

theorem idxOf_dec (x : UInt8) : decDigits.idxOf? x = if isDigit x then some (x.toNat - 48) else none := by
  have := forall_u8 (fun x => decide (decDigits.idxOf? x =
    if isDigit x then some (x.toNat - 48) else none)) (by decide +kernel) x
  simpa using this

theorem dec_iff (s : Bytes) (n : Nat) :
    Dec s n ↔ s ≠ [] ∧ (∀ x ∈ s, isDigit x = true) ∧ digitsVal 0 s = n := by
  constructor
  · intro h
    induction h with
    | @one d v hd =>
      rw [idxOf_dec] at hd
      split at hd
      · rename_i h1; cases hd
        exact ⟨by simp, by simpa using h1, by simp [digitsVal]⟩
      · cases hd
    | @snoc s n d v _ hd ih =>
      rw [idxOf_dec] at hd
      split at hd
      · rename_i h1; cases hd
        refine ⟨by simp, ?_, ?_⟩
        · intro x hx
          rcases List.mem_append.mp hx with hx | hx
          · exact ih.2.1 x hx
          · simp at hx; subst hx; exact h1
        · rw [digitsVal_append, ih.2.2]; simp [digitsVal]; omega
      · cases hd
  · rintro ⟨h1, h2, rfl⟩
    induction s using List.reverseRecOn with
    | nil => exact absurd rfl h1
    | append_singleton s d ih =>
      have hd : isDigit d = true := h2 d (by simp)
      have hdi : decDigits.idxOf? d = some (d.toNat - 48) := by rw [idxOf_dec, if_pos hd]
      by_cases hs : s = []
      · subst hs
        have := Dec.one hdi
        simpa [digitsVal] using this
      · have := Dec.snoc (ih hs (fun x hx => h2 x (by simp [hx]))) hdi
        rw [digitsVal_append]
        have e : digitsVal (digitsVal 0 s) [d] = 10 * digitsVal 0 s + (d.toNat - 48) := by
          simp [digitsVal]; omega
        rw [e]; exact this

theorem parseNat_iff (max : Nat) (s : Bytes) (n : Nat) :
    parseNat max s = some n ↔ n ≤ max ∧ (Dec s n ∨ ∃ t, s = 43 :: t ∧ Dec t n) := by
  cases s with
  | nil =>
    simp only [parseNat, dec_iff]
    constructor
    · intro h; cases h
    · rintro ⟨_, ⟨h, _⟩ | ⟨t, h, _⟩⟩
      · exact absurd rfl h
      · cases h
  | cons c cs =>
    by_cases hc : c = 43
    · subst hc
      simp only [parseNat, if_true, List.cons.injEq, true_and, dec_iff]
      by_cases he : cs = []
      · subst he
        simp only [if_true]
        constructor
        · intro h; cases h
        · rintro ⟨_, ⟨_, h, _⟩ | ⟨t, rfl, h, _⟩⟩
          · exact absurd (h 43 (by simp)) (by decide)
          · exact absurd rfl h
      · simp only [he, if_false]
        rw [digitsFold_eq max cs 0 (by omega)]
        constructor
        · intro h
          split at h
          · rename_i hh; cases h
            exact ⟨hh.2, .inr ⟨cs, rfl, he, hh.1, rfl⟩⟩
          · cases h
        · rintro ⟨hm, ⟨_, h, _⟩ | ⟨t, rfl, _, h2, h3⟩⟩
          · exact absurd (h 43 (by simp)) (by decide)
          · rw [h3, if_pos ⟨h2, hm⟩]
    · simp only [parseNat, hc, if_false, dec_iff]
      rw [digitsFold_eq max (c :: cs) 0 (by omega)]
      constructor
      · intro h
        split at h
        · rename_i hh; cases h
          exact ⟨hh.2, .inl ⟨by simp, hh.1, rfl⟩⟩
        · cases h
      · rintro ⟨hm, ⟨_, h2, h3⟩ | ⟨t, h, _⟩⟩
        · rw [h3, if_pos ⟨h2, hm⟩]
        · simp at h; exact absurd h.1 hc

/-- **C10.** `parse_integer` for a 64-bit unsigned type accepts exactly an optional `+` followed by
digits denoting a number that fits, and returns that number; everything else is `InvalidInteger`. -/
theorem C10_integer_exact (s : Bytes) (n : Nat) :
    (parseInteger s = .ok n ↔ n ≤ 18446744073709551615 ∧ (Dec s n ∨ ∃ t, s = 43 :: t ∧ Dec t n)) ∧
    ((¬ ∃ n, parseInteger s = .ok n) → ∃ e, parseInteger s = .err e ∧ e.kind = .invalidInteger) := by
  have h := parseNat_iff u64Max s n
  constructor
  · rw [show (18446744073709551615 : Nat) = u64Max from rfl, ← h]
    unfold parseInteger
    split
    · rename_i x hx; simp [hx]
    · rename_i hx; simp [hx]
  · intro hn
    unfold parseInteger at *
    split
    · rename_i x hx; simp [hx] at hn
    · exact ⟨_, rfl, rfl⟩

/-- A number determines at most one value: `Dec` is functional. -/
theorem Dec.unique {s : Bytes} {m n : Nat} (h1 : Dec s m) (h2 : Dec s n) : m = n := by
  rw [dec_iff] at h1 h2
  exact h1.2.2.symm.trans h2.2.2

/-- **C10**, output: decimal output denotes the number, and is accepted back as that number. -/
theorem C10_decimal_roundtrip (n : Nat) :
    Dec (natDec n) n ∧ (n ≤ 18446744073709551615 → parseInteger (natDec n) = .ok n) := by
  have h : Dec (natDec n) n := by
    rw [dec_iff]; exact ⟨natDec_ne_nil n, natDec_digits n, digitsVal_natDec n⟩
  exact ⟨h, fun hn => (C10_integer_exact _ n).1.mpr ⟨hn, .inl h⟩⟩

example : parseInteger b!"+018446744073709551615" = .ok 18446744073709551615 := by decide +kernel
example : ∃ e, parseInteger b!"18446744073709551616" = .err e := ⟨_, rfl⟩
example : Dec b!"042" 42 := (dec_iff _ _).mpr (by decide)

/-! ### C11 -/

theorem isLowerHex_iff (x : UInt8) : isLowerHex x = true ↔ x ∈ b!"0123456789abcdef" := by
  have := forall_u8 (fun x => decide (isLowerHex x = true ↔ x ∈ b!"0123456789abcdef"))
    (by decide +kernel) x
  exact of_decide_eq_true this

theorem oidValid_iff (b : Bytes) : oidValid b = true ↔ IsOid b := by
  simp [oidValid, IsOid, isLowerHex_iff]

/-- **C11**, validation: `Oid::new` accepts exactly the 64-digit lower-case hexadecimal strings, and
otherwise fails with `InvalidLFSOid`; it touches nothing else. -/
theorem C11_oid_validation (b : Bytes) (r : Rdr) :
    (IsOid b → oidNew b r = .ret (.ok b, r)) ∧
    (¬ IsOid b → oidNew b r = .ret (.err (Err.simple .invalidLFSOid), r)) := by
  rw [← oidValid_iff]
  refine ⟨fun h => ?_, fun h => ?_⟩
  · simp only [oidNew, h, if_true]; rfl
  · simp only [oidNew, h]; rfl

/-- **C11**, paths: the path of an accepted ID has the fixed shape, its client-controlled
components are not empty and contain neither `/` nor `.`, and different IDs have different
paths. -/
theorem C11_oid_paths (root : Path) (a : Bytes) (ha : IsOid a) :
    (∃ x y z : Bytes, x.length = 2 ∧ y.length = 2 ∧ a = x ++ y ++ z ∧
      objPath root a = root ++ [b!"objects", x, y, a] ∧
      ∀ c ∈ [x, y, a], c ≠ [] ∧ (47 : UInt8) ∉ c ∧ (46 : UInt8) ∉ c) ∧
    (∀ b, IsOid b → objPath root a = objPath root b → a = b) := by
  constructor
  · have hd : ∀ x ∈ a, x ≠ 47 ∧ x ≠ 46 := by
      intro x hx
      have := forall_u8 (fun x => decide (x ∈ b!"0123456789abcdef" → x ≠ 47 ∧ x ≠ 46))
        (by decide +kernel) x
      exact (of_decide_eq_true this) (ha.2 x hx)
    have hl := ha.1
    refine ⟨a.take 2, (a.drop 2).take 2, (a.drop 2).drop 2, by simp; omega, by simp; omega, ?_, rfl, ?_⟩
    · rw [List.append_assoc, List.take_append_drop, List.take_append_drop]
    · intro c hc
      have sub : ∀ x ∈ c, x ∈ a := by
        simp only [List.mem_cons, List.not_mem_nil, or_false] at hc
        rcases hc with rfl | rfl | rfl
        · intro x hx; exact List.mem_of_mem_take hx
        · intro x hx; exact List.mem_of_mem_drop (List.mem_of_mem_take hx)
        · intro x hx; exact hx
      refine ⟨?_, fun h => (hd _ (sub _ h)).1 rfl, fun h => (hd _ (sub _ h)).2 rfl⟩
      intro e
      have hc2 : 2 ≤ c.length := by
        simp only [List.mem_cons, List.not_mem_nil, or_false] at hc
        rcases hc with rfl | rfl | rfl <;> (try simp only [List.length_take, List.length_drop]) <;> omega
      rw [e] at hc2; simp at hc2
  · intro b _ h
    unfold objPath at h
    have := List.append_cancel_left h
    simp at this
    exact this.2.2

example : IsOid b!"6ca13d52ca70c883e0f0bb101e425a89e8624de51db2d2392593af6a84118090" := by
  refine ⟨by decide, ?_⟩
  intro x hx
  have : isLowerHex x = true := by
    revert x; decide +kernel
  exact (isLowerHex_iff x).mp this

/-! ### C31 -/

theorem intDec_nocolon (t : Int) : (58 : UInt8) ∉ intDec t := by
  have h : ∀ n, (58 : UInt8) ∉ natDec n := fun n hm => absurd (natDec_digits n 58 hm) (by decide)
  cases t with
  | ofNat n => exact h n
  | negSucc n =>
    simp only [intDec, List.cons_append, List.nil_append, List.mem_cons, not_or]
    exact ⟨by decide, h _⟩

/-- **C31.** The record written for a time and path parses back to them, whatever bytes the path
contains; and anything accepted is `v1:<time>:<path>`. -/
theorem C31_record_roundtrip :
    (∀ (t : Int) (p : Bytes), -9223372036854775808 ≤ t → t ≤ 9223372036854775807 →
      parseLock (lockRecord t p) = some (t, p)) ∧
    (∀ (d : Bytes) (t : Int) (p : Bytes), parseLock d = some (t, p) →
      ∃ ts, d = b!"v1:" ++ ts ++ b!":" ++ p ∧ (58 : UInt8) ∉ ts ∧ parseI64 ts = some t) := by
  constructor
  · intro t p h1 h2
    have e : lockRecord t p = b!"v1" ++ COLON :: (intDec t ++ COLON :: p) := by
      simp [lockRecord, COLON]
    have hs : splitN COLON 2 (lockRecord t p) = [b!"v1", intDec t, p] := by
      rw [e, splitN_append COLON 1 b!"v1" _ (by decide),
        splitN_append COLON 0 (intDec t) p (intDec_nocolon t)]
      cases p <;> rfl
    simp only [parseLock, hs, if_true]
    rw [parseI64_intDec t (by simp only [i64Max]; omega) (by simp only [i64Max]; omega)]
    rfl
  · intro d t p h
    have hj := splitN_join COLON 2 d
    unfold parseLock at h
    split at h
    · rename_i v ts p' hs
      split at h
      · rename_i hv
        subst hv
        simp only [Option.map_eq_some_iff, Prod.mk.injEq] at h
        obtain ⟨t', h1, rfl, rfl⟩ := h
        refine ⟨ts, ?_, ?_, h1⟩
        · rw [hs] at hj
          rw [← hj]; simp [List.intercalate, COLON]
        · -- a time field accepted by the integer parser has only digits and a sign
          intro hm
          have dig : ∀ (mx : Nat) (s : Bytes) (a n : Nat), digitsFold mx a s = some n → (58 : UInt8) ∉ s := by
            intro mx s
            induction s with
            | nil => intro a n _; simp
            | cons x xs ih =>
              intro a n hf
              rw [digitsFold] at hf
              split at hf
              · rename_i hx
                simp only at hf
                split at hf
                · have := ih _ _ hf
                  simp only [List.mem_cons, not_or]
                  refine ⟨?_, this⟩
                  intro e; subst e; exact absurd hx (by decide)
                · cases hf
              · cases hf
          unfold parseI64 at h1
          split at h1
          · simp at hm
          · rename_i c cs
            split at h1
            · rename_i hc
              split at h1
              · cases h1
              · simp only [Option.map_eq_some_iff] at h1
                obtain ⟨n, hn, _⟩ := h1
                have := dig _ _ _ _ hn
                subst hc
                simp only [List.mem_cons] at hm
                rcases hm with hm | hm
                · exact absurd hm (by decide)
                · exact this hm
            · split at h1
              · rename_i hc
                split at h1
                · cases h1
                · simp only [Option.map_eq_some_iff] at h1
                  obtain ⟨n, hn, _⟩ := h1
                  have := dig _ _ _ _ hn
                  subst hc
                  simp only [List.mem_cons] at hm
                  rcases hm with hm | hm
                  · exact absurd hm (by decide)
                  · exact this hm
              · simp only [Option.map_eq_some_iff] at h1
                obtain ⟨n, hn, _⟩ := h1
                exact dig _ _ _ _ hn hm
      · cases h
    · cases h

example : parseLock (lockRecord (-12) b!"a:b\n:c") = some (-12, b!"a:b\n:c") := by decide +kernel

/-! ### C51 -/

/-- **C51.** An I/O error wrapped by `?` keeps its kind, also through a conversion back to an I/O
error; errors without an I/O error inside convert to `InvalidData`; the exact kind is reported
whenever one is inside. -/
theorem C51_io_kind_kept :
    (∀ e : IoErr, (Err.ofIo e).ioKind = e.kind ∧ (Err.ofIo e).toIo.kind = e.kind ∧
      (Err.ofIo (Err.ofIo e).toIo).ioKind = e.kind) ∧
    (∀ k, (Err.simple k).toIo.kind = .invalidData) ∧
    (∀ k m, (Err.withMsg k m).toIo.kind = .invalidData) ∧
    (∀ k t, (Err.wrapOther k t).toIo.kind = .invalidData) ∧
    (∀ e : Err, e.toIo.kind = e.ioKind) :=
  ⟨fun _ => ⟨rfl, rfl, rfl⟩, fun _ => rfl, fun _ _ => rfl, fun _ _ => rfl, fun _ => rfl⟩

example : (Err.ofIo ⟨.permissionDenied, b!"denied"⟩).toIo =
    ⟨.permissionDenied, b!"fatal: I/O error: denied"⟩ := by decide

end Verif
