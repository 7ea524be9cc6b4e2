import Verif.Spec.Meaning
import Verif.Props.Table
/-! Every request is one of the simple server's, or is denied, or is an odd `unlock`. -/
namespace Verif
open Spec

variable {cfg : Cfg} {mode : Mode} {r r1 r' : Rdr}

/-! ### Texts -/

theorem escape_eq (c : UInt8) : escape c = (if c = 10 then b!"\\n" else if c = 13 then b!"\\r" else if c = 9 then b!"\\t"
    else if c = 92 || c = 34 then [92, c] else if c = 0 then b!"\\0"
    else if 32 ≤ c && c < 127 then [c]
    else b!"\\x" ++ [hexDigit (c.toNat / 16), hexDigit (c.toNat % 16)]) := by
  have key : ∀ n : Fin 256, escape (UInt8.ofNat n) = (let c := UInt8.ofNat n
      if c = 10 then b!"\\n" else if c = 13 then b!"\\r" else if c = 9 then b!"\\t"
      else if c = 92 || c = 34 then [92, c] else if c = 0 then b!"\\0"
      else if 32 ≤ c && c < 127 then [c]
      else b!"\\x" ++ [hexDigit (c.toNat / 16), hexDigit (c.toNat % 16)]) := by decide +kernel
  have := key ⟨c.toNat, c.toNat_lt⟩
  simpa using this

theorem quote_eq (s : Bytes) : quote s = bytesDebug s := by
  unfold quote bytesDebug
  rw [funext escape_eq]

/-- Why arguments are refused. -/
theorem parse_badArgs {items : List Packet} {code : Nat} {msg : Bytes} (h : BadArgs items code msg) :
    ∃ e, parseArgs (items.map fun p => p.data?.getD []) = .err e ∧ errorStatus e = Status.failure code msg := by
  cases h with
  | @equals kv p rest ha hp =>
    have red := parseArgsAux_good kv ((p :: rest).map fun p => p.data?.getD []) [] ha.1 ha.2 (by simp)
    rw [List.map_append, argPackets_data]
    unfold parseArgs
    rw [red, List.map_cons, parseArgsAux]
    have : splitEq (p.data?.getD []) = none := splitEq_none.mpr (by cases p <;> exact hp)
    rw [this]
    exact ⟨_, rfl, rfl⟩
  | @newline kv p rest ha hp hn =>
    have red := parseArgsAux_good kv ((p :: rest).map fun p => p.data?.getD []) [] ha.1 ha.2 (by simp)
    rw [List.map_append, argPackets_data]
    unfold parseArgs
    rw [red, List.map_cons, parseArgsAux]
    have e : p.data?.getD [] = payload p := by cases p <;> rfl
    rw [e]
    cases hs : splitEq (payload p) with
    | none => exact absurd hp (splitEq_none.mp hs)
    | some x =>
      simp only [NL, ne_eq, hn, not_false_eq_true, if_true]
      exact ⟨_, rfl, rfl⟩
  | @twice kv k v rest ha hk hm =>
    have red := parseArgsAux_good kv ((Packet.data (argLine k v) :: rest).map fun p => p.data?.getD []) [] ha.1 ha.2 (by simp)
    rw [List.map_append, argPackets_data]
    unfold parseArgs
    rw [red, List.map_cons, parseArgsAux]
    simp only [Packet.data?, Option.getD_some, splitEq_argLine hk, argLine_last, NL, ne_eq, not_true_eq_false, if_false]
    have : (Args.get (kv.reverse ++ []) k).isSome = true := by
      rw [Args.get_eq, List.append_nil, lookup_isSome]; simpa using hm
    simp only [this, if_true]
    exact ⟨_, rfl, rfl⟩

theorem not_num {s : Bytes} (h : ¬ ∃ n, Num s n) : ∀ n, parseNat u64Max s ≠ some n := by
  intro n hn
  obtain ⟨h1, h2⟩ := (parseNat_iff u64Max s n).mp hn
  exact h ⟨n, by unfold u64Max at h1; omega, h2⟩

theorem parse_badInteger {s : Bytes} (h : ¬ ∃ n, Num s n) : ∃ e, parseInteger s = .err e ∧ errorStatus e =
    Status.failure 400
      (b!"error: invalid or malformed integer or size value: unexpected value parsing integer: " ++ quote s ++ b!"\n") := by
  unfold parseInteger
  cases hp : parseNat u64Max s with
  | some n => exact absurd hp (not_num h n)
  | none =>
    refine ⟨_, rfl, ?_⟩
    rw [quote_eq]
    show Status.failure 400 (b!"error: " ++ (b!"invalid or malformed integer or size value" ++ b!": " ++
      (b!"unexpected value parsing integer: " ++ bytesDebug s)) ++ b!"\n") = _
    simp

theorem num_of_parse {s : Bytes} {n : Nat} (h : parseInteger s = .ok n) : Num s n := by
  obtain ⟨h1, h2⟩ := (C10_integer_exact s n).1.mp h
  exact ⟨by omega, h2⟩

theorem parse_badSize {m : Args} {msg x : Bytes} {o : Option Bytes} (hg : Args.get m b!"size" = o) (h : BadSize x o msg) :
    ∃ e, (match Args.get m b!"size" with
      | some x => parseInteger x
      | none => .err (Err.withMsg .missingData x)) = .err e ∧ errorStatus e = Status.failure 400 msg := by
  rw [hg]
  cases h with
  | missing =>
    refine ⟨_, rfl, ?_⟩
    show Status.failure 400 (b!"error: " ++ (b!"incomplete or missing data" ++ b!": " ++ x) ++ b!"\n") = _
    simp
  | wrong hw => exact parse_badInteger hw

theorem getD_payload (p : Packet) : p.data?.getD [] = payload p := by cases p <;> rfl

theorem getLast_concat {s : Bytes} : (s ++ b!"\n").getLast? = some NL := by rw [List.getLast?_concat]; rfl

theorem isOid_nospace {o : Bytes} (h : IsOid o) : (32 : UInt8) ∉ o := fun hm => absurd (h.2 32 hm) (by decide)

theorem num_nospace {s : Bytes} {n : Nat} (h : Num s n) : (32 : UInt8) ∉ s := by
  have key : ∀ {s : Bytes} {n : Nat}, Dec s n → (32 : UInt8) ∉ s := fun hd hm =>
    absurd (((dec_iff _ _).mp hd).2.1 32 hm) (by decide)
  rcases h.2 with hd | ⟨t, rfl, hd⟩
  · exact key hd
  · intro hm
    rcases List.mem_cons.mp hm with e | hm
    · exact absurd e (by decide)
    · exact key hd hm

theorem splitOn_two {o s : Bytes} (ho : (32 : UInt8) ∉ o) (hs : (32 : UInt8) ∉ s) :
    splitOn SP (o ++ b!" " ++ s ++ b!"\n") = [o, s ++ b!"\n"] := by
  have : o ++ b!" " ++ s ++ b!"\n" = o ++ 32 :: (s ++ b!"\n") := by simp
  rw [this, SP, splitOn_append 32 o _ ho, splitOn_none 32 _ (by simp [hs])]

theorem parse_badLine {x : Bytes} {code : Nat} {msg : Bytes} (h : BadLine x code msg) :
    ∃ e, parseBatchLine x = .err e ∧ errorStatus e = Status.failure code msg := by
  unfold parseBatchLine
  cases h with
  | newline hn =>
    have hn : x.getLast? ≠ some NL := hn
    rw [if_pos hn]
    exact ⟨_, rfl, rfl⟩
  | @words x ws hw hl =>
    rw [if_neg (by rw [getLast_concat]; simp)]
    have e : splitOn SP (x ++ b!"\n") = ws := words_splitOn hw
    rw [e]
    split
    · simp at hl
    · exact ⟨_, rfl, rfl⟩
  | @number o s ho hs hn =>
    rw [if_neg (by rw [getLast_concat]; simp), splitOn_two ho hs]
    have hne : s ++ b!"\n" ≠ [] := by simp
    simp only [hne, if_false, List.dropLast_concat]
    cases hp : parseNat u64Max s with
    | some n => exact absurd hp (not_num hn n)
    | none =>
      refine ⟨_, rfl, ?_⟩
      rw [quote_eq]
      show Status.failure 400 (b!"error: " ++ (b!"invalid or malformed integer or size value" ++ b!": " ++
        (b!"got " ++ bytesDebug (s ++ b!"\n"))) ++ b!"\n") = _
      simp
  | @oid o s n ho hs hn =>
    rw [if_neg (by rw [getLast_concat]; simp), splitOn_two ho (num_nospace hs)]
    have hne : s ++ b!"\n" ≠ [] := by simp
    have hv : oidValid o = false := by
      cases hb : oidValid o with
      | true => exact absurd ((oidValid_iff o).mp hb) hn
      | false => rfl
    simp only [hne, if_false, List.dropLast_concat, num_parseNat hs, hv]
    exact ⟨_, rfl, rfl⟩

theorem parse_badLines {its : List (Bytes × Nat)} {ls : List Bytes} (h : BatchLines its ls) {x : Bytes} {rest : List Bytes}
    {code : Nat} {msg : Bytes} (hx : BadLine x code msg) :
    ∃ e, parseBatchLines (ls ++ x :: rest) = .err e ∧ errorStatus e = Status.failure code msg := by
  induction h with
  | nil =>
    obtain ⟨e, h1, h2⟩ := parse_badLine hx
    exact ⟨e, by simp only [List.nil_append, parseBatchLines, h1], h2⟩
  | cons ho hn _ ih =>
    obtain ⟨e, h1, h2⟩ := ih
    exact ⟨e, by simp only [List.cons_append, parseBatchLines, parseBatchLine_ok ho hn, h1], h2⟩

/-- A packet is a line of a batch, or it is not, for a reason. -/
theorem line_total (x : Bytes) : (∃ o s n, IsOid o ∧ Num s n ∧ x = o ++ b!" " ++ s ++ b!"\n") ∨ ∃ code msg, BadLine x code msg := by
  classical
  by_cases hl : x.getLast? = some 10
  swap
  · exact .inr ⟨_, _, .newline hl⟩
  obtain ⟨y, rfl⟩ := List.getLast?_eq_some_iff.mp hl
  have hw := words_of_splitOn (y ++ [10])
  by_cases h2 : (splitOn SP (y ++ [10])).length = 2
  swap
  · exact .inr ⟨_, _, .words hw h2⟩
  obtain ⟨o, t, ht⟩ : ∃ o t, splitOn SP (y ++ [10]) = [o, t] := by
    match h : splitOn SP (y ++ [10]), h2 with
    | [o, t], _ => exact ⟨o, t, rfl⟩
  rw [ht] at hw
  generalize hws : [o, t] = ws at hw
  generalize hz : y ++ [10] = z at hw
  cases hw with
  | one => simp at hws
  | @cons a w ws ho hw =>
    simp only [List.cons.injEq] at hws
    obtain ⟨rfl, hws⟩ := hws
    rw [← hws] at hw
    generalize hws : [t] = ws at hw
    cases hw with
    | cons _ hw => cases hw <;> simp at hws
    | one hs =>
      simp only [List.cons.injEq, and_true] at hws
      subst hws
      have hne : t ≠ [] := by
        rintro rfl
        rw [List.append_nil] at hz
        have := congrArg List.getLast? hz
        simp at this
      obtain ⟨s, c, rfl⟩ : ∃ s c, t = s ++ [c] := ⟨_, _, (List.dropLast_concat_getLast hne).symm⟩
      have hc : c = 10 := by
        rw [← List.append_assoc] at hz
        have := (List.append_inj' hz rfl).2
        simpa using this.symm
      subst hc
      have hs : (32 : UInt8) ∉ s := fun h => hs (by simp [h])
      have hz' : o ++ b!" " ++ (s ++ [10]) = o ++ b!" " ++ s ++ b!"\n" := by simp
      rw [hz']
      by_cases hn : ∃ n, Num s n
      swap
      · exact .inr ⟨_, _, .number ho hs hn⟩
      obtain ⟨n, hn⟩ := hn
      by_cases hoid : IsOid o
      · exact .inl ⟨o, s, n, hoid, hn, rfl⟩
      · exact .inr ⟨_, _, .oid ho hn hoid⟩

theorem lines_total (ps : List Packet) : (∃ its ls, BatchLines its ls ∧ ps = ls.map .data) ∨
    ∃ its ls p rest code msg, BatchLines its ls ∧ ps = ls.map .data ++ p :: rest ∧ BadLine (payload p) code msg := by
  induction ps with
  | nil => exact .inl ⟨[], [], .nil, rfl⟩
  | cons p ps ih =>
    rcases line_total (payload p) with ⟨o, s, n, ho, hn, hx⟩ | ⟨code, msg, h⟩
    · have hp : p = .data (o ++ b!" " ++ s ++ b!"\n") := by
        cases p with
        | data d => rw [← hx]; rfl
        | flush => exact absurd hx (by simp [payload])
        | delim => exact absurd hx (by simp [payload])
      rcases ih with ⟨its, ls, h1, h2⟩ | ⟨its, ls, q, rest, code, msg, h1, h2, h3⟩
      · exact .inl ⟨_, _, .cons ho hn h1, by rw [h2, hp]; rfl⟩
      · exact .inr ⟨_, _, q, rest, code, msg, .cons ho hn h1, by rw [h2, hp]; rfl, h3⟩
    · exact .inr ⟨[], [], p, ps, code, msg, .nil, rfl, h⟩

/-- Packets are arguments, or they are not, for a reason. -/
theorem args_total (ps : List Packet) : AreArgs ps ∨ ∃ code msg, BadArgs ps code msg := by
  classical
  suffices H : ∀ (ps : List Packet) (kv : List (Bytes × Bytes)), ArgsOk kv → (∃ kv', ArgsOk kv' ∧ argPackets kv ++ ps = argPackets kv') ∨
      ∃ code msg, BadArgs (argPackets kv ++ ps) code msg by
    rcases H ps [] ⟨by simp, by simp⟩ with ⟨kv, h1, h2⟩ | ⟨code, msg, h⟩
    · exact .inl ⟨kv, h1, h2⟩
    · exact .inr ⟨code, msg, h⟩
  intro ps
  induction ps with
  | nil => intro kv hk; exact .inl ⟨kv, hk, by simp⟩
  | cons p ps ih =>
    intro kv hk
    by_cases h1 : (61 : UInt8) ∈ payload p
    swap
    · exact .inr ⟨_, _, .equals hk h1⟩
    by_cases h2 : (payload p).getLast? = some 10
    swap
    · exact .inr ⟨_, _, .newline hk h1 h2⟩
    cases hs : splitEq (payload p) with
    | none => exact absurd h1 (splitEq_none.mp hs)
    | some x =>
      obtain ⟨k, v⟩ := x
      obtain ⟨hk1, hk2⟩ := splitEq_some.mp hs
      have hv : ∃ v', v = v' ++ [10] := by
        have hne : v ≠ [] := by
          rintro rfl
          rw [hk1] at h2
          simp at h2
        refine ⟨v.dropLast, ?_⟩
        rw [hk1, List.getLast?_append, List.getLast?_cons_of_ne_nil hne, List.getLast?_eq_some_getLast hne] at h2
        have e := List.dropLast_concat_getLast hne
        conv_lhs => rw [← e]
        congr 1
        simpa using h2
      obtain ⟨v, rfl⟩ := hv
      have hp : p = .data (argLine k v) := by
        cases p with
        | data d =>
          have : d = _ := hk1
          rw [this]
          simp [argLine]
        | flush => exact absurd hk1 (by simp [payload])
        | delim => exact absurd hk1 (by simp [payload])
      subst hp
      by_cases hm : k ∈ kv.map (·.1)
      · exact .inr ⟨_, _, .twice hk hk2 hm⟩
      · have := ih (kv ++ [(k, v)]) ⟨by
          intro e he
          rcases List.mem_append.mp he with he | he
          · exact hk.1 e he
          · simp only [List.mem_singleton] at he; subst he; exact hk2, by
          rw [List.map_append, List.nodup_append]
          refine ⟨hk.2, by simp, ?_⟩
          intro a ha b hb
          simp only [List.map_cons, List.map_nil, List.mem_singleton] at hb
          subst hb
          rintro rfl
          exact hm ha⟩
        simpa [argPackets] using this

end Verif
