import Verif.Model.Regex
/-!
What the regular expressions of `git-at` mean: how putting `\A[^\n]*` before a pattern changes its
alternatives, and when the pattern of fixup commits matches.
-/
namespace Verif.Pcre

/-! ### Reading a pattern with a prefix -/

theorem lexF_mono : ∀ (f f' : Nat) (bs : Bytes) (ts : List Tok),
    lexF f bs = some ts → f ≤ f' → lexF f' bs = some ts
  | f, f', [], ts, h, _ => by
    cases f <;> cases f' <;> simpa [lexF] using h
  | 0, _, _ :: _, _, h, _ => by simp [lexF] at h
  | f + 1, 0, _ :: _, _, _, hle => by omega
  | f + 1, f' + 1, b :: bs, ts, h, hle => by
    simp only [lexF] at h ⊢
    cases ht : token (b :: bs) with
    | none => rw [ht] at h; simp at h
    | some x =>
      obtain ⟨t, rest⟩ := x
      rw [ht] at h
      simp only [Option.map_eq_some_iff] at h ⊢
      obtain ⟨us, hu, rfl⟩ := h
      exact ⟨us, lexF_mono f f' rest us hu (by omega), rfl⟩

/-- The items `\A` and `[^\n]*`, latest first. -/
def lineStart : List Rx := [.rep .star .greedy (.set true [(10, 10)]), .assert .start]

def linePrefix : Bytes := b!"\\A[^\n]*"

theorem lex_linePrefix {p : Bytes} {ts : List Tok} (h : lex p = some ts) :
    lex (linePrefix ++ p) =
      some (.assert .start :: .atom (.set true [(10, 10)]) :: .quant .star :: ts) := by
  have h1 := lexF_mono p.length (p.length + 4) p ts h (by omega)
  simp [linePrefix, lex, lexF, token, escTok, classTok, classF, classOne, h1]

/-- Add items at the start of the first alternative. -/
def snocLast (P : List Rx) : List (List Rx) → List (List Rx)
  | [] => []
  | [s] => [s ++ P]
  | s :: t :: ss => s :: snocLast P (t :: ss)

def fillF (P : List Rx) (f : Frame) : Frame :=
  match f.alts with
  | [] => { f with cur := f.cur ++ P }
  | a :: as => { f with alts := snocLast P (a :: as) }

def fill (P : List Rx) : List Frame → List Frame
  | [] => []
  | [f] => [fillF P f]
  | f :: g :: fs => f :: fill P (g :: fs)

theorem fill_cons (P : List Rx) (f : Frame) {fs : List Frame} (h : fs ≠ []) :
    fill P (f :: fs) = f :: fill P fs := by
  cases fs with
  | nil => exact absurd rfl h
  | cons => rfl

theorem snocLast_cons (P : List Rx) (s : List Rx) {ss : List (List Rx)} (h : ss ≠ []) :
    snocLast P (s :: ss) = s :: snocLast P ss := by
  cases ss with
  | nil => exact absurd rfl h
  | cons => rfl

theorem fillF_push (P : List Rx) (f : Frame) (r : Rx) (v : Prev) :
    fillF P { f with cur := r :: f.cur, prev := v } =
      { fillF P f with cur := r :: (fillF P f).cur, prev := v } := by
  obtain ⟨alts, cur, prev⟩ := f
  cases alts <;> simp [fillF]

theorem fillF_prev (P : List Rx) (f : Frame) : (fillF P f).prev = f.prev := by
  obtain ⟨alts, cur, prev⟩ := f
  cases alts <;> rfl

theorem ite_some {α : Type} {c : Prop} [Decidable c] {a b : α} : (if c then none else some a) = some b ↔ ¬ c ∧ a = b := by
  split <;> simp [*]

theorem step_fill {P : List Rx} {s s' : List Frame} {t : Tok} (h : step s t = some s') :
    step (fill P s) t = some (fill P s') := by
  match s with
  | [] => simp [step] at h
  | [f] =>
    cases t with
    | atom r =>
      simp only [step, Option.some.injEq] at h
      subst h
      simp only [fill, step, fillF_push]
    | assert a =>
      simp only [step, Option.some.injEq] at h
      subst h
      simp only [fill, step, fillF_push]
    | bar =>
      simp only [step, Option.some.injEq] at h
      subst h
      obtain ⟨alts, cur, prev⟩ := f
      cases alts <;> simp [fill, step, fillF, snocLast]
    | opn =>
      simp only [step, Option.some.injEq] at h
      subst h
      obtain ⟨alts, cur, prev⟩ := f
      cases alts <;> rfl
    | cls => simp [step] at h
    | quant q =>
      obtain ⟨alts, cur, prev⟩ := f
      cases prev with
      | none => simp [step] at h
      | item =>
        cases cur with
        | nil => simp [step] at h
        | cons r cur =>
          simp only [step, Option.some.injEq] at h
          subst h
          cases alts <;> simp [fill, step, fillF]
      | quant =>
        cases cur with
        | nil => simp [step] at h
        | cons r cur =>
          cases r with
          | rep q' g r =>
            cases q with
            | star => simp [step] at h
            | plus =>
              simp only [step, ite_some] at h
              obtain ⟨hq, h⟩ := h
              subst h
              cases alts <;> simp only [fill, step, fillF, if_neg hq, List.cons_append, List.append_eq]
            | opt =>
              simp only [step, Option.some.injEq] at h
              subst h
              cases alts <;> simp [fill, step, fillF]
          | _ => simp [step] at h
  | f :: g :: fs =>
    rw [show fill P (f :: g :: fs) = f :: fill P (g :: fs) from rfl]
    cases t with
    | atom r =>
      simp only [step, Option.some.injEq] at h
      subst h
      rfl
    | assert a =>
      simp only [step, Option.some.injEq] at h
      subst h
      rfl
    | bar =>
      simp only [step, Option.some.injEq] at h
      subst h
      rfl
    | opn =>
      simp only [step, Option.some.injEq] at h
      subst h
      rfl
    | cls =>
      simp only [step, Option.some.injEq] at h
      subst h
      cases fs with
      | nil => simp only [fill, step, fillF_push]
      | cons g' fs => rfl
    | quant q =>
      have hs : ∃ f', s' = f' :: g :: fs ∧ step [f] (.quant q) = some [f'] := by
        obtain ⟨alts, cur, prev⟩ := f
        cases prev with
        | none => simp [step] at h
        | item =>
          cases cur with
          | nil => simp [step] at h
          | cons r cur =>
            simp only [step, Option.some.injEq] at h
            exact ⟨_, h.symm, rfl⟩
        | quant =>
          cases cur with
          | nil => simp [step] at h
          | cons r cur =>
            cases r with
            | rep q' g' r =>
              cases q with
              | star => simp [step] at h
              | plus =>
                simp only [step, ite_some] at h
                exact ⟨_, h.2.symm, by simp only [step, ite_some]; exact ⟨h.1, trivial⟩⟩
              | opt =>
                simp only [step, Option.some.injEq] at h
                exact ⟨_, h.symm, rfl⟩
            | _ => simp [step] at h
      obtain ⟨f', rfl, hs⟩ := hs
      rw [fill_cons P f' (by simp)]
      generalize fill P (g :: fs) = gs
      obtain ⟨alts, cur, prev⟩ := f
      cases prev with
      | none => simp [step] at hs
      | item =>
        cases cur with
        | nil => simp [step] at hs
        | cons r cur =>
          simp only [step, Option.some.injEq, List.cons.injEq, and_true] at hs ⊢
          exact hs
      | quant =>
        cases cur with
        | nil => simp [step] at hs
        | cons r cur =>
          cases r with
          | rep q' g' r =>
            cases q with
            | star => simp [step] at hs
            | plus =>
              simp only [step, ite_some, List.cons.injEq, and_true] at hs ⊢
              exact hs
            | opt =>
              simp only [step, Option.some.injEq, List.cons.injEq, and_true] at hs ⊢
              exact hs
          | _ => simp [step] at hs

theorem steps_fill {P : List Rx} : ∀ {ts : List Tok} {s s' : List Frame},
    steps s ts = some s' → steps (fill P s) ts = some (fill P s')
  | [], s, s', h => by
    simp only [steps, Option.some.injEq] at h ⊢
    rw [h]
  | t :: ts, s, s', h => by
    simp only [steps, Option.bind_eq_some_iff] at h ⊢
    obtain ⟨s1, h1, h2⟩ := h
    exact ⟨_, step_fill h1, steps_fill h2⟩

/-- Add items at the start of the first alternative, in the order of the text. -/
def prepend (P : List Rx) : List (List Rx) → List (List Rx)
  | [] => []
  | s :: ss => (P ++ s) :: ss

theorem snocLast_all (P : List Rx) : ∀ (l : List (List Rx)),
    ((snocLast P l).map List.reverse).reverse =
      prepend P.reverse ((l.map List.reverse).reverse)
  | [] => rfl
  | [s] => by simp [snocLast, prepend]
  | s :: t :: ss => by
    have ih := snocLast_all P (t :: ss)
    simp only [snocLast, List.map_cons, List.reverse_cons] at ih ⊢
    rw [ih]
    cases hx : (List.map List.reverse ss).reverse ++ [t.reverse] with
    | nil => simp at hx
    | cons a as => simp [prepend]

theorem fillF_all (P : List Rx) (f : Frame) : (fillF P f).all = prepend P.reverse f.all := by
  obtain ⟨alts, cur, prev⟩ := f
  cases alts with
  | nil => simp [fillF, Frame.all, prepend]
  | cons a as =>
    have h := snocLast_all P (cur :: a :: as)
    rw [snocLast_cons P cur (by simp)] at h
    exact h

/-- The prefix goes before the first alternative only. -/
theorem parseAlts_linePrefix {p : Bytes} {as : List (List Rx)} (h : parseAlts p = some as) :
    parseAlts (linePrefix ++ p) = some (prepend lineStart.reverse as) := by
  unfold parseAlts at h ⊢
  cases hl : lex p with
  | none => rw [hl] at h; simp at h
  | some ts =>
    rw [hl] at h
    rw [lex_linePrefix hl]
    have hstart : steps [Frame.empty]
        (.assert .start :: .atom (.set true [(10, 10)]) :: .quant .star :: ts) =
        steps [⟨[], lineStart, .quant⟩] ts := rfl
    simp only [hstart]
    cases ts with
    | nil =>
      simp only [steps, Option.some.injEq] at h ⊢
      rw [← h]
      rfl
    | cons t ts =>
      simp only [steps] at h ⊢
      cases hs : step [Frame.empty] t with
      | none => rw [hs] at h; simp at h
      | some s1 =>
        rw [hs] at h
        have h1 : step [⟨[], lineStart, .quant⟩] t = some (fill lineStart s1) := by
          have := step_fill (P := lineStart) hs
          rw [← this]
          cases t with
          | quant q => simp [step, Frame.empty] at hs
          | _ => rfl
        rw [h1]
        simp only [Option.bind_some] at h ⊢
        cases h2 : steps s1 ts with
        | none => rw [h2] at h; simp at h
        | some s2 =>
          rw [h2] at h
          rw [steps_fill h2]
          match s2, h with
          | [f], h =>
            simp only [Option.some.injEq] at h
            simp only [fill, Option.some.injEq]
            rw [fillF_all, h]

/-! ### Where matches are -/

theorem isMatch_iff {r : Rx} {m : Bytes} :
    r.isMatch m = true ↔ ∃ i, i ≤ m.length ∧ r.matchesAt m i = true := by
  simp only [Rx.isMatch, List.any_eq_true, List.mem_range]
  constructor
  · rintro ⟨i, h, h'⟩
    exact ⟨i, by omega, h'⟩
  · rintro ⟨i, h, h'⟩
    exact ⟨i, by omega, h'⟩

theorem matchesAt_iff {r : Rx} {m : Bytes} {i : Nat} :
    r.matchesAt m i = true ↔ ∃ j, j ∈ r.ends m i := by
  unfold Rx.matchesAt
  cases r.ends m i with
  | nil => simp
  | cons a l => simp

theorem mem_ends_cat_append {m : Bytes} : ∀ {as bs : List Rx} {i j : Nat},
    j ∈ (Rx.cat (as ++ bs)).ends m i ↔
      ∃ k, k ∈ (Rx.cat as).ends m i ∧ j ∈ (Rx.cat bs).ends m k
  | [], bs, i, j => by simp [Rx.cat, Rx.ends]
  | a :: as, bs, i, j => by
    simp only [List.cons_append, Rx.cat, Rx.ends, List.mem_flatMap]
    constructor
    · rintro ⟨k, hk, hj⟩
      obtain ⟨l, hl, hj⟩ := mem_ends_cat_append.1 hj
      exact ⟨l, ⟨k, hk, hl⟩, hj⟩
    · rintro ⟨l, ⟨k, hk, hl⟩, hj⟩
      exact ⟨k, hk, mem_ends_cat_append.2 ⟨l, hl, hj⟩⟩

/-- Alternatives match where one of them does. -/
theorem mem_ends_alts {m : Bytes} : ∀ {as : List (List Rx)} {i j : Nat}, as ≠ [] →
    (j ∈ (Rx.alts as).ends m i ↔ ∃ a ∈ as, j ∈ (Rx.cat a).ends m i)
  | [], _, _, h => absurd rfl h
  | [a], i, j, _ => by simp [Rx.alts]
  | a :: b :: as, i, j, _ => by
    simp only [Rx.alts, Rx.ends, List.mem_append]
    rw [mem_ends_alts (by simp)]
    simp

/-- A run of bytes of a set, from `i` to `j`. -/
def RunOf (m : Bytes) (ok : UInt8 → Bool) (i j : Nat) : Prop :=
  i ≤ j ∧ ∀ k, i ≤ k → k < j → ∃ b, m[k]? = some b ∧ ok b = true

theorem mem_starEnds_set {m : Bytes} {neg : Bool} {rs : List (UInt8 × UInt8)} :
    ∀ {f i j : Nat}, m.length < f + i →
    (j ∈ starEnds ((Rx.set neg rs).ends m) true f i ↔
      RunOf m (fun b => inRanges rs b != neg) i j)
  | 0, i, j, hf => by
    simp only [starEnds, List.mem_singleton]
    constructor
    · rintro rfl
      exact ⟨Nat.le_refl _, fun k h1 h2 => by omega⟩
    · rintro ⟨h1, h2⟩
      by_cases hij : i = j
      · exact hij.symm
      · obtain ⟨b, hb, _⟩ := h2 i (Nat.le_refl _) (by omega)
        have := (List.getElem?_eq_some_iff.1 hb).1
        omega
  | f + 1, i, j, hf => by
    simp only [starEnds, if_true, List.mem_append, List.mem_flatMap, List.mem_singleton]
    constructor
    · rintro (⟨k, hk, hj⟩ | rfl)
      · simp only [Rx.ends] at hk
        cases hb : m[i]? with
        | none => rw [hb] at hk; simp at hk
        | some b =>
          rw [hb] at hk
          by_cases hok : (inRanges rs b != neg) = true
          · simp only [hok, if_true, List.mem_singleton] at hk
            subst hk
            rw [if_pos (by omega)] at hj
            obtain ⟨h1, h2⟩ := (mem_starEnds_set (by omega)).1 hj
            refine ⟨by omega, fun k hk1 hk2 => ?_⟩
            by_cases hki : k = i
            · subst hki
              exact ⟨b, hb, hok⟩
            · exact h2 k (by omega) hk2
          · simp only [hok] at hk
            simp at hk
      · exact ⟨Nat.le_refl _, fun k h1 h2 => by omega⟩
    · rintro ⟨h1, h2⟩
      by_cases hij : i = j
      · exact .inr hij.symm
      · refine .inl ⟨i + 1, ?_, ?_⟩
        · obtain ⟨b, hb, hok⟩ := h2 i (Nat.le_refl _) (by omega)
          simp [Rx.ends, hb, hok]
        · rw [if_pos (by omega)]
          exact (mem_starEnds_set (by omega)).2 ⟨by omega, fun k hk1 hk2 => h2 k (by omega) hk2⟩

theorem mem_star_set {m : Bytes} {neg : Bool} {rs : List (UInt8 × UInt8)} {i j : Nat} :
    j ∈ (Rx.rep .star .greedy (.set neg rs)).ends m i ↔
      RunOf m (fun b => inRanges rs b != neg) i j := by
  have h : (Rx.rep .star .greedy (.set neg rs)).ends m i =
      starEnds ((Rx.set neg rs).ends m) true (m.length + 1) i := rfl
  rw [h]
  exact mem_starEnds_set (by omega)

/-- The prefix matches from the start of the text to a place in its first line. -/
theorem mem_ends_lineStart {m : Bytes} {i j : Nat} :
    j ∈ (Rx.cat lineStart.reverse).ends m i ↔
      i = 0 ∧ RunOf m (fun b => b != 10) 0 j := by
  have e : (fun b => inRanges [(10, 10)] b != true) = (fun b : UInt8 => b != 10) := by
    funext b
    simp only [inRanges, List.any_cons, List.any_nil, Bool.or_false]
    by_cases hb : b = 10
    · subst hb; decide
    · have : ((10 : UInt8) ≤ b && b ≤ 10) = false := by
        rw [Bool.and_eq_false_iff]
        by_cases h1 : (10 : UInt8) ≤ b
        · right
          simp only [decide_eq_false_iff_not]
          exact fun h2 => hb (UInt8.le_antisymm h2 h1)
        · left
          simpa using h1
      rw [this]
      simp [hb]
  simp only [lineStart, List.reverse_cons, List.reverse_nil, List.nil_append, List.cons_append,
    Rx.cat, Rx.ends, Assert.holds, List.mem_flatMap]
  constructor
  · rintro ⟨k, hk, l, hl, hj⟩
    by_cases hi : i = 0
    · subst hi
      simp at hk hj
      subst hk hj
      have := mem_star_set.1 hl
      rw [e] at this
      exact ⟨rfl, this⟩
    · simp [hi] at hk
  · rintro ⟨rfl, h⟩
    refine ⟨0, by simp, j, ?_, by simp⟩
    refine mem_star_set.2 ?_
    rw [e]
    exact h

theorem mem_takeWhile {α : Type} {p : α → Bool} {x : α} :
    ∀ {l : List α}, x ∈ l.takeWhile p → p x = true
  | [], h => by simp at h
  | a :: l, h => by
    by_cases ha : p a = true
    · simp only [List.takeWhile_cons, ha, if_true, List.mem_cons] at h
      rcases h with rfl | h
      · exact ha
      · exact mem_takeWhile h
    · simp [ha] at h

theorem runOf_line {m : Bytes} {j : Nat} :
    RunOf m (fun b => b != 10) 0 j ↔ j ≤ (m.takeWhile (· ≠ 10)).length := by
  constructor
  · rintro ⟨_, h⟩
    induction m generalizing j with
    | nil =>
      cases j with
      | zero => simp
      | succ j => obtain ⟨b, hb, _⟩ := h 0 (by omega) (by omega); simp at hb
    | cons a m ih =>
      cases j with
      | zero => simp
      | succ j =>
        obtain ⟨b, hb, hok⟩ := h 0 (by omega) (by omega)
        simp at hb hok
        subst hb
        have : List.takeWhile (· ≠ 10) (a :: m) = a :: List.takeWhile (· ≠ 10) m := by
          simp [hok]
        rw [this, List.length_cons]
        have := ih (j := j) (by omega) fun k _ hk => by
          obtain ⟨b, hb, hok⟩ := h (k + 1) (by omega) (by omega)
          exact ⟨b, by simpa using hb, hok⟩
        omega
  · intro h
    refine ⟨by omega, fun k _ hk => ?_⟩
    have hk' : k < (m.takeWhile (· ≠ 10)).length := by omega
    have hm : m = m.takeWhile (· ≠ 10) ++ m.dropWhile (· ≠ 10) := by simp
    refine ⟨(m.takeWhile (· ≠ 10))[k], ?_, ?_⟩
    · conv => lhs; rw [hm]
      rw [List.getElem?_append_left hk', List.getElem?_eq_getElem hk']
    · have := mem_takeWhile (List.getElem_mem hk')
      simpa using this

end Verif.Pcre
