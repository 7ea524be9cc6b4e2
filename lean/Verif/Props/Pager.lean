import Verif.Props.RecentRefs

/-!
# C64: git-recent-refs and its pager

The output reaches the pager in order and without loss for as long as the pager wants it; but the program does not wait
for the pager.
-/

namespace Verif

open RecentRefs (Pipeline PipeStep Paged)

/-- The program exits only after its pager has gone. -/
def PagerFirst (line : Nat → Option Bytes) : Prop :=
  ∀ p, Paged line p → p.ended ≠ none → p.gone = true

/-- The first `n` lines. -/
def firstLines (line : Nat → Option Bytes) (n : Nat) : List Bytes := (List.range n).filterMap line

namespace RecentRefs

structure PipeInv (line : Nat → Option Bytes) (p : Pipeline) : Prop where
  all : ∀ i, i < p.lines → line i ≠ none
  text : p.taken ++ p.pipe ++ p.rest = textOf (firstLines line p.lines)
  exited : ∀ c, p.ended = some (.exit c) → c = 0 ∧ p.rest = [] ∧ line p.lines = none
  aborted : p.ended = some .aborted → p.gone = true ∧ p.rest ≠ []

theorem firstLines_succ {line : Nat → Option Bytes} {n : Nat} {l : Bytes} (h : line n = some l) :
    firstLines line (n + 1) = firstLines line n ++ [l] := by
  simp [firstLines, List.range_succ, h]

theorem firstLines_length {line : Nat → Option Bytes} : ∀ {n : Nat}, (∀ i, i < n → line i ≠ none) →
    (firstLines line n).length = n
  | 0, _ => rfl
  | n + 1, h => by
    obtain ⟨l, hl⟩ := Option.ne_none_iff_exists'.1 (h n (by omega))
    rw [firstLines_succ hl, List.length_append, firstLines_length fun i hi => h i (by omega)]
    rfl

theorem firstLines_get {line : Nat → Option Bytes} : ∀ {n : Nat}, (∀ i, i < n → line i ≠ none) →
    ∀ i (h : i < (firstLines line n).length), line i = some (firstLines line n)[i]
  | 0, _, i, h => absurd h (by simp [firstLines])
  | n + 1, hn, i, h => by
    obtain ⟨l, hl⟩ := Option.ne_none_iff_exists'.1 (hn n (by omega))
    have hn' : ∀ i, i < n → line i ≠ none := fun i hi => hn i (by omega)
    have hlen := firstLines_length hn'
    have e := firstLines_succ hl
    have hi : i < n + 1 := by rw [← firstLines_length hn]; exact h
    simp only [e]
    by_cases h' : i < n
    · rw [List.getElem_append_left (by omega)]
      exact firstLines_get hn' i (by omega)
    · have : i = n := by omega
      subst this
      rw [List.getElem_append_right (by omega)]
      simp [hl]

theorem Paged.inv {line : Nat → Option Bytes} {p : Pipeline} (h : Paged line p) : PipeInv line p := by
  induction h with
  | start => exact ⟨fun i hi => absurd hi (Nat.not_lt_zero i), rfl, fun c h => (by cases h), fun h => (by cases h)⟩
  | step _ hs ih =>
    obtain ⟨h1, h2, h3, h4⟩ := ih
    cases hs with
    | next hl hr he =>
      refine ⟨fun i hi => ?_, ?_, fun c h => (by simp [he] at h), fun h => (by simp [he] at h)⟩
      · rcases Nat.lt_succ_iff_lt_or_eq.1 hi with h | h
        · exact h1 i h
        · rw [h, hl]; simp
      · rw [hr, List.append_nil] at h2
        simp only
        rw [h2, firstLines_succ hl]
        simp [textOf]
    | write hr ha he hg =>
      refine ⟨h1, ?_, fun c h => (by simp [he] at h), fun h => (by simp [he] at h)⟩
      rw [hr] at h2
      simpa using h2
    | broken hr he hg => exact ⟨h1, h2, fun c h => (by simp at h), fun _ => ⟨hg, hr⟩⟩
    | exit hl hr he =>
      refine ⟨h1, h2, fun c h => ?_, fun h => (by simp at h)⟩
      simp only [Option.some.injEq, Ended.exit.injEq] at h
      exact ⟨by rw [← h]; rfl, hr, hl⟩
    | take hp hg =>
      refine ⟨h1, ?_, h3, h4⟩
      rw [hp] at h2
      simpa using h2
    | leave hg => exact ⟨h1, h2, h3, fun h => ⟨rfl, (h4 h).2⟩⟩

end RecentRefs

/-- C64: what has been written is at every moment the beginning of the listing, of which the pager has taken a part from
the front; the lines come in order, complete, and none twice. -/
theorem C64_order_partial {line : Nat → Option Bytes} {p : Pipeline} (h : Paged line p) :
    p.taken ++ p.pipe <+: ((firstLines line p.lines).map (· ++ b!"\n")).flatten ∧
    (firstLines line p.lines).length = p.lines ∧
    ∀ i (hi : i < (firstLines line p.lines).length), line i = some (firstLines line p.lines)[i] :=
  ⟨⟨p.rest, h.inv.text⟩, RecentRefs.firstLines_length h.inv.all, RecentRefs.firstLines_get h.inv.all⟩

/-- C64: when the program exits, it is with code 0, and everything that it would have printed without a pager has been
taken or waits in the pipe. -/
theorem C64_complete_partial {repo : RecentRefs.Repo} {kind : RecentRefs.SortKind} {line : Nat → Option Bytes}
    (hk : RecentRefs.nthLine repo kind = .ok line) {p : Pipeline} (h : Paged line p) {c : Int}
    (he : p.ended = some (.exit c)) :
    c = 0 ∧ ∃ fuel, RecentRefs.main fuel repo none none kind = some ⟨p.taken ++ p.pipe, [], .exit 0⟩ := by
  have hi := h.inv
  obtain ⟨rfl, hr, hl⟩ := hi.exited c he
  refine ⟨rfl, p.lines + 1, ?_⟩
  have ht := hi.text
  rw [hr, List.append_nil] at ht
  have hlen := RecentRefs.firstLines_length hi.all
  have hget := RecentRefs.firstLines_get hi.all
  have hlist : ∀ (date : Ref → Option GitTime), (do let lines ← RecentRefs.run repo date; return (lines[·]?)) =
      Except.ok (ε := Err) line → RecentRefs.run repo date = .ok (firstLines line p.lines) := by
    intro date hd
    cases hrun : RecentRefs.run repo date with
    | error e => rw [hrun] at hd; cases hd
    | ok lines =>
      rw [hrun] at hd
      have hd : (fun n => lines[n]?) = line := by injection hd
      subst hd
      congr 1
      have hle : lines.length ≤ p.lines := by simpa using hl
      apply List.ext_getElem?
      intro i
      by_cases h : i < p.lines
      · rw [List.getElem?_eq_getElem (l := firstLines _ p.lines) (by omega)]
        exact hget i (by omega)
      · rw [List.getElem?_eq_none (by omega), List.getElem?_eq_none (by omega)]
  cases kind with
  | visited =>
    have hk : (fun n => RecentRefs.stringify (repo.revparseExt (RecentRefs.visitText n))) = line := by injection hk
    subst hk
    have := RecentRefs.visitF_stops (repo := repo) (firstLines _ p.lines) (p.lines + 1) 0 none
      (by rw [hlen]; omega)
      (fun i hi => by rw [Nat.zero_add]; exact hget i hi)
      (by rw [Nat.zero_add, hlen]; exact hl)
    simp only [RecentRefs.main, this, Option.map_some, RecentRefs.wrote, writeTo, ← ht]
    rfl
  | committed =>
    simp only [RecentRefs.main, hlist _ hk, RecentRefs.wrote, writeTo, ← ht]
    rfl
  | authored =>
    simp only [RecentRefs.main, hlist _ hk, RecentRefs.wrote, writeTo, ← ht]
    rfl

/-- C64: a pager that reads to the end of its input gets all of it. -/
theorem C64_all_read_partial {repo : RecentRefs.Repo} {kind : RecentRefs.SortKind} {line : Nat → Option Bytes}
    (hk : RecentRefs.nthLine repo kind = .ok line) {p : Pipeline} (h : Paged line p) (hg : p.gone = false)
    (he : p.ended ≠ none) (hp : p.pipe = []) :
    ∃ fuel, RecentRefs.main fuel repo none none kind = some ⟨p.taken, [], .exit 0⟩ := by
  obtain ⟨e, he⟩ := Option.ne_none_iff_exists'.1 he
  cases e with
  | aborted => rw [(h.inv.aborted he).1] at hg; cases hg
  | exit c =>
    have := (C64_complete_partial hk h he).2
    rwa [hp, List.append_nil] at this

/-- C64: the program is killed only if its pager has gone with some of the listing left. -/
theorem C64_killed_partial {line : Nat → Option Bytes} {p : Pipeline} (h : Paged line p)
    (he : p.ended = some .aborted) :
    p.gone = true ∧ p.taken ++ p.pipe ≠ ((firstLines line p.lines).map (· ++ b!"\n")).flatten := by
  refine ⟨(h.inv.aborted he).1, fun hc => (h.inv.aborted he).2 ?_⟩
  have := h.inv.text
  rw [show RecentRefs.textOf (firstLines line p.lines) = _ from hc.symm] at this
  simpa using this

/-- C64 is wrong in that the program does not wait: whatever it lists, if the listing ends, the program may have exited
while the pager has not read anything yet. The missing part of the theorems above. -/
theorem C64_refuted {line : Nat → Option Bytes} {n : Nat} (hs : ∀ i, i < n → line i ≠ none) (hn : line n = none) :
    ¬ PagerFirst line := by
  have : ∀ k, k ≤ n → ∃ b, Paged line { lines := k, pipe := b } := by
    intro k
    induction k with
    | zero => exact fun _ => ⟨[], .start⟩
    | succ k ih =>
      intro hk
      obtain ⟨b, hb⟩ := ih (by omega)
      obtain ⟨l, hl⟩ := Option.ne_none_iff_exists'.1 (hs k (by omega))
      exact ⟨b ++ (l ++ b!"\n"), .step (.step hb (.next hl rfl rfl))
        (.write (a := l ++ b!"\n") (b := []) (by simp) (by simp) rfl rfl)⟩
  intro hc
  obtain ⟨b, hb⟩ := this n (by omega)
  have := hc _ (.step hb (.exit hn rfl rfl)) (by simp)
  cases this

/-! ### Concrete cases -/

namespace RecentDemo

-- three lines; the pager has read the first and some of the second when the program exits
example : ∃ line, RecentRefs.nthLine repo .visited = .ok line ∧ Paged line
    { lines := 3, pipe := b!"/a\nb1\n", taken := b!"refs/heads/c\nrefs/heads", ended := some (.exit 0) } := by
  refine ⟨_, rfl, ?_⟩
  have h1 := Paged.step (line := fun n => RecentRefs.stringify (repo.revparseExt (RecentRefs.visitText n))) .start
    (.next (l := b!"refs/heads/c") rfl rfl rfl)
  have h2 := h1.step (.write (a := b!"refs/heads/c\n") (b := []) rfl (by simp) rfl rfl)
  have h3 := h2.step (.take (a := b!"refs/heads/c\n") (b := []) rfl rfl)
  have h4 := h3.step (.next (l := b!"refs/heads/a") rfl rfl rfl)
  have h5 := h4.step (.write (a := b!"refs/heads/a\n") (b := []) rfl (by simp) rfl rfl)
  have h6 := h5.step (.take (a := b!"refs/heads") (b := b!"/a\n") rfl rfl)
  have h7 := h6.step (.next (l := b!"b1") rfl rfl rfl)
  have h8 := h7.step (.write (a := b!"b1\n") (b := []) rfl (by simp) rfl rfl)
  exact h8.step (.exit (by decide +kernel) rfl rfl)

-- the pager goes away after four bytes
example : Paged (fun n => if n < 2 then some b!"main" else none)
    { lines := 1, rest := b!"\n", taken := b!"main", ended := some .aborted, gone := true } := by
  have h1 := Paged.step (line := fun n => if n < 2 then some b!"main" else none) .start
    (.next (l := b!"main") rfl rfl rfl)
  have h2 := h1.step (.write (a := b!"main") (b := b!"\n") rfl (by simp) rfl rfl)
  have h3 := h2.step (.take (a := b!"main") (b := []) rfl rfl)
  exact (h3.step (.leave rfl)).step (.broken (by simp) rfl rfl)

end RecentDemo

end Verif
