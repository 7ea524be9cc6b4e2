import Verif.Spec.Tools
import Verif.Lemmas.Regex
/-!
C44, C45, C46: what `git-at` prints and how it exits.
-/
namespace Verif
open Spec

namespace GitAt

/-! ### The loop -/

/-- The tests the loop makes. -/
def testsOf (p : Program) (rx fx : Bytes → Except Bytes Bool) : AtTests :=
  ⟨rx, if p.fixup then fun _ => .ok false else fx⟩

theorem loop_passed {h : History} {p : Program} {rx fx : Bytes → Except Bytes Bool}
    {r : Except GitErr Bytes} {revs : List (Except GitErr Bytes)}
    (hr : Passed h (testsOf p rx fx) r) :
    loop h p rx fx (r :: revs) = loop h p rx fx revs := by
  obtain ⟨id, m, rfl, hm, hs⟩ := hr
  cases hf : p.fixup with
  | true =>
    simp only [testsOf, hf, if_true] at hs
    rcases hs with hs | ⟨_, hw⟩
    · cases hs
    · simp [loop, ofGit, ofPcre, hm, hf, hw, bind, Except.bind, pure, Except.pure]
  | false =>
    simp only [testsOf, hf] at hs
    rcases hs with hs | ⟨hs, hw⟩
    · simp only [Bool.false_eq_true, if_false] at hs
      simp [loop, ofGit, ofPcre, hm, hf, hs, bind, Except.bind]
    · simp only [Bool.false_eq_true, if_false] at hs
      simp [loop, ofGit, ofPcre, hm, hf, hs, hw, bind, Except.bind]

theorem loop_passed_all {h : History} {p : Program} {rx fx : Bytes → Except Bytes Bool}
    {revs : List (Except GitErr Bytes)} : ∀ {pre : List (Except GitErr Bytes)},
    (∀ r ∈ pre, Passed h (testsOf p rx fx) r) →
    loop h p rx fx (pre ++ revs) = loop h p rx fx revs
  | [], _ => rfl
  | r :: pre, hp => by
    rw [List.cons_append, loop_passed (hp r (by simp))]
    exact loop_passed_all fun r' h' => hp r' (by simp [h'])

theorem loop_chosen {h : History} {p : Program} {rx fx : Bytes → Except Bytes Bool}
    {id : Bytes} {revs : List (Except GitErr Bytes)} (hc : Chosen h (testsOf p rx fx) id) :
    loop h p rx fx (.ok id :: revs) = .ok id := by
  obtain ⟨m, hm, hs, hw⟩ := hc
  simp only [testsOf] at hw
  cases hf : p.fixup with
  | true => simp [loop, ofGit, ofPcre, hm, hf, hw, bind, Except.bind, pure, Except.pure]
  | false =>
    simp only [testsOf, hf, Bool.false_eq_true, if_false] at hs
    simp [loop, ofGit, ofPcre, hm, hf, hs, hw, bind, Except.bind, pure, Except.pure]

theorem loop_breaks {h : History} {p : Program} {rx fx : Bytes → Except Bytes Bool}
    {r : Except GitErr Bytes} {revs : List (Except GitErr Bytes)} {e : Err}
    (hb : Breaks h (testsOf p rx fx) r e) : loop h p rx fx (r :: revs) = .error e := by
  cases hb with
  | rev e => simp [loop, ofGit, bind, Except.bind]
  | commit hm => simp [loop, ofGit, hm, bind, Except.bind]
  | skips hm hx =>
    cases hf : p.fixup with
    | true => simp [testsOf, hf] at hx
    | false =>
      simp only [testsOf, hf, Bool.false_eq_true, if_false] at hx
      simp [loop, ofGit, ofPcre, hm, hf, hx, bind, Except.bind]
  | wants hm hs hx =>
    simp only [testsOf] at hx
    cases hf : p.fixup with
    | true => simp [loop, ofGit, ofPcre, hm, hf, hx, bind, Except.bind, pure, Except.pure]
    | false =>
      simp only [testsOf, hf, Bool.false_eq_true, if_false] at hs
      simp [loop, ofGit, ofPcre, hm, hf, hs, hx, bind, Except.bind]

/-- Every entry is passed, chosen, or breaks the search. -/
theorem entry_cases (h : History) (t : AtTests) (r : Except GitErr Bytes) :
    Passed h t r ∨ (∃ id, r = .ok id ∧ Chosen h t id) ∨ ∃ e, Breaks h t r e := by
  cases r with
  | error e => exact .inr (.inr ⟨_, .rev e⟩)
  | ok id =>
    cases hm : h.message id with
    | error e => exact .inr (.inr ⟨_, .commit hm⟩)
    | ok m =>
      cases hs : t.skips m with
      | error x => exact .inr (.inr ⟨_, .skips hm hs⟩)
      | ok b =>
        cases b with
        | true => exact .inl ⟨id, m, rfl, hm, .inl hs⟩
        | false =>
          cases hw : t.wants m with
          | error x => exact .inr (.inr ⟨_, .wants hm hs hw⟩)
          | ok b =>
            cases b with
            | true => exact .inr (.inl ⟨id, rfl, m, hm, hs, hw⟩)
            | false => exact .inl ⟨id, m, rfl, hm, .inr ⟨hs, hw⟩⟩

/-- The walk has a first entry that is chosen or breaks the search, or all are passed. -/
theorem walk_cases (h : History) (t : AtTests) : ∀ revs : List (Except GitErr Bytes),
    (∀ r ∈ revs, Passed h t r) ∨ (∃ id, FirstMatch h t revs id) ∨
      ∃ pre r post e, revs = pre ++ r :: post ∧ (∀ r ∈ pre, Passed h t r) ∧ Breaks h t r e
  | [] => .inl (by simp)
  | r :: revs => by
    rcases entry_cases h t r with hp | ⟨id, rfl, hc⟩ | ⟨e, hb⟩
    · rcases walk_cases h t revs with ha | ⟨id, pre, post, rfl, hp', hc⟩ | ⟨pre, r', post, e, rfl, hp', hb⟩
      · exact .inl fun r' h' => by
          rcases List.mem_cons.1 h' with rfl | h'
          · exact hp
          · exact ha r' h'
      · refine .inr (.inl ⟨id, r :: pre, post, rfl, fun r' h' => ?_, hc⟩)
        rcases List.mem_cons.1 h' with rfl | h'
        · exact hp
        · exact hp' r' h'
      · refine .inr (.inr ⟨r :: pre, r', post, e, rfl, fun r' h' => ?_, hb⟩)
        rcases List.mem_cons.1 h' with rfl | h'
        · exact hp
        · exact hp' r' h'
    · exact .inr (.inl ⟨id, [], revs, rfl, by simp, hc⟩)
    · exact .inr (.inr ⟨[], r, revs, e, rfl, by simp, hb⟩)

/-! ### run -/

theorem run_compiled {eng : Engine} {h : History} {p : Program} {rx fx : Bytes → Except Bytes Bool}
    {revs : List (Except GitErr Bytes)} (hr : eng (patternText p p.text) = .ok rx)
    (hf : eng (patternText p fixupText) = .ok fx) (hw : Walk h p revs) :
    run eng h p = loop h p rx fx revs := by
  obtain ⟨head, h1, h2⟩ := hw
  simp [run, pattern, hr, hf, ofPcre, ofGit, h1, h2, bind, Except.bind]

theorem run_found {eng : Engine} {h : History} {p : Program} {t : AtTests}
    {revs : List (Except GitErr Bytes)} {id : Bytes} (hc : Compiled eng p t) (hw : Walk h p revs)
    (hm : FirstMatch h t revs id) : run eng h p = .ok id := by
  obtain ⟨rx, fx, hr, hf, rfl⟩ := hc
  rw [run_compiled hr hf hw]
  obtain ⟨pre, post, rfl, hp, hc⟩ := hm
  rw [loop_passed_all hp]
  exact loop_chosen hc

theorem run_none {eng : Engine} {h : History} {p : Program} {t : AtTests}
    {revs : List (Except GitErr Bytes)} (hc : Compiled eng p t) (hw : Walk h p revs)
    (hp : ∀ r ∈ revs, Passed h t r) : run eng h p = .error (Err.simple .noSuchRevision) := by
  obtain ⟨rx, fx, hr, hf, rfl⟩ := hc
  rw [run_compiled hr hf hw, ← List.append_nil revs, loop_passed_all hp]
  rfl

theorem run_fails {eng : Engine} {h : History} {p : Program} {e : Err} (hf : Fails eng h p e) :
    run eng h p = .error e := by
  cases hf with
  | pattern hx => simp [run, pattern, hx, ofPcre, bind, Except.bind]
  | fixupPattern hr hx =>
    have hx : eng (patternText p fixupText) = _ := hx
    simp [run, pattern, hr, hx, ofPcre, bind, Except.bind]
  | head hc he =>
    obtain ⟨rx, fx, hr, hf, rfl⟩ := hc
    have hf : eng (patternText p fixupText) = _ := hf
    simp [run, pattern, hr, hf, ofPcre, ofGit, he, bind, Except.bind]
  | walk hc hh he =>
    obtain ⟨rx, fx, hr, hf, rfl⟩ := hc
    have hf : eng (patternText p fixupText) = _ := hf
    simp [run, pattern, hr, hf, ofPcre, ofGit, hh, he, bind, Except.bind]
  | entry hc hw hr hp hb =>
    obtain ⟨rx, fx, hr', hf, rfl⟩ := hc
    rw [run_compiled hr' hf hw, hr, loop_passed_all hp]
    exact loop_breaks hb

/-- The three ways the search can go. -/
theorem run_cases (eng : Engine) (h : History) (p : Program) :
    (∃ t revs id, Compiled eng p t ∧ Walk h p revs ∧ FirstMatch h t revs id) ∨
    (∃ t revs, Compiled eng p t ∧ Walk h p revs ∧ ∀ r ∈ revs, Passed h t r) ∨
    ∃ e, Fails eng h p e := by
  cases hr : eng (patternText p p.text) with
  | error x => exact .inr (.inr ⟨_, .pattern hr⟩)
  | ok rx =>
    cases hf : eng (patternText p fixupText) with
    | error x => exact .inr (.inr ⟨_, .fixupPattern hr hf⟩)
    | ok fx =>
      have hc : Compiled eng p (testsOf p rx fx) := ⟨rx, fx, hr, hf, rfl⟩
      cases hh : h.revparse p.head with
      | error e => exact .inr (.inr ⟨_, .head hc hh⟩)
      | ok head =>
        cases hw : h.walk head with
        | error e => exact .inr (.inr ⟨_, .walk hc hh hw⟩)
        | ok revs =>
          have hwk : Walk h p revs := ⟨head, hh, hw⟩
          rcases walk_cases h (testsOf p rx fx) revs with ha | ⟨id, hm⟩ | ⟨pre, r, post, e, he, hp, hb⟩
          · exact .inr (.inl ⟨_, revs, hc, hwk, ha⟩)
          · exact .inl ⟨_, revs, id, hc, hwk, hm⟩
          · exact .inr (.inr ⟨e, .entry hc hwk he hp hb⟩)

/-! ### C44 -/

theorem kindText_ne (e : Err) : e.kindText ≠ [] := by
  unfold Err.kindText
  cases e.kind <;> simp <;> cases e.internal <;> simp

theorem display_ne (e : Err) : e.display ≠ [] := by
  unfold Err.display
  cases e.message with
  | none => exact kindText_ne e
  | some m =>
    intro h
    simp at h

end GitAt

/-- C44: where there is a first commit that matches and is not skipped, its id is printed, nothing
is written to standard error, and the exit code is 0. -/
theorem C44_found {eng : Engine} {h : History} {show' : Bytes → Option (Option Int)}
    {o : GitAt.Options} {t : AtTests} {revs : List (Except GitErr Bytes)} {id : Bytes}
    (hs : o.shows = false) (hc : Compiled eng (GitAt.program o) t)
    (hw : Walk h (GitAt.program o) revs) (hm : FirstMatch h t revs id) :
    GitAt.process eng (.ok h) show' none none o = ⟨id ++ b!"\n", [], .exit 0⟩ := by
  have hr := GitAt.run_found hc hw hm
  have : (GitAt.program o).shows = false := hs
  simp [GitAt.process, GitAt.main, hr, this, writeTo, ExitStatus.code]

/-- C44: where no commit matches, the exit code is 1, and there is a message unless `--quiet` was
given. -/
theorem C44_none {eng : Engine} {h : History} {show' : Bytes → Option (Option Int)}
    {o : GitAt.Options} {t : AtTests} {revs : List (Except GitErr Bytes)}
    (hc : Compiled eng (GitAt.program o) t) (hw : Walk h (GitAt.program o) revs)
    (hp : ∀ r ∈ revs, Passed h t r) :
    GitAt.process eng (.ok h) show' none none o =
      ⟨[], if o.quiet then [] else b!"fatal: needed a single revision\n", .exit 1⟩ := by
  have hr := GitAt.run_none hc hw hp
  have hq : (GitAt.program o).quiet = o.quiet := rfl
  cases ho : o.quiet <;>
    simp [GitAt.process, GitAt.main, hr, hq, ho, failWith, writeTo, Err.simple, Err.fatal,
      Err.exitStatus, Err.display, Err.kindText, ExitStatus.code]

/-- C44: whatever else goes wrong, nothing is printed. A fatal error ends with exit code 2 and a
message, `--quiet` or not; what libgit2 calls not found or a conflict ends like a search without
result. -/
theorem C44_fails {eng : Engine} {h : History} {show' : Bytes → Option (Option Int)}
    {o : GitAt.Options} {e : Err} (hf : Fails eng h (GitAt.program o) e) :
    (e.kind ≠ .noSuchRevision → e.kind ≠ .conflict →
      GitAt.process eng (.ok h) show' none none o = ⟨[], e.display ++ b!"\n", .exit 2⟩) ∧
    (e.kind = .noSuchRevision ∨ e.kind = .conflict →
      GitAt.process eng (.ok h) show' none none o =
        ⟨[], if o.quiet then [] else e.display ++ b!"\n", .exit 1⟩) := by
  have hr := GitAt.run_fails hf
  have hq : (GitAt.program o).quiet = o.quiet := rfl
  constructor
  · intro h1 h2
    have he : e.exitStatus = .fatal := by
      unfold Err.exitStatus
      cases hk : e.kind <;> simp_all
    simp [GitAt.process, GitAt.main, hr, failWith, writeTo, Err.fatal, he, ExitStatus.code]
  · intro h1
    have he : e.exitStatus = .nonFatal := by
      unfold Err.exitStatus
      rcases h1 with h1 | h1 <;> simp [h1]
    cases ho : o.quiet <;>
      simp [GitAt.process, GitAt.main, hr, hq, ho, failWith, writeTo, Err.fatal, he,
        ExitStatus.code]

/-- C44, for every outcome, whether or not the output streams can be written: exit code 0 means
that the first match was printed; 1 that there was no match (or that something was not found or a
conflict), silently exactly with `--quiet`; 2 that there was a fatal error, with its message. There
is no other exit code. -/
theorem C44 {eng : Engine} {h : History} {show' : Bytes → Option (Option Int)} {oc ec : Cap}
    {o : GitAt.Options} (hs : o.shows = false) {code : Int}
    (hr : (GitAt.process eng (.ok h) show' oc ec o).ended = .exit code) :
    (code = 0 ∧ ∃ t revs id, Compiled eng (GitAt.program o) t ∧ Walk h (GitAt.program o) revs ∧
      FirstMatch h t revs id ∧
      (GitAt.process eng (.ok h) show' oc ec o).out = id ++ b!"\n" ∧
      (GitAt.process eng (.ok h) show' oc ec o).err = []) ∨
    (code = 1 ∧ (GitAt.process eng (.ok h) show' oc ec o).out = [] ∧
      ((GitAt.process eng (.ok h) show' oc ec o).err = [] ↔ o.quiet = true) ∧
      ((∃ t revs, Compiled eng (GitAt.program o) t ∧ Walk h (GitAt.program o) revs ∧
        ∀ r ∈ revs, Passed h t r) ∨
       ∃ e, Fails eng h (GitAt.program o) e ∧ (e.kind = .noSuchRevision ∨ e.kind = .conflict))) ∨
    (code = 2 ∧ (GitAt.process eng (.ok h) show' oc ec o).out = [] ∧
      ∃ e, Fails eng h (GitAt.program o) e ∧ e.kind ≠ .noSuchRevision ∧ e.kind ≠ .conflict ∧
        (GitAt.process eng (.ok h) show' oc ec o).err = e.display ++ b!"\n") := by
  have hsh : (GitAt.program o).shows = false := hs
  have hq : (GitAt.program o).quiet = o.quiet := rfl
  have wr : ∀ (cap : Cap) (bs : Bytes), (writeTo cap bs).2 = true → (writeTo cap bs).1 = bs := by
    intro cap bs hb
    cases cap with
    | none => rfl
    | some n =>
      simp only [writeTo, decide_eq_true_eq] at hb ⊢
      exact List.take_of_length_le hb
  have fw : ∀ (e : Err), (failWith ec e).ended = .exit code →
      code = e.exitStatus.code ∧ (failWith ec e).out = [] ∧
        (failWith ec e).err = e.display ++ b!"\n" := by
    intro e he
    simp only [failWith] at he ⊢
    split at he
    · rename_i hb
      simp only [Ended.exit.injEq] at he
      exact ⟨he.symm, trivial, wr _ _ hb⟩
    · cases he
  have nonFatal : ∀ (e : Err), GitAt.run eng h (GitAt.program o) = .error e →
      e.exitStatus = .nonFatal →
      code = 1 ∧ (GitAt.process eng (.ok h) show' oc ec o).out = [] ∧
      ((GitAt.process eng (.ok h) show' oc ec o).err = [] ↔ o.quiet = true) := by
    intro e hrun he
    cases ho : o.quiet with
    | true =>
      have : GitAt.process eng (.ok h) show' oc ec o = ⟨[], [], .exit 1⟩ := by
        simp [GitAt.process, GitAt.main, hrun, hq, ho, Err.fatal, he, ExitStatus.code]
      rw [this] at hr ⊢
      simp only [Ended.exit.injEq] at hr
      exact ⟨hr.symm, rfl, by simp⟩
    | false =>
      have : GitAt.process eng (.ok h) show' oc ec o = failWith ec e := by
        simp [GitAt.process, GitAt.main, hrun, hq, ho]
      rw [this] at hr ⊢
      obtain ⟨h1, h2, h3⟩ := fw e hr
      rw [he] at h1
      exact ⟨h1, h2, by rw [h3]; simp⟩
  rcases GitAt.run_cases eng h (GitAt.program o) with ⟨t, revs, id, hc, hw, hm⟩ |
    ⟨t, revs, hc, hw, hp⟩ | ⟨e, hf⟩
  · left
    have hrun := GitAt.run_found hc hw hm
    simp only [GitAt.process, GitAt.main, hrun, hsh, Bool.false_eq_true, if_false] at hr ⊢
    split at hr
    · rename_i hb
      simp only [Ended.exit.injEq] at hr
      exact ⟨hr.symm, t, revs, id, hc, hw, hm, wr _ _ hb, trivial⟩
    · cases hr
  · right; left
    obtain ⟨h1, h2, h3⟩ := nonFatal _ (GitAt.run_none hc hw hp) rfl
    exact ⟨h1, h2, h3, .inl ⟨t, revs, hc, hw, hp⟩⟩
  · have hrun := GitAt.run_fails hf
    by_cases hk : e.kind = .noSuchRevision ∨ e.kind = .conflict
    · right; left
      have he : e.exitStatus = .nonFatal := by
        unfold Err.exitStatus
        rcases hk with hk | hk <;> simp [hk]
      obtain ⟨h1, h2, h3⟩ := nonFatal _ hrun he
      exact ⟨h1, h2, h3, .inr ⟨e, hf, hk⟩⟩
    · right; right
      have hk1 : e.kind ≠ .noSuchRevision := fun h => hk (.inl h)
      have hk2 : e.kind ≠ .conflict := fun h => hk (.inr h)
      have he : e.exitStatus = .fatal := by
        unfold Err.exitStatus
        cases hk : e.kind <;> simp_all
      have : GitAt.process eng (.ok h) show' oc ec o = failWith ec e := by
        simp [GitAt.process, GitAt.main, hrun, Err.fatal, he]
      rw [this] at hr ⊢
      obtain ⟨h1, h2, h3⟩ := fw e hr
      rw [he] at h1
      exact ⟨h1, h2, e, hf, hk1, hk2, h3⟩

/-- C44: without a repository the exit code is 4, with a message. -/
theorem C44_norepo (eng : Engine) (e : GitErr) (show' : Bytes → Option (Option Int))
    (o : GitAt.Options) :
    GitAt.process eng (.error e) show' none none o = ⟨[], e.text ++ b!"\n", .exit 4⟩ := rfl

/-- C44: with `--show` the exit code is that of `git show`, 3 if it has none. -/
theorem C44_show {eng : Engine} {h : History} {show' : Bytes → Option (Option Int)}
    {o : GitAt.Options} {t : AtTests} {revs : List (Except GitErr Bytes)} {id : Bytes}
    {code : Option Int} (hs : o.shows = true) (hc : Compiled eng (GitAt.program o) t)
    (hw : Walk h (GitAt.program o) revs) (hm : FirstMatch h t revs id)
    (hg : show' id = some code) :
    GitAt.process eng (.ok h) show' none none o = ⟨[], [], .exit (code.getD 3)⟩ := by
  have hr := GitAt.run_found hc hw hm
  have : (GitAt.program o).shows = true := hs
  simp [GitAt.process, GitAt.main, hr, this, hg, ExitStatus.code]

/-! ### C45 -/

namespace Pcre

/-- A word of literal bytes. -/
theorem mem_ends_lits {m : Bytes} : ∀ {w : Bytes} {i j : Nat}, i ≤ m.length →
    (j ∈ (Rx.cat (w.map lit)).ends m i ↔ j = i + w.length ∧ ∃ rest, m.drop i = w ++ rest)
  | [], i, j, _ => by simp [Rx.cat, Rx.ends]
  | a :: w, i, j, hi => by
    have ha : ∀ b : UInt8, (inRanges [(a, a)] b != false) = true ↔ b = a := by
      intro b
      simp only [inRanges, List.any_cons, List.any_nil, Bool.or_false, bne_iff_ne, ne_eq,
        Bool.not_eq_false, Bool.and_eq_true, decide_eq_true_eq]
      constructor
      · rintro ⟨h1, h2⟩
        exact UInt8.le_antisymm h2 h1
      · rintro rfl
        exact ⟨UInt8.le_refl _, UInt8.le_refl _⟩
    simp only [List.map_cons, Rx.cat, Rx.ends, lit, List.mem_flatMap]
    constructor
    · rintro ⟨k, hk, hj⟩
      cases hb : m[i]? with
      | none => rw [hb] at hk; simp at hk
      | some b =>
        rw [hb] at hk
        by_cases hok : (inRanges [(a, a)] b != false) = true
        · simp only [hok, if_true, List.mem_singleton] at hk
          subst hk
          obtain ⟨hlt, hb'⟩ := List.getElem?_eq_some_iff.1 hb
          obtain ⟨hj, rest, hr⟩ := (mem_ends_lits (by omega)).1 hj
          have hba := (ha b).1 hok
          subst hba
          refine ⟨by simp only [List.length_cons]; omega, rest, ?_⟩
          rw [List.drop_eq_getElem_cons hlt, hr, hb']
          rfl
        · simp only [hok] at hk
          simp at hk
    · rintro ⟨hj, rest, hr⟩
      have hlt : i < m.length := by
        by_cases h : i < m.length
        · exact h
        · rw [List.drop_eq_nil_of_le (by omega)] at hr
          simp at hr
      rw [List.drop_eq_getElem_cons hlt] at hr
      simp only [List.cons_append, List.cons.injEq] at hr
      have hb : m[i]? = some a := by rw [List.getElem?_eq_getElem hlt, hr.1]
      refine ⟨i + 1, ?_, (mem_ends_lits (by omega)).2 ⟨?_, rest, hr.2⟩⟩
      · simp only [hb]
        rw [if_pos ((ha a).2 rfl)]
        simp
      · simp only [List.length_cons] at hj
        omega

/-- The items of the pattern of fixup commits. -/
def fixupItems : List Rx :=
  [.assert .start, .rep .star .greedy (.set false spaceRanges),
    Rx.alts [b!"fixup".map lit, b!"squash".map lit], lit 33]

theorem parse_fixup : parseAlts GitAt.fixupText = some [fixupItems] := by decide +kernel

theorem white_iff (b : UInt8) : (inRanges spaceRanges b != false) = true ↔ White b := by
  simp only [inRanges, spaceRanges, List.any_cons, List.any_nil, Bool.or_false, bne_iff_ne, ne_eq,
    Bool.not_eq_false, Bool.or_eq_true, Bool.and_eq_true, decide_eq_true_eq, White]
  constructor
  · rintro (h | ⟨h1, h2⟩)
    · exact .inr h
    · exact .inl (UInt8.le_antisymm h2 h1)
  · rintro (rfl | h)
    · exact .inr ⟨UInt8.le_refl _, UInt8.le_refl _⟩
    · exact .inl h

/-- Where the pattern of fixup commits matches. -/
theorem ends_fixup {m : Bytes} {i : Nat} :
    (∃ j, j ∈ (Rx.cat fixupItems).ends m i) ↔ i = 0 ∧ IsFixup m := by
  have hsplit : fixupItems = [.assert .start] ++ ([.rep .star .greedy (.set false spaceRanges)] ++
      ([Rx.alts [b!"fixup".map lit, b!"squash".map lit]] ++ b!"!".map lit)) := rfl
  rw [hsplit]
  simp only [mem_ends_cat_append]
  have one : ∀ (r : Rx) (a b : Nat), b ∈ (Rx.cat [r]).ends m a ↔ b ∈ r.ends m a := by
    intro r a b
    simp [Rx.cat, Rx.ends]
  simp only [one, mem_star_set]
  constructor
  · rintro ⟨j, k, hk, l, hrun, n, hn, hj⟩
    have hi : i = 0 := by
      by_cases hi : i = 0
      · exact hi
      · simp [Rx.ends, Assert.holds, hi] at hk
    subst hi
    simp [Rx.ends, Assert.holds] at hk
    subst hk
    refine ⟨rfl, ?_⟩
    obtain ⟨hle, hrun⟩ := hrun
    have hlen : l ≤ m.length := by
      by_cases h : l ≤ m.length
      · exact h
      · obtain ⟨b, hb, _⟩ := hrun m.length (by omega) (by omega)
        simp at hb
    have hws : ∀ b ∈ m.take l, White b := by
      intro b hb
      obtain ⟨q, hq, rfl⟩ := List.getElem_of_mem hb
      have hql : q < l := by simp only [List.length_take] at hq; omega
      obtain ⟨b', hb', hok⟩ := hrun q (by omega) hql
      have : (m.take l)[q]? = some b' := by rw [List.getElem?_take_of_lt hql, hb']
      rw [List.getElem?_eq_getElem hq, Option.some.injEq] at this
      rw [this]
      exact (white_iff b').1 hok
    rw [mem_ends_alts (by simp)] at hn
    obtain ⟨w, hw, hn⟩ := hn
    have fin : ∀ w : Bytes, n ∈ (Rx.cat (w.map lit)).ends m l →
        ∃ rest, m = m.take l ++ (w ++ b!"!") ++ rest := by
      intro w hn
      obtain ⟨hnl, rest, hr⟩ := (mem_ends_lits hlen).1 hn
      have hnlen : n ≤ m.length := by
        have := congrArg List.length hr
        simp only [List.length_drop, List.length_append] at this
        omega
      obtain ⟨_, rest', hr'⟩ := (mem_ends_lits hnlen).1 hj
      refine ⟨rest', ?_⟩
      have : m.drop n = rest := by
        rw [hnl, ← List.drop_drop, hr]
        simp
      rw [this] at hr'
      calc m = m.take l ++ m.drop l := by simp
        _ = _ := by rw [hr, hr']; simp
    simp only [List.mem_cons, List.not_mem_nil, or_false] at hw
    rcases hw with rfl | rfl
    · obtain ⟨rest, hr⟩ := fin _ hn
      exact ⟨m.take l, rest, hws, .inl hr⟩
    · obtain ⟨rest, hr⟩ := fin _ hn
      exact ⟨m.take l, rest, hws, .inr hr⟩
  · rintro ⟨rfl, ws, rest, hws, hm⟩
    have fin : ∀ w : Bytes, w ∈ [b!"fixup", b!"squash"] → m = ws ++ (w ++ b!"!") ++ rest →
        ∃ n, n ∈ (Rx.alts [b!"fixup".map lit, b!"squash".map lit]).ends m ws.length ∧
          ∃ j, j ∈ (Rx.cat (b!"!".map lit)).ends m n := by
      intro w hw hm
      have hlen : ws.length ≤ m.length := by rw [hm]; simp
      have hlen' : ws.length + w.length ≤ m.length := by rw [hm]; simp
      refine ⟨ws.length + w.length, ?_, ws.length + w.length + 1, ?_⟩
      · rw [mem_ends_alts (by simp)]
        refine ⟨w.map lit, ?_, (mem_ends_lits hlen).2 ⟨rfl, b!"!" ++ rest, ?_⟩⟩
        · simp only [List.mem_cons, List.not_mem_nil, or_false] at hw
          rcases hw with rfl | rfl <;> simp
        · rw [hm]
          simp
      · refine (mem_ends_lits hlen').2 ⟨rfl, rest, ?_⟩
        rw [hm, ← List.drop_drop]
        simp
    obtain ⟨n, hn, j, hj⟩ : ∃ n, n ∈ (Rx.alts [b!"fixup".map lit, b!"squash".map lit]).ends m
        ws.length ∧ ∃ j, j ∈ (Rx.cat (b!"!".map lit)).ends m n := by
      rcases hm with hm | hm
      · exact fin b!"fixup" (by simp) hm
      · exact fin b!"squash" (by simp) hm
    refine ⟨j, 0, by simp [Rx.ends, Assert.holds], ws.length, ⟨by omega, ?_⟩, n, hn, hj⟩
    intro k _ hk
    refine ⟨ws[k], ?_, (white_iff _).2 (hws _ (List.getElem_mem hk))⟩
    have : ∃ x, m = ws ++ x := by
      rcases hm with hm | hm
      · exact ⟨_, by rw [hm, List.append_assoc]⟩
      · exact ⟨_, by rw [hm, List.append_assoc]⟩
    obtain ⟨x, rfl⟩ := this
    rw [List.getElem?_append_left hk, List.getElem?_eq_getElem hk]

/-- The pattern of fixup commits, with or without the prefix of `--summary`, matches exactly the
messages of such commits. -/
theorem fixup_matches (s : Bool) :
    ∃ r, parse ((if s then linePrefix else []) ++ GitAt.fixupText) = some r ∧
      ∀ m, r.isMatch m = true ↔ IsFixup m := by
  cases s with
  | false =>
    refine ⟨_, by simp only [parse]; rw [show (if false = true then linePrefix else []) ++
      GitAt.fixupText = GitAt.fixupText from rfl, parse_fixup]; rfl, fun m => ?_⟩
    rw [isMatch_iff]
    simp only [matchesAt_iff, Rx.alts, ends_fixup]
    constructor
    · rintro ⟨i, _, _, h⟩; exact h
    · exact fun h => ⟨0, by omega, rfl, h⟩
  | true =>
    refine ⟨_, by simp only [parse, if_true]; rw [parseAlts_linePrefix parse_fixup]; rfl,
      fun m => ?_⟩
    rw [isMatch_iff]
    simp only [matchesAt_iff, prepend, Rx.alts, mem_ends_cat_append, mem_ends_lineStart]
    constructor
    · rintro ⟨i, _, j, k, _, h⟩
      exact (ends_fixup.1 ⟨j, h⟩).2
    · intro h
      obtain ⟨j, hj⟩ := ends_fixup.2 ⟨rfl, h⟩
      exact ⟨0, by omega, j, 0, ⟨rfl, by simp [RunOf]⟩, hj⟩

end Pcre

/-- The pattern of fixup commits, as compiled by a faithful engine. -/
theorem fixup_faithful {eng : Engine} (he : Faithful eng) {p : GitAt.Program}
    {fx : Bytes → Except Bytes Bool}
    (hx : eng (GitAt.patternText p b!"\\A\\s*(?:fixup|squash)!") = .ok fx) {m : Bytes} {b : Bool}
    (hb : fx m = .ok b) : b = true ↔ IsFixup m := by
  obtain ⟨r, hr, hm⟩ := Pcre.fixup_matches p.summary
  have ht : GitAt.patternText p b!"\\A\\s*(?:fixup|squash)!" =
      (if p.summary then Pcre.linePrefix else []) ++ GitAt.fixupText := by
    cases hs : p.summary <;> simp [GitAt.patternText, hs, GitAt.fixupText, Pcre.linePrefix]
  rw [ht] at hx
  rw [he _ _ hr _ hx _ _ hb]
  exact hm m

/-- C45: the commit printed is the first one of the walk that matches and, with `--no-fixup`, whose
message does not start (after white space) with `fixup!` or `squash!`. -/
theorem C45 {eng : Engine} (he : Faithful eng) {h : History}
    {show' : Bytes → Option (Option Int)} {oc ec : Cap} {o : GitAt.Options}
    (hs : o.shows = false) (hr : (GitAt.process eng (.ok h) show' oc ec o).ended = .exit 0) :
    ∃ rx pre id post m, eng (GitAt.patternText (GitAt.program o) o.pattern) = .ok rx ∧
      Walk h (GitAt.program o) (pre ++ .ok id :: post) ∧
      h.message id = .ok m ∧ rx m = .ok true ∧ (o.noFixup = true → ¬ IsFixup m) ∧
      (∀ r ∈ pre, ∃ i n, r = .ok i ∧ h.message i = .ok n ∧
        ((o.noFixup = true ∧ IsFixup n) ∨ rx n = .ok false)) ∧
      (GitAt.process eng (.ok h) show' oc ec o).out = id ++ b!"\n" := by
  rcases C44 hs hr with ⟨_, t, revs, id, hc, hw, hm, ho, _⟩ | ⟨h1, _⟩ | ⟨h1, _⟩
  · obtain ⟨rx, fx, hrx, hfx, rfl⟩ := hc
    obtain ⟨pre, post, rfl, hp, m, hm, hsk, hwn⟩ := hm
    have hfix : (GitAt.program o).fixup = !o.noFixup := rfl
    refine ⟨rx, pre, id, post, m, hrx, hw, hm, hwn, ?_, ?_, ho⟩
    · intro hn
      simp only [hfix, hn, Bool.not_true, Bool.false_eq_true, if_false] at hsk
      intro hfx'
      have := (fixup_faithful he hfx hsk).2 hfx'
      cases this
    · intro r hr
      obtain ⟨i, n, rfl, hn, hcase⟩ := hp r hr
      refine ⟨i, n, rfl, hn, ?_⟩
      rcases hcase with hsk | ⟨_, hwn⟩
      · cases hnf : o.noFixup with
        | true =>
          simp only [hfix, hnf, Bool.not_true, Bool.false_eq_true, if_false] at hsk
          exact .inl ⟨rfl, (fixup_faithful he hfx hsk).1 rfl⟩
        | false => simp [hfix, hnf] at hsk
      · exact .inr hwn
  · omega
  · omega

/-- C45: such a commit is found, if PCRE2 answers about the pattern of fixup commits. -/
theorem C45_found {eng : Engine} (he : Faithful eng) {h : History}
    {show' : Bytes → Option (Option Int)} {o : GitAt.Options}
    {rx fx : Bytes → Except Bytes Bool} {pre post : List (Except GitErr Bytes)} {id m : Bytes}
    (hs : o.shows = false)
    (hrx : eng (GitAt.patternText (GitAt.program o) o.pattern) = .ok rx)
    (hfx : eng (GitAt.patternText (GitAt.program o) b!"\\A\\s*(?:fixup|squash)!") = .ok fx)
    (htot : ∀ m, ∃ b, fx m = .ok b)
    (hw : Walk h (GitAt.program o) (pre ++ .ok id :: post))
    (hm : h.message id = .ok m) (hwn : rx m = .ok true)
    (hnf : o.noFixup = true → ¬ IsFixup m)
    (hp : ∀ r ∈ pre, ∃ i n, r = .ok i ∧ h.message i = .ok n ∧
        ((o.noFixup = true ∧ IsFixup n) ∨ rx n = .ok false)) :
    GitAt.process eng (.ok h) show' none none o = ⟨id ++ b!"\n", [], .exit 0⟩ := by
  have hfix : (GitAt.program o).fixup = !o.noFixup := rfl
  refine C44_found hs ⟨rx, fx, hrx, hfx, rfl⟩ hw ⟨pre, post, rfl, ?_, m, hm, ?_, hwn⟩
  · intro r hr
    obtain ⟨i, n, rfl, hn, hcase⟩ := hp r hr
    refine ⟨i, n, rfl, hn, ?_⟩
    cases hno : o.noFixup with
    | false =>
      simp only [hno, Bool.false_eq_true, false_and, false_or] at hcase
      right
      simp [hfix, hno, hcase]
    | true =>
      simp only [hfix, hno, Bool.not_true, Bool.false_eq_true, if_false]
      obtain ⟨b, hb⟩ := htot n
      cases b with
      | true => exact .inl hb
      | false =>
        rcases hcase with ⟨_, hf⟩ | hf
        · have := (fixup_faithful he hfx hb).2 hf
          cases this
        · exact .inr ⟨hb, hf⟩
  · cases hno : o.noFixup with
    | false => simp [hfix, hno]
    | true =>
      simp only [hfix, hno, Bool.not_true, Bool.false_eq_true, if_false]
      obtain ⟨b, hb⟩ := htot m
      cases b with
      | true => exact absurd ((fixup_faithful he hfx hb).1 rfl) (hnf hno)
      | false => exact hb

/-! ### C46 -/

/-- With `--summary` the first alternative of a pattern is looked for in the first line, but the
others anywhere: `\A[^\n]*` is put before the text of the pattern, and binds tighter than `|`. -/
theorem summary_matches {p : Bytes} {a : List Pcre.Rx} {as : List (List Pcre.Rx)}
    (hp : Pcre.parseAlts p = some (a :: as)) :
    ∃ r, Pcre.parse (b!"\\A[^\n]*" ++ p) = some r ∧ ∀ m, r.isMatch m = true ↔
      (∃ i, i ≤ firstLine m ∧ (Pcre.Rx.cat a).matchesAt m i = true) ∨
      ∃ b ∈ as, ∃ i, i ≤ m.length ∧ (Pcre.Rx.cat b).matchesAt m i = true := by
  have hpre : Pcre.parseAlts (b!"\\A[^\n]*" ++ p) = _ := Pcre.parseAlts_linePrefix hp
  refine ⟨_, by unfold Pcre.parse; rw [hpre]; rfl, fun m => ?_⟩
  rw [Pcre.isMatch_iff]
  simp only [Pcre.matchesAt_iff, Pcre.prepend]
  constructor
  · rintro ⟨i, hi, j, hj⟩
    rw [Pcre.mem_ends_alts (by simp)] at hj
    obtain ⟨b, hb, hj⟩ := hj
    rcases List.mem_cons.1 hb with rfl | hb
    · rw [Pcre.mem_ends_cat_append] at hj
      obtain ⟨k, hk, hj⟩ := hj
      obtain ⟨_, hrun⟩ := Pcre.mem_ends_lineStart.1 hk
      exact .inl ⟨k, Pcre.runOf_line.1 hrun, j, hj⟩
    · exact .inr ⟨b, hb, i, hi, j, hj⟩
  · rintro (⟨k, hk, j, hj⟩ | ⟨b, hb, i, hi, j, hj⟩)
    · refine ⟨0, by omega, j, ?_⟩
      rw [Pcre.mem_ends_alts (by simp)]
      exact ⟨_, List.mem_cons_self, Pcre.mem_ends_cat_append.2
        ⟨k, Pcre.mem_ends_lineStart.2 ⟨rfl, Pcre.runOf_line.2 hk⟩, hj⟩⟩
    · refine ⟨i, hi, j, ?_⟩
      rw [Pcre.mem_ends_alts (by simp)]
      exact ⟨b, List.mem_cons_of_mem _ hb, hj⟩

/-- C46 for patterns (of the fragment) without an alternation at top level: with `--summary` a
commit is printed only if the pattern matches its message from a place in the first line. Missing:
patterns such as `a|b`, for which this is wrong (`C46_refuted`). -/
theorem C46_partial {eng : Engine} (he : Faithful eng) {h : History}
    {show' : Bytes → Option (Option Int)} {oc ec : Cap} {o : GitAt.Options} {a : List Pcre.Rx}
    (hs : o.shows = false) (hsum : o.summary = true) (hp : Pcre.parseAlts o.pattern = some [a])
    (hr : (GitAt.process eng (.ok h) show' oc ec o).ended = .exit 0) :
    ∃ id m r, (GitAt.process eng (.ok h) show' oc ec o).out = id ++ b!"\n" ∧
      h.message id = .ok m ∧ Pcre.parse o.pattern = some r ∧
      ∃ i, i ≤ firstLine m ∧ r.matchesAt m i = true := by
  obtain ⟨rx, pre, id, post, m, hrx, _, hm, hw, _, _, ho⟩ := C45 he hs hr
  have ht : GitAt.patternText (GitAt.program o) o.pattern = b!"\\A[^\n]*" ++ o.pattern := by
    have : (GitAt.program o).summary = true := hsum
    simp [GitAt.patternText, this]
  rw [ht] at hrx
  obtain ⟨r, hr', hiff⟩ := summary_matches hp
  have := (hiff m).1 (he _ _ hr' _ hrx _ _ hw).symm
  rcases this with hi | ⟨b, hb, _⟩
  · exact ⟨id, m, Pcre.Rx.cat a, ho, hm, by simp [Pcre.parse, hp, Pcre.Rx.alts], hi⟩
  · simp at hb

/-! ### Concrete cases -/

namespace GitAtDemo

/-- PCRE2 on the fragment. -/
def engine : Engine := fun p =>
  match Pcre.parse p with
  | some r => .ok fun m => .ok (r.isMatch m)
  | none => .error b!"not in the fragment"

theorem engine_faithful : Faithful engine := by
  intro p r hr f hf m b hb
  simp only [engine, hr, Except.ok.injEq] at hf
  subst hf
  simp only [Except.ok.injEq] at hb
  exact hb.symm

/-- Four commits, the latest first. -/
def commits : List (Bytes × Bytes) :=
  [(b!"d1", b!"squash! Add b\n"), (b!"c1", b!"Other\n\nThis mentions b.\n"),
    (b!"b1", b!"Add b\n\nWith tests.\n"), (b!"a1", b!"Start\n")]

def history : History where
  revparse s := if s = b!"HEAD" then .ok b!"d1" else .error ⟨.notFound, b!"revspec not found"⟩
  walk id := if id = b!"d1" then .ok (commits.map fun c => .ok c.1) else .ok []
  message id := match commits.find? (fun c => c.1 = id) with
    | some c => .ok c.2
    | none => .error ⟨.notFound, b!"object not found"⟩

def opts (pattern : Bytes) : GitAt.Options := ⟨false, false, false, false, none, pattern⟩

def at' (o : GitAt.Options) : Ran :=
  GitAt.process engine (.ok history) (fun _ => none) none none o

-- `C44`: found, not found, quietly not found, a bad pattern, a missing revision
example : at' (opts b!"Add b") = ⟨b!"d1\n", [], .exit 0⟩ := by decide +kernel
example : at' (opts b!"Add x") = ⟨[], b!"fatal: needed a single revision\n", .exit 1⟩ := by
  decide +kernel
example : at' { opts b!"Add x" with quiet := true } = ⟨[], [], .exit 1⟩ := by decide +kernel
example : (at' { opts b!"(Add" with quiet := true }).ended = .exit 2 := by decide +kernel
example : (at' { opts b!"(Add" with quiet := true }).err ≠ [] := by decide +kernel
example : (at' { opts b!"Add" with revision := some b!"nope" }).ended = .exit 1 := by
  decide +kernel
-- `C44` needs no faithful engine; its cases are reached
example : (at' (opts b!"^Start$")).out = b!"a1\n" := by decide +kernel
-- `C45`: the squash commit is skipped with `--no-fixup`
example : at' { opts b!"Add b" with noFixup := true } = ⟨b!"b1\n", [], .exit 0⟩ := by
  decide +kernel
example : at' { opts b!"Add b" with noFixup := true, summary := true } =
    ⟨b!"b1\n", [], .exit 0⟩ := by decide +kernel
-- `C46_partial`: "mentions" and "With" are not in a first line
example : (at' { opts b!"mentions" with summary := true }).ended = .exit 1 := by decide +kernel
example : at' (opts b!"mentions") = ⟨b!"c1\n", [], .exit 0⟩ := by decide +kernel
example : Pcre.parseAlts b!"St[a-r]+t$" ≠ none := by decide +kernel
example : at' { opts b!"St[a-r]+t$" with summary := true } = ⟨b!"a1\n", [], .exit 0⟩ := by
  decide +kernel
example : (Pcre.parseAlts b!"(?:A|B)dd (b|c)").map List.length = some 1 := by decide +kernel

/-- C46 is wrong: with `--summary` the pattern `nope|This` finds a commit although neither word
is in its first line. -/
theorem C46_refuted :
    ∃ (eng : Engine) (h : History) (o : GitAt.Options) (id m : Bytes) (r : Pcre.Rx),
      Faithful eng ∧ o.summary = true ∧ o.shows = false ∧ Pcre.parse o.pattern = some r ∧
      GitAt.process eng (.ok h) (fun _ => none) none none o = ⟨id ++ b!"\n", [], .exit 0⟩ ∧
      h.message id = .ok m ∧ ∀ i, i ≤ firstLine m → r.matchesAt m i = false := by
  refine ⟨engine, history, { opts b!"nope|This" with summary := true }, b!"c1",
    b!"Other\n\nThis mentions b.\n",
    .alt (Pcre.Rx.cat (b!"nope".map Pcre.lit)) (Pcre.Rx.cat (b!"This".map Pcre.lit)),
    engine_faithful, rfl, rfl, by decide +kernel, by decide +kernel, rfl, ?_⟩
  have h : ∀ i, i < 6 → (Pcre.Rx.alt (Pcre.Rx.cat (b!"nope".map Pcre.lit))
      (Pcre.Rx.cat (b!"This".map Pcre.lit))).matchesAt b!"Other\n\nThis mentions b.\n" i = false := by
    decide +kernel
  intro i hi
  refine h i ?_
  have : firstLine b!"Other\n\nThis mentions b.\n" = 5 := by decide +kernel
  omega

end GitAtDemo

end Verif
