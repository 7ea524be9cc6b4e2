import Verif.Spec.Tools
/-!
C47, C48, C49: what `git-recent-refs` prints and where.
-/
namespace Verif
open Spec

namespace RecentRefs

/-! ### Sorting -/

theorem insertBy_perm {α} (le : α → α → Bool) (x : α) : ∀ l : List α,
    (insertBy le x l).Perm (x :: l)
  | [] => .refl _
  | y :: ys => by
    unfold insertBy
    split
    · exact .refl _
    · exact ((insertBy_perm le x ys).cons y).trans (.swap x y ys)

theorem sortBy_perm {α} (le : α → α → Bool) : ∀ l : List α, (sortBy le l).Perm l
  | [] => .refl _
  | x :: xs => (insertBy_perm le x _).trans ((sortBy_perm le xs).cons x)

theorem insertBy_sorted {α} {le : α → α → Bool} (total : ∀ a b, le a b = true ∨ le b a = true)
    (trans : ∀ a b c, le a b = true → le b c = true → le a c = true) (x : α) :
    ∀ {l : List α}, l.Pairwise (fun a b => le a b = true) →
      (insertBy le x l).Pairwise (fun a b => le a b = true)
  | [], _ => by simp [insertBy]
  | y :: ys, h => by
    unfold insertBy
    obtain ⟨hy, hys⟩ := List.pairwise_cons.1 h
    split
    · rename_i hxy
      refine List.pairwise_cons.2 ⟨fun z hz => ?_, h⟩
      rcases List.mem_cons.1 hz with rfl | hz
      · exact hxy
      · exact trans _ _ _ hxy (hy z hz)
    · rename_i hxy
      refine List.pairwise_cons.2 ⟨fun z hz => ?_, insertBy_sorted total trans x hys⟩
      rcases List.mem_cons.1 ((insertBy_perm le x ys).mem_iff.1 hz) with rfl | hz
      · rcases total z y with h1 | h1
        · exact absurd h1 hxy
        · exact h1
      · exact hy z hz

theorem sortBy_sorted {α} {le : α → α → Bool} (total : ∀ a b, le a b = true ∨ le b a = true)
    (trans : ∀ a b c, le a b = true → le b c = true → le a c = true) :
    ∀ l : List α, (sortBy le l).Pairwise (fun a b => le a b = true)
  | [] => by simp [sortBy]
  | x :: xs => insertBy_sorted total trans x (sortBy_sorted total trans xs)

/-- Elements that may stand in any order keep their order. -/
theorem insertBy_filter {α} {le : α → α → Bool} {p : α → Bool}
    (hp : ∀ a b, p a = true → p b = true → le a b = true) (x : α) : ∀ l : List α,
    (insertBy le x l).filter p = (x :: l).filter p
  | [] => rfl
  | y :: ys => by
    unfold insertBy
    split
    · rfl
    · rename_i hxy
      have ih := insertBy_filter hp x ys
      by_cases hx : p x = true
      · have hy : ¬ p y = true := fun hy => hxy (hp x y hx hy)
        simp only [List.filter_cons, hx, hy, if_true] at ih ⊢
        exact ih
      · simp only [List.filter_cons, hx] at ih ⊢
        simp only [Bool.false_eq_true, if_false] at ih ⊢
        rw [ih]

theorem sortBy_filter {α} {le : α → α → Bool} {p : α → Bool}
    (hp : ∀ a b, p a = true → p b = true → le a b = true) : ∀ l : List α,
    (sortBy le l).filter p = l.filter p
  | [] => rfl
  | x :: xs => by
    rw [sortBy, insertBy_filter hp, List.filter_cons, List.filter_cons, sortBy_filter hp xs]

theorem le_total (a b : GitTime) : a.le b = true ∨ b.le a = true := by
  simp only [GitTime.le, Bool.or_eq_true, Bool.and_eq_true, decide_eq_true_eq]
  omega

theorem le_trans' {a b c : GitTime} (h1 : a.le b = true) (h2 : b.le c = true) :
    a.le c = true := by
  simp only [GitTime.le, Bool.or_eq_true, Bool.and_eq_true, decide_eq_true_eq] at *
  omega

theorem newestFirst_total (a b : Option GitTime × Ref) :
    newestFirst a b = true ∨ newestFirst b a = true := by
  obtain ⟨x, _⟩ := a
  obtain ⟨y, _⟩ := b
  cases x <;> cases y <;> simp [newestFirst]
  exact le_total _ _

theorem newestFirst_trans (a b c : Option GitTime × Ref) (h1 : newestFirst a b = true)
    (h2 : newestFirst b c = true) : newestFirst a c = true := by
  obtain ⟨x, _⟩ := a
  obtain ⟨y, _⟩ := b
  obtain ⟨z, _⟩ := c
  cases x <;> cases y <;> cases z <;> simp [newestFirst] at *
  exact le_trans' h2 h1

/-! ### C47 -/

theorem filterMap_name : ∀ (l : List (Option GitTime × Ref)),
    (l.filterMap fun x => x.2.name).map some =
      ((l.map Prod.snd).filter fun r => r.name.isSome).map Ref.name
  | [] => rfl
  | x :: l => by
    have ih := filterMap_name l
    cases hx : x.2.name with
    | none => simpa [List.filterMap_cons, hx] using ih
    | some n => simpa [List.filterMap_cons, hx] using ih

theorem dated_filter (date : Ref → Option GitTime) (q : Option GitTime × Ref → Bool) :
    ∀ l : List Ref, ((l.map fun r => (date r, r)).filter q).map Prod.snd =
      l.filter fun r => q (date r, r)
  | [] => rfl
  | r :: l => by
    have ih := dated_filter date q l
    simp only [List.map_cons, List.filter_cons]
    split
    · simp [ih]
    · exact ih

theorem byDate_newest (date : Ref → Option GitTime) (refs : List (Except GitErr Ref)) :
    Newest date (oks refs) (byDate date refs) := by
  let l0 := ((oks refs).map fun r => (date r, r)).filter
    fun x => x.2.target.isSome && x.1.isSome
  let l := sortBy newestFirst l0
  have hl0 : ∀ x ∈ l0, x.1 = date x.2 := by
    intro x hx
    have := (List.mem_filter.1 hx).1
    obtain ⟨r, _, rfl⟩ := List.mem_map.1 this
    rfl
  have hl : ∀ x ∈ l, x.1 = date x.2 := fun x hx =>
    hl0 x ((sortBy_perm newestFirst l0).mem_iff.1 hx)
  refine ⟨(l.map Prod.snd).filter fun r => r.name.isSome, ?_, ?_, ?_, filterMap_name l⟩
  · have := ((sortBy_perm newestFirst l0).map Prod.snd).filter fun r => r.name.isSome
    refine this.trans ?_
    rw [dated_filter, List.filter_filter]
    refine List.Perm.of_eq (List.filter_congr fun r _ => ?_)
    cases r.target.isSome <;> cases (date r).isSome <;> cases r.name.isSome <;> rfl
  · refine List.Pairwise.filter _ (List.pairwise_map.2 ?_)
    have hs := sortBy_sorted newestFirst_total newestFirst_trans l0
    refine List.Pairwise.imp_of_mem ?_ hs
    intro a b ha hb hab x y hx hy he
    rw [← hl a ha] at hx
    rw [← hl b hb] at hy
    obtain ⟨_, ra⟩ := a
    obtain ⟨_, rb⟩ := b
    simp only at hx hy
    subst hx hy
    simp only [newestFirst, GitTime.le, Bool.or_eq_true, Bool.and_eq_true,
      decide_eq_true_eq] at hab
    unfold Earlier at he
    omega
  · intro t
    have hf : (l.filter fun x => x.1 = some t) = l0.filter fun x => x.1 = some t := by
      refine sortBy_filter (fun a b ha hb => ?_) l0
      simp only [decide_eq_true_eq] at ha hb
      obtain ⟨_, ra⟩ := a
      obtain ⟨_, rb⟩ := b
      simp only at ha hb
      subst ha hb
      simp [newestFirst, GitTime.le]
    have hm : ∀ l' : List (Option GitTime × Ref), (∀ x ∈ l', x.1 = date x.2) →
        (l'.map Prod.snd).filter (fun r => decide (date r = some t)) =
          (l'.filter fun x => decide (x.1 = some t)).map Prod.snd := by
      intro l' hl'
      rw [List.filter_map]
      congr 1
      refine List.filter_congr fun x hx => ?_
      simp only [Function.comp_apply, hl' x hx]
    have h1 := hm l hl
    rw [hf] at h1
    rw [List.filter_filter]
    have hcomm : ((l.map Prod.snd).filter fun r =>
        decide (date r = some t) && r.name.isSome) =
        ((l.map Prod.snd).filter fun r => decide (date r = some t)).filter
          fun r => r.name.isSome := by
      rw [List.filter_filter]
      exact List.filter_congr fun r _ => Bool.and_comm _ _
    rw [hcomm, h1, ← hm l0 hl0, dated_filter, List.filter_filter, List.filter_filter]
    refine List.filter_congr fun r _ => ?_
    by_cases hd : date r = some t
    · cases r.target.isSome <;> cases r.name.isSome <;> simp [hd]
    · simp [hd]

/-- The lines a text consists of. -/
theorem textOf_nil : textOf [] = [] := rfl

end RecentRefs

/-- C47, except for references whose commits have the same second in different time zones: with
`--sort=committerdate` (`authordate`) the lines printed are the names of exactly the direct
references that peel to a commit and have a UTF-8 name, newest first, equal times in the order of
the repository. Missing: where two times are the same second but have different offsets, the order
is that of the offsets, not of the repository (`C47_refuted`). -/
theorem C47_partial {refs : List (Except GitErr Ref)} {repo : RecentRefs.Repo} {fuel : Nat}
    (hr : repo.references = .ok refs) (authored : Bool) :
    ∃ lines, RecentRefs.main fuel repo none none (if authored then .authored else .committed) =
        some ⟨(lines.map (· ++ b!"\n")).flatten, [], .exit 0⟩ ∧
      Newest (fun r => r.commit.map (if authored then Prod.snd else Prod.fst))
        (refs.filterMap Except.toOption) lines := by
  have ho : RecentRefs.oks refs = refs.filterMap Except.toOption := by
    unfold RecentRefs.oks
    congr 1
    funext x
    cases x <;> rfl
  cases authored with
  | true =>
    refine ⟨RecentRefs.byDate RecentRefs.authorDate refs, ?_, ?_⟩
    · simp [RecentRefs.main, RecentRefs.run, hr, ofGit, bind, Except.bind, pure, Except.pure,
        writeTo, RecentRefs.textOf, RecentRefs.wrote, ExitStatus.code]
    · rw [← ho]
      exact RecentRefs.byDate_newest RecentRefs.authorDate refs
  | false =>
    refine ⟨RecentRefs.byDate RecentRefs.commitDate refs, ?_, ?_⟩
    · simp [RecentRefs.main, RecentRefs.run, hr, ofGit, bind, Except.bind, pure, Except.pure,
        writeTo, RecentRefs.textOf, RecentRefs.wrote, ExitStatus.code]
    · rw [← ho]
      exact RecentRefs.byDate_newest RecentRefs.commitDate refs

namespace RecentRefs

/-- A list in descending order is determined by its members and the order of those of one time. -/
theorem sorted_unique {date : Ref → Option GitTime} : ∀ {l m : List Ref}, (∀ r ∈ l, (date r).isSome) → l.Perm m →
    l.Pairwise (fun a b => ∀ x y, date a = some x → date b = some y → ¬ Earlier x y) →
    m.Pairwise (fun a b => ∀ x y, date a = some x → date b = some y → ¬ Earlier x y) →
    (∀ t, l.filter (fun r => date r = some t) = m.filter (fun r => date r = some t)) → l = m
  | [], m, _, hp, _, _, _ => hp.symm.eq_nil.symm ▸ rfl
  | a :: l, [], _, hp, _, _, _ => absurd hp.eq_nil (by simp)
  | a :: l, b :: m, hd, hp, hl, hm, hf => by
    obtain ⟨x, hx⟩ := Option.isSome_iff_exists.mp (hd a (by simp))
    obtain ⟨y, hy⟩ := Option.isSome_iff_exists.mp (hd b (hp.mem_iff.mpr (by simp)))
    have h1 : ¬ Earlier x y := by
      rcases List.mem_cons.mp (hp.mem_iff.mpr (show b ∈ b :: m by simp)) with rfl | hb
      · rw [hx] at hy; cases hy; unfold Earlier; omega
      · exact (List.pairwise_cons.mp hl).1 b hb x y hx hy
    have h2 : ¬ Earlier y x := by
      rcases List.mem_cons.mp (hp.mem_iff.mp (show a ∈ a :: l by simp)) with rfl | ha
      · rw [hx] at hy; cases hy; unfold Earlier; omega
      · exact (List.pairwise_cons.mp hm).1 a ha y x hy hx
    have hxy : x = y := by
      obtain ⟨s, o⟩ := x
      obtain ⟨s', o'⟩ := y
      simp only [Earlier] at h1 h2
      simp only [GitTime.mk.injEq]
      omega
    subst hxy
    have hab : a = b := by
      have := hf x
      simp only [List.filter_cons, hx, hy, decide_true, if_true, List.cons.injEq] at this
      exact this.1
    subst hab
    rw [sorted_unique (fun r hr => hd r (by simp [hr])) hp.cons_inv (List.pairwise_cons.mp hl).2 (List.pairwise_cons.mp hm).2
      fun t => ?_]
    have := hf t
    simp only [List.filter_cons] at this
    split at this
    · exact (List.cons.inj this).2
    · exact this

theorem newest_dated {date : Ref → Option GitTime} {refs l : List Ref}
    (h : l.Perm (refs.filter fun r => r.target.isSome && (date r).isSome && r.name.isSome)) : ∀ r ∈ l, (date r).isSome := by
  intro r hr
  have := (List.mem_filter.mp (h.mem_iff.mp hr)).2
  simp only [Bool.and_eq_true] at this
  exact this.1.2

end RecentRefs

/-- C47: there is just one such listing. -/
theorem C47_determined {date : Ref → Option GitTime} {refs : List Ref} {lines lines' : List Bytes}
    (h : Newest date refs lines) (h' : Newest date refs lines') : lines = lines' := by
  obtain ⟨l, hp, hs, hf, hn⟩ := h.ex
  obtain ⟨l', hp', hs', hf', hn'⟩ := h'.ex
  have := RecentRefs.sorted_unique (RecentRefs.newest_dated hp) (hp.trans hp'.symm) hs hs' fun t => (hf t).trans (hf' t).symm
  subst this
  have := hn.trans hn'.symm
  exact List.map_inj_right (fun _ _ h => Option.some.inj h) |>.mp this

/-- C47 holds in full when no two commits of the same second have different time zones. -/
theorem C47_seconds_partial {date : Ref → Option GitTime} {refs : List Ref} {lines : List Bytes} (h : Newest date refs lines)
    (hz : ∀ a ∈ refs, ∀ b ∈ refs, ∀ x y, date a = some x → date b = some y → x.seconds = y.seconds → x.offset = y.offset) :
    NewestSecond date refs lines := by
  obtain ⟨l, hp, hs, hf, hn⟩ := h.ex
  have hl : ∀ r ∈ l, r ∈ refs := fun r hr => (List.mem_filter.mp (hp.mem_iff.mp hr)).1
  refine ⟨l, hp, hs.imp fun h x y hx hy hlt => h x y hx hy (.inl hlt), fun s => ?_, hn⟩
  by_cases hex : ∃ r ∈ refs, (date r).map GitTime.seconds = some s
  · obtain ⟨r, hr, hrs⟩ := hex
    obtain ⟨t, ht, rfl⟩ := Option.map_eq_some_iff.mp hrs
    have key : ∀ a ∈ refs, ((date a).map GitTime.seconds = some t.seconds ↔ date a = some t) := by
      intro a ha
      constructor
      · intro h
        obtain ⟨u, hu, hus⟩ := Option.map_eq_some_iff.mp h
        have := hz a ha r hr u t hu ht hus
        obtain ⟨_, _⟩ := u
        obtain ⟨_, _⟩ := t
        simp_all
      · intro h; simp [h]
    have h1 : l.filter (fun r => (date r).map GitTime.seconds = some t.seconds) = l.filter (fun r => date r = some t) :=
      List.filter_congr fun a ha => by simp only [key a (hl a ha)]
    rw [h1, hf t]
    exact List.filter_congr fun a ha => by simp only [key a ha]
  · have h1 : ∀ a ∈ refs, ¬ (date a).map GitTime.seconds = some s := fun a ha h => hex ⟨a, ha, h⟩
    rw [List.filter_eq_nil_iff.mpr fun a ha => by simpa using h1 a (hl a ha),
      List.filter_eq_nil_iff.mpr fun a ha => by simp [h1 a ha]]

/-- C47: if the references cannot be listed, nothing is printed; exit code 1 (not found, conflict)
or 2, with a message. -/
theorem C47_error {e : GitErr} {repo : RecentRefs.Repo} {fuel : Nat} {k : RecentRefs.SortKind}
    (hk : k ≠ .visited) (hr : repo.references = .error e) :
    RecentRefs.main fuel repo none none k =
      some ⟨[], (Err.ofGit e).display ++ b!"\n",
        .exit (if e.code = .notFound ∨ e.code = .conflict then 1 else 2)⟩ := by
  have hx : ((Err.ofGit e).exitStatus.code : Int) =
      if e.code = .notFound ∨ e.code = .conflict then 1 else 2 := by
    unfold Err.ofGit Err.exitStatus Err.wrapOther
    cases e.code <;> simp [ExitStatus.code]
  cases k with
  | visited => exact absurd rfl hk
  | committed =>
    simp [RecentRefs.main, RecentRefs.run, hr, ofGit, bind, Except.bind, writeTo, failWith, hx]
  | authored =>
    simp [RecentRefs.main, RecentRefs.run, hr, ofGit, bind, Except.bind, writeTo, failWith, hx]

/-! ### C48 -/

namespace RecentRefs

theorem visitText_eq {n : Nat} (h : n < 2 ^ 31) : visitText n = visitName n := by
  cases n with
  | zero => rfl
  | succ n =>
    have : Int.bmod ((n + 1 : Nat) : Int) (2 ^ 32) = ((n + 1 : Nat) : Int) := by
      refine Int.bmod_eq_of_le ?_ ?_ <;> omega
    simp only [visitText, visitName, this]
    rfl

theorem stringify_shows {repo : Repo} {t line : Bytes} :
    stringify (repo.revparseExt t) = some line ↔ Shows repo t line := by
  unfold Shows
  cases h : repo.revparseExt t with
  | none => simp [stringify]
  | some x =>
    obtain ⟨id, nm⟩ := x
    cases nm with
    | none => simp [stringify]
    | some nm => simp [stringify]

theorem stringify_unresolved {repo : Repo} {t : Bytes} :
    stringify (repo.revparseExt t) = none ↔ Unresolved repo t := by
  unfold Unresolved
  constructor
  · rintro h ⟨line, hl⟩
    rw [← stringify_shows, h] at hl
    cases hl
  · intro h
    cases hs : stringify (repo.revparseExt t) with
    | none => rfl
    | some line => exact absurd ⟨line, stringify_shows.1 hs⟩ h

theorem writeTo_append (cap : Cap) (a b : Bytes) :
    writeTo cap (a ++ b) = if (writeTo cap a).2 then
      ((writeTo cap a).1 ++ (writeTo (cap.map (· - a.length)) b).1, (writeTo (cap.map (· - a.length)) b).2)
      else writeTo cap a := by
  cases cap with
  | none => simp [writeTo]
  | some n =>
    simp only [writeTo, Option.map_some, decide_eq_true_eq]
    split
    · rename_i h
      rw [List.take_append, List.length_append]
      congr 1
      simp; omega
    · rename_i h
      rw [List.take_append_of_le_length (by omega)]
      simp; omega

/-- As long as there are lines, they are written. -/
theorem visitF_step {repo : Repo} : ∀ (lines : List Bytes) (f n : Nat) (cap : Cap),
    (∀ i (h : i < lines.length), stringify (repo.revparseExt (visitText (n + i))) = some lines[i]) →
    visitF repo (lines.length + f) n cap =
      if (writeTo cap (textOf lines)).2 then
        (visitF repo f (n + lines.length) (cap.map (· - (textOf lines).length))).map fun x =>
          ((writeTo cap (textOf lines)).1 ++ x.1, x.2)
      else some (writeTo cap (textOf lines))
  | [], f, n, cap, _ => by
    have e : writeTo cap (textOf []) = ([], true) := by cases cap <;> simp [writeTo, textOf]
    have e' : cap.map (· - (textOf []).length) = cap := by cases cap <;> rfl
    simp [e, e']
  | l :: ls, f, n, cap, hs => by
    have h0 := hs 0 (by simp)
    simp only [Nat.add_zero, List.getElem_cons_zero] at h0
    have ih := visitF_step ls f (n + 1) (cap.map (· - (l ++ b!"\n").length)) (fun i hi => by
      have := hs (i + 1) (by simp only [List.length_cons]; omega)
      simp only [List.getElem_cons_succ] at this
      rw [← this]
      congr 3
      omega)
    have et : textOf (l :: ls) = (l ++ b!"\n") ++ textOf ls := by simp [textOf]
    rw [show (l :: ls).length + f = (ls.length + f) + 1 by simp only [List.length_cons]; omega, visitF, h0]
    simp only
    rw [et, writeTo_append cap (l ++ b!"\n") (textOf ls)]
    by_cases hw : (writeTo cap (l ++ b!"\n")).2 = true
    · rw [if_pos hw, if_pos hw, ih]
      have ec : (cap.map (· - (l ++ b!"\n").length)).map (· - (textOf ls).length) =
          cap.map (· - ((l ++ b!"\n") ++ textOf ls).length) := by
        cases cap with
        | none => rfl
        | some k => simp only [Option.map_some, List.length_append, Option.some.injEq]; omega
      have en : n + 1 + ls.length = n + (l :: ls).length := by simp only [List.length_cons]; omega
      rw [ec, en]
      simp only
      split
      · rw [Option.map_map]
        congr 1
        funext x
        simp
      · simp
    · rw [if_neg hw, if_neg hw, if_neg hw]

/-- The listing ends at the first entry that cannot be resolved. -/
theorem visitF_stops {repo : Repo} (lines : List Bytes) (f n : Nat) (cap : Cap) (hf : lines.length < f)
    (hs : ∀ i (h : i < lines.length), stringify (repo.revparseExt (visitText (n + i))) = some lines[i])
    (hu : stringify (repo.revparseExt (visitText (n + lines.length))) = none) :
    visitF repo f n cap = some (writeTo cap (textOf lines)) := by
  obtain ⟨g, rfl⟩ : ∃ g, f = lines.length + (g + 1) := ⟨f - lines.length - 1, by omega⟩
  rw [visitF_step lines (g + 1) n cap hs]
  have : ∀ c, visitF repo (g + 1) (n + lines.length) c = some ([], true) := fun c => by simp [visitF, hu]
  rw [this]
  split
  · rename_i h
    simp only [Option.map_some, List.append_nil]
    rw [← h]
  · rfl

end RecentRefs

/-- C48: with `--sort=visitdate` the lines are those of `HEAD`, `@{-1}`, `@{-2}`, ... up to the first
one that cannot be resolved; the listing ends there. (The number is an `i32`, hence the bound.) If writing fails, what
had been written before is a part of it, and the program is aborted. -/
theorem C48 {repo : RecentRefs.Repo} {lines : List Bytes} (hlen : lines.length < 2 ^ 31)
    (hs : ∀ i (h : i < lines.length), Shows repo (visitName i) lines[i])
    (hu : Unresolved repo (visitName lines.length)) {fuel : Nat} (hf : lines.length < fuel) (ec : Cap) :
    RecentRefs.main fuel repo none ec .visited = some ⟨(lines.map (· ++ b!"\n")).flatten, [], .exit 0⟩ ∧
    ∀ n, RecentRefs.main fuel repo (some n) ec .visited = some ⟨((lines.map (· ++ b!"\n")).flatten).take n, [],
      if (lines.map (· ++ b!"\n")).flatten.length ≤ n then .exit 0 else .aborted⟩ := by
  have := fun cap => RecentRefs.visitF_stops (repo := repo) lines fuel 0 cap hf
    (fun i hi => by
      rw [Nat.zero_add, RecentRefs.visitText_eq (by omega)]
      exact RecentRefs.stringify_shows.2 (hs i hi))
    (by
      rw [Nat.zero_add, RecentRefs.visitText_eq hlen]
      exact RecentRefs.stringify_unresolved.2 hu)
  refine ⟨?_, fun n => ?_⟩
  · simp [RecentRefs.main, this, writeTo, RecentRefs.wrote, RecentRefs.textOf, ExitStatus.code]
  · simp only [RecentRefs.main, this, writeTo, RecentRefs.wrote, RecentRefs.textOf, ExitStatus.code, Option.map_some]
    congr 2
    split <;> simp_all

/-- C48: the listing terminates whenever some entry cannot be resolved, and what it prints are the
lines of the entries before the first such entry. -/
theorem C48_terminates {repo : RecentRefs.Repo} {k : Nat} (hk : k < 2 ^ 31)
    (hu : Unresolved repo (visitName k)) :
    ∃ lines : List Bytes, lines.length ≤ k ∧
      (∀ i (h : i < lines.length), Shows repo (visitName i) lines[i]) ∧
      Unresolved repo (visitName lines.length) ∧
      ∀ fuel, k < fuel → RecentRefs.main fuel repo none none .visited =
        some ⟨(lines.map (· ++ b!"\n")).flatten, [], .exit 0⟩ := by
  have key : ∀ d n, n + d = k → (∃ lines : List Bytes, n + lines.length ≤ k ∧
      (∀ i (h : i < lines.length), Shows repo (visitName (n + i)) lines[i]) ∧
      Unresolved repo (visitName (n + lines.length))) := by
    intro d
    induction d with
    | zero =>
      intro n hn
      refine ⟨[], by simp; omega, by simp, ?_⟩
      simp only [Nat.add_zero] at hn
      rw [List.length_nil, Nat.add_zero, hn]
      exact hu
    | succ d ih =>
      intro n hn
      by_cases hun : Unresolved repo (visitName n)
      · exact ⟨[], by simp; omega, by simp, by simpa using hun⟩
      · obtain ⟨line, hl⟩ := Classical.not_not.1 hun
        obtain ⟨ls, h1, h2, h3⟩ := ih (n + 1) (by omega)
        refine ⟨line :: ls, by simp only [List.length_cons]; omega, fun i hi => ?_, ?_⟩
        · cases i with
          | zero => simpa using hl
          | succ i =>
            simp only [List.length_cons] at hi
            have := h2 i (by omega)
            simp only [List.getElem_cons_succ]
            rw [show n + (i + 1) = n + 1 + i by omega]
            exact this
        · rw [List.length_cons, show n + (ls.length + 1) = n + 1 + ls.length by omega]
          exact h3
  obtain ⟨lines, h1, h2, h3⟩ := key k 0 (by omega)
  simp only [Nat.zero_add] at h1 h2 h3
  exact ⟨lines, h1, h2, h3, fun fuel hf => (C48 (by omega) h2 h3 (by omega) none).1⟩

/-- C48: and only then. If every text the program can ask about resolves, it does not end, as long as it can write. -/
theorem C48_diverges {repo : RecentRefs.Repo} {ec : Cap}
    (h : ∀ n, ∃ line, Shows repo (RecentRefs.visitText n) line) (fuel : Nat) :
    RecentRefs.main fuel repo none ec .visited = none := by
  have : ∀ f n, RecentRefs.visitF repo f n none = none := by
    intro f
    induction f with
    | zero => intro n; rfl
    | succ f ih =>
      intro n
      obtain ⟨line, hl⟩ := h n
      rw [← RecentRefs.stringify_shows] at hl
      simp [RecentRefs.visitF, hl, ih, writeTo]
  simp [RecentRefs.main, this]

/-- C48: lines are not held back. When the reader has taken `n` bytes and goes away, the program ends, and these are the
first bytes of the lines; it makes no difference whether there would have been an end of them. -/
theorem C48_cut {repo : RecentRefs.Repo} {lines : List Bytes} (hlen : lines.length < 2 ^ 31)
    (hs : ∀ i (h : i < lines.length), Shows repo (visitName i) lines[i]) {n : Nat}
    (hn : n < (lines.map (· ++ b!"\n")).flatten.length) {fuel : Nat} (hf : lines.length ≤ fuel) (ec : Cap) :
    RecentRefs.main fuel repo (some n) ec .visited =
      some ⟨((lines.map (· ++ b!"\n")).flatten).take n, [], .aborted⟩ := by
  obtain ⟨g, rfl⟩ : ∃ g, fuel = lines.length + g := ⟨fuel - lines.length, by omega⟩
  have hn' : ¬ (RecentRefs.textOf lines).length ≤ n := Nat.not_le.mpr hn
  have := RecentRefs.visitF_step (repo := repo) lines g 0 (some n) (fun i hi => by
    rw [Nat.zero_add, RecentRefs.visitText_eq (by omega)]
    exact RecentRefs.stringify_shows.2 (hs i hi))
  rw [if_neg (by simpa [writeTo] using hn')] at this
  simp only [RecentRefs.main, this, Option.map_some, RecentRefs.wrote, writeTo, hn', decide_false]
  rfl

/-- C48: so it always ends when the reader goes away. -/
theorem C48_ends (repo : RecentRefs.Repo) (n : Nat) (ec : Cap) :
    ∃ r, RecentRefs.main (n + 2) repo (some n) ec .visited = some r := by
  have : ∀ f k n, n + 1 < f → ∃ x, RecentRefs.visitF repo f k (some n) = some x := by
    intro f
    induction f with
    | zero => intro k n h; omega
    | succ f ih =>
      intro k n h
      simp only [RecentRefs.visitF]
      split
      · exact ⟨_, rfl⟩
      · rename_i s _
        split
        · rename_i hw
          simp only [writeTo, decide_eq_true_eq, List.length_append] at hw
          have : (b!"\n" : Bytes).length = 1 := rfl
          obtain ⟨x, hx⟩ := ih (k + 1) (n - (s ++ b!"\n").length) (by rw [List.length_append]; omega)
          simp only [Option.map_some, hx]
          exact ⟨_, rfl⟩
        · exact ⟨_, rfl⟩
  obtain ⟨x, hx⟩ := this (n + 2) 0 n (by omega)
  exact ⟨RecentRefs.wrote x, by simp only [RecentRefs.main, hx, Option.map_some]⟩

/-! ### C49 -/

theorem pager_exists (e : RecentRefs.PagerEnv) : ∃ p, Pager e p := by
  cases h : e.gitPager with
  | some p => exact ⟨p, .gitPager h⟩
  | none =>
    by_cases hc : ∃ c, e.config = .ok (.ok c)
    · obtain ⟨c, hc⟩ := hc
      exact ⟨c, .core h hc⟩
    · cases hp : e.pager with
      | some p => exact ⟨p, .pager h hc hp⟩
      | none => exact ⟨_, .less h hc hp⟩

/-- C49: the pager. -/
theorem C49 {e : RecentRefs.PagerEnv} {p : Bytes} (hp : Pager e p) :
    RecentRefs.findPager e = if e.isatty = 1 ∧ p ≠ b!"cat" then some p else none := by
  have hcore : (¬ ∃ c, e.config = .ok (.ok c)) → RecentRefs.corePager e = none := by
    intro hc
    unfold RecentRefs.corePager
    split
    · rename_i v hv
      exact absurd ⟨v, hv⟩ hc
    · rfl
  unfold RecentRefs.findPager
  by_cases ht : e.isatty = 1
  · have hcat : ∀ q : Bytes, (if q = b!"cat" then none else some q) =
        if ¬ q = b!"cat" then some q else none := by
      intro q
      by_cases hq : q = b!"cat" <;> simp [hq]
    simp only [ht, ne_eq, not_true_eq_false, if_false, true_and]
    cases hp with
    | gitPager h => simp only [h, Option.some_or, Option.getD_some, hcat]
    | core h hc =>
      simp only [h, RecentRefs.corePager, hc, Option.none_or, Option.some_or, Option.getD_some,
        hcat]
    | pager h hc hp => simp only [h, hcore hc, hp, Option.none_or, Option.getD_some, hcat]
    | less h hc hp => simp only [h, hcore hc, hp, Option.none_or, Option.getD_none, hcat]
  · simp [ht]

/-- C49: and the output of the program goes to it, or else to standard output. -/
theorem C49_output {fuel : Nat} {repo : RecentRefs.Repo} {e : RecentRefs.PagerEnv} {p : Bytes}
    (hp : Pager e p) {oc ec : Cap} {sort : Option Bytes} {kind : RecentRefs.SortKind} {r : Ran}
    (hk : RecentRefs.program sort = some kind)
    (hr : RecentRefs.main fuel repo oc ec kind = some r) :
    RecentRefs.process fuel (.ok repo) e true oc ec sort =
      some (if e.isatty = 1 ∧ p ≠ b!"cat" then .pager p else .stdout, r) := by
  simp only [RecentRefs.process, hk, RecentRefs.openPager, C49 hp]
  by_cases hc : e.isatty = 1 ∧ p ≠ b!"cat"
  · simp only [if_pos hc, if_true, hr, Option.map_some]
  · simp only [if_neg hc, hr, Option.map_some]

/-! ### C70 -/

/-- C70: no value of the option asks for two listings, and the program makes the listing that is asked for and sends it to
the pager if there is to be one. -/
theorem C70_listing {fuel : Nat} {repo : RecentRefs.Repo} {e : RecentRefs.PagerEnv} {p : Bytes} {sh : Bool} {oc ec : Cap}
    {sort : Option Bytes} {kind : RecentRefs.SortKind} (hs : Listing sort kind) (hp : Pager e p)
    (hsh : e.isatty = 1 → p ≠ b!"cat" → sh = true) :
    RecentRefs.process fuel (.ok repo) e sh oc ec sort = (RecentRefs.main fuel repo oc ec kind).map fun r =>
      (if e.isatty = 1 ∧ p ≠ b!"cat" then .pager p else .stdout, r) := by
  have hk : RecentRefs.program sort = some kind := by cases hs <;> decide
  simp only [RecentRefs.process, hk, RecentRefs.openPager, C49 hp]
  by_cases hc : e.isatty = 1 ∧ p ≠ b!"cat"
  · simp only [if_pos hc, hsh hc.1 hc.2, if_true]
  · simp only [if_neg hc]

theorem C70_unique {sort : Option Bytes} {k k' : RecentRefs.SortKind} (h : Listing sort k) (h' : Listing sort k') :
    k = k' := by
  have key : ∀ {k}, Listing sort k → RecentRefs.program sort = some k := fun h => by cases h <;> decide
  exact Option.some.inj ((key h).symm.trans (key h'))

/-- C70: if there is to be a pager and no shell to start it, the program panics without any output. -/
theorem C70_no_shell {fuel : Nat} {repo : RecentRefs.Repo} {e : RecentRefs.PagerEnv} {p : Bytes} {oc ec : Cap}
    {sort : Option Bytes} (hp : Pager e p) (ht : e.isatty = 1) (hcat : p ≠ b!"cat") :
    RecentRefs.process fuel (.ok repo) e false oc ec sort = some (.stdout, ⟨[], [], .aborted⟩) := by
  simp only [RecentRefs.process, RecentRefs.openPager, C49 hp, ht, hcat, ne_eq, not_false_eq_true, and_self, if_true,
    if_false, Bool.false_eq_true]
  cases RecentRefs.program sort <;> rfl

/-- C70: outside a repository the message goes to standard error and the exit code is 4; no pager is started, whatever
the option, the environment and the terminal are. If standard error takes only part of the message, the program panics. -/
theorem C70_outside (fuel : Nat) (g : GitErr) (e : RecentRefs.PagerEnv) (sh : Bool) (oc : Cap) (sort : Option Bytes) :
    RecentRefs.process fuel (.error g) e sh oc none sort = some (.stdout, ⟨[], g.text ++ b!"\n", .exit 4⟩) ∧
    ∀ n, RecentRefs.process fuel (.error g) e sh oc (some n) sort =
      some (.stdout, ⟨[], (g.text ++ b!"\n").take n, if g.text.length < n then .exit 4 else .aborted⟩) := by
  refine ⟨rfl, fun n => ?_⟩
  simp only [RecentRefs.process, writeTo, List.length_append, decide_eq_true_eq]
  rfl

/-! ### Concrete cases -/

namespace RecentDemo

def at' (s : Int) (o : Int := 0) : GitTime := ⟨s, o⟩

def refs : List (Except GitErr Ref) :=
  [.ok ⟨some b!"a1", some (at' 5, at' 1), some b!"refs/heads/a"⟩,
   .error ⟨.other 1, b!"corrupt"⟩,
   .ok ⟨some b!"b1", some (at' 9, at' 0), some b!"refs/heads/b"⟩,
   .ok ⟨none, some (at' 9, at' 0), some b!"refs/heads/symbolic"⟩,
   .ok ⟨some b!"c1", some (at' 5, at' 2), some b!"refs/heads/c"⟩,
   .ok ⟨some b!"d1", none, some b!"refs/tags/tree"⟩,
   .ok ⟨some b!"e1", some (at' 7, at' 7), none⟩]

def repo : RecentRefs.Repo where
  revparseExt t :=
    if t = b!"HEAD" then some (b!"c1", some (some b!"refs/heads/c"))
    else if t = b!"@{-1}" then some (b!"a1", some (some b!"refs/heads/a"))
    else if t = b!"@{-2}" then some (b!"b1", none)
    else none
  references := .ok refs

-- `C47_partial`
example : RecentRefs.main 0 repo none none .committed =
    some ⟨b!"refs/heads/b\nrefs/heads/a\nrefs/heads/c\n", [], .exit 0⟩ := by decide +kernel
example : RecentRefs.main 0 repo none none .authored =
    some ⟨b!"refs/heads/c\nrefs/heads/a\nrefs/heads/b\n", [], .exit 0⟩ := by decide +kernel

-- `C48`, with the lines it speaks of
example : RecentRefs.main 4 repo none none .visited =
    some ⟨b!"refs/heads/c\nrefs/heads/a\nb1\n", [], .exit 0⟩ := by decide +kernel
example : ∀ i (h : i < 3), Shows repo (visitName i)
    [b!"refs/heads/c", b!"refs/heads/a", b!"b1"][i] := by
  intro i h
  match i, h with
  | 0, _ => exact .inl ⟨b!"c1", rfl⟩
  | 1, _ => exact .inl ⟨b!"a1", rfl⟩
  | 2, _ => exact .inr rfl
theorem unresolved3 : Unresolved repo (visitName 3) :=
  RecentRefs.stringify_unresolved.1 (by decide +kernel)

-- `C48_cut`, `C48_diverges` and `C48_ends`: a repository in which everything resolves
def endless : RecentRefs.Repo := { repo with revparseExt := fun _ => some (b!"c1", none) }
example : RecentRefs.main 3 endless (some 7) none .visited = some ⟨b!"c1\nc1\nc", [], .aborted⟩ := by decide +kernel
example : (∀ i (h : i < 3), Shows endless (visitName i) [b!"c1", b!"c1", b!"c1"][i]) ∧
    7 < (([b!"c1", b!"c1", b!"c1"] : List Bytes).map (· ++ b!"\n")).flatten.length := by
  refine ⟨fun i h => ?_, by decide⟩
  match i, h with
  | 0, _ => exact .inr rfl
  | 1, _ => exact .inr rfl
  | 2, _ => exact .inr rfl
example (n : Nat) : ∃ line, Shows endless (RecentRefs.visitText n) line := ⟨b!"c1", .inr rfl⟩

-- `C49`
example : RecentRefs.findPager ⟨1, none, some b!"more", .ok (.ok b!"bat")⟩ = some b!"bat" := by
  decide +kernel
example : Pager ⟨1, none, some b!"more", .ok (.ok b!"bat")⟩ b!"bat" := .core rfl rfl
example : RecentRefs.findPager ⟨1, some b!"cat", some b!"more", .ok (.ok b!"bat")⟩ = none := by
  decide +kernel
example : RecentRefs.findPager ⟨0, some b!"most", none, .ok (.ok b!"bat")⟩ = none := by
  decide +kernel

-- `C70_listing`, with and without a pager, and `C70_no_shell`
example : RecentRefs.process 0 (.ok repo) ⟨1, none, none, .ok (.ok b!"bat")⟩ true none none (some b!"authordate") =
    some (.pager b!"bat", ⟨b!"refs/heads/c\nrefs/heads/a\nrefs/heads/b\n", [], .exit 0⟩) := by decide +kernel
example : RecentRefs.process 4 (.ok repo) ⟨0, none, none, .ok (.ok b!"bat")⟩ false none none none =
    some (.stdout, ⟨b!"refs/heads/c\nrefs/heads/a\nb1\n", [], .exit 0⟩) := by decide +kernel
example : RecentRefs.process 4 (.ok repo) ⟨1, none, none, .ok (.ok b!"bat")⟩ false none none none =
    some (.stdout, ⟨[], [], .aborted⟩) := by decide +kernel

/-- C47 is wrong about ties of commits made in the same second in different time zones: they are
not listed in the order of the repository. -/
theorem C47_refuted :
    ∃ (repo : RecentRefs.Repo) (a b : Ref) (x y : GitTime),
      repo.references = .ok [.ok a, .ok b] ∧ a.commit = some (x, x) ∧ b.commit = some (y, y) ∧
      x.seconds = y.seconds ∧ a.name = some b!"refs/heads/a" ∧ b.name = some b!"refs/heads/b" ∧
      RecentRefs.main 0 repo none none .committed =
        some ⟨b!"refs/heads/b\nrefs/heads/a\n", [], .exit 0⟩ := by
  refine ⟨⟨fun _ => none, .ok [.ok ⟨some b!"a1", some (⟨5, 0⟩, ⟨5, 0⟩), some b!"refs/heads/a"⟩,
    .ok ⟨some b!"b1", some (⟨5, 60⟩, ⟨5, 60⟩), some b!"refs/heads/b"⟩]⟩, _, _, ⟨5, 0⟩, ⟨5, 60⟩,
    rfl, rfl, rfl, rfl, rfl, rfl, by decide +kernel⟩

-- `C47_seconds_partial`: its hypothesis for two commits of one second and one time zone, and a third
example : ∀ a ∈ [(⟨5, 60⟩ : GitTime), ⟨7, 0⟩, ⟨5, 60⟩], ∀ b ∈ [(⟨5, 60⟩ : GitTime), ⟨7, 0⟩, ⟨5, 60⟩],
    a.seconds = b.seconds → a.offset = b.offset := by decide
-- and such a listing
example : RecentRefs.byDate RecentRefs.commitDate [.ok ⟨some b!"a1", some (⟨5, 60⟩, ⟨5, 0⟩), some b!"a"⟩,
    .ok ⟨some b!"c1", some (⟨7, 0⟩, ⟨5, 0⟩), some b!"c"⟩, .ok ⟨some b!"b1", some (⟨5, 60⟩, ⟨5, 0⟩), some b!"b"⟩] =
      [b!"c", b!"a", b!"b"] := by decide +kernel

end RecentDemo

end Verif
