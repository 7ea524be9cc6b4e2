import Verif.Lemmas.AmongList
import Verif.Spec.Many
/-! A server leaves what is near another repository alone. -/
namespace Verif
open Spec

theorem near_comm (a b : Path) : near a b = near b a := by simp [near, Bool.or_comm]

theorem near_self (a : Path) : near a a = true := near_of_prefix (List.prefix_refl a)

/-- What is below one directory is far from another that is apart. -/
theorem far_of_below {a b p : Path} (h : near a b = false) (hp : b <+: p) : near a p = false := by
  rw [Bool.eq_false_iff] at h ⊢
  intro hn
  refine h (near_iff.mpr ?_)
  rcases near_iff.mp hn with h1 | h1
  · exact List.prefix_or_prefix_of_prefix h1 hp
  · exact .inr (hp.trans h1)

/-- A directory on the way to a place below `b` that is near `a` is above `b`. -/
theorem above_of_near {a b p q : Path} (h : near a b = false) (hp : b <+: p) (hq : q <+: p) (hn : near a q = true) :
    q <+: b ∧ q ≠ b := by
  have hne : ¬ b <+: q := fun e => by rw [far_of_below h e] at hn; cases hn
  rcases List.prefix_or_prefix_of_prefix hp hq with e | e
  · exact absurd e hne
  · exact ⟨e, fun e' => hne (e' ▸ List.prefix_refl _)⟩

theorem filter_alDel {f : Path → Bool} {p : Path} (h : f p = false) (l : List (Path × Ino)) :
    (alDel l p).filter (fun e => f e.1) = l.filter fun e => f e.1 := by
  unfold alDel
  rw [List.filter_filter]
  refine List.filter_congr fun e _ => ?_
  by_cases he : e.1 = p
  · simp [he, h]
  · simp [he]

theorem filter_alSet {f : Path → Bool} {p : Path} (h : f p = false) (l : List (Path × Ino)) (i : Ino) :
    (alSet l p i).filter (fun e => f e.1) = l.filter fun e => f e.1 := by
  unfold alSet
  rw [List.filter_cons, if_neg (by simp [h]), filter_alDel h]

theorem may_unlink_below {cfg : Cfg} {fs : FS} {ow : Nat → Own} (hi : Inv cfg.root fs ow) {i : Nat} {p : Path}
    (hm : (ow i).may cfg (.unlink p)) : cfg.root <+: p := by
  rcases hm with ⟨j, c, h⟩ | ⟨x, ⟨rfl, _⟩ | rfl⟩
  · obtain ⟨_, ⟨n, rfl⟩, _⟩ := hi.tmp i p j c h
    exact (List.prefix_append _ _).trans (List.prefix_append _ _)
  · exact (List.prefix_append _ _).trans (List.prefix_append _ _)
  · exact (List.prefix_append _ _).trans (List.prefix_append _ _)

theorem may_rename_below {cfg : Cfg} {fs : FS} {ow : Nat → Own} (hi : Inv cfg.root fs ow) {i : Nat} {p q : Path}
    (hm : (ow i).may cfg (.rename p q)) : cfg.root <+: p ∧ cfg.root <+: q := by
  obtain ⟨j, c, h, _, rfl⟩ := hm
  obtain ⟨_, ⟨n, rfl⟩, _⟩ := hi.tmp i p j _ h
  exact ⟨(List.prefix_append _ _).trans (List.prefix_append _ _), objPath_below _ _⟩

theorem may_mkdirAll_below {cfg : Cfg} {s : Own} {p : Path} (hm : s.may cfg (.mkdirAll p)) : cfg.root <+: p := by
  rcases skelDir_may hm with h | ⟨oid, _, rfl⟩
  · exact topDirs_below h
  · exact List.prefix_append _ _

/-- The names near another repository stay as they are. -/
theorem far_names {cfg : Cfg} {fs : FS} {ow : Nat → Own} {a : Path} (ha : near a cfg.root = false)
    (hi : Inv cfg.root fs ow) {i : Nat} {o : Op} (c : Choice) (hm : (ow i).may cfg o) :
    (sem c fs o).1.names.filter (fun e => near a e.1) = fs.names.filter fun e => near a e.1 := by
  have far : ∀ {p}, cfg.root <+: p → near a p = false := fun h => far_of_below ha h
  cases o with
  | createTemp d pre uid =>
    have hd := may_createTemp_below hm
    simp only [sem]
    (repeat' split) <;> try rfl
    obtain ⟨sfx, hf⟩ := fs.freshName_dir d (pre ++ c.rand)
    exact filter_alSet (far (hf ▸ hd.trans (List.prefix_append _ _))) _ _
  | createNew p uid =>
    simp only [sem]
    (repeat' split) <;> try rfl
    exact filter_alSet (far (may_createNew_below hm)) _ _
  | rename p q =>
    obtain ⟨h1, h2⟩ := may_rename_below hi hm
    simp only [sem]
    (repeat' split) <;> try rfl
    exact (filter_alSet (far h2) _ _).trans (filter_alDel (far h1) _)
  | link p q =>
    simp only [sem]
    (repeat' split) <;> try rfl
    obtain ⟨x, t, ino, rfl, rfl, _⟩ := hm
    exact filter_alSet (far ((List.prefix_append _ _).trans (List.prefix_append _ _))) _ _
  | unlink p =>
    simp only [sem]
    (repeat' split) <;> try rfl
    exact filter_alDel (far (may_unlink_below hi hm)) _
  | now => rfl
  | _ => simp only [sem] <;> (repeat' split) <;> rfl

/-- The directories near another repository stay as they are. -/
theorem far_dirs {cfg : Cfg} {fs : FS} {s : Own} {a : Path} (ha : near a cfg.root = false)
    (hd : ∀ q, q <+: cfg.root → q ≠ cfg.root → fs.isDir q = true) {o : Op} (c : Choice) (hm : s.may cfg o) :
    (sem c fs o).1.dirs.filter (near a) = fs.dirs.filter (near a) := by
  cases o with
  | mkdirAll p =>
    have hp := may_mkdirAll_below hm
    have add : ∀ ds : List Path, (∀ q ∈ ds, q ∈ pathPrefixes p ∧ fs.isDir q = false) →
        (fs.addDirs ds).dirs.filter (near a) = fs.dirs.filter (near a) := by
      intro ds hds
      simp only [FS.addDirs, List.filter_append]
      rw [List.filter_eq_nil_iff.mpr, List.nil_append]
      intro q hq hn
      obtain ⟨h1, h2⟩ := hds q hq
      obtain ⟨h3, h4⟩ := above_of_near ha hp (mem_pathPrefixes h1) hn
      rw [hd q h3 h4] at h2; cases h2
    simp only [sem]
    split
    · refine add _ fun q hq => ?_
      obtain ⟨h1, h2⟩ := List.mem_filter.mp hq
      simp only [Bool.and_eq_true, Bool.not_eq_true'] at h2
      exact ⟨List.mem_of_mem_take h1, h2.2⟩
    · split
      · rfl
      · refine add _ fun q hq => ?_
        obtain ⟨h1, h2⟩ := List.mem_filter.mp hq
        exact ⟨h1, by simpa using h2⟩
  | now => rfl
  | _ => simp only [sem] <;> (repeat' split) <;> rfl

/-- A call of a server is, for another repository, something that happens elsewhere. -/
theorem call_elsewhere {cfg : Cfg} {fs : FS} {ow : Nat → Own} {a : Path} (ha : near a cfg.root = false)
    (hd : ∀ q, q <+: cfg.root → q ≠ cfg.root → fs.isDir q = true)
    (hi : Inv cfg.root fs ow) {i : Nat} {o : Op} (c : Choice) (hm : (ow i).may cfg o) :
    Elsewhere a fs (sem c fs o).1 := by
  refine ⟨far_names ha hi c hm, far_dirs ha hd c hm, sem_oneEach c fs o, fun p j hj => ?_, fun j hj hb => ?_,
    sem_next c fs o⟩
  · rcases sem_names c fs o hj with h | h | ⟨src, h, _⟩
    · exact .inl ⟨_, h⟩
    · have := (hi.step cfg rfl rfl i o c hm).1.bound _ _ hj
      exact .inr ⟨Nat.le_of_eq h.symm, this⟩
    · exact .inl ⟨_, h⟩
  · refine ⟨sem_data c fs o j hj ?_, sem_uid c fs o j hj, sem_born c fs o j hj⟩
    rintro b rfl
    have := hi.ohome i j (hm.imp id And.left)
    rw [far_of_below ha this] at hb
    cases hb

theorem Elsewhere.refl (a : Path) (fs : FS) : Elsewhere a fs fs :=
  ⟨rfl, rfl, id, fun p _ h => .inl ⟨p, h⟩, fun _ _ _ => ⟨rfl, rfl, rfl⟩, Nat.le_refl _⟩

/-- No call removes a directory. -/
theorem sem_dirs (c : Choice) (fs : FS) (o : Op) {d : Path} (h : fs.isDir d = true) : (sem c fs o).1.isDir d = true := by
  rw [isDir_iff] at h ⊢
  refine h.imp id fun h => ?_
  cases o with
  | now => exact h
  | mkdirAll p => simp only [sem] <;> (repeat' split) <;> first | exact h | exact List.mem_append_right _ h
  | _ => simp only [sem] <;> (repeat' split) <;> exact h

/-- The same when a part of the bytes has been written. -/
theorem write_elsewhere {cfg : Cfg} {fs : FS} {ow : Nat → Own} {a : Path} (ha : near a cfg.root = false)
    (hi : Inv cfg.root fs ow) {i : Nat} {ino : Ino} {b : Bytes} (b' : Bytes) (hm : (ow i).may cfg (.write ino b)) :
    Elsewhere a fs (fs.append ino b') := by
  have hj := hi.ohome i ino (hm.imp id And.left)
  refine ⟨rfl, rfl, id, fun p j h => .inl ⟨p, h⟩, fun j _ hb => ?_, Nat.le_refl _⟩
  have hne : j ≠ ino := by rintro rfl; rw [far_of_below ha hj] at hb; cases hb
  simp [FS.append, FS.setInode, hne]

section
variable {R : Nat → Path} {sha : Bytes → Bytes} {idle : Nat → Prog Exit}

/-- The invariant: every repository is in a good state, and the directories they are in exist. -/
structure GoodMany (R : Nat → Path) (sha : Bytes → Bytes) (idle : Nat → Prog Exit) (s : Sys) : Prop where
  apart : ∀ i k, R i = R k ∨ near (R i) (R k) = false
  parents : ∀ i q, q <+: R i → q ≠ R i → s.fs.isDir q = true
  good : ∀ k, ∃ ow, Good (R k) sha (only R (R k) (idle k) s) ow

theorem only_own {i k : Nat} {p : Prog Exit} {s : Sys} {fs : FS} (h : R i = R k) :
    only R (R k) (idle k) ⟨fs, s.setProc i p⟩ = ⟨fs, (only R (R k) (idle k) s).setProc i p⟩ := by
  simp only [only, Sys.mk.injEq, true_and]
  funext j
  by_cases hj : j = i
  · simp [Sys.setProc, hj, h]
  · simp [Sys.setProc, hj]

theorem only_other {i k : Nat} {p : Prog Exit} {s : Sys} {fs : FS} (h : R i ≠ R k) :
    only R (R k) (idle k) ⟨fs, s.setProc i p⟩ = ⟨fs, (only R (R k) (idle k) s).procs⟩ := by
  simp only [only, Sys.mk.injEq, true_and]
  funext j
  by_cases hj : j = i
  · simp [hj, h]
  · simp [Sys.setProc, hj]

/-- What a repository sees of a step is a step of the system with its servers only. -/
theorem StepMany.only {s s' : Sys} {l : Option (Nat × Event)} (g : GoodMany R sha idle s) (h : StepMany R s l s') (k : Nat) :
    Step (R k) (only R (R k) (idle k) s) (onlyCall R (R k) l) (Spec.only R (R k) (idle k) s') := by
  have proc : ∀ {i : Nat}, R i = R k → (Spec.only R (R k) (idle k) s).procs i = s.procs i := fun h => if_pos h
  have other : ∀ {i : Nat} {o : Op} {f : Resp o → Prog Exit}, R i ≠ R k → s.procs i = .call o f →
      ∃ (cfg : Cfg) (ow : Nat → Own), near (R k) cfg.root = false ∧
        (∀ q, q <+: cfg.root → q ≠ cfg.root → s.fs.isDir q = true) ∧ Inv cfg.root s.fs ow ∧ (ow i).may cfg o := by
    intro i o f hne hp
    obtain ⟨ow, hg⟩ := g.good i
    obtain ⟨cfg, h1, _, hw⟩ := hg.2 i
    rw [show (Spec.only R (R i) (idle i) s).procs i = s.procs i from if_pos rfl, hp] at hw
    exact ⟨cfg, ow, h1 ▸ (g.apart k i).resolve_left fun e => hne e.symm, h1 ▸ g.parents i, h1 ▸ hg.1, hw.1⟩
  cases h with
  | call i o f c hp =>
    by_cases hk : R i = R k
    · rw [only_own hk, show onlyCall R (R k) (some (i, ⟨o, (sem c s.fs o).2⟩)) = some (i, ⟨o, (sem c s.fs o).2⟩) by
        simp [onlyCall, Option.filter, hk]]
      exact .call i o f c ((proc hk).trans hp)
    · rw [only_other hk, show onlyCall R (R k) (some (i, ⟨o, (sem c s.fs o).2⟩)) = none by
        simp [onlyCall, Option.filter, hk]]
      obtain ⟨cfg, ow, h1, h2, h3, h4⟩ := other hk hp
      exact .elsewhere _ (call_elsewhere h1 h2 h3 c h4)
  | writeSome i ino b n f hp =>
    by_cases hk : R i = R k
    · rw [only_own hk]
      exact .writeSome i ino b n f ((proc hk).trans hp)
    · rw [only_other hk]
      obtain ⟨cfg, ow, h1, h2, h3, h4⟩ := other hk hp
      exact .elsewhere _ (write_elsewhere h1 h3 _ h4)
  | mkdirSome i p n e f hp =>
    by_cases hk : R i = R k
    · exact .mkdirSome i p n e f ((proc hk).trans hp)
    · obtain ⟨cfg, ow, h1, h2, h3, h4⟩ := other hk hp
      exact .elsewhere _ (call_elsewhere h1 h2 h3 _ h4)
  | kill i =>
    by_cases hk : R i = R k
    · rw [only_own hk]
      exact .kill i
    · rw [only_other hk]
      exact .elsewhere _ (.refl _ _)
  | elsewhere fs' h => exact .elsewhere fs' (h k)

theorem GoodMany.step {s s' : Sys} {l : Option (Nat × Event)} (g : GoodMany R sha idle s) (h : StepMany R s l s') :
    GoodMany R sha idle s' := by
  refine ⟨g.apart, fun i q hq hne => ?_, fun k => ?_⟩
  · have hd := g.parents i q hq hne
    cases h with
    | call i o f c hp => exact sem_dirs c _ _ hd
    | mkdirSome i p n e f hp => exact sem_dirs _ _ _ hd
    | writeSome | kill => exact hd
    | elsewhere fs' h =>
      rw [isDir_iff] at hd ⊢
      exact hd.imp id ((h i).mem_dirs (near_iff.mpr (.inr hq))).mpr
  · obtain ⟨ow, hg⟩ := g.good k
    obtain ⟨ow', h', _⟩ := hg.step (h.only g k)
    exact ⟨ow', h'⟩

/-- At the start each repository sees its own servers at their start. -/
theorem StartMany.only {s : Sys} (h : StartMany R sha s) (k : Nat) :
    Start (R k) sha (Spec.only R (R k) (s.procs k) s) := by
  refine ⟨fun i => ?_, h.bound, h.home k⟩
  simp only [Spec.only]
  split
  · rename_i e; exact e ▸ h.procs i
  · exact h.procs k

theorem StartMany.good {s : Sys} (h : StartMany R sha s) : GoodMany R sha s.procs s :=
  ⟨h.apart, h.parents, fun k => ⟨_, Good.start (h.only k)⟩⟩

theorem GoodMany.steps {s s' : Sys} {tr : List (Nat × Event)} (g : GoodMany R sha idle s) (h : StepsMany R s tr s') :
    GoodMany R sha idle s' := by
  induction h with
  | refl => exact g
  | tail _ hl ih => exact ih.step hl
end

end Verif
