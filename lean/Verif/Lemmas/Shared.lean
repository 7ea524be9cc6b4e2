import Verif.Spec.Shared
import Verif.Lemmas.SysInv
import Verif.Lemmas.ServeMain
import Verif.Lemmas.LockNames
/-! One process among others: its calls, one after the other, and what the others may do between them. -/
namespace Verif
open Spec

/-! ### Directories and files stay apart -/

theorem skelDir_may {cfg : Cfg} {s : Own} {p : Path} (h : s.may cfg (.mkdirAll p)) : SkelDir cfg.root p := by
  rcases h with h | ⟨oid, ho, rfl⟩
  · exact .inl h
  · exact .inr ⟨oid, (oidValid_iff oid).mp ho, objDir_eq _ _⟩

theorem Spec.Tidy.setName {root : Path} {fs : FS} (h : Tidy root fs) {p : Path} {i : Ino} {fs' : FS}
    (hd : fs'.dirs = fs.dirs) (hg : ∀ q, fs'.get q = if q = p then some i else fs.get q)
    (hp : ∀ d, SkelDir root d → ¬ p <+: d) : Tidy root fs' := by
  refine ⟨fun oid ho => hd ▸ h.objFiles oid ho, fun d hs q hq => ?_⟩
  rw [hg, if_neg]
  · exact h.noFile d hs q hq
  · rintro rfl; exact hp d hs hq

theorem Spec.Tidy.delName {root : Path} {fs : FS} (h : Tidy root fs) (p : Path) : Tidy root (fs.delName p) := by
  refine ⟨h.objFiles, fun d hs q hq => ?_⟩
  rw [FS.get_delName]
  split
  · rfl
  · exact h.noFile d hs q hq

theorem Spec.Tidy.addDirs {root : Path} {fs : FS} (h : Tidy root fs) (ds : List Path)
    (hds : ∀ q ∈ ds, ∃ d, SkelDir root d ∧ q <+: d) : Tidy root (fs.addDirs ds) := by
  refine ⟨fun oid ho hm => ?_, h.noFile⟩
  simp only [FS.addDirs, List.mem_append] at hm
  rcases hm with hm | hm
  · obtain ⟨d, hs, hp⟩ := hds _ hm
    exact skelDir_obj hs _ hp
  · exact h.objFiles oid ho hm

theorem near_objectFile (root : Path) (oid : Bytes) : near root (objectFile root oid) = true :=
  near_of_prefix ((List.prefix_append _ _).trans (List.prefix_append _ _))

theorem near_lockFile (root : Path) (n : Bytes) : near root (lockFile root n) = true :=
  near_of_prefix (List.prefix_append _ _)

theorem topDirs_below {root d : Path} (h : d ∈ topDirs root) : root <+: d := by
  simp only [topDirs, List.mem_cons, List.not_mem_nil, or_false] at h
  rcases h with rfl | rfl | rfl | rfl <;> exact List.prefix_append _ _

theorem near_skelDir {root d : Path} (h : SkelDir root d) : near root d = true := by
  rcases h with h | ⟨oid, _, rfl⟩
  · exact near_of_prefix (topDirs_below h)
  · exact near_of_prefix (List.prefix_append _ _)

theorem Spec.Tidy.elsewhere {root : Path} {fs fs' : FS} (h : Tidy root fs) (he : Elsewhere root fs fs') :
    Tidy root fs' := by
  refine ⟨fun oid ho hm => h.objFiles oid ho ((he.mem_dirs (near_objectFile root oid)).mp hm), fun d hd q hq => ?_⟩
  rw [he.get]
  · exact h.noFile d hd q hq
  · rcases hd with hd | ⟨oid, ho, rfl⟩
    · exact near_prefix (topDirs_below hd) hq
    · exact near_prefix (List.prefix_append _ _) hq

theorem sem_tidy {cfg : Cfg} {fs : FS} {s : Own} {o : Op} (c : Choice) (hm : s.may cfg o) (h : Tidy cfg.root fs) :
    Tidy cfg.root (sem c fs o).1 ∧ ∀ d ∈ fs.dirs, d ∈ (sem c fs o).1.dirs := by
  cases o with
  | mkdirAll p =>
    have hs := skelDir_may hm
    have add : ∀ ds : List Path, (∀ q ∈ ds, q ∈ pathPrefixes p) →
        Tidy cfg.root (fs.addDirs ds) ∧ ∀ d ∈ fs.dirs, d ∈ (fs.addDirs ds).dirs := fun ds hds =>
      ⟨h.addDirs ds fun q hq => ⟨p, hs, mem_pathPrefixes (hds q hq)⟩,
       fun d hd => by simp only [FS.addDirs, List.mem_append]; exact .inr hd⟩
    simp only [sem]
    split
    · exact add _ fun q hq => List.mem_of_mem_take (List.mem_filter.mp hq).1
    · split
      · exact ⟨h, fun _ h => h⟩
      · exact add _ fun q hq => (List.mem_filter.mp hq).1
  | createTemp d pre uid =>
    obtain ⟨rfl, _⟩ := hm
    simp only [sem]
    split
    · exact ⟨h, fun _ h => h⟩
    · split
      · obtain ⟨sfx, e⟩ := FS.freshName_dir fs (incompleteDir cfg.root) (pre ++ c.rand)
        exact ⟨h.setName (i := fs.next) rfl (FS.get_create _ _ · _ _) fun d hs => e ▸ skelDir_incomplete hs _,
          fun _ h => h⟩
      · exact ⟨h, fun _ h => h⟩
  | createNew p uid =>
    obtain ⟨x, rfl⟩ := hm
    simp only [sem]
    repeat' split
    · exact ⟨h, fun _ h => h⟩
    · exact ⟨h, fun _ h => h⟩
    · refine ⟨h.setName (i := fs.next) rfl (FS.get_create _ _ · _ _) fun d hs => ?_, fun _ h => h⟩
      unfold lockTemp
      rw [locksDir_join]
      exact skelDir_lock hs _
    · exact ⟨h, fun _ h => h⟩
  | write i b =>
    simp only [sem]
    split <;> exact ⟨⟨h.objFiles, h.noFile⟩, fun _ h => h⟩
  | rename src dst =>
    obtain ⟨i, d, _, _, rfl⟩ := hm
    simp only [sem]
    repeat' split
    case h_2.isFalse.isFalse.isFalse j _ _ _ _ =>
      refine ⟨(h.delName src).setName (i := j) rfl (FS.get_setName _ _ · _) fun d hs => ?_, fun _ h => h⟩
      rw [← objectFile_eq]
      exact skelDir_obj hs _
    all_goals exact ⟨h, fun _ h => h⟩
  | link src dst =>
    obtain ⟨x, _, _, _, rfl, _⟩ := hm
    simp only [sem]
    repeat' split
    case h_2.isFalse.isFalse j _ _ _ =>
      refine ⟨h.setName (i := j) rfl (FS.get_setName _ _ · _) fun d hs => ?_, fun _ h => h⟩
      rw [lockPath_eq]
      exact skelDir_lock hs _
    all_goals exact ⟨h, fun _ h => h⟩
  | unlink p =>
    simp only [sem]
    repeat' split
    all_goals first | exact ⟨h, fun _ h => h⟩ | exact ⟨h.delName _, fun _ h => h⟩
  | chmod p m =>
    simp only [sem]
    repeat' split
    all_goals exact ⟨⟨h.objFiles, h.noFile⟩, fun _ h => h⟩
  | stat p =>
    simp only [sem]
    repeat' split
    all_goals exact ⟨h, fun _ h => h⟩
  | openRead p =>
    simp only [sem]
    repeat' split
    all_goals exact ⟨h, fun _ h => h⟩
  | fstat p =>
    simp only [sem]
    repeat' split
    all_goals exact ⟨h, fun _ h => h⟩
  | readAll p =>
    simp only [sem]
    repeat' split
    all_goals exact ⟨h, fun _ h => h⟩
  | readDir p =>
    simp only [sem]
    repeat' split
    all_goals exact ⟨h, fun _ h => h⟩
  | now => exact ⟨h, fun _ h => h⟩
  | out b =>
    simp only [sem]
    repeat' split
    all_goals exact ⟨h, fun _ h => h⟩
  | flush =>
    simp only [sem]
    repeat' split
    all_goals exact ⟨h, fun _ h => h⟩

theorem Moves.tidy {root : Path} {sha : Bytes → Bytes} {s s' : Sys} {ow ow' : Nat → Own}
    {l : Option (Nat × Event)} (hm : Moves root sha s ow l s' ow') (h : Tidy root s.fs) :
    Tidy root s'.fs ∧ ∀ d, near root d = true → d ∈ s.fs.dirs → d ∈ s'.fs.dirs := by
  cases hm with
  | call cfg i o k c hp h1 h2 hm => subst h1; exact ⟨(sem_tidy c hm h).1, fun d _ => (sem_tidy c hm h).2 d⟩
  | writeSome => exact ⟨⟨h.objFiles, h.noFile⟩, fun _ _ h => h⟩
  | mkdirSome cfg i p n e k hp h1 h2 hm => subst h1; exact ⟨(sem_tidy _ hm h).1, fun d _ => (sem_tidy _ hm h).2 d⟩
  | kill => exact ⟨h, fun _ _ h => h⟩
  | elsewhere fs' he => exact ⟨h.elsewhere he, fun d hn hd => (he.mem_dirs hn).mpr hd⟩

theorem Moves.noLockDirs {root : Path} {sha : Bytes → Bytes} {s s' : Sys} {ow ow' : Nat → Own}
    {l : Option (Nat × Event)} (hm : Moves root sha s ow l s' ow') (h : NoLockDirs root s.fs) :
    NoLockDirs root s'.fs := by
  have skel : ∀ {cfg : Cfg} {s : Own} {o : Op}, s.may cfg o → ∀ p, o = .mkdirAll p → ∀ n q, q ∈ pathPrefixes p →
      q ≠ lockFile cfg.root n := by
    rintro cfg s o hm p rfl n q hq rfl
    exact skelDir_lock (skelDir_may hm) n (mem_pathPrefixes hq)
  cases hm with
  | call cfg i o k c hp h1 h2 hm => subst h1; exact sem_noLockDirs c hm (skel hm) h
  | writeSome => exact h
  | mkdirSome cfg i p n e k hp h1 h2 hm => subst h1; exact sem_noLockDirs _ hm (skel hm) h
  | kill => exact h
  | elsewhere fs' he => exact fun n hn => h n ((he.mem_dirs (near_lockFile root n)).mp hn)

theorem Moves.uid {root : Path} {sha : Bytes → Bytes} {s s' : Sys} {ow ow' : Nat → Own}
    {l : Option (Nat × Event)} (hm : Moves root sha s ow l s' ow') {j : Ino} (hj : j < s.fs.next)
    (hb : near root (s.fs.inodes j).born = true) :
    (s'.fs.inodes j).uid = (s.fs.inodes j).uid ∧ (s'.fs.inodes j).born = (s.fs.inodes j).born := by
  cases hm with
  | call cfg i o k c hp h1 h2 hm => exact ⟨sem_uid _ _ _ _ hj, sem_born _ _ _ _ hj⟩
  | writeSome cfg i ino b n k =>
    exact ⟨sem_uid Choice.none s.fs (.write ino (b.take n)) j hj, sem_born Choice.none s.fs (.write ino (b.take n)) j hj⟩
  | mkdirSome => exact ⟨sem_uid _ _ _ _ hj, sem_born _ _ _ _ hj⟩
  | kill => exact ⟨rfl, rfl⟩
  | elsewhere fs' he => exact (he.inodes j hj hb).2

/-! ### The environment of one process -/

/-- What is known about an execution, from the point of view of process `i`. -/
structure Env (ρ : Execution) (i : Nat) (root : Path) (sha : Bytes → Bytes) (ow : Nat → Nat → Own) : Prop where
  inv : ∀ n, Inv root (ρ.st n).fs (ow n)
  tidy : ∀ n, Tidy root (ρ.st n).fs
  calm : ∀ N, ρ.NoFault i N
  dirs : ∀ n d, near root d = true → d ∈ (ρ.st n).fs.dirs → d ∈ (ρ.st (n + 1)).fs.dirs
  objs : ∀ n oid, (ρ.st (n + 1)).fs.content (objPath root oid) = (ρ.st n).fs.content (objPath root oid) ∨
    ∃ j src c, ρ.lab n = some (j, ⟨.rename src (objPath root oid), .ok ()⟩) ∧
      (ρ.st (n + 1)).fs.content (objPath root oid) = some c ∧ hexEncode (sha c) = oid
  stable : ∀ n j, Sealed root (ρ.st n).fs (ow n) j →
    Sealed root (ρ.st (n + 1)).fs (ow (n + 1)) j ∧ ((ρ.st (n + 1)).fs.inodes j).data = ((ρ.st n).fs.inodes j).data
  move : ∀ n, Moves root sha (ρ.st n) (ow n) (ρ.lab n) (ρ.st (n + 1)) (ow (n + 1)) ∨
    (ρ.st (n + 1) = ρ.st n ∧ ow (n + 1) = ow n ∧ ρ.lab n = none)
  lk : ∀ n, LkInv root sha (ρ.st n).fs (ow n)
  nm : ∀ n, NmInv root sha (ρ.st n).fs (ow n)
  uids : ∀ n j, j < (ρ.st n).fs.next → near root ((ρ.st n).fs.inodes j).born = true →
    ((ρ.st (n + 1)).fs.inodes j).uid = ((ρ.st n).fs.inodes j).uid ∧
    ((ρ.st (n + 1)).fs.inodes j).born = ((ρ.st n).fs.inodes j).born
  lockDirs : NoLockDirs root (ρ.st 0).fs → ∀ n, NoLockDirs root (ρ.st n).fs

theorem Env.of_start {ρ : Execution} {i : Nat} {root : Path} {sha : Bytes → Bytes} (hs : ρ.Begins root sha)
    (ht : Tidy root (ρ.st 0).fs) (hc : ∀ N, ρ.NoFault i N) :
    ∃ ow, Env ρ i root sha ow ∧ ow 0 = fun _ => ⟨none, [], none⟩ := by
  have next : ∀ n (ow : Nat → Own), Good root sha (ρ.st n) ow → ∃ ow', Good root sha (ρ.st (n + 1)) ow' ∧
      (∀ oid, (ρ.st (n + 1)).fs.content (objPath root oid) = (ρ.st n).fs.content (objPath root oid) ∨
        ∃ j src c, ρ.lab n = some (j, ⟨.rename src (objPath root oid), .ok ()⟩) ∧
          (ρ.st (n + 1)).fs.content (objPath root oid) = some c ∧ hexEncode (sha c) = oid) ∧
      (∀ j, Sealed root (ρ.st n).fs ow j → Sealed root (ρ.st (n + 1)).fs ow' j ∧
        ((ρ.st (n + 1)).fs.inodes j).data = ((ρ.st n).fs.inodes j).data) ∧
      (Moves root sha (ρ.st n) ow (ρ.lab n) (ρ.st (n + 1)) ow' ∨
        (ρ.st (n + 1) = ρ.st n ∧ ow' = ow ∧ ρ.lab n = none)) := by
    intro n ow hg
    rcases ρ.step n with h | ⟨h, hl⟩
    · rw [hs.dir] at h
      obtain ⟨ow', h1, h2, h3, h4⟩ := hg.move h
      exact ⟨ow', h1, h2, h3, .inl h4⟩
    · exact ⟨ow, h ▸ hg, fun oid => .inl (by rw [h]), fun j hj => by rw [h]; exact ⟨hj, rfl⟩, .inr ⟨h, rfl, hl⟩⟩
  let F : (n : Nat) → { ow : Nat → Own // Good root sha (ρ.st n) ow } := fun n =>
    Nat.rec ⟨fun _ => ⟨none, [], none⟩, Good.start hs.start⟩
      (fun n p => ⟨Classical.choose (next n p.1 p.2), (Classical.choose_spec (next n p.1 p.2)).1⟩) n
  have spec := fun n => (Classical.choose_spec (next n (F n).1 (F n).2)).2
  have tidy : ∀ n, Tidy root (ρ.st n).fs := by
    intro n
    induction n with
    | zero => exact ht
    | succ n ih =>
      rcases (spec n).2.2 with h | ⟨h, _⟩
      · exact (h.tidy ih).1
      · rw [h]; exact ih
  have locks : ∀ n, LkInv root sha (ρ.st n).fs (F n).1 ∧ NmInv root sha (ρ.st n).fs (F n).1 := by
    intro n
    induction n with
    | zero => exact ⟨LkInv.init, NmInv.init⟩
    | succ n ih =>
      rcases (spec n).2.2 with h | ⟨h, h', _⟩
      · obtain ⟨hf, he⟩ := follows_effect (F n).2.1 ih.1 h.follows
        exact ⟨ih.1.step (F n).2.1 hf he, ih.2.step ih.1 (F n).2.1 he⟩
      · have h' : (F (n + 1)).1 = (F n).1 := h'
        rw [h', congrArg Sys.fs h]; exact ih
  refine ⟨fun n => (F n).1, ⟨fun n => (F n).2.1, tidy, hc, fun n d hn hd => ?_, fun n => (spec n).1,
    fun n => (spec n).2.1, fun n => (spec n).2.2, fun n => (locks n).1, fun n => (locks n).2, fun n j hj hb => ?_,
    fun h0 n => ?_⟩, rfl⟩
  · rcases (spec n).2.2 with h | ⟨h, _⟩
    · exact (h.tidy (tidy n)).2 d hn hd
    · rw [h]; exact hd
  · rcases (spec n).2.2 with h | ⟨h, _⟩
    · exact h.uid hj hb
    · rw [h]; exact ⟨rfl, rfl⟩
  · induction n with
    | zero => exact h0
    | succ n ih =>
      rcases (spec n).2.2 with h | ⟨h, _⟩
      · exact h.noLockDirs ih
      · rw [h]; exact ih

namespace Env
variable {ρ : Execution} {i : Nat} {root : Path} {sha : Bytes → Bytes} {ow : Nat → Nat → Own}
  (E : Env ρ i root sha ow)
include E

theorem dirs_le {a b : Nat} (h : a ≤ b) {d : Path} (hn : near root d = true) (hd : d ∈ (ρ.st a).fs.dirs) : d ∈ (ρ.st b).fs.dirs := by
  induction h with
  | refl => exact hd
  | step _ ih => exact E.dirs _ _ hn ih

theorem seal_le {a b : Nat} (h : a ≤ b) {j : Ino} (hj : Sealed root (ρ.st a).fs (ow a) j) :
    Sealed root (ρ.st b).fs (ow b) j ∧ ((ρ.st b).fs.inodes j).data = ((ρ.st a).fs.inodes j).data := by
  induction h with
  | refl => exact ⟨hj, rfl⟩
  | step _ ih =>
    obtain ⟨h1, h2⟩ := E.stable _ _ ih.1
    exact ⟨h1, h2.trans ih.2⟩

/-- Objects stay. -/
theorem kept {a b : Nat} (h : a ≤ b) {oid : Bytes} (hg : ((ρ.st a).fs.get (objPath root oid)).isSome) :
    ((ρ.st b).fs.get (objPath root oid)).isSome := by
  have e : ∀ n, ((ρ.st n).fs.get (objPath root oid)).isSome = ((ρ.st n).fs.content (objPath root oid)).isSome := by
    intro n; simp [FS.content]
  rw [e] at hg ⊢
  induction h with
  | refl => exact hg
  | @step m _ ih =>
    rcases E.objs m oid with h | ⟨j, src, c, _, h, _⟩
    · rw [h]; exact ih
    · rw [h]; rfl

/-- The inode of an object is never written again. -/
theorem sealed_obj {n : Nat} {oid : Bytes} {j : Ino} (h : (ρ.st n).fs.get (objPath root oid) = some j) :
    Sealed root (ρ.st n).fs (ow n) j := ⟨(E.inv n).bound _ _ h,
  (E.inv n).home _ _ (near_of_prefix (objPath_below root oid)) h, (E.inv n).objs _ _ h⟩

end Env

/-! ### The logic of one process among others -/

/-- The moment until which the process has been followed, and what it owns. -/
structure Gh where
  now : Nat
  own : Own

/-- The next call of process `i` from moment `a` on is at moment `n`. -/
structure Spec.Execution.Until (ρ : Execution) (i a n : Nat) : Prop where
  le : a ≤ n
  idle : ∀ k, a ≤ k → k < n → ¬ ρ.By i k

/-- The call was made at moment `n`. Of a write, a part may have been done before. -/
def MadeAt (ρ : Execution) (i : Nat) (ow : Nat → Nat → Own) (s : Own) (n : Nat) : (o : Op) → Resp o → Prop
  | .write ino _, x => ∃ b', ρ.lab n = some (i, ⟨.write ino b', x⟩)
  | o, x => ρ.lab n = some (i, ⟨o, x⟩) ∧ ow n i = s

/-- Calls happen at the moments given by `next`. -/
def Logic.among (ρ : Execution) (i : Nat) (ow : Nat → Nat → Own) (next : Nat → Nat) : Logic Gh where
  pre _ _ := True
  upd g o x := ⟨next g.now + 1, g.own.upd o x⟩
  legal g o x := ρ.Until i g.now (next g.now) ∧ ow (next g.now + 1) i = g.own.upd o x ∧
    MadeAt ρ i ow g.own (next g.now) o x

/-- `next` is right. -/
def IsNext (ρ : Execution) (i : Nat) (next : Nat → Nat) : Prop :=
  ∀ a n, ρ.Until i a n → ρ.By i n → next a = n

theorem isNext_exists (ρ : Execution) (i : Nat) : ∃ next, IsNext ρ i next := by
  classical
  refine ⟨fun a => if h : ∃ n, ρ.Until i a n ∧ ρ.By i n then Classical.choose h else 0, fun a n h1 h2 => ?_⟩
  have h : ∃ n, ρ.Until i a n ∧ ρ.By i n := ⟨n, h1, h2⟩
  simp only [dif_pos h]
  obtain ⟨k1, k2⟩ := Classical.choose_spec h
  rcases Nat.lt_trichotomy (Classical.choose h) n with hlt | he | hlt
  · exact absurd k2 (h1.idle _ k1.le hlt)
  · exact he
  · exact absurd h2 (k1.idle _ h1.le hlt)

theorem MadeAt.of {ρ : Execution} {i : Nat} {ow : Nat → Nat → Own} {s : Own} {n : Nat} {o : Op} {x : Resp o}
    (h : ρ.lab n = some (i, ⟨o, x⟩)) (hs : ow n i = s) : MadeAt ρ i ow s n o x := by
  cases o <;> first | exact ⟨h, hs⟩ | exact ⟨_, h⟩

/-- Following the process. -/
theorem among_follow {ρ : Execution} {i : Nat} {root : Path} {sha : Bytes → Bytes} {ow : Nat → Nat → Own}
    (E : Env ρ i root sha ow) (hk : ∀ N, ρ.NotKilled i N) {next : Nat → Nat} (hn : IsNext ρ i next) {Q : Exit → Gh → Prop}
    (hw : ((ρ.st 0).procs i).wp (Logic.among ρ i ow next) ⟨0, ow 0 i⟩ Q) (n : Nat) :
    ∃ g : Gh, ρ.Until i g.now n ∧ g.own = ow n i ∧ ((ρ.st n).procs i).wp (Logic.among ρ i ow next) g Q := by
  induction n with
  | zero => exact ⟨_, ⟨Nat.le_refl _, fun k _ h => absurd h (Nat.not_lt_zero _)⟩, rfl, hw⟩
  | succ n ih =>
    obtain ⟨g, hu, ho, hw⟩ := ih
    have stay : ¬ ρ.By i n → ρ.Until i g.now (n + 1) := fun h => by
      refine ⟨Nat.le_succ_of_le hu.le, fun k h1 h2 => ?_⟩
      rcases Nat.lt_succ_iff_lt_or_eq.mp h2 with h2 | rfl
      · exact hu.idle k h1 h2
      · exact h
    rcases E.move n with hm | ⟨h1, h2, h3⟩
    · generalize hl : ρ.lab n = l at hm
      generalize hs' : ρ.st (n + 1) = s' at hm
      generalize hw' : ow (n + 1) = ow' at hm
      have hnk := hk (n + 1) (n + 1) (Nat.le_refl _)
      rw [hs'] at hnk
      cases hm with
      | call cfg j o k c hp h1 h2 hm =>
        by_cases hj : j = i
        · subst hj
          have hby : ρ.By j n := ⟨_, hl⟩
          have hnx := hn _ _ hu hby
          rw [hp] at hw
          refine ⟨⟨n + 1, g.own.upd o (sem c (ρ.st n).fs o).2⟩, ⟨Nat.le_refl _, fun k h1 h2 => absurd h1 (Nat.not_le.mpr h2)⟩, ?_, ?_⟩
          · simp [ho]
          · have := hw.2 (sem c (ρ.st n).fs o).2 ⟨hnx.symm ▸ hu, ?_, ?_⟩
            · simp only [Sys.setProc, if_true]
              have e : (Logic.among ρ j ow next).upd g o (sem c (ρ.st n).fs o).2 =
                ⟨n + 1, g.own.upd o (sem c (ρ.st n).fs o).2⟩ := by simp [Logic.among, hnx]
              rw [← e]
              exact this
            · rw [hnx, hw', updAt_same, ho]
            · rw [hnx]; exact .of hl ho.symm
        · refine ⟨g, stay ?_, ?_, ?_⟩
          · rintro ⟨e, he⟩
            rw [hl] at he
            cases he
            exact hj rfl
          · rw [updAt_ne _ _ (Ne.symm hj)]; exact ho
          · simp only [Sys.setProc, Ne.symm hj, if_false]; exact hw
      | writeSome cfg j ino b m k hp h1 h2 hm =>
        have hnb : ¬ ρ.By i n := fun ⟨e, he⟩ => by rw [hl] at he; cases he
        by_cases hj : j = i
        · subst hj
          rw [hp] at hw
          refine ⟨⟨g.now, g.own.upd (.write ino (b.take m)) (.ok ())⟩, stay hnb, ?_, ?_⟩
          · simp [ho]
          · simp only [Sys.setProc, if_true]
            refine ⟨trivial, fun x hx => ?_⟩
            obtain ⟨x1, x2, x3⟩ := hx
            have hp := Own.upd_write_parts g.own ino b m x
            have := hw.2 x ⟨x1, x2.trans hp, x3⟩
            have e : (Logic.among ρ j ow next).upd ⟨g.now, g.own.upd (.write ino (b.take m)) (.ok ())⟩
                (.write ino (b.drop m)) x = (Logic.among ρ j ow next).upd g (.write ino b) x := by
              show (⟨_, _⟩ : Gh) = ⟨_, _⟩
              rw [hp]
            have e' := congrArg (fun z => Prog.wp (Logic.among ρ j ow next) (k x) z Q) e
            exact e'.mpr this
        · refine ⟨g, stay hnb, ?_, ?_⟩
          · rw [updAt_ne _ _ (Ne.symm hj)]; exact ho
          · simp only [Sys.setProc, Ne.symm hj, if_false]; exact hw
      | mkdirSome cfg j p m e k hp h1 h2 hm =>
        have hnb : ¬ ρ.By i n := fun ⟨e, he⟩ => by rw [hl] at he; cases he
        exact ⟨g, stay hnb, ho, hw⟩
      | elsewhere fs' he =>
        have hnb : ¬ ρ.By i n := fun ⟨e, he⟩ => by rw [hl] at he; cases he
        exact ⟨g, stay hnb, ho, hw⟩
      | kill j =>
        have hnb : ¬ ρ.By i n := fun ⟨e, he⟩ => by rw [hl] at he; cases he
        by_cases hj : j = i
        · subst hj
          exact absurd (by simp [Sys.setProc]) hnk
        · refine ⟨g, stay hnb, ho, ?_⟩
          simp only [Sys.setProc, Ne.symm hj, if_false]; exact hw
    · refine ⟨g, stay fun ⟨e, he⟩ => ?_, by rw [h2]; exact ho, by rw [h1]; exact hw⟩
      rw [h3] at he; cases he

end Verif
