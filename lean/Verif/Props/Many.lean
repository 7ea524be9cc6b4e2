import Verif.Lemmas.Many
import Verif.Props.System
import Verif.Props.SharedLocks
/-!
C62: servers of other repositories do not matter. Any number of servers for any number of repositories share a file
system. What one of the repositories sees of it is an execution with its own servers only, in which now and then another
program does something elsewhere; so all that has been shown about the servers of one repository holds for it.
-/
namespace Verif
open Spec

section
variable {R : Nat → Path} {sha : Bytes → Bytes} {s0 s s' : Sys} {tr : List (Nat × Event)}

/-- **C62.** A call of a server of another repository changes nothing below the LFS directory: no name, no file, no
directory. -/
theorem C62_untouched (h0 : StartMany R sha s0) (h : StepsMany R s0 tr s) {i k : Nat} {e : Event}
    (hl : StepMany R s (some (i, e)) s') (hne : R i ≠ R k) {p : Path} (hp : R k <+: p) :
    s'.fs.get p = s.fs.get p ∧ s'.fs.content p = s.fs.content p ∧ s'.fs.isDir p = s.fs.isDir p ∧
    ∀ j, s.fs.get p = some j → (s'.fs.inodes j).uid = (s.fs.inodes j).uid := by
  have g := h0.good.steps h
  have hs := hl.only g k
  have el : Elsewhere (R k) s.fs s'.fs := by
    rw [show onlyCall R (R k) (some (i, e)) = none by simp [onlyCall, Option.filter, hne]] at hs
    cases hl with
    | call i o f c hp =>
      obtain ⟨ow, hg⟩ := g.good i
      obtain ⟨cfg, h1, _, hw⟩ := hg.2 i
      rw [show (only R (R i) (s0.procs i) s).procs i = s.procs i from if_pos rfl, hp] at hw
      exact call_elsewhere (h1 ▸ (g.apart k i).resolve_left fun e => hne e.symm) (h1 ▸ g.parents i)
        (by rw [h1]; exact hg.1) c hw.1
  obtain ⟨ow, hg⟩ := g.good k
  have hget := el.get (near_of_prefix hp)
  have hin : ∀ j, s.fs.get p = some j → j < s.fs.next ∧ near (R k) (s.fs.inodes j).born = true := fun j hj =>
    ⟨hg.1.bound _ _ hj, hg.1.home _ _ (near_of_prefix hp) hj⟩
  refine ⟨hget, content_eq hget fun j hj => (el.inodes j (hin j hj).1 (hin j hj).2).1, ?_, fun j hj =>
    (el.inodes j (hin j hj).1 (hin j hj).2).2.1⟩
  rw [Bool.eq_iff_iff, isDir_iff, isDir_iff, el.mem_dirs (near_of_prefix hp)]

/-- **C62.** What one repository sees is its own servers, from their start on, and other programs at work elsewhere. -/
theorem C62_view (h0 : StartMany R sha s0) (h : StepsMany R s0 tr s) (k : Nat) :
    Start (R k) sha (only R (R k) (s0.procs k) s0) ∧
    Steps (R k) (only R (R k) (s0.procs k) s0) (onlyCalls R (R k) tr) (only R (R k) (s0.procs k) s) := by
  refine ⟨h0.only k, ?_⟩
  induction h with
  | refl => exact .refl
  | @tail tr s1 l s2 h hl ih =>
    have := ih.tail (hl.only (h0.good.steps h) k)
    have e : onlyCalls R (R k) (tr ++ l.toList) = onlyCalls R (R k) tr ++ (onlyCall R (R k) l).toList := by
      cases l with
      | none => simp [onlyCalls, onlyCall]
      | some x => by_cases hx : R x.1 = R k <;> simp [onlyCalls, onlyCall, Option.filter, hx]
    rw [e]; exact this

/-- **C62.** The content of each object of each repository hashes to its name. -/
theorem C62_integrity (h0 : StartMany R sha s0) (h : StepsMany R s0 tr s) (k : Nat)
    (hi : ∀ oid c, IsOid oid → s0.fs.content (objectFile (R k) oid) = some c → hex (sha c) = oid) :
    ∀ oid c, IsOid oid → s.fs.content (objectFile (R k) oid) = some c → hex (sha c) = oid :=
  C12_integrity (s := only R (R k) (s0.procs k) s) (C62_view h0 h k).1 (C62_view h0 h k).2 hi

/-- The calls that link a lock of a repository are those of its servers. -/
theorem StepsMany.link_own (h0 : StartMany R sha s0) (h : StepsMany R s0 tr s) {i k : Nat} {src : Path} {id : Bytes}
    {x : Except IoErr Unit} (hm : (i, (⟨.link src (lockFile (R k) id), x⟩ : Event)) ∈ tr) : R i = R k := by
  induction h with
  | refl => cases hm
  | @tail tr s1 l s2 h hl ih =>
    rcases List.mem_append.mp hm with hm | hm
    · exact ih hm
    · cases hl with
      | call i' o f c hp =>
        simp only [Option.toList_some, List.mem_singleton, Prod.mk.injEq] at hm
        obtain ⟨rfl, he⟩ := hm
        injection he with ho _
        subst ho
        obtain ⟨ow, hg⟩ := (h0.good.steps h).good i
        obtain ⟨cfg, h1, _, hw⟩ := hg.2 i
        rw [show (only R (R i) (s0.procs i) s1).procs i = s1.procs i from if_pos rfl, hp] at hw
        obtain ⟨_, t, ino, _, e, _⟩ := hw.1
        refine (h0.apart i k).resolve_right fun hf => ?_
        have hb : R i <+: lockFile (R k) id := by
          rw [e, ← h1]; exact (List.prefix_append _ _).trans (List.prefix_append _ _)
        rw [near_comm] at hf
        have := far_of_below hf hb
        exact absurd (near_of_prefix (p := lockFile (R k) id) (List.prefix_append _ _)) (by rw [this]; decide)
      | _ => cases hm

/-- **C62.** Locks of each repository exclude each other: between two servers' taking the same lock, a server of this
repository removes it. -/
theorem C62_exclusion (h0 : StartMany R sha s0) (h : StepsMany R s0 tr s) {a b c : List (Nat × Event)} {i i' k : Nat}
    {src src' : Path} {id : Bytes}
    (he : tr = a ++ (i, ⟨.link src (lockFile (R k) id), .ok ()⟩) :: b ++
      (i', ⟨.link src' (lockFile (R k) id), .ok ()⟩) :: c) :
    ∃ j, R j = R k ∧ (j, (⟨.unlink (lockFile (R k) id), .ok ()⟩ : Event)) ∈ b := by
  have h1 : R i = R k := StepsMany.link_own (src := src) (id := id) (x := .ok ()) h0 h (by rw [he]; simp)
  have h2 : R i' = R k := StepsMany.link_own (src := src') (id := id) (x := .ok ()) h0 h (by rw [he]; simp)
  obtain ⟨j, hj⟩ := C25_mutual_exclusion (a := onlyCalls R (R k) a) (b := onlyCalls R (R k) b) (c := onlyCalls R (R k) c)
    (i := i) (i' := i') (src := src) (src' := src') (id := id) (C62_view h0 h k).1 (C62_view h0 h k).2
    (by rw [he]; simp [onlyCalls, h1, h2])
  obtain ⟨hj1, hj2⟩ := List.mem_filter.mp hj
  exact ⟨j, by simpa using hj2, hj1⟩
end

section
variable {ρ : ExecutionMany} {sha : Bytes → Bytes}

/-- **C62.** The same for all moments of an execution. -/
theorem C62_execution (h0 : StartMany ρ.dir sha (ρ.st 0)) (k : Nat) :
    ∃ ρ' : Execution, ρ.Shows (ρ.dir k) ρ' ∧ ρ'.Begins (ρ.dir k) sha := by
  have g : ∀ n, GoodMany ρ.dir sha (ρ.st 0).procs (ρ.st n) := by
    intro n
    induction n with
    | zero => exact h0.good
    | succ n ih =>
      rcases ρ.step n with h | ⟨h, _⟩
      · exact ih.step h
      · rw [h]; exact ih
  refine ⟨⟨ρ.dir k, fun n => only ρ.dir (ρ.dir k) ((ρ.st 0).procs k) (ρ.st n), fun n => onlyCall ρ.dir (ρ.dir k) (ρ.lab n),
    fun n => ?_⟩, ⟨rfl, fun _ => rfl, fun n i hi => if_pos hi, fun n i e => ?_⟩, ⟨rfl, h0.only k⟩⟩
  · rcases ρ.step n with h | ⟨h, h'⟩
    · exact .inl (h.only (g n) k)
    · exact .inr ⟨by rw [h], by rw [h']; rfl⟩
  · simp only [onlyCall, Option.filter_eq_some_iff, decide_eq_true_eq]

variable {cfg : Cfg} {mode : Mode} {qs : List Request} {wire : Bytes} {r : Rdr} {i N : Nat}

/-- **C62.** A server answers, one request after the other, as the simple server does on the objects and locks of its own
repository, whatever servers of other repositories are doing. -/
theorem C62_answers (h0 : StartMany ρ.dir cfg.sha (ρ.st 0)) (hdir : ρ.dir i = cfg.root) (htidy : Tidy cfg.root (ρ.st 0).fs)
    (hl : NoLockDirs cfg.root (ρ.st 0).fs) (hone : OneEach (ρ.st 0).fs)
    (hp : (ρ.st 0).procs i = mainProg cfg (Mode.operation mode) r)
    (hsha : ∀ b, (cfg.sha b).length = 32)
    (hclk : ∀ t, (cfg.timestamp = some t ∨ cfg.timestamp = none ∧ ∃ n < N, ρ.lab n = some (i, ⟨.now, t⟩)) → TimeOk cfg t)
    (hsome : ∃ t, TimeOk cfg t)
    (hs : Session mode qs wire)
    (hi : r.input = wire) (hpend : r.pending = []) (hfin : r.fin.kind = .unexpectedEof)
    (hc : ρ.NoFault i N) (hk : ρ.NotKilled i N) :
    ∃ ρ' : Execution, ρ.Shows cfg.root ρ' ∧
      ((ρ'.out i 0 N <+: b!"000eversion=1\n0000" ∧ ρ'.Leaves cfg.root i 0 N none ∧ ρ'.LeavesLocks cfg.root i 0 N none) ∨
      ∃ a b rest, a ≤ b ∧ b ≤ N ∧ ρ'.out i 0 a = b!"000eversion=1\n0000" ∧
        ρ'.Leaves cfg.root i 0 a none ∧ ρ'.LeavesLocks cfg.root i 0 a none ∧
        Serves ρ' i cfg mode a qs b rest ∧ Busy ρ' i cfg mode b N rest) := by
  obtain ⟨ρ', hsh, hb⟩ := C62_execution h0 i
  rw [hdir] at hsh hb
  refine ⟨ρ', hsh, C57_linearizable hb (by rw [hsh.files]; exact htidy) (by rw [hsh.files]; exact hl)
    (by rw [hsh.files]; exact hone) ((hsh.procs 0 i hdir).trans hp) hsha ?_ hsome hs hi hpend hfin ?_ ?_⟩
  · rintro t (h | ⟨h, n, _, hn, he⟩)
    · exact hclk t (.inl h)
    · exact hclk t (.inr ⟨h, n, hn, ((hsh.calls n i _).mp he).1⟩)
  · intro n e hn he
    rw [hsh.files, hsh.files]
    exact hc n e hn ((hsh.calls n i e).mp he).1
  · intro n hn
    rw [hsh.procs n i hdir]
    exact hk n hn
end

/-! ### A case -/

/-- The execution in which the processes are scheduled as `sched` says, after another program has done something. -/
def Sys.scheduledMany (R : Nat → Path) (s : Sys) (fs : FS) (h : ∀ i, Elsewhere (R i) s.fs fs) (sched : Nat → Nat) :
    ExecutionMany where
  dir := R
  st n := match n with
    | 0 => s
    | n + 1 => Nat.rec ⟨fs, s.procs⟩ (fun n t => (t.exec1 (sched n) Choice.none).1) n
  lab n := match n with
    | 0 => none
    | n + 1 => ((Nat.rec ⟨fs, s.procs⟩ (fun n t => (t.exec1 (sched n) Choice.none).1) n : Sys).exec1 (sched n) Choice.none).2
  step n := by
    cases n with
    | zero => exact .inl (.elsewhere fs h)
    | succ n =>
      simp only
      generalize (Nat.rec ⟨fs, s.procs⟩ (fun n t => (t.exec1 (sched n) Choice.none).1) n : Sys) = t
      cases hp : t.procs (sched n) with
      | ret x => rw [exec1_ret hp]; exact .inr ⟨rfl, rfl⟩
      | call o k => rw [exec1_call hp]; exact .inl (.call _ o k _ hp)

section
variable {R : Nat → Path} {s : Sys} {fs : FS} {h : ∀ i, Elsewhere (R i) s.fs fs} {sched : Nat → Nat}

theorem Sys.scheduledMany_noFault (i N : Nat) : (s.scheduledMany R fs h sched).NoFault i N := by
  intro n e _ he
  cases n with
  | zero => cases he
  | succ n =>
    simp only [scheduledMany] at he ⊢
    generalize (Nat.rec ⟨fs, s.procs⟩ (fun n t => (t.exec1 (sched n) Choice.none).1) n : Sys) = t at *
    cases hp : t.procs (sched n) with
    | ret x => rw [exec1_ret hp] at he; cases he
    | call o k =>
      rw [exec1_call hp] at he ⊢
      cases he
      exact ⟨Choice.none, rfl, rfl⟩

theorem Sys.scheduledMany_notKilled {i : Nat} (hh : (s.procs i).Honest) (N : Nat) :
    (s.scheduledMany R fs h sched).NotKilled i N := by
  have : ∀ n, (((s.scheduledMany R fs h sched).st n).procs i).Honest := by
    intro n
    cases n with
    | zero => exact hh
    | succ n =>
      induction n with
      | zero => exact hh
      | succ n ih =>
        simp only [scheduledMany] at ih ⊢
        generalize (Nat.rec ⟨fs, s.procs⟩ (fun n t => (t.exec1 (sched n) Choice.none).1) n : Sys) = t at *
        cases hp : t.procs (sched n) with
        | ret x => rw [exec1_ret hp]; exact ih
        | call o k =>
          rw [exec1_call hp]
          simp only [Sys.setProc]
          split
          · rename_i hij
            subst hij
            rw [hp] at ih
            exact ih _
          · exact ih
  intro n _ e
  have := this n
  rw [e] at this
  exact this rfl

/-- The calls of the first `N` steps. -/
def Spec.ExecutionMany.trace (ρ : ExecutionMany) : Nat → List (Nat × Event)
  | 0 => []
  | n + 1 => ρ.trace n ++ (ρ.lab n).toList

theorem Spec.ExecutionMany.steps (ρ : ExecutionMany) (n : Nat) : StepsMany ρ.dir (ρ.st 0) (ρ.trace n) (ρ.st n) := by
  induction n with
  | zero => exact .refl
  | succ n ih =>
    rcases ρ.step n with h | ⟨h, h'⟩
    · exact ih.tail h
    · simp only [trace, h, h', Option.toList_none, List.append_nil]; exact ih
end

namespace Tests

/-- Another repository. -/
def cfgB : Cfg := { Tests.cfg with root := [b!"other", b!".git", b!"lfs"] }

/-- Processes 1, 4, 7, … serve the other repository. -/
def dirs (i : Nat) : Path := if i % 3 = 1 then cfgB.root else Tests.cfg.root

/-- Two repositories, and a file that belongs to neither. -/
def fsTwo : FS := ⟨[([b!"notes"], 0)], [[b!"other"], [b!"other", b!".git"], [b!"repo"], [b!"repo", b!".git"]],
  fun _ => ⟨b!"old", 0, 0, [b!"notes"]⟩, 1⟩

/-- The same after this file has been changed, and another one has been created beside the LFS directory. -/
def fsTwo' : FS := ⟨[([b!"repo", b!".git", b!"x"], 1), ([b!"notes"], 0)],
  [[b!"other"], [b!"other", b!".git"], [b!"repo"], [b!"repo", b!".git"]],
  fun i => if i = 0 then ⟨b!"new", 0, 0, [b!"notes"]⟩ else ⟨[], 0, 0, [b!"repo", b!".git", b!"x"]⟩, 2⟩

theorem dirs_cases {P : Path → Prop} (h1 : P Tests.cfg.root) (h2 : P cfgB.root) (i : Nat) : P (dirs i) := by
  unfold dirs; split <;> assumption

theorem fsTwo_elsewhere (i : Nat) : Elsewhere (dirs i) fsTwo fsTwo' := by
  refine dirs_cases (P := fun p => Elsewhere p fsTwo fsTwo') ?_ ?_ i <;>
  · refine ⟨by decide +kernel, by decide +kernel, fun _ => by decide +kernel, fun p j h => ?_, fun j hj h => ?_, by decide⟩
    · have : j = 1 ∨ j = 0 := by
        have := FS.alGet_mem h
        simp only [fsTwo', List.mem_cons, Prod.mk.injEq, List.not_mem_nil, or_false] at this
        rcases this with h | h
        · exact .inl h.2
        · exact .inr h.2
      rcases this with rfl | rfl
      · exact .inr (by decide)
      · exact .inl ⟨[b!"notes"], by decide +kernel⟩
    · have : j = 0 := Nat.lt_one_iff.mp hj
      subst this
      revert h; decide +kernel

/-- Process 0 uploads an object to the first repository, process 1 tries to download it from the other one, process 2
downloads it from the first. -/
def threeServers : Sys :=
  ⟨fsTwo, fun i => if i % 3 = 1 then server cfgB b!"download" (if i = 1 then enc getA' ++ (enc getA' ++ []) else [])
    else if i = 0 then server Tests.cfg b!"upload" (enc (putA [b!"abc", b!"123"]))
    else server Tests.cfg b!"download" (if i = 2 then enc getA' ++ (enc getA' ++ []) else [])⟩

theorem three_start : StartMany dirs Tests.cfg.sha threeServers := by
  refine ⟨fun i => ?_, fun i k => ?_, fun i => ?_, fun p j h => ?_, fun i p j hp h => ?_⟩
  · unfold threeServers dirs server; dsimp only
    split
    · exact ⟨_, _, _, rfl, rfl, rfl⟩
    · split <;> exact ⟨_, _, _, rfl, rfl, rfl⟩
  · refine dirs_cases (P := fun p => p = dirs k ∨ near p (dirs k) = false) ?_ ?_ i
    · exact dirs_cases (P := fun q => Tests.cfg.root = q ∨ near Tests.cfg.root q = false) (by decide +kernel) (by decide +kernel) k
    · exact dirs_cases (P := fun q => cfgB.root = q ∨ near cfgB.root q = false) (by decide +kernel) (by decide +kernel) k
  · refine dirs_cases (P := fun r => ∀ q, q <+: r → q ≠ r → threeServers.fs.isDir q = true) ?_ ?_ i <;>
    · intro q hq hne
      have hlt := List.IsPrefix.length_le hq
      rw [List.prefix_iff_eq_take] at hq
      have : q.length = 0 ∨ q.length = 1 ∨ q.length = 2 ∨ q.length = 3 := by
        have : q.length ≤ 3 := hlt
        omega
      rcases this with h | h | h | h <;> rw [h] at hq <;> subst hq
      · decide +kernel
      · decide +kernel
      · decide +kernel
      · exact absurd rfl hne
  · have := FS.alGet_mem h
    simp only [threeServers, fsTwo, List.mem_cons, Prod.mk.injEq, List.not_mem_nil, or_false] at this
    rw [this.2]; decide
  · have := FS.alGet_mem h
    simp only [threeServers, fsTwo, List.mem_cons, Prod.mk.injEq, List.not_mem_nil, or_false] at this
    rw [this.1] at hp
    exact absurd hp (by
      refine dirs_cases (P := fun q => ¬ near q [b!"notes"] = true) ?_ ?_ i <;> decide +kernel)

/-- The processes take turns. -/
def turns3 (n : Nat) : Nat := n % 3

def threeRun : ExecutionMany := threeServers.scheduledMany dirs fsTwo' fsTwo_elsewhere turns3

/-- What process `i` prints in the first `N` steps. -/
def printed (ρ : ExecutionMany) (i N : Nat) : Bytes :=
  (List.range N).flatMap fun n => match ρ.lab n with
    | some (j, ⟨.out b, _⟩) => if j = i then b else []
    | _ => []

/-- The object never shows up in the other repository … -/
example : printed threeRun 1 110 = b!"000eversion=1\n0000" ++
    (b!"000fstatus 404\n0001000enot found\n0000") ++ (b!"000fstatus 404\n0001000enot found\n0000") := by decide +kernel

/-- … but in the first one. -/
example : printed threeRun 2 110 = b!"000eversion=1\n0000" ++
    (b!"000fstatus 404\n0001000enot found\n0000") ++ (b!"000fstatus 200\n000bsize=6\n0001000aabc1230000") := by decide +kernel

/-- The theorems apply to this execution, for both repositories … -/
example (k : Nat) := C62_execution (ρ := threeRun) three_start k

theorem fsTwo_tidy (i : Nat) : Tidy (dirs i) fsTwo := by
  refine dirs_cases (P := fun r => Tidy r fsTwo) ?_ ?_ i <;>
  · refine ⟨fun oid ho h => ?_, fun d hd q hq => ?_⟩
    · have : ∀ d ∈ fsTwo.dirs, d.length ≤ 2 := by decide
      have := this _ h
      simp [objectFile, objectDir, Tests.cfg, cfgB] at this
    · cases h : fsTwo.get q with
      | none => rfl
      | some j =>
        exfalso
        have := FS.alGet_mem h
        simp only [fsTwo, List.mem_cons, Prod.mk.injEq, List.not_mem_nil, or_false] at this
        rw [this.1] at hq
        have key : ∀ r : Path, ¬ [b!"notes"] <+: r → r ≠ [] → r <+: d → False := by
          intro r h1 h2 h3
          rcases List.prefix_or_prefix_of_prefix hq h3 with h | h
          · exact h1 h
          · rcases h with ⟨t, ht⟩
            cases r with
            | nil => exact h2 rfl
            | cons a r =>
              injection ht with e1 e2
              refine h1 ⟨r, ?_⟩
              rw [← e1]; rfl
        refine key _ ?_ ?_ (hd.elim (fun h => topDirs_below h) fun ⟨oid, _, e⟩ => e ▸ List.prefix_append _ _)
        · rw [← List.isPrefixOf_iff_prefix]; decide +kernel
        · decide

theorem fsTwo_noLockDirs (i : Nat) : NoLockDirs (dirs i) fsTwo := by
  refine dirs_cases (P := fun r => NoLockDirs r fsTwo) ?_ ?_ i <;>
  · intro id h
    have : ∀ d ∈ fsTwo.dirs, d.length ≤ 2 := by decide
    have := this _ h
    simp [lockFile, Tests.cfg, cfgB] at this

theorem timeOk_cfgB : TimeOk cfgB 1000684800 := by unfold TimeOk; decide +kernel

/-- … with the integrity of both … -/
example (k : Nat) := C62_integrity (s := threeRun.st 110) three_start (threeRun.steps 110) k

/-- … and the last one applies to process 1, which serves the other repository. -/
example := C62_answers (ρ := threeRun) (cfg := cfgB) (i := 1) (N := 110) (mode := .download) three_start rfl
  (fsTwo_tidy 1) (fsTwo_noLockDirs 1) (by unfold OneEach; decide +kernel) rfl sha256_length
  (fun t h => by rcases h with h | ⟨h, _⟩ <;> cases h; exact timeOk_cfgB) ⟨_, timeOk_cfgB⟩ getA_session rfl rfl rfl
  (Sys.scheduledMany_noFault _ _) (Sys.scheduledMany_notKilled (honest_main _ _ _) _)

/-- Process 0 takes and releases a lock in the first repository, process 1 takes the lock for the same path in the other
one, process 2 in the first one. -/
def threeLocks : Sys :=
  ⟨fsTwo, fun i => if i % 3 = 1 then server cfgB b!"upload" (if i = 1 then enc (Tests.lockOf b!"f") else [])
    else if i = 0 then server Tests.cfg b!"upload" (enc (Tests.lockOf b!"f") ++ (enc unlockF ++ []))
    else server Tests.cfg b!"upload" (if i = 2 then enc (Tests.lockOf b!"f") else [])⟩

theorem threeLocks_start : StartMany dirs Tests.cfg.sha threeLocks := by
  refine ⟨fun i => ?_, three_start.apart, three_start.parents, three_start.bound, three_start.home⟩
  unfold threeLocks dirs server; dsimp only
  split
  · exact ⟨_, _, _, rfl, rfl, rfl⟩
  · split <;> exact ⟨_, _, _, rfl, rfl, rfl⟩

/-- Processes 0 and 1 alternate, then comes process 2. -/
def locksRun : ExecutionMany :=
  threeLocks.scheduledMany dirs fsTwo' fsTwo_elsewhere fun n => if n < 120 then n % 2 else 2

/-- Both repositories have the lock at the same time; within the first one it is taken twice, with a removal between. -/
example : (locksRun.trace 180).filterMap isLockChange =
    (let f := lockFile Tests.cfg.root (lockName Tests.cfg.sha b!"f")
     let t := lockTempFile Tests.cfg.root (lockName Tests.cfg.sha b!"f")
     let g := lockFile cfgB.root (lockName cfgB.sha b!"f")
     let u := lockTempFile cfgB.root (lockName cfgB.sha b!"f")
     [(0, true, f), (1, true, g), (0, false, t), (1, false, u), (0, false, f), (2, true, f), (2, false, t)]) := by
  decide +kernel

/-- The theorem applies to it. -/
example {a b c : List (Nat × Event)} {i i' k : Nat} {src src' : Path} {id : Bytes} :=
  C62_exclusion (a := a) (b := b) (c := c) (i := i) (i' := i') (k := k) (src := src) (src' := src') (id := id)
    threeLocks_start (locksRun.steps 180)

end Tests
end Verif
