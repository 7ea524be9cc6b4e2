import Verif.Lemmas.LockInv
import Verif.Props.Crash
/-!
Property C28: what lock files contain, for any number of server processes with any input, any I/O errors, any
interleaving, killed at any point.
-/
namespace Verif
open Spec

/-- All invariants on lock files, at a reachable state. -/
theorem reach_lock {root : Path} {sha : Bytes → Bytes} {s0 s : Sys} {tr : List (Nat × Event)}
    (h0 : Start root sha s0) (h : Steps root s0 tr s) :
    ∃ ow, Good root sha s ow ∧ LkInv root sha s.fs ow ∧
      (PreInv root sha s0.fs (fun _ => ⟨none, [], none⟩) → PreInv root sha s.fs ow) ∧
      ∀ id, (∃ x, id = lockName sha x) → Apart root id tr →
        FullInv root sha id s0.fs (fun _ => ⟨none, [], none⟩) [] → FullInv root sha id s.fs ow tr := by
  induction h with
  | refl => exact ⟨_, Good.start h0, .init, id, fun _ _ _ h => h⟩
  | tail hs hl ih =>
    obtain ⟨ow, hg, hk, hpre, hfull⟩ := ih
    obtain ⟨ow', hg', _, _, hfol⟩ := hg.step' hl
    obtain ⟨hf, he⟩ := follows_effect hg.1 hk hfol
    refine ⟨ow', hg', hk.step hg.1 hf he, fun hp => (hpre hp).step hk hg.1 he, fun id hid ha hp => ?_⟩
    exact (hfull id hid ha.prefix hp).step hid hk hg.1 ha hf he

/-- **C28**, what is true of all executions: a lock file contains the beginning of a record of a lock with its
ID (and nothing else), if that was so at the start, also for the temporary files that were there.

Full property: it contains a complete record. That is false (`C28_refuted`); missing is the completeness when
requests for the same lock overlap. -/
theorem C28_prefix_partial {root : Path} {sha : Bytes → Bytes} {s0 s : Sys} {tr : List (Nat × Event)}
    (h0 : Start root sha s0) (h : Steps root s0 tr s)
    (hi : ∀ path c, (s0.fs.content (lockFile root (lockName sha path)) = some c ∨
      s0.fs.content (lockTempFile root (lockName sha path)) = some c) → StartsRecord sha (lockName sha path) c) :
    ∀ path c, (s.fs.content (lockFile root (lockName sha path)) = some c ∨
      s.fs.content (lockTempFile root (lockName sha path)) = some c) → StartsRecord sha (lockName sha path) c := by
  obtain ⟨ow, _, _, hp, _⟩ := reach_lock h0 h
  have hp := hp ⟨fun x j hj => hi x _ ?_, fun i p j d hw => by cases hw⟩
  · intro path c hc
    have : ∃ j, (s.fs.get (lockTempFile root (lockName sha path)) = some j ∨
        s.fs.get (lockFile root (lockName sha path)) = some j) ∧ c = (s.fs.inodes j).data := by
      rcases hc with h | h
      · unfold FS.content at h
        cases hg : s.fs.get (lockFile root (lockName sha path)) with
        | none => rw [hg] at h; cases h
        | some j => rw [hg] at h; cases h; exact ⟨j, .inr rfl, rfl⟩
      · unfold FS.content at h
        cases hg : s.fs.get (lockTempFile root (lockName sha path)) with
        | none => rw [hg] at h; cases h
        | some j => rw [hg] at h; cases h; exact ⟨j, .inl rfl, rfl⟩
    obtain ⟨j, hj, rfl⟩ := this
    exact hp.pre path j hj
  · rcases hj with h | h
    · exact .inr (by simp [FS.content, h])
    · exact .inl (by simp [FS.content, h])

/-- **C28** when requests for the same lock do not get in each other's way: at every moment, also when processes are
killed and calls fail, the lock file contains a complete record of a lock with its ID, or does not exist.

Full property: without the hypothesis `Apart`; that is false (`C28_refuted`). -/
theorem C28_complete_partial {root : Path} {sha : Bytes → Bytes} {s0 s : Sys} {tr : List (Nat × Event)} {path : Bytes}
    (h0 : Start root sha s0) (h : Steps root s0 tr s) (ha : Apart root (lockName sha path) tr)
    (hi : ∀ c, s0.fs.content (lockFile root (lockName sha path)) = some c → IsRecord sha (lockName sha path) c) :
    ∀ c, s.fs.content (lockFile root (lockName sha path)) = some c → IsRecord sha (lockName sha path) c := by
  obtain ⟨ow, _, _, _, hp⟩ := reach_lock h0 h
  have hp := hp _ ⟨path, rfl⟩ ha ⟨fun j hj => ⟨hi _ (by simp [FS.content, hj]), fun i p d hw => (by cases hw)⟩,
    fun i j d hw => (by cases hw), fun i k v v' hw => (by cases hw), fun i v hw => (by cases hw)⟩
  intro c hc
  unfold FS.content at hc
  cases hg : s.fs.get (lockFile root (lockName sha path)) with
  | none => rw [hg] at hc; cases hc
  | some j => rw [hg] at hc; cases hc; exact (hp.full j hg).1

/-- A single process never gets in its own way: whatever it is sent, whatever fails, and wherever it is killed, lock
files contain complete records if they did at the start. -/
theorem C28_alone_partial {root : Path} {sha : Bytes → Bytes} {s0 s : Sys} {tr : List (Nat × Event)} {path : Bytes}
    {i : Nat} (h0 : Start root sha s0) (h : Steps root s0 tr s) (ha : ∀ e ∈ tr, e.1 = i)
    (hi : ∀ c, s0.fs.content (lockFile root (lockName sha path)) = some c → IsRecord sha (lockName sha path) c) :
    ∀ c, s.fs.content (lockFile root (lockName sha path)) = some c → IsRecord sha (lockName sha path) c := by
  refine C28_complete_partial h0 h ?_ hi
  rintro a k uid x b k' uid' y c rfl hne
  have h1 := ha (k, ⟨.createNew (lockTempFile root (lockName sha path)) uid, x⟩) (by simp)
  have h2 := ha (k', ⟨.createNew (lockTempFile root (lockName sha path)) uid', y⟩) (by simp)
  exact absurd (h1.trans h2.symm) hne

/-! ### Counterexample and examples -/

namespace Tests

/-- Process 0 creates the temporary file; process 1 fails to do so, and removes it; process 2 creates it again;
process 0 writes to the file it created and publishes the one of process 2. -/
def emptyLock : List (Nat × Choice) :=
  List.replicate 9 (0, Choice.none) ++ List.replicate 10 (1, Choice.none) ++
  List.replicate 9 (2, Choice.none) ++ List.replicate 2 (0, Choice.none)

theorem not_record_nil (sha : Bytes → Bytes) (id : Bytes) : ¬IsRecord sha id [] := by
  rintro ⟨l, _, h⟩
  have := congrArg List.length h
  simp [lockText] at this

end Tests

open Tests in
/-- **C28** is false: three servers get the same `lock` request, no call is made to fail and nobody is killed; the
lock file is then there and empty. -/
theorem C28_refuted : ∃ (root : Path) (sha : Bytes → Bytes) (path : Bytes) (s0 : Sys) (sched : List (Nat × Choice)),
    Start root sha s0 ∧ (∀ n, s0.fs.get (lockFile root n) = none) ∧ (∀ e ∈ sched, e.2 = Choice.none) ∧
    ∃ c, (s0.exec sched).1.fs.content (lockFile root (lockName sha path)) = some c ∧
      ¬IsRecord sha (lockName sha path) c := by
  refine ⟨_, _, b!"f", allLock, emptyLock, allLock_start, fun _ => rfl, ?_, [], by decide +kernel, not_record_nil _ _⟩
  intro e he
  simp only [emptyLock, List.mem_append] at he
  rcases he with ((he | he) | he) | he <;> rw [(List.mem_replicate.mp he).2]

namespace Tests

/-- Process 0 takes the lock, then process 1 fails to. -/
def oneAfterOther : List (Nat × Choice) := List.replicate 25 (0, Choice.none) ++ List.replicate 15 (1, Choice.none)

/-- The calls that matter for `Apart`. -/
def newB (t : Path) (e : Nat × Event) : Option (Nat × Bool) :=
  match e.2.1 with
  | .createNew p _ => if p = t then some (e.1, true) else none
  | .unlink p => if p = t then some (e.1, false) else none
  | _ => none

theorem newB_unlink {t : Path} {e : Nat × Event} {i : Nat} (h : newB t e = some (i, false)) :
    ∃ z, e = (i, ⟨.unlink t, z⟩) := by
  obtain ⟨k, o, x⟩ := e
  cases o <;> simp only [newB] at h <;> try (cases h)
  · split at h <;> cases h
  · rename_i p
    split at h
    · rename_i hp; subst hp; cases h; exact ⟨x, rfl⟩
    · cases h

theorem apart_two {root : Path} {id : Bytes} {tr : List (Nat × Event)} {i k : Nat}
    (h : tr.filterMap (newB (lockTempFile root id)) = [(i, true), (i, false), (k, true), (k, false)]) :
    Apart root id tr := by
  intro a i' uid x b k' uid' y c he hne
  right
  subst he
  simp only [List.filterMap_append, List.filterMap_cons, newB, if_true] at h
  generalize hfa : a.filterMap (newB (lockTempFile root id)) = fa at h
  generalize hfb : b.filterMap (newB (lockTempFile root id)) = fb at h
  generalize c.filterMap (newB (lockTempFile root id)) = fc at h
  have : (i', false) ∈ fb := by
    have hlen := congrArg List.length h
    clear hfa hfb
    rcases fa with _ | ⟨_, _ | ⟨_, _ | ⟨_, fa⟩⟩⟩ <;> rcases fb with _ | ⟨_, _ | ⟨_, _ | ⟨_, fb⟩⟩⟩ <;>
      first | (simp at hlen; omega) | simp_all
  rw [← hfb, List.mem_filterMap] at this
  obtain ⟨e, he, h⟩ := this
  obtain ⟨z, rfl⟩ := newB_unlink h
  exact ⟨z, he⟩

end Tests

open Tests in
/-- `C28_prefix_partial` applies to that execution. -/
example : StartsRecord Tests.cfg.sha (lockName Tests.cfg.sha b!"f") [] :=
  C28_prefix_partial allLock_start (Sys.exec_steps _ emptyLock allLock)
    (by rintro path c (h | h) <;> cases h) b!"f" [] (.inl (by decide +kernel))

open Tests in
/-- `C28_complete_partial` applies when one process asks after the other; the lock file is there. -/
example : Apart Tests.cfg.root (lockName Tests.cfg.sha b!"f") (allLock.exec oneAfterOther).2 ∧
    (allLock.exec oneAfterOther).1.fs.content (lockFile Tests.cfg.root (lockName Tests.cfg.sha b!"f")) =
      some b!"v1:1000684800:f" := by
  refine ⟨apart_two (i := 0) (k := 1) (by decide +kernel), by decide +kernel⟩

open Tests in
/-- `C28_alone_partial` applies to a process that was killed just after it published the lock. -/
example : IsRecord Tests.cfg.sha (lockName Tests.cfg.sha b!"f") b!"v1:1000684800:f" :=
  C28_alone_partial (i := 0) allLock_start
    ((Sys.exec_steps _ (List.replicate 11 (0, Choice.none)) allLock).tail (.kill 0))
    (by decide +kernel) (by intro c h; cases h) _ (by decide +kernel)

end Verif
