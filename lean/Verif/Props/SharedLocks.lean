import Verif.Lemmas.AliveLock
import Verif.Props.Shared
import Verif.Props.Crash
/-!
C57: requests about locks while other servers work on the same repository. As long as no other process touches the
same lock meanwhile, the request is answered as by the simple server.
-/
namespace Verif
open Spec

variable {cfg : Cfg} {mode : Mode} {ρ : Execution} {c : Choice} {i N : Nat} {r : Rdr} {qs : List Request} {wire : Bytes}

theorem leavesLocks_prefix {root : Path} {a b c : Nat} {e : Option (Nat × Bytes)} (h2 : b ≤ c)
    (h : ρ.LeavesLocks root i a c e) : ρ.LeavesLocks root i a b e := fun n h1 h3 => h n h1 (by omega)

theorem exists_reply : ∃ b, IsReply b := ⟨_, isReply_replyWith (Status.failure 500 []) none (by decide)⟩

theorem excused_mono {a b d : Nat} {q : Request} (h : Excused ρ i cfg a b q) (hbd : b ≤ d) : Excused ρ i cfg a d q := by
  unfold Excused at h ⊢
  split at h
  · exact h.mono hbd
  · exact h.mono hbd
  · exact h.mono hbd
  · obtain ⟨es, h1, h2⟩ := h
    exact ⟨es, h1.mono hbd, h2⟩
  · exact h

/-- A request that turns out to be excused later. -/
theorem busy_excused {a e : Nat} {q : Request} {rest : List Request} (ha : a ≤ N) (h3 : ρ.out i a N = []) (he : N ≤ e)
    (h5 : Excused (ρ.then c i N) i cfg a e q) (h7 : ρ.Leaves cfg.root i a N none)
    (h8 : lockOf cfg q = none → ρ.LeavesLocks cfg.root i a N none) : Busy ρ i cfg mode a N (q :: rest) := by
  by_cases ho : lockOf cfg q = none
  · refine .working h3 ?_
    unfold WorkingOn
    rw [ho]
    exact ⟨.inl h7, h8 ho⟩
  · have h5 := Execution.then_excused_lock ha ho h5
    rw [Nat.min_eq_right he] at h5
    obtain ⟨more, hm⟩ := exists_reply
    exact .excused ha (Nat.le_refl _) h3 h5 (more := more) (by rw [out_self]; exact hm) h7 h8

/-- What has been done at moment `N` about a request that is answered later. -/
theorem answers_working {a e : Nat} {q : Request} {ans : Answer} (h4 : Answers (ρ.then c i N) i cfg mode a e q ans) (he : N ≤ e) :
    WorkingOn ρ i cfg mode a N q := by
  have cut : ∀ {x : Option Nat}, (ρ.then c i N).Leaves cfg.root i a e x → ρ.Leaves cfg.root i a N x := fun h =>
    Execution.then_leaves (Nat.le_refl _) (leaves_prefix (by omega) h)
  have cutl : ∀ {x : Option (Nat × Bytes)}, (ρ.then c i N).LeavesLocks cfg.root i a e x →
      ρ.LeavesLocks cfg.root i a N x := fun h =>
    Execution.then_leavesLocks (Nat.le_refl _) (leavesLocks_prefix (by omega) h)
  have lk : ∀ id, (∃ n t t', n < e ∧ LockStep (ρ.then c i N) i cfg mode a n q id t t' ans ∧
      (ans.code = 201 → (ρ.then c i N).ClockIn i cfg a e t') ∧
      (ρ.then c i N).LeavesLocks cfg.root i a e (some (n, id)) ∧ (ρ.then c i N).Leaves cfg.root i a e none) →
      ρ.Leaves cfg.root i a N none ∧ (ρ.LeavesLocks cfg.root i a N none ∨
        ∃ n t t' ans, n < N ∧ LockStep ρ i cfg mode a n q id t t' ans ∧
          ρ.LeavesLocks cfg.root i a N (some (n, id))) := by
    rintro id ⟨n, t, t', k1, k2, k3, k4, k5⟩
    refine ⟨cut k5, ?_⟩
    by_cases hn : n < N
    · exact .inr ⟨n, t, t', ans, hn, Execution.then_lockStep hn k2, cutl k4⟩
    · refine .inl fun m m1 m2 m3 id' hid' _ => cutl k4 m m1 m2 m3 id' hid' ?_
      simp only [ne_eq, Option.some.injEq, Prod.mk.injEq, not_and]
      omega
  cases q with
  | put oid size data =>
    obtain ⟨⟨n, k1, k2, k3, k4, k5, k6⟩, k7⟩ := h4
    refine ⟨?_, cutl k7⟩
    by_cases hn : n < N
    · refine .inr ⟨n, k1, hn, cut k6, ?_⟩
      unfold storeAt at k5
      rw [Execution.then_objects hn, Execution.then_objects (by omega)] at k5
      exact k5
    · refine .inl fun m m1 m2 _ => cut k6 m m1 m2 ?_
      simp only [ne_eq, Option.some.injEq]
      omega
  | batch items => exact ⟨.inl (cut h4.1.choose_spec.2.2.2.2), cutl h4.2⟩
  | verify oid size => exact ⟨.inl (cut h4.1.choose_spec.2.2.2), cutl h4.2⟩
  | get oid => exact ⟨.inl (cut h4.1.choose_spec.2.2.2), cutl h4.2⟩
  | version => exact ⟨.inl (cut h4.1.2), cutl h4.2⟩
  | quit => exact ⟨.inl (cut h4.1.2), cutl h4.2⟩
  | lock path => exact lk _ h4
  | listLocks path cursor limit =>
    cases path with
    | none => exact ⟨.inl (cut h4.1.1), cutl h4.2⟩
    | some path => exact lk _ h4
  | unlock id => exact lk _ h4

/-- What was served in the whole is served or being served at moment `N`. -/
theorem serves_cut {a b : Nat} {rest : List Request} (h : Serves (ρ.then c i N) i cfg mode a qs b rest) (ha : a ≤ N) :
    (b ≤ N ∧ Serves ρ i cfg mode a qs b rest) ∨
    ∃ b' rest', b' ≤ N ∧ Serves ρ i cfg mode a qs b' rest' ∧ Busy ρ i cfg mode b' N rest' := by
  induction h with
  | nil => exact .inl ⟨ha, .nil⟩
  | @cons a e b d q qs rest ans h1 h2 h3 h4 h5 h6 h7 hs ih =>
    by_cases hb : b ≤ N
    · rw [Execution.then_out (by omega)] at h3 h5
      have h4 := Execution.then_answers (by omega) h4
      have h6 := Execution.then_leaves hb h6
      have h7 := Execution.then_leavesLocks hb h7
      rcases ih hb with ⟨k1, k2⟩ | ⟨b', rest', k1, k2, k3⟩
      · exact .inl ⟨k1, .cons h1 h2 h3 h4 h5 h6 h7 k2⟩
      · exact .inr ⟨b', rest', k1, .cons h1 h2 h3 h4 h5 h6 h7 k2, k3⟩
    refine .inr ⟨a, q :: qs, ha, .nil, ?_⟩
    by_cases he : e ≤ N
    · rw [out_append _ _ he (by omega), Execution.then_out (Nat.le_refl _)] at h5
      rw [Execution.then_out (by omega)] at h3
      exact .replying h1 he h3 (Execution.then_answers he h4) h5
        (Execution.then_leaves (Nat.le_refl _) (leaves_prefix (by omega) h6))
        (Execution.then_leavesLocks (Nat.le_refl _) (leavesLocks_prefix (by omega) h7))
    · refine .working ?_ (answers_working h4 (by omega))
      rw [← Execution.then_out (Nat.le_refl _)]
      exact out_prefix ha (by omega) h3
  | @excused a e b d q qs rest h1 h2 h3 h5 h6 h7 h8 hs ih =>
    by_cases hb : b ≤ N
    · rw [Execution.then_out (by omega)] at h3 h6
      have h5 := Execution.then_excused ha (by omega) h5
      have h7 := Execution.then_leaves hb h7
      have h8 := fun h => Execution.then_leavesLocks hb (h8 h)
      rcases ih hb with ⟨k1, k2⟩ | ⟨b', rest', k1, k2, k3⟩
      · exact .inl ⟨k1, .excused h1 h2 h3 h5 h6 h7 h8 k2⟩
      · exact .inr ⟨b', rest', k1, .excused h1 h2 h3 h5 h6 h7 h8 k2, k3⟩
    have h7 := Execution.then_leaves (Nat.le_refl N) (leaves_prefix (by omega) h7)
    have h8 := fun h => Execution.then_leavesLocks (Nat.le_refl N) (leavesLocks_prefix (by omega) (h8 h))
    refine .inr ⟨a, q :: qs, ha, .nil, ?_⟩
    by_cases he : e ≤ N
    · rw [out_append _ _ he (by omega), Execution.then_out (Nat.le_refl _)] at h6
      rw [Execution.then_out (by omega)] at h3
      exact .excused h1 he h3 (Execution.then_excused ha he h5) h6 h7 h8
    · have h3 := out_prefix ha (by omega) h3
      rw [Execution.then_out (Nat.le_refl _)] at h3
      exact busy_excused ha h3 (by omega) h5 h7 h8

/-- **C57.** Several servers on one repository, each reading any input, scheduled in any order, interrupted and
killed at will. One of them is sent well-formed requests, and has met no I/O error so far.
Then it has printed a part of the greeting, or the greeting and then the replies to the requests, in order, up to some
place. Each reply is the answer of the simple server at one moment while the request was served, and the objects and
the lock change at that moment as the simple server says; its other calls leave objects and locks alone. This holds
unless another process changed the same lock file, or the temporary file beside it, while the request was served
(or the file was damaged before): then there is some reply. A listing of all locks is no answer of one moment: the
server reads the names in the locks directory and then each file in turn (`Listed`); see C59. -/
theorem C57_linearizable (hstart : ρ.Begins cfg.root cfg.sha) (htidy : Tidy cfg.root (ρ.st 0).fs)
    (hl : NoLockDirs cfg.root (ρ.st 0).fs) (hone : OneEach (ρ.st 0).fs)
    (hp : (ρ.st 0).procs i = mainProg cfg (Mode.operation mode) r)
    (hsha : ∀ b, (cfg.sha b).length = 32)
    (hclk : ∀ t, ρ.ClockIn i cfg 0 N t → TimeOk cfg t) (hsome : ∃ t, TimeOk cfg t)
    (hs : Session mode qs wire)
    (hi : r.input = wire) (hpend : r.pending = []) (hfin : r.fin.kind = .unexpectedEof)
    (hc : ρ.NoFault i N) (hk : ρ.NotKilled i N) :
    (ρ.out i 0 N <+: b!"000eversion=1\n0000" ∧ ρ.Leaves cfg.root i 0 N none ∧ ρ.LeavesLocks cfg.root i 0 N none) ∨
    ∃ a b rest, a ≤ b ∧ b ≤ N ∧ ρ.out i 0 a = b!"000eversion=1\n0000" ∧
      ρ.Leaves cfg.root i 0 a none ∧ ρ.LeavesLocks cfg.root i 0 a none ∧
      Serves ρ i cfg mode a qs b rest ∧ Busy ρ i cfg mode b N rest := by
  obtain ⟨t0, ht0⟩ := hsome
  let c : Choice := { Choice.none with time := t0 }
  obtain ⟨M, x, hM, hx⟩ := Execution.then_ends ρ c i N
  have h0 : (ρ.then c i N).st 0 = ρ.st 0 := Execution.then_st (Nat.zero_le _)
  have hh : ((ρ.st 0).procs i).Honest := by rw [hp]; exact honest_main _ _ _
  obtain ⟨a, d, had, hdM, h1, h2, h2', h3, h4⟩ := through_among (ρ := ρ.then c i N) ⟨hstart.dir, by rw [h0]; exact hstart.start⟩
    (by rw [h0]; exact htidy) (by rw [h0]; exact hl) (by rw [h0]; exact hone) (by rw [h0]; exact hp) hsha
    (fun a b t ht => (Execution.then_clock ht).elim (hclk t) fun h => h ▸ ht0) hs hi hpend hfin
    (Execution.then_noFault rfl hc) (Execution.then_notKilled hh hk) hx
  by_cases ha : a ≤ N
  · have g1 : ρ.out i 0 a = b!"000eversion=1\n0000" := by rw [← Execution.then_out ha]; exact h1
    have g2 := Execution.then_leaves ha h2
    have g3 := Execution.then_leavesLocks ha h2'
    have fin : ∀ {b rest}, b ≤ N → Serves ρ i cfg mode a qs b rest → Busy ρ i cfg mode b N rest →
        ∃ a b rest, a ≤ b ∧ b ≤ N ∧ ρ.out i 0 a = b!"000eversion=1\n0000" ∧
        ρ.Leaves cfg.root i 0 a none ∧ ρ.LeavesLocks cfg.root i 0 a none ∧
        Serves ρ i cfg mode a qs b rest ∧ Busy ρ i cfg mode b N rest :=
      fun k1 k2 k3 => ⟨a, _, _, serves_le k2, k1, g1, g2, g3, k2, k3⟩
    refine .inr ?_
    rcases h3 with ⟨_, h3⟩ | ⟨_, b, e, q, rest, h3, k1, k2, k3, k5, k6, k7⟩
    · rcases serves_cut h3 ha with ⟨hd, h3⟩ | ⟨b', rest', l1, l2, l3⟩
      · have hu : (ρ.then c i N).Until i d N := ⟨hd, fun n l1 l2 => h4 n l1 (by omega)⟩
        refine fin hd h3 (.idle ?_ (Execution.then_leaves (c := c) (Nat.le_refl _) hu.leaves)
          (Execution.then_leavesLocks (c := c) (Nat.le_refl _) fun n l1 l2 l3 => absurd l3 (hu.idle n l1 l2)))
        rw [← Execution.then_out (c := c) (Nat.le_refl _)]
        exact out_idle hu
      · exact fin l1 l2 l3
    · rcases serves_cut h3 ha with ⟨hb, h3⟩ | ⟨b', rest', l1, l2, l3⟩
      · have o1 : ρ.out i b N = [] := by
          by_cases hd : d ≤ N
          · rw [← Execution.then_out (c := c) (Nat.le_refl _), out_append _ _ (by omega : b ≤ d) hd, k3]
            exact out_idle ⟨hd, fun n l1 l2 => h4 n l1 (by omega)⟩
          · rw [← Execution.then_out (c := c) (Nat.le_refl _)]
            exact out_prefix hb (by omega) k3
        have o2 : ρ.Leaves cfg.root i b N none := by
          refine Execution.then_leaves (c := c) (Nat.le_refl _) ?_
          intro n l1 l2 l3 l4
          by_cases hn : n < d
          · exact k6 n l1 hn l3 l4
          · exact absurd l4 (h4 n (by omega) (by omega))
        have o3 : lockOf cfg q = none → ρ.LeavesLocks cfg.root i b N none := by
          intro ho
          refine Execution.then_leavesLocks (c := c) (Nat.le_refl _) ?_
          intro n l1 l2 l3
          by_cases hn : n < d
          · exact k7 ho n l1 hn l3
          · exact absurd l3 (h4 n (by omega) (by omega))
        refine fin hb h3 (busy_excused (c := c) hb o1 (Nat.le_max_right e N) (excused_mono k5 (Nat.le_max_left e N)) o2 o3)
      · exact fin l1 l2 l3
  · refine .inl ⟨?_, Execution.then_leaves (Nat.le_refl _) (leaves_prefix (by omega) h2),
      Execution.then_leavesLocks (Nat.le_refl _) (leavesLocks_prefix (by omega) h2')⟩
    rw [← Execution.then_out (Nat.le_refl _), ← h1, out_append _ _ (Nat.zero_le N) (by omega : N ≤ a)]
    exact List.prefix_append _ _

/-- **C57, finished.** When the server has ended, it has answered all requests and the exit code is 0; or it panicked,
and then a request that could not be answered properly is to blame. -/
theorem C57_finished (hstart : ρ.Begins cfg.root cfg.sha) (htidy : Tidy cfg.root (ρ.st 0).fs)
    (hl : NoLockDirs cfg.root (ρ.st 0).fs) (hone : OneEach (ρ.st 0).fs)
    (hp : (ρ.st 0).procs i = mainProg cfg (Mode.operation mode) r)
    (hsha : ∀ b, (cfg.sha b).length = 32)
    (hclk : ∀ t, ρ.ClockIn i cfg 0 N t → TimeOk cfg t) (hsome : ∃ t, TimeOk cfg t)
    (hs : Session mode qs wire)
    (hi : r.input = wire) (hpend : r.pending = []) (hfin : r.fin.kind = .unexpectedEof)
    (hc : ρ.NoFault i N) (hk : ρ.NotKilled i N) {x : Exit} (hx : (ρ.st N).procs i = .ret x) :
    ∃ a, ρ.out i 0 a = b!"000eversion=1\n0000" ∧ ρ.Leaves cfg.root i 0 a none ∧ ρ.LeavesLocks cfg.root i 0 a none ∧
      ((x = ⟨0, []⟩ ∧ ∃ b, b ≤ N ∧ Serves ρ i cfg mode a qs b [] ∧ ∀ n, b ≤ n → n < N → ¬ ρ.By i n) ∨
       (x = ⟨101, []⟩ ∧ ∃ b q rest, b ≤ N ∧ Serves ρ i cfg mode a qs b (q :: rest) ∧ ρ.out i b N = [] ∧
          Excused ρ i cfg b N q ∧ ρ.Leaves cfg.root i b N none ∧
          (lockOf cfg q = none → ρ.LeavesLocks cfg.root i b N none))) := by
  obtain ⟨t0, ht0⟩ := hsome
  let c : Choice := { Choice.none with time := t0 }
  have h0 : (ρ.then c i N).st 0 = ρ.st 0 := Execution.then_st (Nat.zero_le _)
  have hh : ((ρ.st 0).procs i).Honest := by rw [hp]; exact honest_main _ _ _
  obtain ⟨a, d, had, hdM, h1, h2, h2', h3, h4⟩ := through_among (ρ := ρ.then c i N) ⟨hstart.dir, by rw [h0]; exact hstart.start⟩
    (by rw [h0]; exact htidy) (by rw [h0]; exact hl) (by rw [h0]; exact hone) (by rw [h0]; exact hp) hsha
    (fun a b t ht => (Execution.then_clock ht).elim (hclk t) fun h => h ▸ ht0) hs hi hpend hfin
    (Execution.then_noFault rfl hc) (Execution.then_notKilled hh hk)
    (by rw [Execution.then_st (Nat.le_refl _)]; exact hx)
  refine ⟨a, ?_, Execution.then_leaves (by omega) h2, Execution.then_leavesLocks (by omega) h2', ?_⟩
  · rw [← Execution.then_out (c := c) (by omega : a ≤ N)]; exact h1
  rcases h3 with ⟨hx, h3⟩ | ⟨hx, b, e, q, rest, h3, k1, k2, k3, k5, k6, k7⟩
  · exact .inl ⟨hx, d, hdM, serves_then h3 hdM, fun n k1 k2 hby => h4 n k1 k2 ((Execution.then_by k2).mpr hby)⟩
  · refine .inr ⟨hx, b, q, rest, by omega, serves_then h3 (by omega), ?_, ?_, ?_, fun ho => ?_⟩
    · rw [← Execution.then_out (c := c) (Nat.le_refl _), out_append _ _ (by omega : b ≤ d) hdM, k3]
      exact out_idle ⟨hdM, h4⟩
    · exact excused_mono (Execution.then_excused (by omega) (by omega) k5) (by omega)
    · refine Execution.then_leaves (c := c) (Nat.le_refl _) ?_
      intro n l1 l2 l3 l4
      by_cases hn : n < d
      · exact k6 n l1 hn l3 l4
      · exact absurd l4 (h4 n (by omega) (by omega))
    · refine Execution.then_leavesLocks (c := c) (Nat.le_refl _) ?_
      intro n l1 l2 l3
      by_cases hn : n < d
      · exact k7 ho n l1 hn l3
      · exact absurd l3 (h4 n (by omega) (by omega))

/-! ### Cases -/

namespace Tests

/-- Two processes that take the same lock and give it back. -/
def twoLock : Sys :=
  ⟨fs0, fun i => server Tests.cfg b!"upload" (if i < 2 then enc (Tests.lockOf b!"f") ++ (enc unlockF ++ []) else [])⟩

theorem twoLock_start : Start Tests.cfg.root Tests.cfg.sha twoLock :=
  ⟨fun i => ⟨_, _, _, rfl, rfl, rfl⟩, fun p i h => (by cases h), fun p i _ h => (by cases h)⟩

theorem fs0_noLockDirs : NoLockDirs Tests.cfg.root fs0 := by
  intro id h
  have : ∀ d ∈ fs0.dirs, d.length ≤ 2 := by decide
  have := this _ h
  simp [lockFile, Tests.cfg] at this

theorem fs0_oneEach : OneEach fs0 := by unfold OneEach; decide

theorem timeOk_cfg : TimeOk Tests.cfg 1000684800 := by unfold TimeOk; decide +kernel

theorem clockIn_cfg {ρ : Execution} {i N : Nat} (t : Int) (h : ρ.ClockIn i Tests.cfg 0 N t) : TimeOk Tests.cfg t := by
  rcases h with h | ⟨h, _⟩
  · cases h; exact timeOk_cfg
  · cases h

theorem lockF_session : Session .upload [.lock b!"f", .unlock idF] (enc (Tests.lockOf b!"f") ++ (enc unlockF ++ [])) :=
  .cons (lockOf_encodes _) (frames_enc _ (by decide +kernel)) rfl (by simp)
    (.cons unlockF_encodes (frames_enc _ (by decide +kernel)) rfl (by simp) .eof)

/-- The first process takes the lock; the second one asks for it; then both go on in turn. -/
def inTurn (n : Nat) : Nat := if n < 13 then 0 else if n < 28 then 1 else n % 2

example : (b!"000eversion=1\n0000" ++ b!"000fstatus 201\n").isPrefixOf ((twoLock.scheduled inTurn).out 0 0 100) = true ∧
    (b!"000eversion=1\n0000" ++ b!"000fstatus 409\n").isPrefixOf ((twoLock.scheduled inTurn).out 1 0 100) = true ∧
    b!"000fstatus 200\n".isPrefixOf (((twoLock.scheduled inTurn).out 0 0 100).drop 184) = true ∧
    b!"000fstatus 404\n".isPrefixOf (((twoLock.scheduled inTurn).out 1 0 100).drop 201) = true := by decide +kernel

/-- The theorem applies to it, for both. -/
example := C57_linearizable (ρ := twoLock.scheduled inTurn) (i := 0) (N := 100) ⟨rfl, twoLock_start⟩ fs0_tidy fs0_noLockDirs fs0_oneEach rfl
  sha256_length clockIn_cfg ⟨_, timeOk_cfg⟩ lockF_session rfl rfl rfl
  (twoLock.scheduled_noFault _ _ _) (Sys.scheduled_notKilled (honest_main _ _ _) _)
example := C57_linearizable (ρ := twoLock.scheduled inTurn) (i := 1) (N := 100) ⟨rfl, twoLock_start⟩ fs0_tidy fs0_noLockDirs fs0_oneEach rfl
  sha256_length clockIn_cfg ⟨_, timeOk_cfg⟩ lockF_session rfl rfl rfl
  (twoLock.scheduled_noFault _ _ _) (Sys.scheduled_notKilled (honest_main _ _ _) _)

end Tests

/-- **C57, exceptions are needed.** Two processes that ask for the same lock in alternation, no I/O error, nobody killed:
one is told of an internal error, the other one panics. -/
theorem C57_excuse_needed : ∃ (cfg : Cfg) (ρ : Execution) (r : Rdr), ρ.Begins cfg.root cfg.sha ∧
    Tidy cfg.root (ρ.st 0).fs ∧ NoLockDirs cfg.root (ρ.st 0).fs ∧
    (∀ i < 2, (ρ.st 0).procs i = mainProg cfg (Mode.operation .upload) r ∧ ρ.NoFault i 60 ∧ ρ.NotKilled i 60 ∧
      ∀ t, ρ.ClockIn i cfg 0 60 t → TimeOk cfg t) ∧
    (∃ path id, Session .upload [.lock path, .unlock id] r.input) ∧ r.pending = [] ∧ r.fin.kind = .unexpectedEof ∧
    (b!"000eversion=1\n0000" ++ b!"000fstatus 500\n") <+: ρ.out 0 0 60 ∧
    ρ.out 1 0 60 = b!"000eversion=1\n0000" ∧ (ρ.st 60).procs 1 = .ret ⟨101, []⟩ := by
  refine ⟨Tests.cfg, Tests.twoLock.scheduled Tests.turns,
    Rdr.new (Tests.enc (Tests.lockOf b!"f") ++ (Tests.enc Tests.unlockF ++ [])) eofErr false, ⟨rfl, Tests.twoLock_start⟩,
    Tests.fs0_tidy, Tests.fs0_noLockDirs, fun i hi => ⟨?_, Sys.scheduled_noFault _ _ _ _,
      Sys.scheduled_notKilled (honest_main _ _ _) _, Tests.clockIn_cfg⟩, ⟨_, _, Tests.lockF_session⟩, rfl, rfl, ?_, ?_, ?_⟩
  · show Tests.server _ _ (if i < 2 then _ else _) = _
    rw [if_pos hi]; rfl
  · rw [← List.isPrefixOf_iff_prefix]; decide +kernel
  · decide +kernel
  · exact Tests.Prog.result?_eq (by decide +kernel)

end Verif
