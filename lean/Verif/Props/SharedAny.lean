import Verif.Props.Unharmed
import Verif.Lemmas.AmongAny
/-!
C78: any bytes at all, sent to one of several servers that work on the same repository.
-/
namespace Verif
open Spec

variable {cfg : Cfg} {mode : Mode} {ρ : Execution} {c : Choice} {i N : Nat} {r : Rdr} {qs : List Said}

theorem servesAll_le {a b : Nat} {rest : List Said} (h : ServesAll ρ i cfg mode a qs b rest) : a ≤ b := by
  induction h with
  | nil => exact Nat.le_refl _
  | cons h1 h2 _ _ _ _ _ _ ih => omega
  | excused h1 h2 _ _ _ _ _ _ _ ih => omega

theorem then_freedAt {n : Nat} {id : Bytes} (h : n < N) (hf : FreedAt (ρ.then c i N) i cfg n id) : FreedAt ρ i cfg n id :=
  ⟨(Execution.then_by h).mp hf.by_, by rw [← Execution.then_lockAt (c := c) (Nat.le_of_lt h)]; exact hf.held,
    by rw [← Execution.then_lockAt (c := c) (Nat.succ_le_of_lt h)]; exact hf.free⟩

theorem then_heeds {a e : Nat} {q : Said} {ans : Answer} (h : e ≤ N) (hh : Heeds (ρ.then c i N) i cfg mode a e q ans) :
    Heeds ρ i cfg mode a e q ans := by
  cases hh with
  | asked h1 h2 => exact .asked h1 (Execution.then_answers h h2)
  | denied h1 h2 => exact .denied (Execution.then_leaves h h1) (Execution.then_leavesLocks h h2)
  | refused h1 h2 h3 h4 h5 => exact .refused h1 h2 h3 (Execution.then_leaves h h4) (Execution.then_leavesLocks h h5)
  | released h1 h2 h3 h4 h5 h6 h7 h8 h9 =>
    exact .released h1 h2 h3 h4 (then_freedAt (by omega) h5) h6 h7 (Execution.then_leaves h h8) (Execution.then_leavesLocks h h9)

theorem then_stumbles {a e : Nat} {q : Said} (ha : a ≤ N) (h : e ≤ N) (hh : Stumbles (ρ.then c i N) i cfg mode a e q) :
    Stumbles ρ i cfg mode a e q := by
  cases hh with
  | excused h1 h2 h3 => exact .excused h1 (Execution.then_excused ha h h2) fun ho => Execution.then_leavesLocks h (h3 ho)
  | odd h1 h2 h3 => exact .odd h1 h2 (Execution.then_leavesLocks h h3)

theorem servesAll_then {a b : Nat} {rest : List Said} (h : ServesAll (ρ.then c i N) i cfg mode a qs b rest) (hb : b ≤ N) :
    ServesAll ρ i cfg mode a qs b rest := by
  induction h with
  | nil => exact .nil
  | @cons a e b c q qs rest ans h1 h2 h3 h4 h5 h6 h7 hs ih =>
    have := servesAll_le hs
    rw [Execution.then_out (by omega)] at h3 h5
    exact .cons h1 h2 h3 (then_heeds (by omega) h4) h5 (Execution.then_leaves (by omega) h6)
      (Execution.then_leavesLocks (by omega) h7) (ih hb)
  | @excused a e b c q qs rest h1 h2 h0 h3 h5 h6 h7 h8 hs ih =>
    have := servesAll_le hs
    rw [Execution.then_out (by omega)] at h3 h6
    exact .excused h1 h2 h0 h3 (Execution.then_excused (by omega) (by omega) h5) h6 (Execution.then_leaves (by omega) h7)
      (fun h => Execution.then_leavesLocks (by omega) (h8 h)) (ih hb)

theorem Spec.Busy.any {a : Nat} {q : Request} {rest : List Said} (ho : ¬ NoLockId (.ask q)) (h : Busy ρ i cfg mode a N [q]) :
    BusyWith ρ i cfg mode a N (.ask q :: rest) := by
  cases h with
  | working h1 h2 => exact .working h1 (.inr (.inl ⟨q, rfl, ho, h2⟩))
  | replying h1 h2 h3 h4 h5 h6 h7 => exact .replying h1 h2 h3 (.asked ho h4) h5 h6 h7
  | excused h1 h2 h3 h4 h5 h6 h7 => exact .excused h1 h2 ho h3 h4 h5 h6 h7

theorem heeds_working {a e : Nat} {q : Said} {ans : Answer} (h : Heeds (ρ.then c i N) i cfg mode a e q ans) (he : N ≤ e) :
    WorkingOnAny ρ i cfg mode a N q := by
  have cut : ∀ {x : Option Nat}, (ρ.then c i N).Leaves cfg.root i a e x → ρ.Leaves cfg.root i a N x := fun h =>
    Execution.then_leaves (Nat.le_refl _) (leaves_prefix he h)
  have cutl : ∀ {x : Option (Nat × Bytes)}, (ρ.then c i N).LeavesLocks cfg.root i a e x →
      ρ.LeavesLocks cfg.root i a N x := fun h =>
    Execution.then_leavesLocks (Nat.le_refl _) (leavesLocks_prefix he h)
  cases h with
  | asked h1 h2 => exact .inr (.inl ⟨_, rfl, h1, answers_working h2 he⟩)
  | denied h1 h2 => exact .inl ⟨cut h1, cutl h2⟩
  | refused h1 h2 h3 h4 h5 => exact .inl ⟨cut h4, cutl h5⟩
  | @released _ l n h1 h2 h3 h4 h5 h6 h7 h8 h9 =>
    by_cases hn : n < N
    · exact .inr (.inr ⟨h1, h2, cut h8, n, _, h3, hn, then_freedAt hn h5, cutl h9⟩)
    · refine .inl ⟨cut h8, fun m m1 m2 m3 id' hid' _ => cutl h9 m m1 m2 m3 id' hid' ?_⟩
      simp only [ne_eq, Option.some.injEq, Prod.mk.injEq, not_and]
      omega

theorem servesAll_cut {a b : Nat} {rest : List Said} (h : ServesAll (ρ.then c i N) i cfg mode a qs b rest) (ha : a ≤ N) :
    (b ≤ N ∧ ServesAll ρ i cfg mode a qs b rest) ∨
    ∃ b' rest', b' ≤ N ∧ ServesAll ρ i cfg mode a qs b' rest' ∧ BusyWith ρ i cfg mode b' N rest' := by
  induction h with
  | nil => exact .inl ⟨ha, .nil⟩
  | @cons a e b d q qs rest ans h1 h2 h3 h4 h5 h6 h7 hs ih =>
    by_cases hb : b ≤ N
    · rw [Execution.then_out (by omega)] at h3 h5
      have h4 := then_heeds (by omega) h4
      have h6 := Execution.then_leaves hb h6
      have h7 := Execution.then_leavesLocks hb h7
      rcases ih hb with ⟨k1, k2⟩ | ⟨b', rest', k1, k2, k3⟩
      · exact .inl ⟨k1, .cons h1 h2 h3 h4 h5 h6 h7 k2⟩
      · exact .inr ⟨b', rest', k1, .cons h1 h2 h3 h4 h5 h6 h7 k2, k3⟩
    refine .inr ⟨a, q :: qs, ha, .nil, ?_⟩
    by_cases he : e ≤ N
    · rw [out_append _ _ he (by omega), Execution.then_out (Nat.le_refl _)] at h5
      rw [Execution.then_out (by omega)] at h3
      exact .replying h1 he h3 (then_heeds he h4) h5
        (Execution.then_leaves (Nat.le_refl _) (leaves_prefix (by omega) h6))
        (Execution.then_leavesLocks (Nat.le_refl _) (leavesLocks_prefix (by omega) h7))
    · refine .working ?_ (heeds_working h4 (by omega))
      rw [← Execution.then_out (Nat.le_refl _)]
      exact out_prefix ha (by omega) h3
  | @excused a e b d q qs rest h1 h2 h0 h3 h5 h6 h7 h8 hs ih =>
    by_cases hb : b ≤ N
    · rw [Execution.then_out (by omega)] at h3 h6
      have h5 := Execution.then_excused ha (by omega) h5
      have h7 := Execution.then_leaves hb h7
      have h8 := fun h => Execution.then_leavesLocks hb (h8 h)
      rcases ih hb with ⟨k1, k2⟩ | ⟨b', rest', k1, k2, k3⟩
      · exact .inl ⟨k1, .excused h1 h2 h0 h3 h5 h6 h7 h8 k2⟩
      · exact .inr ⟨b', rest', k1, .excused h1 h2 h0 h3 h5 h6 h7 h8 k2, k3⟩
    have h7 := Execution.then_leaves (Nat.le_refl N) (leaves_prefix (by omega) h7)
    have h8 := fun h => Execution.then_leavesLocks (Nat.le_refl N) (leavesLocks_prefix (by omega) (h8 h))
    refine .inr ⟨a, .ask q :: qs, ha, .nil, ?_⟩
    by_cases he : e ≤ N
    · rw [out_append _ _ he (by omega), Execution.then_out (Nat.le_refl _)] at h6
      rw [Execution.then_out (by omega)] at h3
      exact .excused h1 he h0 h3 (Execution.then_excused ha he h5) h6 h7 h8
    · have h3 := out_prefix ha (by omega) h3
      rw [Execution.then_out (Nat.le_refl _)] at h3
      exact (busy_excused ha h3 (by omega) h5 h7 h8).any h0

/-- **C78.** Several servers on one repository, each reading any input, scheduled in any order, interrupted and killed at
will; this one has met no I/O error so far. Whatever bytes its client sends, they have a sense `qs`, `e` (see C76: requests,
nonsense, and `unlock` of what is no ID), and the server has printed a part of the greeting, or the greeting and then the
replies to `qs`, in order, up to some place. Each request is answered as by the simple server at one moment while it was
served, as C57 says. Nonsense is denied, and changes neither objects nor locks. `unlock` of what is no ID is refused, or
releases one lock at one moment; it changes nothing else. -/
theorem C78_any_bytes (hstart : ρ.Begins cfg.root cfg.sha) (htidy : Tidy cfg.root (ρ.st 0).fs)
    (hl : NoLockDirs cfg.root (ρ.st 0).fs) (hone : OneEach (ρ.st 0).fs)
    (hp : (ρ.st 0).procs i = mainProg cfg (Mode.operation mode) r)
    (hsha : ∀ b, (cfg.sha b).length = 32)
    (hclk : ∀ t, ρ.ClockIn i cfg 0 N t → TimeOk cfg t) (hsome : ∃ t, TimeOk cfg t)
    (hpend : r.pending = []) (hck : r.checked = false) (hfin : r.fin.kind = .unexpectedEof)
    (hc : ρ.NoFault i N) (hk : ρ.NotKilled i N) :
    ∃ qs e, Sense mode r.fin.text qs e r.input ∧
    ((ρ.out i 0 N <+: b!"000eversion=1\n0000" ∧ ρ.Leaves cfg.root i 0 N none ∧ ρ.LeavesLocks cfg.root i 0 N none) ∨
    ∃ a b rest, a ≤ b ∧ b ≤ N ∧ ρ.out i 0 a = b!"000eversion=1\n0000" ∧
      ρ.Leaves cfg.root i 0 a none ∧ ρ.LeavesLocks cfg.root i 0 a none ∧
      ServesAll ρ i cfg mode a qs b rest ∧ BusyWith ρ i cfg mode b N rest) := by
  obtain ⟨qs, e, hs⟩ := sense_total (mode := mode) (text := r.fin.text) r.input
  refine ⟨qs, e, hs, ?_⟩
  obtain ⟨t0, ht0⟩ := hsome
  let c : Choice := { Choice.none with time := t0 }
  obtain ⟨M, x, hM, hx⟩ := Execution.then_ends ρ c i N
  have h0 : (ρ.then c i N).st 0 = ρ.st 0 := Execution.then_st (Nat.zero_le _)
  have hh : ((ρ.st 0).procs i).Honest := by rw [hp]; exact honest_main _ _ _
  obtain ⟨a, d, had, hdM, h1, h2, h2', h3, h4⟩ := sense_among (ρ := ρ.then c i N) ⟨hstart.dir, by rw [h0]; exact hstart.start⟩
    (by rw [h0]; exact htidy) (by rw [h0]; exact hl) (by rw [h0]; exact hone) (by rw [h0]; exact hp) hsha
    (fun a b t ht => (Execution.then_clock ht).elim (hclk t) fun h => h ▸ ht0) hs hpend hck hfin
    (Execution.then_noFault rfl hc) (Execution.then_notKilled hh hk) hx
  by_cases ha : a ≤ N
  · have g1 : ρ.out i 0 a = b!"000eversion=1\n0000" := by rw [← Execution.then_out ha]; exact h1
    have g2 := Execution.then_leaves ha h2
    have g3 := Execution.then_leavesLocks ha h2'
    have fin : ∀ {b rest}, b ≤ N → ServesAll ρ i cfg mode a qs b rest → BusyWith ρ i cfg mode b N rest →
        ∃ a b rest, a ≤ b ∧ b ≤ N ∧ ρ.out i 0 a = b!"000eversion=1\n0000" ∧
        ρ.Leaves cfg.root i 0 a none ∧ ρ.LeavesLocks cfg.root i 0 a none ∧
        ServesAll ρ i cfg mode a qs b rest ∧ BusyWith ρ i cfg mode b N rest :=
      fun k1 k2 k3 => ⟨a, _, _, servesAll_le k2, k1, g1, g2, g3, k2, k3⟩
    refine .inr ?_
    rcases h3 with ⟨_, h3⟩ | ⟨_, b, q, rest, h3, k2, k3, k5, k6⟩
    · rcases servesAll_cut h3 ha with ⟨hd, h3⟩ | ⟨b', rest', l1, l2, l3⟩
      · have hu : (ρ.then c i N).Until i d N := ⟨hd, fun n l1 l2 => h4 n l1 (by omega)⟩
        refine fin hd h3 (.idle ?_ (Execution.then_leaves (c := c) (Nat.le_refl _) hu.leaves)
          (Execution.then_leavesLocks (c := c) (Nat.le_refl _) fun n l1 l2 l3 => absurd l3 (hu.idle n l1 l2)))
        rw [← Execution.then_out (c := c) (Nat.le_refl _)]
        exact out_idle hu
      · exact fin l1 l2 l3
    · rcases servesAll_cut h3 ha with ⟨hb, h3⟩ | ⟨b', rest', l1, l2, l3⟩
      · have o1 : ρ.out i b N = [] := by
          by_cases hd : d ≤ N
          · rw [← Execution.then_out (c := c) (Nat.le_refl _), out_append _ _ (by omega : b ≤ d) hd, k3]
            exact out_idle ⟨hd, fun n l1 l2 => h4 n l1 (by omega)⟩
          · rw [← Execution.then_out (c := c) (Nat.le_refl _)]
            exact out_prefix hb (by omega) k3
        have o2 : ρ.Leaves cfg.root i b N none := by
          refine Execution.then_leaves (c := c) (Nat.le_refl _) ?_
          intro n l1 l2 l3 l4
          by_cases hn : n < d
          · exact k6 n l1 hn l3 l4
          · exact absurd l4 (h4 n (by omega) (by omega))
        have o3 : (ρ.then c i N).LeavesLocks cfg.root i b d none → ρ.LeavesLocks cfg.root i b N none := by
          intro ho
          refine Execution.then_leavesLocks (c := c) (Nat.le_refl _) ?_
          intro n l1 l2 l3
          by_cases hn : n < d
          · exact ho n l1 hn l3
          · exact absurd l3 (h4 n (by omega) (by omega))
        cases k5 with
        | @excused q n1 n2 n3 =>
          exact fin hb h3 ((busy_excused (c := c) hb o1 (Nat.le_max_right d N) (excused_mono n2 (Nat.le_max_left d N)) o2
            fun h => o3 (n3 h)).any n1)
        | odd n1 n2 n3 => exact fin hb h3 (.working o1 (.inl ⟨o2, o3 n3⟩))
      · exact fin l1 l2 l3
  · refine .inl ⟨?_, Execution.then_leaves (Nat.le_refl _) (leaves_prefix (by omega) h2),
      Execution.then_leavesLocks (Nat.le_refl _) (leavesLocks_prefix (by omega) h2')⟩
    rw [← Execution.then_out (Nat.le_refl _), ← h1, out_append _ _ (Nat.zero_le N) (by omega : N ≤ a)]
    exact List.prefix_append _ _

/-- **C78, finished.** When the server has ended, it has answered all of `qs` and ends in the way `e`; or it panicked, and
then a request that could not be answered properly, or an `unlock` of what is no ID, is to blame. -/
theorem C78_finished (hstart : ρ.Begins cfg.root cfg.sha) (htidy : Tidy cfg.root (ρ.st 0).fs)
    (hl : NoLockDirs cfg.root (ρ.st 0).fs) (hone : OneEach (ρ.st 0).fs)
    (hp : (ρ.st 0).procs i = mainProg cfg (Mode.operation mode) r)
    (hsha : ∀ b, (cfg.sha b).length = 32)
    (hclk : ∀ t, ρ.ClockIn i cfg 0 N t → TimeOk cfg t) (hsome : ∃ t, TimeOk cfg t)
    (hpend : r.pending = []) (hck : r.checked = false) (hfin : r.fin.kind = .unexpectedEof)
    (hc : ρ.NoFault i N) (hk : ρ.NotKilled i N) {x : Exit} (hx : (ρ.st N).procs i = .ret x) :
    ∃ qs e a, Sense mode r.fin.text qs e r.input ∧ ρ.out i 0 a = b!"000eversion=1\n0000" ∧
      ρ.Leaves cfg.root i 0 a none ∧ ρ.LeavesLocks cfg.root i 0 a none ∧
      ((x = e.exit ∧ ∃ b, b ≤ N ∧ ServesAll ρ i cfg mode a qs b [] ∧ ∀ n, b ≤ n → n < N → ¬ ρ.By i n) ∨
       (x = ⟨101, []⟩ ∧ ∃ b d q rest, b ≤ d ∧ d ≤ N ∧ ServesAll ρ i cfg mode a qs b (q :: rest) ∧ ρ.out i b d = [] ∧
          Stumbles ρ i cfg mode b d q ∧ ρ.Leaves cfg.root i b d none ∧ ∀ n, d ≤ n → n < N → ¬ ρ.By i n)) := by
  obtain ⟨qs, e, hs⟩ := sense_total (mode := mode) (text := r.fin.text) r.input
  obtain ⟨t0, ht0⟩ := hsome
  let c : Choice := { Choice.none with time := t0 }
  have h0 : (ρ.then c i N).st 0 = ρ.st 0 := Execution.then_st (Nat.zero_le _)
  have hh : ((ρ.st 0).procs i).Honest := by rw [hp]; exact honest_main _ _ _
  obtain ⟨a, d, had, hdM, h1, h2, h2', h3, h4⟩ := sense_among (ρ := ρ.then c i N) ⟨hstart.dir, by rw [h0]; exact hstart.start⟩
    (by rw [h0]; exact htidy) (by rw [h0]; exact hl) (by rw [h0]; exact hone) (by rw [h0]; exact hp) hsha
    (fun a b t ht => (Execution.then_clock ht).elim (hclk t) fun h => h ▸ ht0) hs hpend hck hfin
    (Execution.then_noFault rfl hc) (Execution.then_notKilled hh hk)
    (by rw [Execution.then_st (Nat.le_refl _)]; exact hx)
  have idle : ∀ n, d ≤ n → n < N → ¬ ρ.By i n := fun n k1 k2 hby => h4 n k1 k2 ((Execution.then_by k2).mpr hby)
  refine ⟨qs, e, a, hs, ?_, Execution.then_leaves (by omega) h2, Execution.then_leavesLocks (by omega) h2', ?_⟩
  · rw [← Execution.then_out (c := c) (by omega : a ≤ N)]; exact h1
  rcases h3 with ⟨hx, h3⟩ | ⟨hx, b, q, rest, h3, k2, k3, k5, k6⟩
  · exact .inl ⟨hx, d, hdM, servesAll_then h3 hdM, idle⟩
  · refine .inr ⟨hx, b, d, q, rest, k2, hdM, servesAll_then h3 (by omega), ?_, then_stumbles (by omega) hdM k5,
      Execution.then_leaves hdM k6, idle⟩
    rw [← Execution.then_out (c := c) hdM]; exact k3

/-! ### Cases -/

namespace Tests

/-- Two processes: one takes a lock; the other one is sent a request without any sense, `unlock ./ID`, and then four bytes
that are no header. -/
def lockAndOdd : Sys :=
  ⟨fs0, fun i => server Tests.cfg b!"upload" (if i = 0 then enc (Tests.lockOf b!"f") ++ []
    else if i = 1 then b!"0009nono\n" ++ (dotWire ++ b!"xyzt") else [])⟩

theorem lockAndOdd_start : Start Tests.cfg.root Tests.cfg.sha lockAndOdd :=
  ⟨fun i => ⟨_, _, _, rfl, rfl, rfl⟩, fun p i h => (by cases h), fun p i _ h => (by cases h)⟩

/-- The first one takes the lock, then the other one releases it. -/
def oneThenOther (n : Nat) : Nat := if n < 40 then 0 else 1

example : (lockAndOdd.scheduled oneThenOther).lockAt Tests.cfg.root 40 idF ≠ none ∧
    (lockAndOdd.scheduled oneThenOther).lockAt Tests.cfg.root 100 idF = none ∧
    Prog.result? (((lockAndOdd.scheduled oneThenOther).st 100).procs 1) = some ⟨2, badHeader ++ b!"\n"⟩ ∧
    (b!"000eversion=1\n0000" ++ b!"000fstatus 400\n").isPrefixOf ((lockAndOdd.scheduled oneThenOther).out 1 0 100) = true := by
  decide +kernel

/-- The theorems apply to it. -/
example := C78_any_bytes (mode := .upload) (ρ := lockAndOdd.scheduled oneThenOther) (i := 1) (N := 100) ⟨rfl, lockAndOdd_start⟩ fs0_tidy
  fs0_noLockDirs fs0_oneEach rfl sha256_length clockIn_cfg ⟨_, timeOk_cfg⟩ rfl rfl rfl
  (lockAndOdd.scheduled_noFault _ _ _) (Sys.scheduled_notKilled (honest_main _ _ _) _)
example := C78_finished (mode := .upload) (ρ := lockAndOdd.scheduled oneThenOther) (i := 1) (N := 100) ⟨rfl, lockAndOdd_start⟩ fs0_tidy
  fs0_noLockDirs fs0_oneEach rfl sha256_length clockIn_cfg ⟨_, timeOk_cfg⟩ rfl rfl rfl
  (lockAndOdd.scheduled_noFault _ _ _) (Sys.scheduled_notKilled (honest_main _ _ _) _)
  (x := ⟨2, badHeader ++ b!"\n"⟩) (Tests.Prog.result?_eq (by decide +kernel))

end Tests

end Verif
