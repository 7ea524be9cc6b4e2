import Verif.Lemmas.Alive
import Verif.Lemmas.AmongMain
import Verif.Tests.States
/-!
C56: servers that work on the same repository at the same time. Whatever the other processes do, each request on
objects is answered as by the simple server at one moment while the request is served.
-/
namespace Verif
open Spec

variable {cfg : Cfg} {mode : Mode} {ρ : Execution} {i N : Nat} {r : Rdr} {qs : List Request} {wire : Bytes}

theorem out_prefix {a b c : Nat} (h1 : a ≤ b) (h2 : b ≤ c) (h : ρ.out i a c = []) : ρ.out i a b = [] := by
  rw [out_append ρ i h1 h2] at h
  exact (List.append_eq_nil_iff.mp h).1

theorem leaves_prefix {root : Path} {a b c : Nat} {e : Option Nat} (h2 : b ≤ c) (h : ρ.Leaves root i a c e) :
    ρ.Leaves root i a b e := fun n h1 h3 => h n h1 (by omega)

/-- Until the moment `N`. -/
theorem serving_of_served {a b : Nat} (h : ServedIn (ρ.then Choice.none i N) i cfg mode a qs b) (haN : a ≤ N)
    (hidle : ∀ n, b ≤ n → n < N → ¬ (ρ.then Choice.none i N).By i n) : ServingIn ρ i cfg mode a qs N := by
  induction h with
  | @nil a =>
    refine .finished haN ?_ ?_
    · rw [← Execution.then_out (Nat.le_refl _)]
      exact out_idle ⟨haN, hidle⟩
    · refine Execution.then_leaves (c := Choice.none) (Nat.le_refl _) ?_
      exact (⟨haN, hidle⟩ : (ρ.then Choice.none i N).Until i a N).leaves
  | @cons a e b c q qs ans h1 h2 h3 h4 h5 h6 _ ih =>
    by_cases hb : b ≤ N
    · rw [Execution.then_out (by omega)] at h3 h5
      exact .cons h1 h2 h3 (Execution.then_answered (by omega) h4) h5 (Execution.then_leaves hb h6) (ih hb hidle)
    · by_cases he : e ≤ N
      · rw [out_append _ _ he (by omega), Execution.then_out (Nat.le_refl _)] at h5
        rw [Execution.then_out (by omega)] at h3
        exact .replying h1 he h3 (Execution.then_answered he h4) h5
          (Execution.then_leaves (Nat.le_refl _) (leaves_prefix (by omega) h6))
      · refine .working haN ?_ ?_
        · rw [← Execution.then_out (Nat.le_refl _)]
          exact out_prefix haN (by omega) h3
        · have cut : ∀ {x : Option Nat}, (ρ.then Choice.none i N).Leaves cfg.root i a e x → ρ.Leaves cfg.root i a N x := fun h =>
            Execution.then_leaves (Nat.le_refl _) (leaves_prefix (by omega) h)
          cases q with
          | put oid size data =>
            obtain ⟨n, k1, k2, k3, k4, k5, k6⟩ := h4
            by_cases hn : n < N
            · refine .inr ⟨n, k1, hn, cut k6, ?_⟩
              unfold storeAt at k5
              rw [Execution.then_objects hn, Execution.then_objects (by omega)] at k5
              exact k5
            · refine .inl fun m m1 m2 _ => cut k6 m m1 m2 ?_
              simp only [ne_eq, Option.some.injEq]
              omega
          | batch items => exact .inl (cut h4.choose_spec.2.2.2.2)
          | verify oid size => exact .inl (cut h4.choose_spec.2.2.2)
          | get oid => exact .inl (cut h4.choose_spec.2.2.2)
          | version => exact .inl (cut h4.2)
          | quit => exact .inl (cut h4.2)
          | lock => exact h4.elim
          | listLocks => exact h4.elim
          | unlock => exact h4.elim

/-- **C56.** Several servers on one repository, each reading any input, scheduled in any order, interrupted and
killed at will. One of them is sent well-formed requests on objects and has met no I/O error so far. Then it has
printed a part of the greeting, or the greeting and then the replies to the requests, in order, up to some
place. Each reply is the answer of the simple server at one moment while the request was served, the objects
change at that moment as the simple server says, and its other calls leave the objects alone. -/
theorem C56_linearizable (hstart : ρ.Begins cfg.root cfg.sha) (htidy : Tidy cfg.root (ρ.st 0).fs)
    (hp : (ρ.st 0).procs i = mainProg cfg (Mode.operation mode) r)
    (hsha : ∀ b, (cfg.sha b).length = 32) (hs : Session mode qs wire) (hob : ∀ q ∈ qs, OnObjects q)
    (hi : r.input = wire) (hpend : r.pending = []) (hfin : r.fin.kind = .unexpectedEof)
    (hc : ρ.NoFault i N) (hk : ρ.NotKilled i N) :
    (ρ.out i 0 N <+: b!"000eversion=1\n0000" ∧ ρ.Leaves cfg.root i 0 N none) ∨
    ∃ a, a ≤ N ∧ ρ.out i 0 a = b!"000eversion=1\n0000" ∧ ρ.Leaves cfg.root i 0 a none ∧
      ServingIn ρ i cfg mode a qs N := by
  obtain ⟨M, x, hM, hx⟩ := Execution.then_ends ρ Choice.none i N
  have h0 : (ρ.then Choice.none i N).st 0 = ρ.st 0 := Execution.then_st (Nat.zero_le _)
  have hh : ((ρ.st 0).procs i).Honest := by rw [hp]; exact honest_main _ _ _
  obtain ⟨_, a, b, hab, hbM, h1, h2, h3, h4⟩ := served_among (ρ := ρ.then Choice.none i N) ⟨hstart.dir, by rw [h0]; exact hstart.start⟩
    (by rw [h0]; exact htidy) (by rw [h0]; exact hp) hsha hs hob hi hpend hfin
    (Execution.then_noFault rfl hc) (Execution.then_notKilled hh hk) hx
  by_cases ha : a ≤ N
  · refine .inr ⟨a, ha, ?_, Execution.then_leaves ha h2, serving_of_served h3 ha fun n k1 k2 => h4 n k1 (by omega)⟩
    rw [← Execution.then_out ha]; exact h1
  · refine .inl ⟨?_, Execution.then_leaves (Nat.le_refl _) (leaves_prefix (by omega) h2)⟩
    rw [← Execution.then_out (Nat.le_refl _), ← h1, out_append _ _ (Nat.zero_le N) (by omega : N ≤ a)]
    exact List.prefix_append _ _

/-- **C56, finished.** When the server has ended, all requests have been answered, and the exit code is 0. -/
theorem C56_finished (hstart : ρ.Begins cfg.root cfg.sha) (htidy : Tidy cfg.root (ρ.st 0).fs)
    (hp : (ρ.st 0).procs i = mainProg cfg (Mode.operation mode) r)
    (hsha : ∀ b, (cfg.sha b).length = 32) (hs : Session mode qs wire) (hob : ∀ q ∈ qs, OnObjects q)
    (hi : r.input = wire) (hpend : r.pending = []) (hfin : r.fin.kind = .unexpectedEof)
    (hc : ρ.NoFault i N) (hk : ρ.NotKilled i N) {x : Exit} (hx : (ρ.st N).procs i = .ret x) :
    x = ⟨0, []⟩ ∧ ∃ a b, a ≤ b ∧ b ≤ N ∧ ρ.out i 0 a = b!"000eversion=1\n0000" ∧ ρ.Leaves cfg.root i 0 a none ∧
      ServedIn ρ i cfg mode a qs b ∧ ∀ n, b ≤ n → n < N → ¬ ρ.By i n := by
  have h0 : (ρ.then Choice.none i N).st 0 = ρ.st 0 := Execution.then_st (Nat.zero_le _)
  have hh : ((ρ.st 0).procs i).Honest := by rw [hp]; exact honest_main _ _ _
  obtain ⟨e, a, b, hab, hbM, h1, h2, h3, h4⟩ := served_among (ρ := ρ.then Choice.none i N) ⟨hstart.dir, by rw [h0]; exact hstart.start⟩
    (by rw [h0]; exact htidy) (by rw [h0]; exact hp) hsha hs hob hi hpend hfin
    (Execution.then_noFault rfl hc) (Execution.then_notKilled hh hk) (by rw [Execution.then_st (Nat.le_refl _)]; exact hx)
  refine ⟨e, a, b, hab, hbM, ?_, Execution.then_leaves (by omega) h2, ?_, fun n k1 k2 hby =>
    h4 n k1 k2 ((Execution.then_by k2).mpr hby)⟩
  · rw [← Execution.then_out (by omega : a ≤ N)]; exact h1
  · clear h1 h2 h4 hab hs hob
    induction h3 with
    | nil => exact .nil
    | cons k1 k2 k3 k4 k5 k6 hrest ih =>
      have hle : ∀ {a qs c}, ServedIn (ρ.then Choice.none i N) i cfg mode a qs c → a ≤ c := by
        intro a qs c h
        induction h with
        | nil => exact Nat.le_refl _
        | cons h1 h2 _ _ _ _ _ ih => omega
      have := hle hrest
      rw [Execution.then_out (by omega)] at k3 k5
      exact .cons k1 k2 k3 (Execution.then_answered (by omega) k4) k5 (Execution.then_leaves (by omega) k6) (ih hbM)

/-- **C56, uploads stay visible.** An object uploaded by one server is served by every other server asked for it
after the reply: the bytes sent hash to the object's ID. -/
theorem C56_visible {cfg' : Cfg} {mode' : Mode} {j a e a' e' size : Nat} {oid data : Bytes} {ans : Answer}
    (hstart : ρ.Begins cfg.root cfg.sha) (hroot : cfg'.root = cfg.root) (ho : IsOid oid)
    (hput : Answered ρ i cfg mode a e (.put oid size data) ⟨200, [], .none⟩) (hle : e ≤ a')
    (hget : Answered ρ j cfg' mode' a' e' (.get oid) ans) :
    ∃ d, hex (cfg.sha d) = oid ∧ ans = ⟨200, [b!"size=" ++ decimal d.length ++ b!"\n"], .raw d⟩ := by
  obtain ⟨n, h1, h2, _, h4, h5, _⟩ := hput
  have hpe : putError cfg oid size data = none := by
    simp only [answer] at h4
    split at h4
    · simp [badRequest] at h4
    · assumption
  have hhash : hex (cfg.sha data) = oid := by
    unfold putError at hpe
    by_cases k1 : data.length < size
    · simp [k1] at hpe
    · by_cases k2 : size < data.length
      · simp [k1, k2] at hpe
      · by_cases k3 : hex (cfg.sha data) = oid
        · exact k3
        · simp [k1, k2, k3] at hpe
  have hobj : ρ.objectsAt cfg.root (n + 1) oid = some data := by
    rw [h5 oid ho]; simp only [answer, hpe, if_true]
  -- from then on the object is there
  have good : ∃ ow : Nat → Nat → Own, ∀ m, Good cfg.root cfg.sha (ρ.st m) (ow m) := by
    have next : ∀ m (ow : Nat → Own), Good cfg.root cfg.sha (ρ.st m) ow →
        ∃ ow', Good cfg.root cfg.sha (ρ.st (m + 1)) ow' := by
      intro m ow hg
      rcases ρ.step m with h | ⟨h, _⟩
      · rw [hstart.dir] at h; exact ⟨_, (hg.move h).choose_spec.1⟩
      · exact ⟨ow, h ▸ hg⟩
    have : ∀ m, ∃ ow, Good cfg.root cfg.sha (ρ.st m) ow := by
      intro m
      induction m with
      | zero => exact ⟨_, Good.start hstart.start⟩
      | succ m ih => exact next m _ ih.choose_spec
    exact ⟨fun m => (this m).choose, fun m => (this m).choose_spec⟩
  obtain ⟨ow, hgood⟩ := good
  have stays : ∀ m, n + 1 ≤ m → ∃ d, ρ.objectsAt cfg.root m oid = some d ∧ hex (cfg.sha d) = oid := by
    intro m hm
    induction hm with
    | refl => exact ⟨data, hobj, hhash⟩
    | @step m _ ih =>
      obtain ⟨d, hd, hd'⟩ := ih
      rcases ρ.step m with h | ⟨h, _⟩
      · rw [hstart.dir] at h
        obtain ⟨_, _, hstep, _⟩ := (hgood m).move h
        rcases hstep oid with h | ⟨_, _, c, _, hc, hc'⟩
        · refine ⟨d, ?_, hd'⟩
          rw [← hd, Execution.objectsAt, Execution.objectsAt, objectFile_eq]; exact h
        · refine ⟨c, ?_, by rw [← hexEncode_eq_hex]; exact hc'⟩
          rw [Execution.objectsAt, objectFile_eq]; exact hc
      · refine ⟨d, ?_, hd'⟩
        rw [← hd, Execution.objectsAt, Execution.objectsAt, h]
  obtain ⟨m, k1, k2, k3, _⟩ := hget
  obtain ⟨d, hd, hd'⟩ := stays m (by omega)
  rw [hroot] at k3
  simp only [answer, storeAt, hd] at k3
  exact ⟨d, hd', k3.symm⟩

/-! ### A case -/

/-- The execution in which the processes are scheduled as `sched` says. -/
def Sys.scheduled (s : Sys) (sched : Nat → Nat) : Execution where
  root := Tests.cfg.root
  st n := Nat.rec s (fun n t => (t.exec1 (sched n) Choice.none).1) n
  lab n := ((Nat.rec s (fun n t => (t.exec1 (sched n) Choice.none).1) n : Sys).exec1 (sched n) Choice.none).2
  step _ := exec1_step _ _ _ _

theorem Sys.scheduled_noFault (s : Sys) (sched : Nat → Nat) (i N : Nat) : (s.scheduled sched).NoFault i N := by
  intro n e _ he
  have he : (((s.scheduled sched).st n).exec1 (sched n) Choice.none).2 = some (i, e) := he
  have hst : (s.scheduled sched).st (n + 1) = (((s.scheduled sched).st n).exec1 (sched n) Choice.none).1 := rfl
  rw [hst]
  generalize (s.scheduled sched).st n = t at *
  cases hp : t.procs (sched n) with
  | ret x => rw [exec1_ret hp] at he; cases he
  | call o k =>
    rw [exec1_call hp] at he ⊢
    cases he
    exact ⟨Choice.none, rfl, rfl⟩

theorem Sys.scheduled_notKilled {s : Sys} {sched : Nat → Nat} {i : Nat} (h : (s.procs i).Honest) (N : Nat) :
    (s.scheduled sched).NotKilled i N := by
  have : ∀ n, (((s.scheduled sched).st n).procs i).Honest := by
    intro n
    induction n with
    | zero => exact h
    | succ n ih =>
      have hst : (s.scheduled sched).st (n + 1) = (((s.scheduled sched).st n).exec1 (sched n) Choice.none).1 := rfl
      rw [hst]
      generalize (s.scheduled sched).st n = t at *
      cases hp : t.procs (sched n) with
      | ret x => rw [exec1_ret hp]; exact ih
      | call o k =>
        rw [exec1_call hp]
        simp only [Sys.setProc]
        split
        · rename_i hij
          subst hij
          rw [hp] at ih
          exact ih _
        · exact ih
  intro n _ e
  have := this n
  rw [e] at this
  exact this rfl

namespace Tests

/-- Process 0 uploads an object, process 1 downloads it twice. -/
def upDown : Sys :=
  ⟨fs0, fun i => if i = 1 then server Tests.cfg b!"download" (enc getA' ++ (enc getA' ++ []))
    else server Tests.cfg b!"upload" (if i = 0 then enc (putA [b!"abc", b!"123"]) else [])⟩

theorem upDown_start : Start Tests.cfg.root Tests.cfg.sha upDown :=
  ⟨fun i => by unfold upDown server; dsimp only; split <;> exact ⟨_, _, _, rfl, rfl, rfl⟩, fun p i h => (by cases h), fun p i _ h => (by cases h)⟩

theorem fs0_tidy : Tidy Tests.cfg.root fs0 := by
  refine ⟨fun oid ho h => ?_, fun d _ q _ => rfl⟩
  have : ∀ d ∈ fs0.dirs, d.length ≤ 2 := by decide
  have := this _ h
  simp [objectFile, objectDir, Tests.cfg] at this

theorem getA_session : Session .download [.get oidA, .get oidA] (enc getA' ++ (enc getA' ++ [])) :=
  .cons getA_encodes (frames_enc _ (by decide +kernel)) rfl (by simp)
    (.cons getA_encodes (frames_enc _ (by decide +kernel)) rfl (by simp) .eof)

/-- The processes alternate. -/
def turns (n : Nat) : Nat := n % 2

/-- The first download finds nothing yet, the second one finds the object. -/
example : (upDown.scheduled turns).out 1 0 60 = b!"000eversion=1\n0000" ++
    (b!"000fstatus 404\n0001000enot found\n0000") ++
    (b!"000fstatus 200\n000bsize=6\n0001000aabc1230000") := by decide +kernel

/-- The theorem applies to it, for process 1 … -/
example := C56_linearizable (ρ := upDown.scheduled turns) (i := 1) (N := 60) (mode := .download) ⟨rfl, upDown_start⟩ fs0_tidy
  rfl sha256_length getA_session (by simp [OnObjects]) rfl rfl rfl (upDown.scheduled_noFault _ _ _)
  (Sys.scheduled_notKilled (honest_main _ _ _) _)

/-- … and for process 0. -/
example := C56_linearizable (ρ := upDown.scheduled turns) (i := 0) (N := 60) (mode := .upload) ⟨rfl, upDown_start⟩ fs0_tidy
  rfl sha256_length
  (.cons (putA_encodes [b!"abc", b!"123"] (by decide)) (frames_enc _ (by decide +kernel)) rfl (by simp) .eof)
  (by simp [OnObjects]) (List.append_nil _).symm rfl rfl (upDown.scheduled_noFault _ _ _)
  (Sys.scheduled_notKilled (honest_main _ _ _) _)

end Tests
end Verif
