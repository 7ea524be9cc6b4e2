import Verif.Lemmas.Apart
import Verif.Lemmas.Keep
import Verif.Props.Ghost
/-! C89: the file that a killed `lock` has left disturbs nobody but those who lock the same path or list all locks. -/
namespace Verif
open Spec

variable {cfg : Cfg} {path : Bytes} {ch : Nat → Choice} {mode : Mode}

variable {P : List Bytes}

theorem halves_ne : ∀ h ∈ P.map (halfLock cfg), h ≠ [] := by
  intro h hm
  obtain ⟨x, _, rfl⟩ := List.mem_map.mp hm
  simp [halfLock, lockFile]

/-- A session that has nothing to do with the files that killed servers have left. -/
theorem frame_session (hc : ∀ n, (ch n).fault = none) (hsha : ∀ b, (cfg.sha b).length = 32)
    (hclk : ∀ t, Clock cfg ch t → TimeOk cfg t) {s : Store} {qs : List Said} {w : World} {r : Rdr}
    (hs : Talk mode qs r.input) (hq : ∀ path ∈ P, ∀ q ∈ qs, Aloof cfg path q) (hp : r.pending = [])
    (hfin : r.fin.kind = .unexpectedEof) (hr : Rep cfg s (w.fs.dels (P.map (halfLock cfg)))) :
    (mainProg cfg (Mode.operation mode) r).wp (Logic.run ch) w (fun x w' => (x = ⟨0, []⟩ ∧ ∃ ws s',
      w'.out = w.out ++ b!"000eversion=1\n0000" ++ ws.flatten ∧ Conversation cfg mode ch s qs ws s' ∧
      Rep cfg s' (w'.fs.dels (P.map (halfLock cfg)))) ∧ ∀ h ∈ P.map (halfLock cfg), w'.fs.get h = w.fs.get h) ∧
    ∀ n, ∃ ch', Alike ch ch' ∧ stopped ch' n (mainProg cfg (Mode.operation mode) r) (w.without (P.map (halfLock cfg))) =
      (stopped ch n (mainProg cfg (Mode.operation mode) r) w).without (P.map (halfLock cfg)) := by
  refine Prog.frame (p := mainProg cfg (Mode.operation mode) r) (w := w)
    (Q := fun x w' => x = ⟨0, []⟩ ∧ ∃ ws s', w'.out = w.out ++ b!"000eversion=1\n0000" ++ ws.flatten ∧
      Conversation cfg mode ch s qs ws s' ∧ Rep cfg s' w'.fs) halves_ne hc fun ch' ha => ?_
  unfold mainProg
  rw [Prog.wp_bind]
  refine Prog.wp_mono (apart_program (w := w.without (P.map (halfLock cfg))) (fun n => (ha n).1) hsha
    (fun t ht => hclk t ((ha.clock t).mp ht)) hs hq hp hfin hr) ?_
  rintro ⟨x, r'⟩ w' ⟨rfl, ws, s', h1, h2, h3⟩
  exact ⟨rfl, ws, s', h1, h2.alike ha, h3⟩

theorem session_aside (hc : ∀ n, (ch n).fault = none) (hsha : ∀ b, (cfg.sha b).length = 32)
    (hclk : ∀ t, Clock cfg ch t → TimeOk cfg t) {s : Store} {qs : List Said} {w : World} {r : Rdr}
    (hs : Talk mode qs r.input) (hq : ∀ path ∈ P, ∀ q ∈ qs, Aloof cfg path q) (hp : r.pending = [])
    (hfin : r.fin.kind = .unexpectedEof) (hr : Rep cfg s (w.fs.dels (P.map (halfLock cfg)))) :
    ((mainProg cfg (Mode.operation mode) r).run ch w).1 = ⟨0, []⟩ ∧
    ∃ ws s', ((mainProg cfg (Mode.operation mode) r).run ch w).2.out = w.out ++ b!"000eversion=1\n0000" ++ ws.flatten ∧
      Conversation cfg mode ch s qs ws s' ∧
      Rep cfg s' (((mainProg cfg (Mode.operation mode) r).run ch w).2.fs.dels (P.map (halfLock cfg))) ∧
      ∀ h ∈ P.map (halfLock cfg), ((mainProg cfg (Mode.operation mode) r).run ch w).2.fs.get h = w.fs.get h := by
  obtain ⟨⟨h1, ws, s', h2, h3, h4⟩, h5⟩ :=
    (Prog.wp_run ch _ w _).mp (frame_session hc hsha hclk hs hq hp hfin hr).1
  exact ⟨h1, ws, s', h2, h3, h4, h5⟩

/-- **C89.** A file that a killed `lock` has left is of no consequence to requests other than a `lock` of the same path or a
listing of all locks: each of them gets the reply that it would get without the file, and the file stays as it is. -/
theorem C89_aside (hc : ∀ n, (ch n).fault = none) (hsha : ∀ b, (cfg.sha b).length = 32)
    (hclk : ∀ t, Clock cfg ch t → TimeOk cfg t) {s : Store} {qs : List Said} {w : World} {r : Rdr}
    (hs : Talk mode qs r.input) (hq : ∀ q ∈ qs, Aloof cfg path q) (hp : r.pending = [])
    (hfin : r.fin.kind = .unexpectedEof) (hr : RepBut cfg s path w.fs) :
    ((mainProg cfg (Mode.operation mode) r).run ch w).1 = ⟨0, []⟩ ∧
    ∃ ws s', ((mainProg cfg (Mode.operation mode) r).run ch w).2.out = w.out ++ b!"000eversion=1\n0000" ++ ws.flatten ∧
      Conversation cfg mode ch s qs ws s' ∧
      RepBut cfg s' path ((mainProg cfg (Mode.operation mode) r).run ch w).2.fs := by
  obtain ⟨h1, ws, s', h2, h3, h4, h5⟩ := session_aside (P := [path]) hc hsha hclk hs (by simpa using hq) hp hfin hr.2.1
  replace h5 := h5 (halfLock cfg path) (by simp)
  refine ⟨h1, ws, s', h2, h3, h5 ▸ hr.1, h4, Prog.run_nodup _ _ _ hr.2.2.1, fun i hi => ?_⟩
  rw [h5] at hi
  obtain ⟨k1, k2⟩ := hr.2.2.2 i hi
  obtain ⟨k3, k4⟩ := main_keeps cfg (Mode.operation mode) r ch w k1
  refine ⟨Nat.lt_of_lt_of_le k1 (Prog.run_next _ _ _), ?_⟩
  rw [k3, k4]
  exact k2

/-- **C89.** A server is killed at any moment of any session. Whoever then neither lists all locks nor takes a lock that the
killed session was asked for is served from the store as it is after some of the requests of that session. -/
theorem C89_killed {ch2 : Nat → Choice} {mode2 : Mode} {s : Store} (hc : ∀ n, (ch n).fault = none)
    (hc2 : ∀ n, (ch2 n).fault = none) (hsha : ∀ b, (cfg.sha b).length = 32) (hclk : ∀ t, Clock cfg ch t → TimeOk cfg t)
    (hclk2 : ∀ t, Clock cfg ch2 t → TimeOk cfg t) {qs qs2 : List Said} {w w2 : World} {r r2 : Rdr}
    (hs : Talk mode qs r.input) (hr : Rep cfg s w.fs) (hp : r.pending = []) (hfin : r.fin.kind = .unexpectedEof) (n : Nat)
    (hs2 : Talk mode2 qs2 r2.input) (hp2 : r2.pending = []) (hfin2 : r2.fin.kind = .unexpectedEof)
    (hq2 : ∀ path, .ask (.lock path) ∈ qs → ∀ q ∈ qs2, Aloof cfg path q)
    (hw2 : w2.fs = (stopped ch n (mainProg cfg (Mode.operation mode) r) w).fs) :
    ∃ k ws s' ws2 s2, Conversation cfg mode ch s (qs.take k) ws s' ∧
      ((mainProg cfg (Mode.operation mode2) r2).run ch2 w2).1 = ⟨0, []⟩ ∧
      ((mainProg cfg (Mode.operation mode2) r2).run ch2 w2).2.out = w2.out ++ b!"000eversion=1\n0000" ++ ws2.flatten ∧
      Conversation cfg mode2 ch2 s' qs2 ws2 s2 := by
  obtain ⟨k, ws, s', h1, _, h3⟩ := C73_stopped hc hsha hclk hs hr hp hfin n
  rw [← hw2] at h3
  rcases h3 with h3 | ⟨path, h4, h5⟩
  · obtain ⟨g1, ws2, s2, g2, g3, _⟩ := C72_session_partial hc2 hsha hclk2 hs2 h3 hp2 hfin2
    exact ⟨k, ws, s', ws2, s2, h1, g1, g2, g3⟩
  · have hm : Said.ask (.lock path) ∈ qs := by
      rcases h4 with h4 | h4
      · exact List.mem_of_getElem? h4
      · exact List.mem_of_mem_take (List.mem_of_getLast? h4)
    obtain ⟨g1, ws2, s2, g2, g3, _⟩ := C89_aside hc2 hsha hclk2 hs2 (hq2 path hm) hp2 hfin2 h5
    exact ⟨k, ws, s', ws2, s2, h1, g1, g2, g3⟩

namespace Tests

/-- The hypotheses of `C89_aside`: the lock of `f` is released though the file is still there. -/
example : ∃ qs, Talk .upload qs (enc unlockF) ∧ qs = [.ask (.unlock idF)] ∧
    (∀ q ∈ qs, Aloof Tests.cfg b!"f" q) ∧ RepBut Tests.cfg sL b!"f" fsG := by
  refine ⟨_, ?_, rfl, by simp [Aloof], repG⟩
  have : Session .upload [.unlock idF] (enc unlockF ++ []) :=
    .cons unlockF_encodes (frames_enc _ (by decide)) rfl (by simp) .eof
  simpa using C72_sessions this

/-- The lock is gone, and the file is not. -/
example :
    let w := ((server Tests.cfg b!"upload" (enc unlockF)).run calm ⟨fsG, [], 0⟩).2
    w.out.take 33 = b!"000eversion=1\n0000" ++ b!"000fstatus 200\n" ∧ w.fs.get (lockFile Tests.cfg.root idF) = none ∧
    w.fs.get (halfLock Tests.cfg b!"f") = some 1 := by
  decide +kernel

end Tests

end Verif
