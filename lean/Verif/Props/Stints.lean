import Verif.Props.Aside
import Verif.Spec.Stints
/-! C90: any number of servers that are killed. -/
namespace Verif
open Spec

variable {cfg : Cfg} {fs fs' : FS} {s : Store} {ls : List Stint} {H : List Path}

theorem dels_append (fs : FS) : ∀ H H' : List Path, fs.dels (H ++ H') = (fs.dels H).dels H'
  | [], _ => rfl
  | h :: H, H' => dels_append (fs.delName h) H H'

theorem delName_twice (fs : FS) (h : Path) : (fs.delName h).delName h = fs.delName h := by
  simp [FS.delName, alDel, List.filter_filter]

theorem dels_mem {h : Path} : ∀ {H : List Path} {fs : FS}, h ∈ H → (fs.delName h).dels H = fs.dels H
  | x :: H, fs, hm => by
    show ((fs.delName h).delName x).dels H = (fs.delName x).dels H
    by_cases hx : h = x
    · subst hx
      rw [delName_twice]
    · rw [delName_swap, dels_mem (H := H) ((List.mem_cons.mp hm).resolve_left hx)]

theorem delName_absent {h : Path} (hg : fs.get h = none) : fs.delName h = fs := by
  have : alDel fs.names h = fs.names := by
    unfold FS.get at hg
    generalize fs.names = l at hg
    induction l with
    | nil => rfl
    | cons e l ih =>
      obtain ⟨q, i⟩ := e
      unfold alGet at hg
      split at hg
      · cases hg
      · rename_i hne
        have := ih hg
        unfold alDel at this ⊢
        rw [List.filter_cons, if_pos (by simpa using hne), this]
  unfold FS.delName
  rw [this]

theorem rep_half (hsha : ∀ b, (cfg.sha b).length = 32) (hr : Rep cfg s fs) (path : Bytes) : fs.get (halfLock cfg path) = none := by
  cases hg : fs.get (halfLock cfg path) with
  | none => rfl
  | some i =>
    obtain ⟨l, _, e⟩ := hr.only (lockName cfg.sha path ++ b!".lock") (by unfold halfLock at hg; rw [hg]; rfl)
    have := congrArg List.length e
    rw [List.length_append, (isOid_lockName hsha _).1, (isOid_lockName hsha _).1] at this
    simp at this

theorem rep_dels (hsha : ∀ b, (cfg.sha b).length = 32) (hr : Rep cfg s fs) : ∀ P : List Bytes, fs.dels (P.map (halfLock cfg)) = fs
  | [] => rfl
  | p :: P => by
    show (fs.delName (halfLock cfg p)).dels (P.map (halfLock cfg)) = fs
    rw [delName_absent (rep_half hsha hr p)]
    exact rep_dels hsha hr P

theorem toLock_mem {qs : List Said} {path : Bytes} (h : .ask (.lock path) ∈ qs) : path ∈ qs.filterMap Said.toLock :=
  List.mem_filterMap.mpr ⟨_, h, rfl⟩

/-- **C90.** One server after the other is started and killed at any moment. Each has done some of its requests, from the
first on, and the others have left no trace in the store; a request whose reply was printed is among those that were done. -/
theorem C90_kills (hsha : ∀ b, (cfg.sha b).length = 32) (hr : Rep cfg s fs) (h : Stints cfg fs ls fs') :
    ∃ s', Partly cfg s ls s' ∧ Rep cfg s' (tidied cfg ls fs') := by
  induction h with
  | none => exact ⟨s, .none, hr⟩
  | @next ls fs' l w r n _ hw ho hc hclk hs hp hfin hq hout ih =>
    obtain ⟨s1, h1, h2⟩ := ih
    have h3 : Rep cfg s1 (w.fs.dels ((ls.flatMap Stint.locks).map (halfLock cfg))) := by rw [hw]; exact h2
    obtain ⟨ch', ha, e⟩ := (frame_session hc hsha hclk hs hq hp hfin h3).2 n
    have hprog := C73_stopped (ch := ch') (w := w.without ((ls.flatMap Stint.locks).map (halfLock cfg))) (s := s1)
      (fun n => (ha n).1) hsha (fun t ht => hclk t ((ha.clock t).mp ht)) hs h3 hp hfin n
    rw [e] at hprog
    obtain ⟨k, ws, s2, g1, g2, g3⟩ := hprog
    have g2' : (stopped l.ch n (mainProg cfg (Mode.operation l.mode) r) w).out <+: w.out ++ b!"000eversion=1\n0000" ++ ws.flatten := g2
    refine ⟨s2, .next h1 (g1.alike ha) (by rw [hout]; rw [ho] at g2'; exact g2'), ?_⟩
    have key : ∀ fs : FS, tidied cfg (ls ++ [l]) fs = (tidied cfg ls fs).dels (l.locks.map (halfLock cfg)) := by
      intro fs
      simp only [tidied, List.flatMap_append, List.map_append, dels_append, List.flatMap_cons, List.flatMap_nil, List.append_nil]
    rw [key]
    rcases g3 with g3 | ⟨path, g4, g5⟩
    · have g3' : Rep cfg s2 (tidied cfg ls (stopped l.ch n (mainProg cfg (Mode.operation l.mode) r) w).fs) := g3
      rw [rep_dels hsha g3']
      exact g3'
    · have hm : Said.ask (.lock path) ∈ l.qs := by
        rcases g4 with g4 | g4
        · exact List.mem_of_getElem? g4
        · exact List.mem_of_mem_take (List.mem_of_getLast? g4)
      have g6 : Rep cfg s2 ((tidied cfg ls (stopped l.ch n (mainProg cfg (Mode.operation l.mode) r) w).fs).delName
        (halfLock cfg path)) := g5.2.1
      have hm' : halfLock cfg path ∈ l.locks.map (halfLock cfg) := List.mem_map_of_mem (toLock_mem hm)
      rw [← dels_mem hm', rep_dels hsha g6]
      exact g6

/-- **C90.** After all this, a server that lives, and is asked neither to list all locks nor to take one that a killed server
was to take, answers every request from this store. -/
theorem C90_next {ch : Nat → Choice} {mode : Mode} (hc : ∀ n, (ch n).fault = none) (hsha : ∀ b, (cfg.sha b).length = 32)
    (hclk : ∀ t, Clock cfg ch t → TimeOk cfg t) (hr : Rep cfg s fs) {w : World} (h : Stints cfg fs ls w.fs)
    {qs : List Said} {r : Rdr} (hs : Talk mode qs r.input) (hp : r.pending = []) (hfin : r.fin.kind = .unexpectedEof)
    (hq : ∀ path ∈ ls.flatMap Stint.locks, ∀ q ∈ qs, Aloof cfg path q) :
    ∃ s', Partly cfg s ls s' ∧ ((mainProg cfg (Mode.operation mode) r).run ch w).1 = ⟨0, []⟩ ∧
    ∃ ws s2, ((mainProg cfg (Mode.operation mode) r).run ch w).2.out = w.out ++ b!"000eversion=1\n0000" ++ ws.flatten ∧
      Conversation cfg mode ch s' qs ws s2 ∧
      Rep cfg s2 (tidied cfg ls ((mainProg cfg (Mode.operation mode) r).run ch w).2.fs) := by
  obtain ⟨s', h1, h2⟩ := C90_kills hsha hr h
  obtain ⟨g1, ws, s2, g2, g3, g4, _⟩ := session_aside hc hsha hclk hs hq hp hfin h2
  exact ⟨s', h1, g1, ws, s2, g2, g3, g4⟩

/-- **C90.** What the files say about objects and locks, left files or not. -/
theorem C90_files (hsha : ∀ b, (cfg.sha b).length = 32) (hr : Rep cfg s fs) (h : Stints cfg fs ls fs') :
    ∃ s', Partly cfg s ls s' ∧ (∀ oid, IsOid oid → fs'.content (objectFile cfg.root oid) = s'.objs oid) ∧
      ∀ path, (fs'.get (lockFile cfg.root (lockName cfg.sha path))).isSome ↔
        ∃ l ∈ s'.locks, lockName cfg.sha l.path = lockName cfg.sha path := by
  obtain ⟨s', h1, h2⟩ := C90_kills hsha hr h
  have get : ∀ (P : List Bytes) (fs : FS) (q : Path), (∀ p, q ≠ halfLock cfg p) →
      (fs.dels (P.map (halfLock cfg))).get q = fs.get q := by
    intro P
    induction P with
    | nil => exact fun _ _ _ => rfl
    | cons p P ih =>
      intro fs q hq
      show ((fs.delName (halfLock cfg p)).dels (P.map (halfLock cfg))).get q = _
      rw [ih _ q hq, FS.get_delName, if_neg (hq p)]
  have ino : ∀ (H : List Path) (fs : FS), (fs.dels H).inodes = fs.inodes := by
    intro H
    induction H with
    | nil => exact fun _ => rfl
    | cons h H ih => exact fun fs => (ih _).trans rfl
  have hlock : ∀ path, (tidied cfg ls fs').get (lockFile cfg.root (lockName cfg.sha path)) =
      fs'.get (lockFile cfg.root (lockName cfg.sha path)) := fun path =>
    get _ _ _ fun p e => by
      have := congrArg List.length (lockFile_inj e)
      rw [List.length_append, (isOid_lockName hsha _).1, (isOid_lockName hsha _).1] at this
      simp at this
  refine ⟨s', h1, fun oid ho => ?_, fun path => ?_⟩
  · rw [← h2.objs oid ho]
    unfold FS.content tidied
    rw [get _ _ _ fun p => Ne.symm (lock_ne_object cfg.root _ _), ino]
  · rw [← hlock]
    constructor
    · intro hg
      obtain ⟨l, hl, e⟩ := h2.only _ hg
      exact ⟨l, hl, e.symm⟩
    · rintro ⟨l, hl, e⟩
      obtain ⟨i, hi, _⟩ := h2.locks l hl
      rw [← e, hi]
      rfl

namespace Tests

def cutF : World := stopped calm 10 (server Tests.cfg b!"upload" (enc (lockOf b!"f"))) ⟨fs0, [], 0⟩
def cutG : World := stopped calm 11 (server Tests.cfg b!"upload" (enc (lockOf b!"g"))) ⟨cutF.fs, [], 0⟩
def stintF : Stint := ⟨.upload, calm, [.ask (.lock b!"f")], cutF.out⟩
def stintG : Stint := ⟨.upload, calm, [.ask (.lock b!"g")], cutG.out⟩

theorem talkLock (p : Bytes) (h : (lockOf p).all Packet.short = true) : Talk .upload [.ask (.lock p)] (enc (lockOf p)) := by
  have : Session .upload [.lock p] (enc (lockOf p) ++ []) :=
    .cons (lockOf_encodes _) (frames_enc _ h) rfl (by simp) .eof
  simpa using C72_sessions this

/-- Two servers, each killed while it took a lock. -/
theorem stintsFG : Stints Tests.cfg fs0 [stintF, stintG] cutG.fs :=
  .next (ls := [stintF]) (l := stintG) (w := ⟨cutF.fs, [], 0⟩) (r := Rdr.new (enc (lockOf b!"g")) eofErr false) 11
    (.next (ls := []) (l := stintF) (w := ⟨fs0, [], 0⟩) (r := Rdr.new (enc (lockOf b!"f")) eofErr false) 10 .none rfl rfl
      (fun _ => rfl) (clock_ok _) (talkLock b!"f" (by decide)) rfl rfl (by simp) rfl)
    rfl rfl (fun _ => rfl) (clock_ok _) (talkLock b!"g" (by decide)) rfl rfl (by
      have : lockName Tests.cfg.sha b!"g" ≠ lockName Tests.cfg.sha b!"f" := by decide +kernel
      simpa [stintF, stintG, Stint.locks, Said.toLock, Aloof] using this) rfl

/-- Both have left a file; the second has taken its lock, and the first has not. A server after them releases it. -/
example : Rep Tests.cfg s0 fs0 ∧ (cutG.fs.get (halfLock Tests.cfg b!"f")).isSome ∧ (cutG.fs.get (halfLock Tests.cfg b!"g")).isSome ∧
    cutG.fs.get (lockFile Tests.cfg.root (lockName Tests.cfg.sha b!"f")) = none ∧
    (cutG.fs.get (lockFile Tests.cfg.root (lockName Tests.cfg.sha b!"g"))).isSome ∧
    (((server Tests.cfg b!"upload" (enc [.data (b!"unlock " ++ lockName Tests.cfg.sha b!"g"), .flush])).run calm
      ⟨cutG.fs, [], 0⟩).2.out.drop 18).take 15 = b!"000fstatus 200\n" := by
  refine ⟨rep0, by decide +kernel, by decide +kernel, by decide +kernel, by decide +kernel, by decide +kernel⟩

end Tests

end Verif
