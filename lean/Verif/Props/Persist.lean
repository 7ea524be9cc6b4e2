import Verif.Props.Stints
/-! C90: a client that asks for a lock again, after any number of killed servers. -/
namespace Verif
open Spec

variable {cfg : Cfg} {ch ch2 : Nat → Choice} {s : Store} {path : Bytes} {P : List Bytes}

/-- The run of a server that is asked for a lock whose file is still there: it crashes and removes the file, or serves the
session. It has nothing to do with other such files. -/
theorem apart_lock (hc : Calm ch) (hsha : ∀ b, (cfg.sha b).length = 32) (hclk : ∀ t, Clock cfg ch t → TimeOk cfg t)
    {ps : List Packet} {u rest : Bytes} {qs : List Said} {w : World} {r : Rdr} (hm : Spec.Means .upload ps (.lock path))
    (hF : Frames ps u) (hs : Talk .upload qs rest) (hi : r.input = u ++ rest) (hp : r.pending = [])
    (hfin : r.fin.kind = .unexpectedEof) (hP : ∀ p ∈ P, lockName cfg.sha path ≠ lockName cfg.sha p)
    (hq : ∀ p ∈ P, ∀ q ∈ qs, Aloof cfg p q) (hr : Left (fun _ => True) cfg s path w.fs) :
    (runProgram cfg b!"upload").wp (Logic.apart ch (P.map (halfLock cfg))) r w (fun x _ w' =>
      (x = .panic ∧ w'.out = w.out ++ b!"000eversion=1\n0000" ∧ Rep cfg s w'.fs) ∨
      (x = .ok () ∧ ∃ ws s', w'.out = w.out ++ b!"000eversion=1\n0000" ++ ws.flatten ∧
        Conversation cfg .upload ch s (.ask (.lock path) :: qs) ws s' ∧ Rep cfg s' w'.fs)) := by
  unfold runProgram
  have hmk' : (createDirectories cfg).wp (Logic.apart ch (P.map (halfLock cfg))) r w (fun x r' w' => x = .ok () ∧ r' = r ∧
      w'.out = w.out ∧ Left (fun _ => True) cfg s path w'.fs ∧ (∀ q, q ∈ w.fs.dirs → q ∈ w'.fs.dirs) ∧
      ∀ d ∈ topDirs cfg.root, d ∈ w'.fs.dirs) :=
    Prog.sep_apart (halves fun p _ => M.All.sep aside_mkdirs r)
      (runs_of_stops (I := fun _ => True) (stops_mkdirs_but hc (fun _ _ h => h) (fun _ _ => trivial) (topDirs cfg.root) r w (fun _ h => h) hr))
  refine apart_bind hmk' ?_
  rintro x r' w1 ⟨rfl, rfl, e1, hr1, _, hd1⟩
  simp only [Res.elim_ok]
  have hcp : sendCapabilities.wp (Logic.apart ch (P.map (halfLock cfg))) r' w1 (fun x r2 w' => x = .ok () ∧ r2 = r' ∧
      w'.fs = w1.fs ∧ w'.out = w1.out ++ (encMsg b!"version=1\n" ++ b!"0000")) :=
    Prog.sep_apart (halves fun p _ => M.All.sep aside_sendCapabilities r') (prints_sendCapabilities ch r' w1 hc)
  refine apart_bind hcp ?_
  rintro x r2 w2 ⟨rfl, rfl, e2, e3⟩
  have hcap : encMsg b!"version=1\n" ++ b!"0000" = b!"000eversion=1\n0000" := by decide
  rw [hcap, e1] at e3
  simp only [Res.elim_ok]
  rw [← e2] at hr1 hd1
  rw [if_pos trivial]
  have loop {Q} (h : (processF cfg .upload (r2.input.length + 1)).wp (Logic.apart ch (P.map (halfLock cfg))) r2 w2 Q) :
      (processCommands cfg .upload).wp (Logic.apart ch (P.map (halfLock cfg))) r2 w2 Q := h
  refine loop ?_
  rw [processF]
  have ht : (turn cfg .upload).wp (Logic.apart ch (P.map (halfLock cfg))) r2 w2 (fun x r3 w' => Rep cfg s w'.fs ∧
      if s.find cfg (lockName cfg.sha path) = none then x = .panic ∧ w'.out = w2.out else
        Turned cfg .upload ch s (.lock path) .again { r2 with input := rest } w2.out x r3 w') :=
    Prog.sep_apart (halves fun p hp => sep_turn_means hsha (show Aloof cfg p (.ask (.lock path)) from hP p hp) hm hF hi)
      (runs_of_stops (I := fun _ => True) (stops_turn_lock_but hc hsha hm hF hi hr1 hd1 (fun _ _ => trivial) fun _ _ => trivial))
  refine apart_bind ht ?_
  rintro x r3 w3 ⟨h1, h2⟩
  by_cases hn : s.find cfg (lockName cfg.sha path) = none
  · rw [if_pos hn] at h2
    obtain ⟨rfl, h2⟩ := h2
    exact .inl ⟨rfl, h2.trans e3, h1⟩
  · rw [if_neg hn] at h2
    obtain ⟨rfl, rfl, t, t', b, ht, ht', g1, g2, g3, g4⟩ := h2
    simp only [Res.elim_ok]
    have hlen := frames_length hF
    have := List.length_pos_iff.mpr (means_ne hm)
    refine M.wp_mono (apart_talk hc hsha hclk hs hq _ r2.input.length _ w3 rfl hp hfin ?_ g3 g4) ?_
    · rw [hi, List.length_append]
      omega
    · rintro x r4 w4 ⟨rfl, b2, s2, f1, f2, f3⟩
      exact .inr ⟨rfl, b :: b2, s2, by rw [f1, g1, e3, List.flatten_cons, ← List.append_assoc], .cons ht ht' rfl g2 f2, f3⟩

theorem dels_none {h : Path} : ∀ {H : List Path} {fs : FS}, fs.get h = none → (fs.dels H).get h = none
  | [], _, hg => hg
  | x :: H, fs, hg => by
    show ((fs.delName x).dels H).get h = none
    refine dels_none ?_
    rw [FS.get_delName]
    split
    · rfl
    · exact hg

theorem get_dels {h : Path} : ∀ {H : List Path} {fs : FS}, h ∈ H → (fs.dels H).get h = none
  | x :: H, fs, hm => by
    show ((fs.delName x).dels H).get h = none
    by_cases hx : h = x
    · subst hx
      exact dels_none (by rw [FS.get_delName, if_pos rfl])
    · exact get_dels ((List.mem_cons.mp hm).resolve_left hx)

theorem dels_sub : ∀ {H H' : List Path} {fs : FS}, (∀ h ∈ H, h ∈ H') → (fs.dels H).dels H' = fs.dels H'
  | [], _, _, _ => rfl
  | x :: H, H', fs, hs => by
    show ((fs.delName x).dels H).dels H' = _
    rw [dels_sub fun h hm => hs h (List.mem_cons_of_mem _ hm), dels_mem (hs x (List.mem_cons_self ..))]

theorem dels_one {h0 : Path} : ∀ {H : List Path} {fs : FS}, (∀ h ∈ H, h = h0 ∨ fs.get h = none) →
    (fs.dels H).delName h0 = fs.delName h0
  | [], _, _ => rfl
  | x :: H, fs, hs => by
    show ((fs.delName x).dels H).delName h0 = _
    rcases hs x (List.mem_cons_self ..) with rfl | hx
    · rw [dels_one fun h hm => ?_, delName_twice]
      refine (hs h (List.mem_cons_of_mem _ hm)).imp_right fun e => ?_
      rw [FS.get_delName]
      split
      · rfl
      · exact e
    · rw [delName_absent hx, dels_one fun h hm => hs h (List.mem_cons_of_mem _ hm)]

/-- **C90.** After any number of killed servers, a client asks for a lock, also one that a killed server was to take. It gets
its reply, and is served from the store as it is; or the server crashes without a word, and then the client asks once more
and is served. -/
theorem C90_retry {fs : FS} {ls : List Stint} (hc : ∀ n, (ch n).fault = none) (hc2 : ∀ n, (ch2 n).fault = none)
    (hsha : ∀ b, (cfg.sha b).length = 32) (hclk : ∀ t, Clock cfg ch t → TimeOk cfg t) (hclk2 : ∀ t, Clock cfg ch2 t → TimeOk cfg t)
    (hr : Rep cfg s fs) {w w2 : World} (h : Stints cfg fs ls w.fs)
    {ps : List Packet} {u rest : Bytes} {qs : List Said} {r : Rdr} (hm : Spec.Means .upload ps (.lock path))
    (hF : Frames ps u) (hs : Talk .upload qs rest) (hi : r.input = u ++ rest) (hp : r.pending = [])
    (hfin : r.fin.kind = .unexpectedEof)
    (hq : ∀ p ∈ ls.flatMap Stint.locks, lockName cfg.sha path ≠ lockName cfg.sha p → ∀ q ∈ qs, Aloof cfg p q)
    (hw2 : w2.fs = ((mainProg cfg b!"upload" r).run ch w).2.fs) :
    ∃ s', Partly cfg s ls s' ∧
    ((((mainProg cfg b!"upload" r).run ch w).1 = ⟨0, []⟩ ∧
      ∃ ws s2, ((mainProg cfg b!"upload" r).run ch w).2.out = w.out ++ b!"000eversion=1\n0000" ++ ws.flatten ∧
        Conversation cfg .upload ch s' (.ask (.lock path) :: qs) ws s2 ∧
        Rep cfg s2 (tidied cfg ls ((mainProg cfg b!"upload" r).run ch w).2.fs)) ∨
    (((mainProg cfg b!"upload" r).run ch w).1 = ⟨101, []⟩ ∧
      ((mainProg cfg b!"upload" r).run ch w).2.out = w.out ++ b!"000eversion=1\n0000" ∧
      ((mainProg cfg b!"upload" r).run ch2 w2).1 = ⟨0, []⟩ ∧
      ∃ ws s2, ((mainProg cfg b!"upload" r).run ch2 w2).2.out = w2.out ++ b!"000eversion=1\n0000" ++ ws.flatten ∧
        Conversation cfg .upload ch2 s' (.ask (.lock path) :: qs) ws s2 ∧
        Rep cfg s2 (tidied cfg ls ((mainProg cfg b!"upload" r).run ch2 w2).2.fs))) := by
  obtain ⟨s', h1, h2⟩ := C90_kills hsha hr h
  refine ⟨s', h1, ?_⟩
  have htalk : Talk .upload (.ask (.lock path) :: qs) r.input := hi ▸ .ask hm hF hs
  obtain ⟨P, hPdef⟩ : ∃ P, P = (ls.flatMap Stint.locks).filter fun p => lockName cfg.sha path ≠ lockName cfg.sha p := ⟨_, rfl⟩
  have hP : ∀ p, p ∈ P ↔ p ∈ ls.flatMap Stint.locks ∧ lockName cfg.sha path ≠ lockName cfg.sha p := by
    intro p; rw [hPdef, List.mem_filter]; simp
  have hsub : ∀ h ∈ P.map (halfLock cfg), h ∈ (ls.flatMap Stint.locks).map (halfLock cfg) := by
    intro h hm
    obtain ⟨p, hp, rfl⟩ := List.mem_map.mp hm
    exact List.mem_map_of_mem ((hP p).mp hp).1
  have tidy : ∀ {fs : FS} {s : Store}, Rep cfg s (fs.dels (P.map (halfLock cfg))) → Rep cfg s (tidied cfg ls fs) := by
    intro fs s hrep
    unfold tidied
    rw [← dels_sub hsub, rep_dels hsha hrep]
    exact hrep
  have hq' : ∀ p ∈ P, ∀ q ∈ qs, Aloof cfg p q := fun p hp => hq p ((hP p).mp hp).1 ((hP p).mp hp).2
  have hqq : ∀ p ∈ P, ∀ q ∈ .ask (.lock path) :: qs, Aloof cfg p q := by
    intro p hp q hm
    rcases List.mem_cons.mp hm with rfl | hm
    · exact ((hP p).mp hp).2
    · exact hq' p hp q hm
  have hdel : Rep cfg s' ((w.fs.dels (P.map (halfLock cfg))).delName (halfLock cfg path)) := by
    rw [← dels_one (H := (ls.flatMap Stint.locks).map (halfLock cfg)), dels_sub hsub]
    · have h2' : Rep cfg s' (w.fs.dels ((ls.flatMap Stint.locks).map (halfLock cfg))) := h2
      rw [delName_absent (rep_half hsha h2' path)]
      exact h2'
    · intro h hm
      obtain ⟨p, hp, rfl⟩ := List.mem_map.mp hm
      by_cases e : lockName cfg.sha path = lockName cfg.sha p
      · left; unfold halfLock; rw [e]
      · exact .inr (get_dels (List.mem_map_of_mem ((hP p).mpr ⟨hp, e⟩)))
  cases hg : (w.fs.dels (P.map (halfLock cfg))).get (halfLock cfg path) with
  | none =>
    rw [delName_absent hg] at hdel
    obtain ⟨g1, ws, s2, g2, g3, g4, _⟩ := session_aside (mode := .upload) hc hsha hclk htalk hqq hp hfin hdel
    exact .inl ⟨g1, ws, s2, g2, g3, tidy g4⟩
  | some i =>
    have hleft : Left (fun _ => True) cfg s' path (w.fs.dels (P.map (halfLock cfg))) := ⟨by rw [hg]; rfl, hdel, trivial⟩
    have key := (Prog.frame (p := mainProg cfg b!"upload" r) (w := w) (H := P.map (halfLock cfg))
      (Q := fun x w' => (x = ⟨101, []⟩ ∧ w'.out = w.out ++ b!"000eversion=1\n0000" ∧ Rep cfg s' w'.fs) ∨
        (x = ⟨0, []⟩ ∧ ∃ ws s2, w'.out = w.out ++ b!"000eversion=1\n0000" ++ ws.flatten ∧
          Conversation cfg .upload ch s' (.ask (.lock path) :: qs) ws s2 ∧ Rep cfg s2 w'.fs)) halves_ne hc fun ch' ha => by
      unfold mainProg
      rw [Prog.wp_bind]
      refine Prog.wp_mono (apart_lock (w := w.without (P.map (halfLock cfg))) (fun n => (ha n).1) hsha
        (fun t ht => hclk t ((ha.clock t).mp ht)) hm hF hs hi hp hfin (fun p hp => ((hP p).mp hp).2) hq' hleft) ?_
      rintro ⟨x, r'⟩ w' (⟨rfl, k1, k2⟩ | ⟨rfl, ws, s2, k1, k2, k3⟩)
      · exact .inl ⟨rfl, k1, k2⟩
      · exact .inr ⟨rfl, ws, s2, k1, k2.alike ha, k3⟩).1
    obtain ⟨k, _⟩ := (Prog.wp_run ch _ w _).mp key
    rcases k with ⟨k1, k2, k3⟩ | ⟨k1, ws, s2, k2, k3, k4⟩
    · have k3' : Rep cfg s' (w2.fs.dels (P.map (halfLock cfg))) := by rw [hw2]; exact k3
      obtain ⟨g1, ws, s2, g2, g3, g4, _⟩ := session_aside (mode := .upload) hc2 hsha hclk2 htalk hqq hp hfin k3'
      exact .inr ⟨k1, k2, g1, ws, s2, g2, g3, tidy g4⟩
    · exact .inl ⟨k1, ws, s2, k2, k3, tidy k4⟩

namespace Tests

def askFH : Bytes := enc (lockOf b!"f") ++ enc (lockOf b!"h")
def firstFH : Exit × World := (server Tests.cfg b!"upload" askFH).run calm ⟨cutG.fs, [], 0⟩
def secondFH : Exit × World := (server Tests.cfg b!"upload" askFH).run calm ⟨firstFH.2.fs, [], 0⟩

/-- After the two killed servers of `stintsFG`, a client asks for the lock that the first was to take, and then for one more:
the server crashes, and the next serves it, though the file left for `g` is still there. -/
example : firstFH.1 = ⟨101, []⟩ ∧ firstFH.2.out = b!"000eversion=1\n0000" ∧ secondFH.1 = ⟨0, []⟩ ∧
    (secondFH.2.out.drop 18).take 15 = b!"000fstatus 201\n" ∧ (secondFH.2.fs.get (halfLock Tests.cfg b!"g")).isSome ∧
    (secondFH.2.fs.get (lockFile Tests.cfg.root (lockName Tests.cfg.sha b!"f"))).isSome ∧
    (secondFH.2.fs.get (lockFile Tests.cfg.root (lockName Tests.cfg.sha b!"h"))).isSome := by
  decide +kernel

/-- These runs meet the hypotheses of `C90_retry`. -/
example : Stints Tests.cfg fs0 [stintF, stintG] cutG.fs ∧ Rep Tests.cfg s0 fs0 ∧ Spec.Means .upload (lockOf b!"f") (.lock b!"f") ∧
    Frames (lockOf b!"f") (enc (lockOf b!"f")) ∧ Talk .upload [.ask (.lock b!"h")] (enc (lockOf b!"h")) ∧
    ∀ p ∈ [stintF, stintG].flatMap Stint.locks, ∀ q ∈ [Said.ask (.lock b!"h")], Aloof Tests.cfg p q := by
  refine ⟨stintsFG, rep0, C72_sensible (lockOf_encodes _) rfl (by simp), frames_enc _ (by decide), talkLock b!"h" (by decide), ?_⟩
  have h1 : lockName Tests.cfg.sha b!"h" ≠ lockName Tests.cfg.sha b!"f" := by decide +kernel
  have h2 : lockName Tests.cfg.sha b!"h" ≠ lockName Tests.cfg.sha b!"g" := by decide +kernel
  simpa [stintF, stintG, Stint.locks, Said.toLock, Aloof] using ⟨h1, h2⟩

end Tests

end Verif
