import Verif.Lemmas.Next
import Verif.Tests.States
/-!
C13, C15-C19, C37: what the commands on objects answer when the server runs alone and no call fails, for
every request, every store and every environment.
-/
namespace Verif
open Spec

variable {ch : Nat → Choice} {cfg : Cfg} {s : Store} {mode : Mode} {rest : Bytes} {r : Rdr} {w : World}

/-! ### C37 -/

/-- **C37.** Well-formed requests sent back to back, in any packetization: the server advertises its
capabilities, sends exactly one reply per request, in order, each being the answer of the simple
server; the files end up representing its final state, and the exit code is 0. -/
theorem C37_pipelined (hc : ∀ n, (ch n).fault = none) (hsha : ∀ b, (cfg.sha b).length = 32)
    (hclk : ∀ t, Clock cfg ch t → TimeOk cfg t) {qs : List Request} {wire : Bytes} (hs : Session mode qs wire)
    (hr : Rep cfg s w.fs) (hi : r.input = wire) (hp : r.pending = []) (hfin : r.fin.kind = .unexpectedEof) :
    ((mainProg cfg (Mode.operation mode) r).run ch w).1 = ⟨0, []⟩ ∧
    ∃ replies s', ((mainProg cfg (Mode.operation mode) r).run ch w).2.out =
        w.out ++ b!"000eversion=1\n0000" ++ replies ∧
      Served cfg mode ch s qs replies s' ∧
      Rep cfg s' ((mainProg cfg (Mode.operation mode) r).run ch w).2.fs := by
  refine main_run (Q := fun w' => ∃ b s', w'.out = w.out ++ b!"000eversion=1\n0000" ++ b ∧
    Served cfg mode ch s qs b s' ∧ Rep cfg s' w'.fs) ?_
  refine runs_mono (runs_program hc hsha hclk hs hi hp hfin hr) ?_
  rintro x r' w' ⟨rfl, b, s', h1, h2, h3, _⟩
  exact ⟨rfl, b, s', h1, h2, h3⟩

namespace Tests

/-- Non-vacuity: a session with an upload, a batch, an upload that is refused, and `quit`. -/
def demoWire : Bytes := enc (putA [b!"abc", b!"123"]) ++ (enc batchAB ++ (enc (putA [b!"abc"]) ++ (b!"0008quit" ++ b!"junk")))
theorem demo_session : Session .upload
    [.put oidA 6 b!"abc123", .batch [(oidA, 6), (idF, 42)], .put oidA 6 b!"abc", .quit] demoWire :=
  .cons (putA_encodes [b!"abc", b!"123"] (by decide)) (frames_enc _ (by decide +kernel)) rfl (by simp)
    (.cons batchAB_encodes (frames_enc _ (by decide +kernel)) trivial (by simp)
      (.cons (putA_encodes [b!"abc"] (by decide)) (frames_enc _ (by decide +kernel)) rfl (by simp)
        (.quit (.quit (.inl rfl)) (frames_enc [.data b!"quit"] (by decide)))))

/-- The same session, run. -/
example : ((server Tests.cfg b!"upload" demoWire).run calm ⟨fs0, [], 0⟩).2.out = b!"000eversion=1\n0000" ++
    b!"000fstatus 200\n0000" ++
    (b!"000fstatus 200\n0001004c" ++ oidA ++ b!" 6 noop\n004f" ++ idF ++ b!" 42 upload\n0000") ++
    b!"000fstatus 400\n0001003ferror: incomplete or missing data: expected 6 bytes, got 3\n0000" ++
    b!"000fstatus 200\n0000" := by decide +kernel

end Tests

/-! ### C13 -/

theorem putError_none {oid data : Bytes} {n : Nat} :
    putError cfg oid n data = none ↔ data.length = n ∧ hex (cfg.sha data) = oid := by
  unfold putError
  by_cases h1 : data.length < n
  · simp [h1]; omega
  · by_cases h2 : n < data.length
    · simp [h1, h2]; omega
    · have : data.length = n := by omega
      by_cases h3 : hex (cfg.sha data) = oid <;> simp [h3, this]

/-- **C13.** An upload is accepted, and then stored, exactly when size and hash match; otherwise the
objects are as before. The locks are never touched. -/
theorem C13_put_exact {oid data : Bytes} {n : Nat} (h : Next cfg mode ch s (.put oid n data) rest r w) :
    OneReply cfg mode ch rest r w fun reply fs' => SameLocks cfg.root w.fs fs' ∧
      if data.length = n ∧ hex (cfg.sha data) = oid then
        reply.code = 200 ∧ fs'.content (objectFile cfg.root oid) = some data ∧
          ∀ o, IsOid o → o ≠ oid →
            fs'.content (objectFile cfg.root o) = w.fs.content (objectFile cfg.root o)
      else reply.code = 400 ∧ SameObjs cfg.root w.fs fs' := by
  obtain ⟨t, t', _, _, h1⟩ := h.run (by simp)
  have ho : IsOid oid := by
    obtain ⟨ps, u, he, _⟩ := h.wire
    cases he with
    | put ho => exact ho
  refine h1.mono ?_
  rintro reply fs' _ ⟨k1, k2, k3, k4, k5⟩
  by_cases hp : data.length = n ∧ hex (cfg.sha data) = oid
  · rw [if_pos hp]
    rw [← putError_none] at hp
    simp only [answer, hp] at k1 k4
    refine ⟨sameLocks_of h.rep k4 rfl, k1, by rw [k4.objs oid ho]; simp, fun o ho' hne => ?_⟩
    rw [k4.objs o ho', h.rep.objs o ho']
    simp [hne]
  · rw [if_neg hp]
    rw [← putError_none] at hp
    obtain ⟨m, hm⟩ := Option.ne_none_iff_exists'.mp hp
    simp only [answer, hm] at k1 k4
    exact ⟨sameLocks_of h.rep k4 rfl, k1, sameObjs_of h.rep k4 fun _ _ => rfl⟩

/-- Non-vacuity: an upload that matches, in three packets (one empty), and one that does not. -/
example : Next Tests.cfg .upload Tests.calm Tests.sL (.put Tests.oidA 6 b!"abc123") b!"0005x"
    (Tests.seeing (Tests.putA [b!"abc1", [], b!"23"]) b!"0005x") ⟨Tests.fsL, [], 3⟩ :=
  Tests.next _ _ _ (Tests.putA_encodes [b!"abc1", [], b!"23"] (by decide)) (by decide +kernel) rfl Tests.repL Tests.readyL
example : hex (Tests.cfg.sha b!"abc123") = Tests.oidA ∧ hex (Tests.cfg.sha b!"abc124") ≠ Tests.oidA := by
  decide +kernel
example : Next Tests.cfg .upload Tests.calm Tests.sL (.put Tests.oidA 6 b!"abc124") []
    (Tests.seeing (Tests.putA [b!"abc124"]) []) ⟨Tests.fsL, [], 3⟩ :=
  Tests.next _ _ _ (Tests.putA_encodes [b!"abc124"] (by decide)) (by decide +kernel) rfl Tests.repL Tests.readyL

/-! ### C15 -/

theorem linePackets_unique {l : Bytes} {ps qs : List Bytes} (h1 : LinePackets l ps) (h2 : LinePackets l qs) :
    ps = qs := by
  induction h1 generalizing qs with
  | @short l hl =>
    generalize hm : l = m at h2
    cases h2 with
    | short _ => rfl
    | @long a b ps ha hb _ =>
      subst hm
      have := List.length_pos_iff.mpr hb
      rw [List.length_append] at hl
      omega
  | @long a b ps ha hb h ih =>
    generalize hm : a ++ b = m at h2
    cases h2 with
    | short hl =>
      subst hm
      have := List.length_pos_iff.mpr hb
      rw [List.length_append] at hl
      omega
    | @long a' b' ps' ha' hb' h' =>
      obtain ⟨rfl, rfl⟩ := List.append_inj hm (ha.trans ha'.symm)
      rw [ih h']

theorem linesPackets_unique {ls : List Bytes} {ps qs : List Bytes} (h1 : LinesPackets ls ps)
    (h2 : LinesPackets ls qs) : ps = qs := by
  induction h1 generalizing qs with
  | nil => cases h2; rfl
  | cons h _ ih =>
    cases h2 with
    | cons h' h2' => rw [linePackets_unique h h', ih h2']

theorem frames_unique {ps : List Packet} {u v : Bytes} (h1 : Frames ps u) (h2 : Frames ps v) : u = v := by
  induction h1 generalizing v with
  | nil => cases h2; rfl
  | cons h _ ih =>
    cases h2 with
    | cons h' h2' => rw [frame_unique h, frame_unique h', ih h2']

theorem digits3_unique {a b : Bytes} {n : Nat} (ha : a.length = 3 ∧ Dec a n) (hb : b.length = 3 ∧ Dec b n) : a = b := by
  obtain ⟨ha, da⟩ := ha
  obtain ⟨hb, db⟩ := hb
  rw [dec_iff] at da db
  match a, b, ha, hb with
  | [a1, a2, a3], [b1, b2, b3], _, _ =>
    obtain ⟨-, d1, d2⟩ := da
    obtain ⟨-, e1, e2⟩ := db
    have key : ∀ x : UInt8, isDigit x = true → 48 ≤ x.toNat ∧ x.toNat ≤ 57 := by
      intro x hx
      simpa [isDigit, UInt8.le_iff_toNat_le] using hx
    have f1 := key a1 (d1 _ (by simp)); have f2 := key a2 (d1 _ (by simp)); have f3 := key a3 (d1 _ (by simp))
    have g1 := key b1 (e1 _ (by simp)); have g2 := key b2 (e1 _ (by simp)); have g3 := key b3 (e1 _ (by simp))
    simp only [digitsVal, List.foldl_cons, List.foldl_nil] at d2 e2
    have : a1.toNat = b1.toNat ∧ a2.toNat = b2.toNat ∧ a3.toNat = b3.toNat := by omega
    obtain ⟨h1, h2, h3⟩ := this
    rw [UInt8.toNat_inj] at h1 h2 h3
    rw [h1, h2, h3]

/-- An answer without file content has one wire form. -/
theorem sends_unique {a : Answer} {u v : Bytes} (h : ∀ b, a.body ≠ .raw b) (h1 : Sends a u) (h2 : Sends a v) :
    u = v := by
  obtain ⟨⟨c1, d1, a1, b1⟩, o1, f1, k1, l1, m1⟩ := h1
  obtain ⟨⟨c2, d2, a2, b2⟩, o2, f2, k2, l2, m2⟩ := h2
  simp only at k1 k2 l1 l2 m1 m2
  subst k1 k2
  have hd : d1 = d2 := digits3_unique o1.digits o2.digits
  have ha : a1 = a2 := linesPackets_unique l1 l2
  have hb : b1 = b2 := by
    cases hbody : a.body with
    | none =>
      rw [hbody] at m1 m2
      have m1 : b1 = none := m1
      have m2 : b2 = none := m2
      rw [m1, m2]
    | lines ls =>
      rw [hbody] at m1 m2
      obtain ⟨p1, rfl, n1⟩ := m1
      obtain ⟨p2, rfl, n2⟩ := m2
      rw [linesPackets_unique n1 n2]
    | raw b => exact absurd hbody (h b)
  subst hd ha hb
  exact frames_unique f1 f2

/-- The simple server does not know about copy buffers. -/
theorem rep_bufs {bufs : Nat → Nat} {fs : FS} (h : Rep { cfg with copyBuf := bufs } s fs) : Rep cfg s fs :=
  ⟨h.objs, h.locks, h.only, h.sorted, h.times, h.objFiles, h.lockFiles, h.noFile, h.nodup, h.bound⟩

/-- **C15.** Two servers with any two schedules of internal copy buffers, any two environments and any
two packetizations of the same upload (and any writing of its arguments), starting with the same store:
they send the same bytes, and store the same objects. -/
theorem C15_independent {oid data : Bytes} {n : Nat} {bufs : Nat → Nat} {ch' : Nat → Choice} {rest' : Bytes}
    {r' : Rdr} {w' : World} (h : Next cfg mode ch s (.put oid n data) rest r w)
    (h' : Next { cfg with copyBuf := bufs } mode ch' s (.put oid n data) rest' r' w') :
    ∃ b, ((turn cfg mode r).run ch w).2.out = w.out ++ b ∧
      ((turn { cfg with copyBuf := bufs } mode r').run ch' w').2.out = w'.out ++ b ∧
      SameObjs cfg.root ((turn cfg mode r).run ch w).2.fs
        ((turn { cfg with copyBuf := bufs } mode r').run ch' w').2.fs ∧
      SameLocks cfg.root ((turn cfg mode r).run ch w).2.fs
        ((turn { cfg with copyBuf := bufs } mode r').run ch' w').2.fs := by
  obtain ⟨t, t1, _, _, _, reply, b, k1, k2, k3, k4, k5, k6, k7, _⟩ := h.run (by simp)
  obtain ⟨t', t1', _, _, _, reply', b', l1, l2, l3, l4, l5, l6, l7, _⟩ := h'.run (by simp)
  have e : answer { cfg with copyBuf := bufs } mode s t' t1' (.put oid n data) =
      answer cfg mode s t t1 (.put oid n data) := rfl
  rw [e] at l4 l5 l6 l7
  have l7 := rep_bufs l7
  refine ⟨b, k3, ?_, sameObjs_of k7 l7 fun _ _ => rfl, sameLocks_of k7 l7 rfl⟩
  rw [l3]
  congr 1
  refine sends_unique (a := (answer cfg mode s t t1 (.put oid n data)).1) ?_ ⟨_, l1, l2, l4, l5, l6⟩
    ⟨_, k1, k2, k4, k5, k6⟩
  intro x
  simp only [answer]
  split <;> simp [badRequest]

/-- Non-vacuity: one byte per packet and one byte per internal read, against all at once. -/
example : Next { Tests.cfg with copyBuf := fun _ => 1 } .upload Tests.calm Tests.sL (.put Tests.oidA 6 b!"abc123") []
    (Tests.seeing (Tests.putA [b!"a", b!"b", b!"c", b!"1", b!"2", b!"3"]) []) ⟨Tests.fsL, [], 0⟩ :=
  have h := Tests.next [] [] 0 (Tests.putA_encodes [b!"a", b!"b", b!"c", b!"1", b!"2", b!"3"] (by decide))
    (by decide +kernel) rfl Tests.repL Tests.readyL
  ⟨h.calm, h.sha, h.clock, h.wire, h.pending, h.allowed, ⟨h.rep.objs, h.rep.locks, h.rep.only, h.rep.sorted,
    h.rep.times, h.rep.objFiles, h.rep.lockFiles, h.rep.noFile, h.rep.nodup, h.rep.bound⟩, h.ready⟩

/-! ### C17 -/

/-- **C17.** A download answers 404 exactly when there is no such object; otherwise 200 with the size
and exactly the content, in whatever packets. No file is changed. -/
theorem C17_get_exact {oid : Bytes} (h : Next cfg mode ch s (.get oid) rest r w) :
    OneReply cfg mode ch rest r w fun reply fs' => fs' = w.fs ∧
      match w.fs.content (objectFile cfg.root oid) with
      | none => reply.code = 404
      | some d => reply.code = 200 ∧ LinesPackets [b!"size=" ++ decimal d.length ++ b!"\n"] reply.args ∧
          ∃ ds, reply.data = some ds ∧ ds.flatten = d := by
  obtain ⟨t, t', _, _, h0, reply, b, k0, k1, k2, k3, k4, k5, k6, k7⟩ := h.run (by simp)
  have ho : IsOid oid := by
    obtain ⟨ps, u, he, _⟩ := h.wire
    cases he with
    | get ho => exact ho
  refine ⟨h0, reply, b, k0, k1, k2, h.fs trivial, ?_⟩
  rw [h.rep.objs oid ho]
  cases hx : s.objs oid with
  | none => simpa [answer, hx, notFound] using k3
  | some d =>
    simp only [answer, hx] at k3 k4 k5
    exact ⟨k3, k4, k5⟩

/-- Non-vacuity: the object is stored; and it is not. -/
example : Next Tests.cfg .download Tests.calm Tests.sL (.get Tests.oidA) b!"xyz"
    (Tests.seeing Tests.getA' b!"xyz") ⟨Tests.fsL, b!"out", 3⟩ :=
  Tests.next _ _ _ Tests.getA_encodes (by decide +kernel) rfl Tests.repL Tests.readyL
example : Tests.fsL.content (objectFile Tests.cfg.root Tests.oidA) = some b!"abc123" ∧
    Tests.fs0.content (objectFile Tests.cfg.root Tests.oidA) = none := by decide +kernel

/-! ### C18 -/

/-- **C18.** Verification answers 404 when the object is absent, 200 when it is present with the given
size, and 409 when the size differs. No file is changed. -/
theorem C18_verify_exact {oid : Bytes} {n : Nat} (h : Next cfg mode ch s (.verify oid n) rest r w) :
    OneReply cfg mode ch rest r w fun reply fs' => fs' = w.fs ∧
      match w.fs.content (objectFile cfg.root oid) with
      | none => reply.code = 404
      | some d => reply.code = if d.length = n then 200 else 409 := by
  obtain ⟨t, t', _, _, h0, reply, b, k0, k1, k2, k3, k4, k5, k6, k7⟩ := h.run (by simp)
  have ho : IsOid oid := by
    obtain ⟨ps, u, he, _⟩ := h.wire
    cases he with
    | verify ho => exact ho
  refine ⟨h0, reply, b, k0, k1, k2, h.fs trivial, ?_⟩
  rw [h.rep.objs oid ho]
  cases hx : s.objs oid with
  | none => simpa [answer, hx] using k3
  | some d =>
    by_cases hn : d.length = n <;> simpa [answer, hx, hn] using k3

/-- Non-vacuity: the object is stored with that size. -/
example : Next Tests.cfg .upload Tests.calm Tests.sL (.verify Tests.oidA 6) b!"xyz"
    (Tests.seeing Tests.verifyA b!"xyz") ⟨Tests.fsL, b!"out", 3⟩ :=
  Tests.next _ _ _ Tests.verifyA_encodes (by decide +kernel) rfl Tests.repL Tests.readyL

/-! ### C19 -/

/-- The action of a batch reply. -/
def batchAction (mode : Mode) (present : Bool) : Bytes :=
  match mode, present with
  | .upload, true => b!"noop"
  | .upload, false => b!"upload"
  | .download, true => b!"download"
  | .download, false => b!"noop"

theorem batchLines_oids {items : List (Bytes × Nat)} {ls : List Bytes} (h : BatchLines items ls) :
    ∀ it ∈ items, IsOid it.1 := by
  induction h with
  | nil => simp
  | cons ho _ _ ih =>
    intro it hit
    rcases List.mem_cons.mp hit with rfl | hit
    · exact ho
    · exact ih it hit

/-- **C19.** The reply to a batch has exactly one line per requested object, in the order of the
request: the ID, the stored size if there is such an object and the requested size otherwise, and the
action. No file is changed. -/
theorem C19_batch_exact {items : List (Bytes × Nat)} (h : Next cfg mode ch s (.batch items) rest r w) :
    OneReply cfg mode ch rest r w fun reply fs' => fs' = w.fs ∧ reply.code = 200 ∧ reply.args = [] ∧
      ∃ ds, reply.data = some ds ∧ LinesPackets (items.map fun it =>
        let stored := w.fs.content (objectFile cfg.root it.1)
        it.1 ++ b!" " ++ decimal ((stored.map List.length).getD it.2) ++ b!" " ++
          batchAction mode stored.isSome ++ b!"\n") ds := by
  obtain ⟨t, t', _, _, h0, reply, b, k0, k1, k2, k3, k4, k5, k6, k7⟩ := h.run (by simp)
  refine ⟨h0, reply, b, k0, k1, k2, h.fs trivial, k3, ?_, ?_⟩
  · have k4 : LinesPackets [] reply.args := k4
    generalize reply.args = x at k4
    cases k4; rfl
  · have k5 : ∃ ds, reply.data = some ds ∧ LinesPackets (items.map (batchLine s mode)) ds := k5
    obtain ⟨ds, h1, h2⟩ := k5
    refine ⟨ds, h1, ?_⟩
    have hids : ∀ it ∈ items, IsOid it.1 := by
      obtain ⟨ps, u, he, _⟩ := h.wire
      cases he with
      | batch _ _ _ hb => exact batchLines_oids hb
    have : items.map (batchLine s mode) = items.map fun it =>
        let stored := w.fs.content (objectFile cfg.root it.1)
        it.1 ++ b!" " ++ decimal ((stored.map List.length).getD it.2) ++ b!" " ++
          batchAction mode stored.isSome ++ b!"\n" := by
      refine List.map_congr_left fun it hit => ?_
      simp only [h.rep.objs it.1 (hids it hit)]
      cases hx : s.objs it.1 <;> cases mode <;> simp [batchLine, batchAction, hx]
    rw [← this]
    exact h2

/-- Non-vacuity: one object that is stored and one that is not, in both modes. -/
example (mode : Mode) : Next Tests.cfg mode Tests.calm Tests.sL (.batch [(Tests.oidA, 6), (Tests.idF, 42)]) b!"xyz"
    (Tests.seeing Tests.batchAB b!"xyz") ⟨Tests.fsL, b!"out", 3⟩ :=
  Tests.next _ _ _ Tests.batchAB_encodes (by decide +kernel) trivial Tests.repL Tests.readyL

/-! ### C16 -/

/-- None of the requests uploads other data with the same SHA-256. -/
def NoClash (cfg : Cfg) (oid data : Bytes) (qs : List Request) : Prop :=
  ∀ n d, .put oid n d ∈ qs → hex (cfg.sha d) = oid → d = data

/-- The simple server keeps an object, unless another upload has the same hash. -/
theorem served_kept {qs : List Request} {b : Bytes} {s' : Store} {oid data : Bytes}
    (h : Served cfg mode ch s qs b s') (hcol : NoClash cfg oid data qs)
    (h0 : s.objs oid = some data) : s'.objs oid = some data := by
  induction h with
  | nil => exact h0
  | @cons s s' s'' q qs t t' a w ws _ _ ha _ _ ih =>
    refine ih (fun n d hd => hcol n d (List.mem_cons_of_mem _ hd)) ?_
    have : s' = (answer cfg mode s t t' q).2 := by rw [ha]
    subst this
    cases q with
    | put o n d =>
      simp only [answer]
      split
      · exact h0
      · rename_i hp
        by_cases ho : oid = o
        · subst ho
          simp [hcol n d (by simp) (putError_none.mp hp).2]
        · simp [ho, h0]
    | listLocks p c l => cases p <;> simp only [answer] <;> (repeat' split) <;> exact h0
    | _ => simp only [answer]; (repeat' split) <;> exact h0

/-- An accepted upload leaves its object. -/
theorem served_put {qs : List Request} {b : Bytes} {s' : Store} {oid data : Bytes} {n : Nat}
    (h : Served cfg mode ch s qs b s') (hcol : NoClash cfg oid data qs)
    (hq : .put oid n data ∈ qs) (hn : data.length = n) (ho : hex (cfg.sha data) = oid) :
    s'.objs oid = some data := by
  induction h with
  | nil => simp at hq
  | @cons s s' s'' q qs t t' a w ws _ _ ha _ hs ih =>
    have hcol' : NoClash cfg oid data qs := fun n d hd => hcol n d (List.mem_cons_of_mem _ hd)
    rcases List.mem_cons.mp hq with rfl | hq
    · refine served_kept hs hcol' ?_
      have : s' = (answer cfg mode s t t' (.put oid n data)).2 := by rw [ha]
      subst this
      simp [answer, putError_none.mpr ⟨hn, ho⟩]
    · exact ih hcol' hq

theorem served_append {qs qs' : List Request} {b : Bytes} {s' : Store}
    (h : Served cfg mode ch s (qs ++ qs') b s') : ∃ b1 b2 s1, b = b1 ++ b2 ∧ Served cfg mode ch s qs b1 s1 ∧
      Served cfg mode ch s1 qs' b2 s' := by
  induction qs generalizing s b with
  | nil => exact ⟨[], b, s, rfl, .nil, h⟩
  | cons q qs ih =>
    cases h with
    | cons h1 h2 h3 h4 h5 =>
      obtain ⟨b1, b2, s1, rfl, g1, g2⟩ := ih h5
      exact ⟨_, b2, s1, by rw [List.append_assoc], .cons h1 h2 h3 h4 g1, g2⟩

/-- Downloads do not upload. -/
theorem session_download {qs : List Request} {wire : Bytes} (h : Session .download qs wire) {oid d : Bytes} {n : Nat} :
    .put oid n d ∉ qs := by
  generalize hm : Mode.download = m at h
  induction h with
  | eof => simp
  | quit => simp
  | @cons q qs ps w ws _ _ hal _ _ ih =>
    subst hm
    intro hmem
    rcases List.mem_cons.mp hmem with rfl | hmem
    · cases hal
    · exact ih hmem

/-- `Later cfg oid data fs fs'`: any number of sessions, one after the other, none of which uploads
other data with the SHA-256 `oid`, lead from `fs` to `fs'`. -/
inductive Later (cfg : Cfg) (oid data : Bytes) : FS → FS → Prop
  | refl {fs : FS} : Later cfg oid data fs fs
  | step {fs : FS} {mode : Mode} {ch : Nat → Choice} {qs : List Request} {wire : Bytes} {r : Rdr} {w : World} :
      Later cfg oid data fs w.fs → (∀ n, (ch n).fault = none) → (∀ t, Clock cfg ch t → TimeOk cfg t) →
      Session mode qs wire → NoClash cfg oid data qs → r.input = wire → r.pending = [] →
      r.fin.kind = .unexpectedEof →
      Later cfg oid data fs ((mainProg cfg (Mode.operation mode) r).run ch w).2.fs

theorem Later.kept {fs fs' : FS} {oid data : Bytes} (h : Later cfg oid data fs fs')
    (hsha : ∀ b, (cfg.sha b).length = 32) {s : Store} (hr : Rep cfg s fs)
    (h0 : s.objs oid = some data) : ∃ s', Rep cfg s' fs' ∧ s'.objs oid = some data := by
  induction h with
  | refl => exact ⟨s, hr, h0⟩
  | step _ hc hclk hs hcol hi hp hfin ih =>
    obtain ⟨s1, h1, h2⟩ := ih
    obtain ⟨_, b, s2, _, h3, h4⟩ := C37_pipelined hc hsha hclk hs h1 hi hp hfin
    exact ⟨s2, h4, served_kept h3 hcol h2⟩

/-- **C16.** A session uploads an object (among any other requests); any number of sessions follow;
then a session downloads the object (among any other requests): the reply is 200 with the size and
exactly the bytes that were uploaded. Assumed: none of those sessions uploads other data with the same
SHA-256. -/
theorem C16_round_trip (hsha : ∀ b, (cfg.sha b).length = 32) (hr : Rep cfg s w.fs)
    {oid data : Bytes} {n : Nat} (hn : data.length = n) (ho : hex (cfg.sha data) = oid)
    -- the upload session
    (hc : ∀ n, (ch n).fault = none) (hclk : ∀ t, Clock cfg ch t → TimeOk cfg t)
    {qs : List Request} {wire : Bytes} (hs : Session .upload qs wire) (hq : .put oid n data ∈ qs)
    (hcol : NoClash cfg oid data qs) (hi : r.input = wire) (hp : r.pending = []) (hfin : r.fin.kind = .unexpectedEof)
    -- the download session
    {ch' : Nat → Choice} (hc' : ∀ n, (ch' n).fault = none) (hclk' : ∀ t, Clock cfg ch' t → TimeOk cfg t)
    {before after : List Request} {wire' : Bytes} (hs' : Session .download (before ++ .get oid :: after) wire')
    {r' : Rdr} (hi' : r'.input = wire') (hp' : r'.pending = []) (hfin' : r'.fin.kind = .unexpectedEof)
    {w' : World} (hlater : Later cfg oid data ((mainProg cfg b!"upload" r).run ch w).2.fs w'.fs) :
    ∃ b1 b2 b3 s1 s2 s3, ((mainProg cfg b!"download" r').run ch' w').2.out =
        w'.out ++ b!"000eversion=1\n0000" ++ b1 ++ b2 ++ b3 ∧
      Served cfg .download ch' s1 before b1 s2 ∧ Served cfg .download ch' s2 after b3 s3 ∧
      ∃ reply : Reply, reply.Ok ∧ Frames reply.packets b2 ∧ reply.code = 200 ∧
        LinesPackets [b!"size=" ++ decimal data.length ++ b!"\n"] reply.args ∧
        ∃ ds, reply.data = some ds ∧ ds.flatten = data := by
  obtain ⟨_, b, s', _, h1, h2⟩ := C37_pipelined (mode := .upload) hc hsha hclk hs hr hi hp hfin
  have h3 := served_put h1 hcol hq hn ho
  obtain ⟨s1, h4, h5⟩ := hlater.kept hsha h2 h3
  obtain ⟨_, b', s3, e, h6, _⟩ := C37_pipelined (mode := .download) hc' hsha hclk' hs' h4 hi' hp' hfin'
  obtain ⟨b1, b2, s2, rfl, g1, g2⟩ := served_append h6
  have k := served_kept g1 (fun n d hd => absurd (List.mem_append_left _ hd) (session_download hs')) h5
  cases g2 with
  | @cons _ s' _ _ _ t t' a x ws ht ht' ha hx hrest =>
    simp only [answer, k] at ha
    cases ha
    refine ⟨b1, x, ws, s1, s2, s3, ?_, g1, hrest, ?_⟩
    · rw [show b!"download" = Mode.operation .download from rfl, e]
      simp only [List.append_assoc]
    · obtain ⟨reply, k1, k2, k3, k4, k5⟩ := hx
      exact ⟨reply, k1, k2, k3, k4, k5⟩

/-- Non-vacuity: upload, then (in between, another session of the demo above), then download. -/
example : Session .download [.get Tests.oidA] (Tests.enc Tests.getA' ++ []) :=
  .cons Tests.getA_encodes (Tests.frames_enc _ (by decide +kernel)) rfl (by simp) .eof
example : NoClash Tests.cfg Tests.oidA b!"abc123"
    [.put Tests.oidA 6 b!"abc123", .batch [(Tests.oidA, 6), (Tests.idF, 42)], .put Tests.oidA 6 b!"abc", .quit] := by
  intro n d hd hh
  simp only [List.mem_cons, List.not_mem_nil, or_false, Request.put.injEq, reduceCtorEq, false_or] at hd
  rcases hd with ⟨_, _, rfl⟩ | ⟨_, _, rfl⟩
  · rfl
  · revert hh; decide +kernel

end Verif
