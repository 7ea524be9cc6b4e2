import Verif.Lemmas.Causal
import Verif.Spec.Checked
import Verif.Props.PktlineExact
/-! The build that checks for overflow does what the other one does, until it meets a header that overflows. -/
namespace Verif
open Spec

/-- The same input, read by a build without overflow checks. -/
def Rdr.unchecked (r : Rdr) : Rdr := { r with checked := false }

/-- A function that only reads: it panics at a header that overflows, or does the same in both builds. -/
def Strict {α : Type} (g : Rdr → Res α × Rdr) : Prop :=
  ∀ r, (g r).2.input <:+ r.input ∧
    ((g r).1 = .panic ∧ Overflowing r.input ∨ g r.unchecked = ((g r).1, (g r).2.unchecked))

/-- How a function may give up: not at all, without doing anything, or after removing the upload being received. -/
inductive Giving
  | never | bare | tidy (root : Path)

def Giving.ok : Giving → List Event → List Event → Prop
  | .never, _, _ => False
  | .bare, _, u => u = []
  | .tidy root, t, u => Tidied root t u

theorem Giving.grow {l : Giving} {t0 t u : List Event} (h : l.ok t u) : l.ok (t0 ++ t) u := by
  cases l with
  | never => exact h
  | bare => exact h
  | tidy root =>
    rcases h with h | ⟨pre, uid, p, ino, t1, ws, x, h1, rfl, h2⟩
    · exact .inl h
    · exact .inr ⟨pre, uid, p, ino, t0 ++ t1, ws, x, h1, by simp, h2⟩

theorem Spec.Overflowing.mono {i j : Bytes} (h : j <:+ i) : Overflowing j → Overflowing i := by
  rintro ⟨hd, a, b, c, d, h1, h2⟩
  exact ⟨hd, a, b, c, d, h1.trans h.isInfix, h2⟩

/-- What a function does in a build with overflow checks, it also does without; or it gives up at a header that overflows,
and so far has done what the other does. -/
def M.Strict {α : Type} (l : Giving) (m : M α) : Prop :=
  ∀ r tr y r', (m r).Finished tr (y, r') → r'.input <:+ r.input ∧
    ((m r.unchecked).Finished tr (y, r'.unchecked) ∨
      y = .panic ∧ Overflowing r.input ∧ ∃ t u, tr = t ++ u ∧ (m r.unchecked).Did t ∧ l.ok t u)

namespace M.Strict
variable {α β : Type} {l : Giving}

theorem ret {m : M α} {y : Res α} (h : ∀ r, m r = .ret (y, r)) : m.Strict l := by
  intro r tr z r' hf
  rw [h] at hf
  cases hf
  refine ⟨List.suffix_refl _, .inl ?_⟩
  rw [h]
  exact .ret

theorem pure (a : α) : (Pure.pure a : M α).Strict l := ret fun _ => rfl
theorem pure' (a : α) : (M.pure a : M α).Strict l := ret fun _ => rfl
theorem throw (e : Err) : (M.throw e : M α).Strict l := ret fun _ => rfl
theorem panic : (M.panic : M α).Strict l := ret fun _ => rfl
theorem ofRes (x : Res α) : (M.ofRes x).Strict l := ret fun _ => rfl
theorem ofIo (x : Except IoErr α) : (M.ofIo x).Strict l := by
  cases x with
  | ok a => exact pure' a
  | error e => exact throw _

theorem op (o : Op) : (M.op o).Strict l := by
  intro r tr z r' hf
  cases hf with
  | call hf =>
    cases hf
    exact ⟨List.suffix_refl _, .inl (.call .ret)⟩

theorem rdr {g : Rdr → Res α × Rdr} (h : Verif.Strict g) (hl : ∀ t, l.ok t []) : (M.rdr g).Strict l := by
  intro r tr z r' hf
  have e : M.rdr g r = .ret (g r) := rfl
  rw [e] at hf
  have : z = (g r).1 ∧ r' = (g r).2 ∧ tr = [] := by
    generalize g r = q at hf
    cases hf
    exact ⟨rfl, rfl, rfl⟩
  obtain ⟨rfl, rfl, rfl⟩ := this
  refine ⟨(h r).1, ?_⟩
  rcases (h r).2 with ⟨h1, h2⟩ | h1
  · exact .inr ⟨h1, h2, [], [], rfl, .nil, hl _⟩
  · refine .inl ?_
    show (Prog.ret (g r.unchecked)).Finished [] _
    rw [h1]
    exact .ret

theorem bind {m : M α} {f : α → M β} (h : m.Strict l) (hf : ∀ a, (f a).Strict l) : (m >>= f).Strict l := by
  intro r tr y r' hfin
  obtain ⟨t1, t2, ⟨z, r1⟩, rfl, h1, h2⟩ := Prog.finished_bind.mp hfin
  obtain ⟨k1, k2⟩ := h _ _ _ _ h1
  rcases k2 with k2 | ⟨rfl, k3, t, u, rfl, k4, k5⟩
  · cases z with
    | ok a =>
      obtain ⟨j1, j2⟩ := hf a _ _ _ _ h2
      refine ⟨j1.trans k1, ?_⟩
      rcases j2 with j2 | ⟨rfl, j3, t, u, rfl, j4, j5⟩
      · exact .inl (Prog.finished_bind.mpr ⟨t1, t2, (.ok a, r1.unchecked), rfl, k2, j2⟩)
      · exact .inr ⟨rfl, j3.mono k1, t1 ++ t, u, by simp,
          Prog.did_bind.mpr (.inr ⟨t1, t, (.ok a, r1.unchecked), rfl, k2, j4⟩), Giving.grow j5⟩
    | err e =>
      cases h2
      exact ⟨k1, .inl (Prog.finished_bind.mpr ⟨t1, [], (.err e, r'.unchecked), rfl, k2, .ret⟩)⟩
    | panic =>
      cases h2
      exact ⟨k1, .inl (Prog.finished_bind.mpr ⟨t1, [], (.panic, r'.unchecked), rfl, k2, .ret⟩)⟩
  · cases h2
    exact ⟨k1, .inr ⟨rfl, k3, t, u, by simp, Prog.did_bind.mpr (.inl k4), k5⟩⟩

theorem attempt {m : M α} (h : m.Strict l) : (M.attempt m).Strict l := by
  intro r tr y r' hfin
  obtain ⟨t1, t2, ⟨z, r1⟩, rfl, h1, h2⟩ := Prog.finished_bind.mp hfin
  obtain ⟨k1, k2⟩ := h _ _ _ _ h1
  rcases k2 with k2 | ⟨rfl, k3, t, u, rfl, k4, k5⟩
  · cases z with
    | ok a =>
      cases h2
      exact ⟨k1, .inl (Prog.finished_bind.mpr ⟨t1, [], (.ok a, r'.unchecked), rfl, k2, .ret⟩)⟩
    | err e =>
      cases h2
      exact ⟨k1, .inl (Prog.finished_bind.mpr ⟨t1, [], (.err e, r'.unchecked), rfl, k2, .ret⟩)⟩
    | panic =>
      cases h2
      exact ⟨k1, .inl (Prog.finished_bind.mpr ⟨t1, [], (.panic, r'.unchecked), rfl, k2, .ret⟩)⟩
  · cases h2
    exact ⟨k1, .inr ⟨rfl, k3, t, u, by simp, Prog.did_bind.mpr (.inl k4), k5⟩⟩

theorem sure {m : M α} (h : m.Strict .never) {r r' : Rdr} {tr : List Event} {y : Res α} (hf : (m r).Finished tr (y, r')) :
    r'.input <:+ r.input ∧ (m r.unchecked).Finished tr (y, r'.unchecked) := by
  obtain ⟨h1, h2 | ⟨_, _, _, _, _, _, h2⟩⟩ := h _ _ _ _ hf
  · exact ⟨h1, h2⟩
  · exact h2.elim

theorem after {m : M α} {c : M Unit} (h : m.Strict .never) (hc : c.Strict .never) : (M.after m c).Strict l := by
  intro r tr y r' hfin
  obtain ⟨t1, t2, ⟨z, r1⟩, rfl, h1, h2⟩ := Prog.finished_bind.mp hfin
  obtain ⟨t3, t4, ⟨z2, r2⟩, rfl, h3, h4⟩ := Prog.finished_bind.mp h2
  obtain ⟨k1, k2⟩ := h.sure h1
  obtain ⟨k3, k4⟩ := hc.sure h3
  cases h4
  exact ⟨k3.trans k1, .inl (Prog.finished_bind.mpr ⟨t1, _, (y, r1.unchecked), rfl, k2,
    Prog.finished_bind.mpr ⟨t3, [], (z2, r2.unchecked), rfl, k4, .ret⟩⟩)⟩

theorem onFail {m : M α} {c : M Unit} (h : m.Strict .never) (hc : c.Strict .never) : (M.onFail m c).Strict l := by
  intro r tr y r' hfin
  obtain ⟨t1, t2, ⟨z, r1⟩, rfl, h1, h2⟩ := Prog.finished_bind.mp hfin
  obtain ⟨k1, k2⟩ := h.sure h1
  cases z with
  | ok a =>
    cases h2
    exact ⟨k1, .inl (Prog.finished_bind.mpr ⟨t1, [], (.ok a, r'.unchecked), rfl, k2, .ret⟩)⟩
  | err e =>
    obtain ⟨t3, t4, ⟨z2, r2⟩, rfl, h3, h4⟩ := Prog.finished_bind.mp h2
    obtain ⟨k3, k4⟩ := hc.sure h3
    cases h4
    exact ⟨k3.trans k1, .inl (Prog.finished_bind.mpr ⟨t1, _, (.err e, r1.unchecked), rfl, k2,
      Prog.finished_bind.mpr ⟨t3, [], (z2, r2.unchecked), rfl, k4, .ret⟩⟩)⟩
  | panic =>
    obtain ⟨t3, t4, ⟨z2, r2⟩, rfl, h3, h4⟩ := Prog.finished_bind.mp h2
    obtain ⟨k3, k4⟩ := hc.sure h3
    cases h4
    exact ⟨k3.trans k1, .inl (Prog.finished_bind.mpr ⟨t1, _, (.panic, r1.unchecked), rfl, k2,
      Prog.finished_bind.mpr ⟨t3, [], (z2, r2.unchecked), rfl, k4, .ret⟩⟩)⟩

end M.Strict

/-! ### Reading packets -/

theorem readExact_unchecked (r : Rdr) (n : Nat) :
    r.unchecked.readExact n = ((r.readExact n).1, (r.readExact n).2.unchecked) := by
  unfold Rdr.readExact Rdr.unchecked
  simp only
  split <;> rfl

/-- The header read is in the input. -/
theorem readExact_infix {r r' : Rdr} {n : Nat} {h : Bytes} (hr : r.readExact n = (.ok h, r')) : h <:+: r.input := by
  unfold Rdr.readExact at hr
  split at hr
  · cases hr
    exact (List.take_prefix _ _).isInfix
  · cases hr

theorem parseHeader_strict (c : Bool) (h : Bytes) :
    (parseHeader c h = .panic ∧ ∃ a b c d, LaxHeader h a b c d ∧ 65536 ≤ laxSum a b c d) ∨
      parseHeader false h = parseHeader c h := by
  cases c with
  | false => exact .inr rfl
  | true =>
    by_cases hp : parseHeader true h = .panic
    · exact .inl ⟨hp, ((C05_exact_partial true h).2.1.mp hp).2⟩
    · refine .inr ?_
      unfold parseHeader at hp ⊢
      split
      · simp only at hp ⊢
        split
        · split
          · rfl
          · simp_all
        · rfl
      · rfl

theorem strict_readPacket : Strict Rdr.readPacket := by
  intro r
  refine ⟨(readPacket_adv rfl).suffix, ?_⟩
  unfold Rdr.readPacket
  rw [readExact_unchecked]
  rcases h1 : r.readExact 4 with ⟨e | hdr, r1⟩
  · exact .inr rfl
  · simp only
    have hc : r1.unchecked.checked = false := rfl
    rw [hc]
    rcases parseHeader_strict r1.checked hdr with ⟨h2, a, b, c, d, h3⟩ | h2
    · rw [h2]
      exact .inl ⟨rfl, hdr, a, b, c, d, readExact_infix h1, h3⟩
    · refine .inr ?_
      rw [h2]
      cases parseHeader r1.checked hdr with
      | err e => rfl
      | panic => rfl
      | ok size =>
        simp only
        split
        · rfl
        · split
          · rfl
          · split
            · rfl
            · rw [readExact_unchecked]
              rcases r1.readExact (size - 4) with ⟨e | d, r2⟩ <;> rfl

theorem strict_readOne : Strict Rdr.readOne := by
  intro r
  refine ⟨(readOne_adv rfl).suffix, ?_⟩
  unfold Rdr.readOne
  rw [readExact_unchecked]
  rcases h1 : r.readExact 4 with ⟨e | hdr, r1⟩
  · exact .inr rfl
  · simp only
    have hc : r1.unchecked.checked = false := rfl
    rw [hc]
    rcases parseHeader_strict r1.checked hdr with ⟨h2, a, b, c, d, h3⟩ | h2
    · rw [h2]
      exact .inl ⟨rfl, hdr, a, b, c, d, readExact_infix h1, h3⟩
    · refine .inr ?_
      rw [h2]
      cases parseHeader r1.checked hdr with
      | err e => rfl
      | panic => rfl
      | ok size =>
        simp only
        split
        · rfl
        · split
          · rfl
          · split
            · rfl
            · split
              · rfl
              · rw [readExact_unchecked]
                rcases r1.readExact (size - 4) with ⟨e | d, r2⟩ <;> rfl

theorem strict_readLoopF (n : Nat) : ∀ f, Strict (Rdr.readLoopF f n)
  | 0 => fun r => ⟨List.suffix_refl _, .inr rfl⟩
  | f + 1 => by
    intro r
    refine ⟨(readLoopF_le _ _ _ _ _ rfl).suffix, ?_⟩
    simp only [Rdr.readLoopF]
    obtain ⟨h0, h1⟩ := strict_readOne r
    rcases h1 with ⟨h1, h2⟩ | h1
    · refine .inl ⟨?_, h2⟩
      rcases hr : r.readOne with ⟨z, r1⟩
      rw [hr] at h1
      cases h1
      rfl
    · rw [h1]
      rcases hr : r.readOne with ⟨(p | e | _), r1⟩
      · rw [hr] at h0
        cases p with
        | flush => exact .inr rfl
        | delim => exact .inr rfl
        | data d =>
          have ih := (strict_readLoopF n f r1).2
          simp only
          by_cases hn : n ≥ maxPacketLen <;> by_cases hd : d = [] <;>
            (try simp only [if_pos hn]) <;> (try simp only [if_neg hn]) <;> (try simp only [if_pos hd]) <;> (try simp only [if_neg hd])
          · exact ih.imp_left fun h => ⟨h.1, h.2.mono h0⟩
          · exact .inr trivial
          · exact ih.imp_left fun h => ⟨h.1, h.2.mono h0⟩
          · exact .inr rfl
      · exact .inr rfl
      · exact .inr rfl

theorem strict_read (n : Nat) : Strict (Rdr.read n) := by
  intro r
  refine ⟨(read_le rfl).suffix, ?_⟩
  unfold Rdr.read
  have hp : r.unchecked.pending = r.pending := rfl
  simp only [hp]
  split
  · exact .inr rfl
  · exact (strict_readLoopF n _ r).2

theorem strict_next (r : Rdr) : (r.next.1 = some .panic ∧ Overflowing r.input ∨
    r.unchecked.next = (r.next.1, r.next.2.unchecked)) := by
  unfold Rdr.next
  rcases (strict_readPacket r).2 with ⟨h1, h2⟩ | h1
  · refine .inl ⟨?_, h2⟩
    rcases hr : r.readPacket with ⟨z, r1⟩
    rw [hr] at h1
    cases h1
    rfl
  · refine .inr ?_
    rw [h1]
    rcases r.readPacket with ⟨(p | e | _), r1⟩
    · rfl
    · simp only
      split <;> rfl
    · rfl

theorem next_suffix (r : Rdr) : r.next.2.input <:+ r.input := by
  have h := (strict_readPacket r).1
  unfold Rdr.next
  rcases hr : r.readPacket with ⟨(p | e | _), r1⟩
  · rw [hr] at h; exact h
  · rw [hr] at h
    simp only
    split <;> exact h
  · rw [hr] at h; exact h

theorem strict_readToTypeF (typ : Packet) : ∀ f, Strict (readToTypeF typ f)
  | 0 => fun r => ⟨List.suffix_refl _, .inr rfl⟩
  | f + 1 => by
    intro r
    refine ⟨(readToTypeF_adv _ _ _ _ _ rfl).suffix, ?_⟩
    simp only [readToTypeF]
    have hsuf := next_suffix r
    rcases strict_next r with ⟨h1, h2⟩ | h1
    · refine .inl ⟨?_, h2⟩
      rcases hr : r.next with ⟨z, r1⟩
      rw [hr] at h1
      cases h1
      rfl
    · rw [h1]
      rcases hr : r.next with ⟨_ | (p | e | _), r1⟩
      · exact .inr rfl
      · rw [hr] at hsuf
        simp only
        by_cases hp : p = typ
        · rw [if_pos hp, if_pos hp]
          exact .inr rfl
        · rw [if_neg hp, if_neg hp]
          rcases (strict_readToTypeF typ f r1).2 with ⟨h3, h4⟩ | h3
          · refine .inl ⟨?_, h4.mono hsuf⟩
            rcases hr : readToTypeF typ f r1 with ⟨z, r2⟩
            rw [hr] at h3
            cases h3
            rfl
          · rw [h3]
            rcases readToTypeF typ f r1 with ⟨(z | e | _), r2⟩ <;> exact .inr rfl
      · exact .inr rfl
      · exact .inr rfl

theorem strict_readToType (typ : Packet) : Strict (readToType typ) := by
  intro r
  exact strict_readToTypeF typ _ r

/-! ### The server -/

variable {gv : Giving}

/-- Decompose a goal `M.Strict m` along the structure of `m`. -/
macro "strict_op" : tactic => `(tactic| first
  | exact M.Strict.pure _
  | exact M.Strict.pure' _
  | exact M.Strict.throw _
  | exact M.Strict.panic
  | exact M.Strict.ofRes _
  | exact M.Strict.ofIo _
  | exact M.Strict.op _
  | assumption
  | refine M.Strict.bind ?_ (fun _ => ?_)
  | refine M.Strict.attempt ?_
  | refine M.Strict.after ?_ ?_
  | refine M.Strict.onFail ?_ ?_
  | split)

macro "strict_ops" : tactic => `(tactic| repeat strict_op)

theorem strict_outBytes (b : Bytes) : (outBytes b).Strict gv := by unfold outBytes; strict_ops
theorem strict_writeOne (b : Bytes) : (writeOne b).Strict gv := by
  unfold writeOne
  exact .bind (strict_outBytes _) (fun _ => strict_outBytes _)
theorem strict_writeChunks : ∀ cs, (writeChunks cs).Strict gv
  | [] => .pure _
  | c :: cs => .bind (strict_writeOne c) (fun _ => strict_writeChunks cs)
theorem strict_send (m : Bytes) : (send m).Strict gv := strict_writeChunks _
theorem strict_sendFlush : sendFlush.Strict gv := by
  unfold sendFlush
  exact .bind (strict_outBytes _) (fun _ => by strict_ops)
theorem strict_sendDelim : sendDelim.Strict gv := strict_outBytes _
theorem strict_sendAll : ∀ ms, (sendAll ms).Strict gv
  | [] => .pure _
  | m :: ms => .bind (strict_send m) (fun _ => strict_sendAll ms)
theorem strict_sendError (c : Nat) (m : Bytes) : (sendError c m).Strict gv := by
  unfold sendError
  exact .bind (strict_send _) fun _ => .bind strict_sendDelim fun _ => .bind (strict_send _) fun _ =>
    strict_sendFlush
theorem strict_copyOut (h : Option Ino) : (copyOut h).Strict gv := by
  unfold copyOut
  refine .bind (.op _) (fun _ => ?_)
  split
  refine .bind (strict_sendAll _) (fun _ => ?_)
  strict_ops
theorem strict_sendStatus (st : Status) : (sendStatus st).Strict gv := by
  unfold sendStatus
  have h1 := strict_sendAll (gv := gv)
  have h2 := strict_sendFlush (gv := gv)
  have h3 := strict_sendDelim (gv := gv)
  have h4 := strict_copyOut (gv := gv)
  refine .bind (strict_send _) (fun _ => ?_)
  split <;> split <;> (try split) <;> simp only [] <;>
    repeat first
    | exact h2
    | exact h3
    | exact h1 _
    | exact h4 _
    | exact .pure _
    | refine M.Strict.bind ?_ (fun _ => ?_)

theorem strict_dropFile (p : Path) : (dropFile p).Strict gv := by unfold dropFile; strict_ops
theorem strict_oidNew (b : Bytes) : (oidNew b).Strict gv := by unfold oidNew; strict_ops
theorem strict_finishUpload (cfg : Cfg) (oid : Bytes) (p : Path) : (finishUpload cfg oid p).Strict gv := by
  unfold finishUpload fixPermissions
  have := strict_dropFile (gv := .never) p
  strict_ops
theorem strict_checkUpload (cfg : Cfg) (oid : Bytes) (n : Nat) (d : Bytes) :
    (checkUpload cfg oid n d).Strict gv := by
  unfold checkUpload oidNew
  strict_ops
theorem strict_backendBatch (cfg : Cfg) : ∀ l, (backendBatch cfg l).Strict gv
  | [] => .pure _
  | (oid, n) :: rest => by
    unfold backendBatch
    have := strict_backendBatch cfg rest
    strict_ops
theorem strict_backendVerify (cfg : Cfg) (oid : Bytes) (a : Args) : (backendVerify cfg oid a).Strict gv := by
  unfold backendVerify
  refine .bind (.ofRes _) fun _ => ?_
  strict_ops
theorem strict_backendDownload (cfg : Cfg) (oid : Bytes) : (backendDownload cfg oid).Strict gv := by
  unfold backendDownload; strict_ops
theorem strict_timestamp (cfg : Cfg) : (timestamp cfg).Strict gv := by unfold timestamp; strict_ops
theorem strict_userForFile (cfg : Cfg) (p : FPath) : (userForFile cfg p).Strict gv := by
  unfold userForFile; strict_ops
theorem strict_lockCreate (cfg : Cfg) (p : Bytes) : (lockCreate cfg p).Strict gv := by
  unfold lockCreate lockWrite lockPersist
  have h1 := strict_timestamp (gv := gv) cfg
  have h2 := strict_userForFile (gv := gv) cfg (.exact (lockPath cfg p))
  have h3 := strict_dropFile (gv := .never) (lockTemp cfg p)
  strict_ops
theorem strict_lockFromId (cfg : Cfg) (id : Bytes) : (lockFromId cfg id).Strict gv := by
  unfold lockFromId
  have h2 := strict_userForFile (gv := gv) cfg (.join (locksDir cfg.root) id)
  strict_ops
theorem strict_lockFromPath (cfg : Cfg) (p : Bytes) : (lockFromPath cfg p).Strict gv := by
  unfold lockFromPath
  have := strict_lockFromId (gv := gv) cfg (lockId cfg p)
  strict_ops
theorem strict_fmtTimestamp (cfg : Cfg) (l : LockInfo) : (fmtTimestamp cfg l).Strict gv := by
  unfold fmtTimestamp; strict_ops
theorem strict_lockArgs (cfg : Cfg) (l : LockInfo) : (lockArgs cfg l).Strict gv := by
  unfold lockArgs
  exact .bind (strict_fmtTimestamp _ _) fun _ => .pure _
theorem strict_lockSpec (cfg : Cfg) (o : Bool) (l : LockInfo) : (lockSpec cfg o l).Strict gv := by
  unfold lockSpec
  refine .bind (strict_fmtTimestamp _ _) fun _ => ?_
  simp only []
  strict_ops
theorem strict_lockUnlock (cfg : Cfg) (l : LockInfo) : (lockUnlock cfg l).Strict gv := by
  unfold lockUnlock; strict_ops
theorem strict_lockLoop (cfg : Cfg) (p : Bytes) : (lockLoop cfg p).Strict gv := by
  unfold lockLoop
  have h1 := strict_lockCreate (gv := gv) cfg p
  have h2 := strict_lockFromPath (gv := gv) cfg p
  have h3 := strict_lockArgs (gv := gv) cfg
  refine .bind (.attempt h1) fun x => ?_
  split
  · exact .bind (h3 _) fun _ => .pure _
  · split
    · refine .bind h2 fun y => ?_
      split
      · exact .bind (h3 _) fun _ => .pure _
      · exact .panic
    · exact .throw _
theorem strict_listLocksForPath (cfg : Cfg) (p : Bytes) (c : Option Bytes) (o : Bool) :
    (listLocksForPath cfg p c o).Strict gv := by
  unfold listLocksForPath
  refine .bind (strict_lockFromPath _ _) fun x => ?_
  cases x with
  | none => exact .pure _
  | some l =>
    simp only []
    have := strict_lockSpec (gv := gv) cfg o l
    repeat' (first | split | exact .pure _ | exact .bind this fun _ => .pure _)
theorem strict_collectLocks (cfg : Cfg) (c : Option Bytes) :
    ∀ ns sk k, (collectLocks cfg c sk k ns).Strict gv
  | _, _, 0 => by cases ‹List Bytes› <;> exact .pure _
  | [], _, _ + 1 => .pure _
  | n :: ns, sk, k + 1 => by
    unfold collectLocks
    have h1 := strict_lockFromId (gv := gv) cfg (utf8Lossy n)
    refine .bind (.attempt h1) fun x => ?_
    have a := strict_collectLocks cfg c ns true (k + 1)
    have b := strict_collectLocks cfg c ns false k
    have d := strict_collectLocks cfg c ns sk (k + 1)
    split
    · simp only []
      generalize (sk && _) = q
      cases q
      · exact .bind b fun _ => .pure _
      · exact a
    · exact d
theorem strict_iterLocks (cfg : Cfg) (c : Option Bytes) (k : Nat) : (iterLocks cfg c k).Strict gv := by
  unfold iterLocks
  exact .bind (.op _) fun _ => .bind (.ofIo _) fun _ => strict_collectLocks _ _ _ _ _
theorem strict_lockSpecs (cfg : Cfg) (o : Bool) : ∀ ls, (lockSpecs cfg o ls).Strict gv
  | [] => .pure _
  | l :: ls => by
    unfold lockSpecs
    exact .bind (strict_lockSpec _ _ _) fun _ => .bind (strict_lockSpecs cfg o ls) fun _ => .pure _


theorem strict_readToDelim {root : Path} : readToDelim.Strict (.tidy root) := .rdr (strict_readToType _) fun _ => .inl rfl
theorem strict_readToFlush {root : Path} : readToFlush.Strict (.tidy root) := .rdr (strict_readToType _) fun _ => .inl rfl
theorem strict_readToFlushParse {root : Path} : readToFlushParse.Strict (.tidy root) := by
  unfold readToFlushParse
  have := strict_readToFlush (root := root)
  strict_ops

theorem strict_copyInF (bufs : Nat → Nat) (ino : Ino) : ∀ f i acc, (copyInF bufs ino f i acc).Strict .bare
  | 0, _, _ => .panic
  | f + 1, i, acc => by
    unfold copyInF
    refine .bind (.rdr (strict_read _) fun _ => rfl) (fun d => ?_)
    have ih := strict_copyInF bufs ino f (i + 1) (acc ++ d)
    strict_ops

theorem strict_copyIn (bufs : Nat → Nat) (ino : Ino) : (copyIn bufs ino).Strict .bare := by
  intro r tr y r' h
  exact strict_copyInF bufs ino _ 0 [] r tr y r' h

/-- Receiving data makes no calls but writes. -/
theorem copyInF_writes (bufs : Nat → Nat) (ino : Ino) : ∀ (f i : Nat) (acc : Bytes) (r : Rdr) (tr : List Event),
    (copyInF bufs ino f i acc r).Did tr → ∀ e ∈ tr, ∃ d, e.1 = .write ino d
  | 0, _, _, _, _, h => by
    cases h
    simp
  | f + 1, i, acc, r, tr, h => by
    rw [copyInF, rdr_then] at h
    rcases h1 : r.read (bufs i + 1) with ⟨(d | e | _), r1⟩
    · rw [h1] at h
      simp only at h
      split at h
      · cases h
        simp
      · cases h with
        | nil => simp
        | @call _ _ x tr h =>
          intro e he
          rcases List.mem_cons.mp he with rfl | he'
          · exact ⟨d, rfl⟩
          · cases x with
            | ok u => exact copyInF_writes bufs ino f _ _ _ _ h e he'
            | error er =>
              cases h
              cases he'
    · rw [h1] at h
      cases h
      simp
    · rw [h1] at h
      cases h
      simp

theorem copyIn_writes (bufs : Nat → Nat) (ino : Ino) {r : Rdr} {tr : List Event} (h : (copyIn bufs ino r).Did tr) :
    ∀ e ∈ tr, ∃ d, e.1 = .write ino d := copyInF_writes bufs ino _ _ _ _ _ h

theorem strict_startUpload (cfg : Cfg) (oid : Bytes) : (startUpload cfg oid).Strict (.tidy cfg.root) := by
  intro r tr y r' hfin
  unfold startUpload at hfin ⊢
  cases hfin with
  | @call _ _ x tr _ hfin =>
    cases x with
    | error e =>
      cases hfin
      exact ⟨List.suffix_refl _, .inl (.call .ret)⟩
    | ok t =>
      obtain ⟨p, ino⟩ := t
      have hin : (copyIn cfg.copyBuf ino >>= fun data => (Pure.pure (p, data) : M (Path × Bytes))).Strict .bare :=
        .bind (strict_copyIn _ _) fun _ => .pure _
      have hfin' : (M.onFail (copyIn cfg.copyBuf ino >>= fun data => (Pure.pure (p, data) : M (Path × Bytes)))
        (dropFile p) r).Finished tr (y, r') := hfin
      have whole : ∀ {t : List Event} {z}, (M.onFail (copyIn cfg.copyBuf ino >>= fun data => (Pure.pure (p, data) : M (Path × Bytes)))
          (dropFile p) r.unchecked).Finished t z →
          (startUpload cfg oid r.unchecked).Finished (⟨.createTemp (incompleteDir cfg.root) oid cfg.uid, .ok (p, ino)⟩ :: t) z :=
        fun h => .call h
      have part : ∀ {t : List Event}, (M.onFail (copyIn cfg.copyBuf ino >>= fun data => (Pure.pure (p, data) : M (Path × Bytes)))
          (dropFile p) r.unchecked).Did t →
          (startUpload cfg oid r.unchecked).Did (⟨.createTemp (incompleteDir cfg.root) oid cfg.uid, .ok (p, ino)⟩ :: t) :=
        fun h => .call h
      obtain ⟨t1, t2, ⟨z, r1⟩, rfl, h1, h2⟩ := Prog.finished_bind.mp hfin'
      obtain ⟨k1, k2⟩ := hin _ _ _ _ h1
      rcases k2 with k2 | ⟨rfl, k3, t, u, rfl, k4, rfl⟩
      · cases z with
        | ok a =>
          cases h2
          exact ⟨k1, .inl (whole (Prog.finished_bind.mpr ⟨t1, [], (.ok a, r'.unchecked), rfl, k2, .ret⟩))⟩
        | err e =>
          obtain ⟨t3, t4, ⟨z2, r2⟩, rfl, h3, h4⟩ := Prog.finished_bind.mp h2
          obtain ⟨k5, k6⟩ := (strict_dropFile p).sure h3
          cases h4
          exact ⟨k5.trans k1, .inl (whole (Prog.finished_bind.mpr ⟨t1, _, (.err e, r1.unchecked), rfl, k2,
            Prog.finished_bind.mpr ⟨t3, [], (z2, r2.unchecked), rfl, k6, .ret⟩⟩))⟩
        | panic =>
          obtain ⟨t3, t4, ⟨z2, r2⟩, rfl, h3, h4⟩ := Prog.finished_bind.mp h2
          obtain ⟨k5, k6⟩ := (strict_dropFile p).sure h3
          cases h4
          exact ⟨k5.trans k1, .inl (whole (Prog.finished_bind.mpr ⟨t1, _, (.panic, r1.unchecked), rfl, k2,
            Prog.finished_bind.mpr ⟨t3, [], (z2, r2.unchecked), rfl, k6, .ret⟩⟩))⟩
      · cases h2 with
        | @call _ _ x _ _ h2 =>
          cases h2
          refine ⟨k1, .inr ⟨rfl, k3, _ :: t, [⟨.unlink p, x⟩], by simp, part (Prog.did_bind.mpr (.inl k4)), .inr ?_⟩⟩
          refine ⟨_, _, p, ino, [], t, x, rfl, rfl, ?_⟩
          rcases Prog.did_bind.mp k4 with k6 | ⟨t5, t6, ⟨z, r2⟩, rfl, k6, k5⟩
          · exact copyIn_writes _ _ k6
          · have : t6 = [] := by
              cases z <;> (cases k5; rfl)
            subst this
            simpa using copyIn_writes _ _ k6.did

theorem strict_putObject (cfg : Cfg) (oid : Bytes) : (putObject cfg oid).Strict (.tidy cfg.root) := by
  unfold putObject
  refine .bind (strict_oidNew _) fun _ => .bind strict_readToDelim fun _ => .bind (.ofRes _) fun _ =>
    .bind (.ofRes _) fun _ => .bind (strict_startUpload _ _) fun _ => ?_
  split
  exact .bind (.onFail (strict_checkUpload _ _ _ _) (strict_dropFile _)) fun _ =>
    .bind (strict_finishUpload _ _ _) fun _ => .pure _
theorem strict_readBatch (cfg : Cfg) : (readBatch cfg).Strict (.tidy cfg.root) := by
  unfold readBatch
  have h1 := strict_readToDelim (root := cfg.root)
  have h2 := strict_readToFlushParse (root := cfg.root)
  have h3 := strict_backendBatch (gv := .tidy cfg.root) cfg
  refine .bind h1 fun _ => .bind (.ofRes _) fun _ => .bind h2 fun _ => ?_
  split <;> (try split) <;> simp only [] <;>
    first
    | exact .bind (.ofRes _) fun _ => h3 _
    | exact .bind (.pure _) fun _ => .bind (.ofRes _) fun _ => h3 _
    | exact .bind (.throw _) fun _ => .bind (.ofRes _) fun _ => h3 _
theorem strict_batchCmd (cfg : Cfg) (p m : Bytes) : (batchCmd cfg p m).Strict (.tidy cfg.root) := by
  unfold batchCmd
  exact .bind (strict_readBatch _) fun _ => .pure _
theorem strict_verifyObject (cfg : Cfg) (oid : Bytes) : (verifyObject cfg oid).Strict (.tidy cfg.root) := by
  unfold verifyObject backendVerify
  refine .bind strict_readToFlush fun _ => .bind (.ofRes _) fun _ => .bind (strict_oidNew _) fun _ =>
    .bind (.ofRes _) fun _ => ?_
  strict_ops
theorem strict_getObject (cfg : Cfg) (oid : Bytes) : (getObject cfg oid).Strict (.tidy cfg.root) := by
  unfold getObject backendDownload
  refine .bind strict_readToFlush fun _ => .bind (.ofRes _) fun _ => .bind (strict_oidNew _) fun _ => ?_
  strict_ops
theorem strict_lockCmd (cfg : Cfg) : (lockCmd cfg).Strict (.tidy cfg.root) := by
  unfold lockCmd lockLoop
  have h1 := strict_readToFlushParse (root := cfg.root)
  have h2 := strict_lockCreate (gv := .tidy cfg.root) cfg
  have h3 := strict_lockFromPath (gv := .tidy cfg.root) cfg
  have h4 := strict_lockArgs (gv := .tidy cfg.root) cfg
  repeat first
    | exact h2 _
    | exact h3 _
    | exact h4 _
    | strict_op
theorem strict_listLocks (cfg : Cfg) (o : Bool) : (listLocks cfg o).Strict (.tidy cfg.root) := by
  unfold listLocks iterLocks
  refine .bind strict_readToFlushParse fun _ => .bind (.ofRes _) fun _ => .bind (.ofRes _) fun _ => ?_
  simp only []
  split
  · exact strict_listLocksForPath _ _ _ _
  · refine .bind (.bind (.op _) fun _ => .bind (.ofIo _) fun _ => strict_collectLocks _ _ _ _ _) fun _ =>
      .bind (strict_lockSpecs _ _ _) fun _ => .pure _
theorem strict_unlockCmd (cfg : Cfg) (id : Bytes) : (unlockCmd cfg id).Strict (.tidy cfg.root) := by
  unfold unlockCmd lockUnlock
  have h1 := strict_readToFlush (root := cfg.root)
  have h2 := strict_lockFromId (gv := .tidy cfg.root) cfg id
  have h4 := strict_lockArgs (gv := .tidy cfg.root) cfg
  repeat first
    | exact h4 _
    | strict_op
theorem strict_versionCmd {root : Path} : versionCmd.Strict (.tidy root) := by
  unfold versionCmd
  exact .bind strict_readToFlush fun _ => .pure _
theorem strict_dispatch (cfg : Cfg) (mode : Mode) (cmd : Bytes) (arg : Option Bytes) :
    (dispatch cfg mode cmd arg).Strict (.tidy cfg.root) := by
  unfold dispatch
  repeat' first
    | split
    | exact strict_versionCmd
    | exact strict_batchCmd _ _ _
    | exact strict_putObject _ _
    | exact strict_verifyObject _ _
    | exact strict_getObject _ _
    | exact strict_unlockCmd _ _
    | exact strict_lockCmd _
    | exact strict_listLocks _ _
    | exact .pure _

theorem strict_turn (cfg : Cfg) (mode : Mode) : (turn cfg mode).Strict (.tidy cfg.root) := by
  unfold turn
  refine .bind (.attempt (.rdr strict_readPacket fun _ => .inl rfl)) fun x => ?_
  split
  · split
    · exact .pure _
    · exact .throw _
  · split
    · exact .bind (strict_sendError _ _) fun _ => .pure _
    · split
      · exact .bind (strict_sendError _ _) fun _ => .pure _
      · simp only []
        split
        · exact .bind (strict_sendStatus _) fun _ => .pure _
        · refine .bind (.attempt (strict_dispatch _ _ _ _)) fun y => ?_
          split
          · exact .bind (strict_sendStatus _) fun _ => .pure _
          · exact .bind (strict_sendStatus _) fun _ => .pure _

theorem strict_processF (cfg : Cfg) (mode : Mode) : ∀ f, (processF cfg mode f).Strict (.tidy cfg.root)
  | 0 => .panic
  | f + 1 => by
    unfold processF
    refine .bind (strict_turn cfg mode) fun x => ?_
    cases x with
    | done => exact .pure _
    | again => exact strict_processF cfg mode f

theorem strict_processCommands (cfg : Cfg) (mode : Mode) : (processCommands cfg mode).Strict (.tidy cfg.root) := by
  intro r tr y r' h
  exact strict_processF cfg mode _ r tr y r' h

theorem strict_mkdirs : ∀ ps, (mkdirs ps).Strict gv
  | [] => .pure _
  | _ :: ps => .bind (.op _) fun _ => .bind (.ofIo _) fun _ => strict_mkdirs ps

theorem strict_runProgram (cfg : Cfg) (operation : Bytes) : (runProgram cfg operation).Strict (.tidy cfg.root) := by
  unfold runProgram createDirectories sendCapabilities
  refine .bind (strict_mkdirs _) fun _ => .bind (.bind (strict_send _) fun _ => strict_sendFlush) fun _ => ?_
  split
  · exact strict_processCommands _ _
  · split
    · exact strict_processCommands _ _
    · exact .throw _

theorem strict_mainProg {cfg : Cfg} {operation : Bytes} {r : Rdr} {tr : List Event} {x : Exit}
    (h : (mainProg cfg operation r).Finished tr x) :
    (mainProg cfg operation r.unchecked).Finished tr x ∨
      x = ⟨101, []⟩ ∧ Overflowing r.input ∧ ∃ t u, tr = t ++ u ∧ (mainProg cfg operation r.unchecked).Did t ∧ Tidied cfg.root t u := by
  obtain ⟨t1, t2, ⟨z, r1⟩, rfl, h1, h2⟩ := Prog.finished_bind.mp h
  rcases (strict_runProgram cfg operation _ _ _ _ h1).2 with k2 | ⟨rfl, k3, t, u, rfl, k4, k5⟩
  · refine .inl (Prog.finished_bind.mpr ⟨t1, t2, _, rfl, k2, ?_⟩)
    cases z <;> exact h2
  · cases h2
    exact .inr ⟨rfl, k3, t, u, by simp, Prog.did_bind.mpr (.inl k4), k5⟩

/-! ### Programs that do the same -/

theorem resp_some : ∀ o : Op, Nonempty (Resp o) := by
  intro o
  cases o <;> first
    | exact ⟨.error eofErr⟩
    | exact ⟨([], none)⟩
    | exact ⟨(0 : Int)⟩

theorem can_finish {α : Type} : ∀ p : Prog α, ∃ tr a, p.Finished tr a
  | .ret a => ⟨[], a, .ret⟩
  | .call o k => by
    obtain ⟨x⟩ := resp_some o
    obtain ⟨tr, a, h⟩ := can_finish (k x)
    exact ⟨_, a, .call h⟩

theorem did_finish {α : Type} {p : Prog α} {tr : List Event} (h : p.Did tr) : ∃ u a, p.Finished (tr ++ u) a := by
  induction h with
  | nil => exact can_finish _
  | call _ ih =>
    obtain ⟨u, a, h⟩ := ih
    exact ⟨u, a, .call h⟩

theorem Prog.Did.prefix {α : Type} {p : Prog α} {t u : List Event} (h : p.Did (t ++ u)) : p.Did t := by
  induction t generalizing p with
  | nil => exact .nil
  | cons e t ih =>
    cases h with
    | call h => exact .call (ih h)

/-- A program is known by what it may do. -/
theorem prog_ext {α : Type} : ∀ {p q : Prog α}, (∀ tr a, p.Finished tr a → q.Finished tr a) → p = q
  | .ret a, q, h => by
    have := h [] a .ret
    cases this
    rfl
  | .call o k, q, h => by
    obtain ⟨x⟩ := resp_some o
    obtain ⟨tr, a, hf⟩ := can_finish (k x)
    have hq := h _ _ (.call hf)
    cases hq with
    | @call _ k' _ _ _ hq =>
      congr 1
      funext y
      refine prog_ext fun tr a hf => ?_
      have := h _ _ (.call hf)
      cases this with
      | call this => exact this

end Verif
