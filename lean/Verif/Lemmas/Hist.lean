import Verif.Lemmas.Fuel
import Verif.Spec.Crash
import Verif.Props.Parsing
import Verif.Props.Loop
/-! When a process may panic, by following the history of its calls. -/
namespace Verif
open Spec

/-- The logic whose ghost state is the history. -/
def Logic.hist : Logic (List Event) := ⟨fun _ _ => True, fun s o x => s ++ [⟨o, x⟩], fun _ _ _ => True⟩

theorem hist_fold : ∀ (tr s : List Event), Logic.hist.fold s tr = s ++ tr
  | [], s => by simp [Logic.fold]
  | e :: tr, s => by
    simp only [Logic.fold]
    rw [hist_fold tr]
    simp [Logic.hist]

theorem hist_finished {α : Type} {p : Prog α} {s : List Event} {Q : α → List Event → Prop}
    (h : p.wp Logic.hist s Q) {tr a} (hf : p.Finished tr a) : Q a (s ++ tr) := by
  have := Prog.wp_finished h hf (Logic.legalTr_of_forall fun _ _ _ => trivial)
  rwa [hist_fold] at this

/-! ### The reader does not panic -/

theorem parseHeader_sure (h : Bytes) : parseHeader false h ≠ .panic := by
  unfold parseHeader
  split
  · split
    · simp only []
      split <;> simp
    · simp
  · simp

theorem readExact_checked (r : Rdr) (n : Nat) : (r.readExact n).2.checked = r.checked := by
  unfold Rdr.readExact
  split <;> rfl

theorem readPacket_sure {r : Rdr} (hc : r.checked = false) : r.readPacket.1 ≠ .panic := by
  unfold Rdr.readPacket
  have h4 := readExact_checked r 4
  split
  · simp
  · rename_i r1 h1
    rw [h1] at h4
    have h4 : r1.checked = false := by rw [← hc]; exact h4
    rw [h4]
    split
    · simp
    · rename_i h2; exact absurd h2 (parseHeader_sure _)
    · repeat' split
      all_goals simp

theorem readOne_sure {r : Rdr} (hc : r.checked = false) : r.readOne.1 ≠ .panic := by
  unfold Rdr.readOne
  have h4 := readExact_checked r 4
  split
  · simp
  · rename_i r1 h1
    rw [h1] at h4
    have h4 : r1.checked = false := by rw [← hc]; exact h4
    rw [h4]
    split
    · simp
    · rename_i h2; exact absurd h2 (parseHeader_sure _)
    · repeat' split
      all_goals simp

theorem readLoopF_sure : ∀ (f n : Nat) (r : Rdr), r.checked = false → r.input.length < f →
    (Rdr.readLoopF f n r).1 ≠ .panic
  | 0, _, _, _, h => by omega
  | f + 1, n, r, hc, h => by
    simp only [Rdr.readLoopF]
    split
    · simp
    · simp
    · rename_i d r1 h1
      have h2 := (readOne_adv h1).checked
      have h3 := readOne_ok_len h1
      have ih := readLoopF_sure f n r1 (by rw [h2, hc]) (by omega)
      repeat' split
      all_goals first | exact ih | simp
    · simp
    · rename_i h1
      exact absurd (by rw [h1]) (readOne_sure hc)

theorem read_sure {n : Nat} {r : Rdr} (hc : r.checked = false) : (r.read n).1 ≠ .panic := by
  unfold Rdr.read
  simp only
  split
  · simp
  · exact readLoopF_sure _ _ _ hc (by omega)

theorem readToTypeF_sure (typ : Packet) : ∀ (f : Nat) (r : Rdr), r.checked = false → r.input.length < f →
    (readToTypeF typ f r).1 ≠ .panic
  | 0, _, _, h => by omega
  | f + 1, r, hc, h => by
    simp only [readToTypeF]
    split
    · simp
    · simp
    · rename_i h1
      unfold Rdr.next at h1
      split at h1
      · cases h1
      · split at h1 <;> cases h1
      · rename_i h2; exact absurd (by rw [h2]) (readPacket_sure hc)
    · rename_i p r1 h1
      have h2 := (next_adv h1).checked
      have h3 := next_ok_len h1
      have ih := readToTypeF_sure typ f r1 (by rw [h2, hc]) (by omega)
      split
      · simp
      · split
        · simp
        · simp
        · rename_i h4; rw [h4] at ih; exact ih

theorem readToType_sure (typ : Packet) {r : Rdr} (hc : r.checked = false) : (readToType typ r).1 ≠ .panic :=
  readToTypeF_sure typ _ r hc (by omega)

/-! ### Programs that panic only for a reason -/

/-- Why a process without overflow checks may panic. -/
def Crash (cfg : Cfg) (tr : List Event) : Prop :=
  Vanished cfg.root tr ∨ ∃ t, cfg.fmtTime t = none ∧ Learnt cfg.timestamp tr t

theorem learnt_mono {fixed : Option Int} {s s' : List Event} {t : Int} (h : Learnt fixed s t) (hp : s <+: s') :
    Learnt fixed s' t := by
  obtain ⟨u, rfl⟩ := hp
  rcases h with h | h | ⟨a, b, h, h'⟩
  · exact .inl h
  · exact .inr (.inl (by simp [h]))
  · exact .inr (.inr ⟨a, b, by simp [h], h'⟩)

theorem Crash.mono {cfg : Cfg} {s s' : List Event} (h : Crash cfg s) (hp : s <+: s') : Crash cfg s' := by
  rcases h with ⟨id, a, x, b, y, c, rfl, h1, h2⟩ | ⟨t, h1, h2⟩
  · obtain ⟨u, rfl⟩ := hp
    exact .inl ⟨id, a, x, b, y, c ++ u, by simp, h1, h2⟩
  · exact .inr ⟨t, h1, learnt_mono h2 hp⟩

/-- On every execution from a state satisfying `I`, a result satisfies `P`, and a panic has a reason. -/
def M.SureI {α : Type} (cfg : Cfg) (m : M α) (s : List Event) (P : Res α → List Event → Prop) : Prop :=
  ∀ r, r.checked = false → m.wp Logic.hist r s (fun x r' s' =>
    r'.checked = false ∧ s <+: s' ∧ (x = .panic → Crash cfg s') ∧ P x s')

/-- The same with nothing said about the result. -/
def M.Sure {α : Type} (cfg : Cfg) (m : M α) : Prop := ∀ s, m.SureI cfg s (fun _ _ => True)

variable {cfg : Cfg} {α β : Type}

theorem M.SureI.mono {m : M α} {s : List Event} {P P' : Res α → List Event → Prop} (h : m.SureI cfg s P)
    (hp : ∀ x s', s <+: s' → P x s' → P' x s') : m.SureI cfg s P' := fun r hr =>
  M.wp_mono (h r hr) fun _ _ _ ⟨a, b, c, d⟩ => ⟨a, b, c, hp _ _ b d⟩

theorem M.SureI.sure {m : M α} (h : ∀ s, ∃ P, m.SureI cfg s P) : m.Sure cfg := fun s => by
  obtain ⟨P, h⟩ := h s
  exact h.mono fun _ _ _ _ => trivial

theorem M.SureI.bind {m : M α} {f : α → M β} {s : List Event} {P : Res α → List Event → Prop}
    {P' : Res β → List Event → Prop} (h : m.SureI cfg s P)
    (hf : ∀ a s', s <+: s' → P (.ok a) s' → (f a).SureI cfg s' P')
    (he : ∀ e s', s <+: s' → P (.err e) s' → P' (.err e) s')
    (hpa : ∀ s', s <+: s' → P .panic s' → P' .panic s') : (m >>= f).SureI cfg s P' := by
  intro r hr
  rw [M.wp_bind]
  refine M.wp_mono (h r hr) ?_
  rintro (a | e | _) r' s' ⟨h1, h2, h3, h4⟩
  · rw [Res.elim_ok]
    refine M.wp_mono (hf a s' h2 h4 r' h1) ?_
    rintro x r'' s'' ⟨k1, k2, k3, k4⟩
    exact ⟨k1, h2.trans k2, k3, k4⟩
  · exact ⟨h1, h2, fun e => by simp at e, he _ _ h2 h4⟩
  · exact ⟨h1, h2, fun _ => h3 rfl, hpa _ h2 h4⟩

theorem M.SureI.attempt {m : M α} {s : List Event} {P : Res α → List Event → Prop}
    {P' : Res (Except Err α) → List Event → Prop} (h : m.SureI cfg s P)
    (hk : ∀ a s', s <+: s' → P (.ok a) s' → P' (.ok (.ok a)) s')
    (he : ∀ e s', s <+: s' → P (.err e) s' → P' (.ok (.error e)) s')
    (hpa : ∀ s', s <+: s' → P .panic s' → P' .panic s') : (M.attempt m).SureI cfg s P' := by
  intro r hr
  rw [M.wp_attempt]
  refine M.wp_mono (h r hr) ?_
  rintro (a | e | _) r' s' ⟨h1, h2, h3, h4⟩
  · exact ⟨h1, h2, fun e => by simp at e, hk _ _ h2 h4⟩
  · exact ⟨h1, h2, fun e => by simp at e, he _ _ h2 h4⟩
  · exact ⟨h1, h2, fun _ => h3 rfl, hpa _ h2 h4⟩

theorem M.SureI.after {m : M α} {c : M Unit} {s : List Event} {P P' : Res α → List Event → Prop}
    (h : m.SureI cfg s P) (hc : c.Sure cfg) (hk : ∀ x s' s'', s' <+: s'' → P x s' → P' x s'') :
    (M.after m c).SureI cfg s P' := by
  intro r hr
  rw [M.wp_after]
  refine M.wp_mono (h r hr) ?_
  rintro x r' s' ⟨h1, h2, h3, h4⟩
  refine M.wp_mono (hc s' r' h1) ?_
  rintro _ r'' s'' ⟨k1, k2, _, _⟩
  exact ⟨k1, h2.trans k2, fun e => (h3 e).mono k2, hk _ _ _ k2 h4⟩

namespace M.Sure

theorem pure (a : α) : (Pure.pure a : M α).Sure cfg := fun s r hr => ⟨hr, List.prefix_refl _, by simp, trivial⟩
theorem pure' (a : α) : (M.pure a : M α).Sure cfg := fun s r hr => ⟨hr, List.prefix_refl _, by simp, trivial⟩
theorem throw (e : Err) : (M.throw e : M α).Sure cfg := fun s r hr => ⟨hr, List.prefix_refl _, by simp, trivial⟩
theorem ofRes {x : Res α} (h : x ≠ .panic) : (M.ofRes x).Sure cfg := fun s r hr =>
  ⟨hr, List.prefix_refl _, fun e => absurd e h, trivial⟩
theorem op (o : Op) : (M.op o).Sure cfg := fun s r hr =>
  ⟨trivial, fun x _ => ⟨hr, ⟨_, rfl⟩, by simp, trivial⟩⟩
theorem ofIo (x : Except IoErr α) : (M.ofIo x).Sure cfg := by
  intro s r hr
  rw [M.wp_ofIo]
  exact ⟨hr, List.prefix_refl _, by cases x <;> simp, trivial⟩
theorem rdr {f : Rdr → Res α × Rdr} (h : ∀ r : Rdr, r.Le (f r).2) (hp : ∀ r, r.checked = false → (f r).1 ≠ .panic) :
    (M.rdr f).Sure cfg := fun s r hr =>
  ⟨by rw [(h r).checked, hr], List.prefix_refl _, fun e => absurd e (hp r hr), trivial⟩

theorem bind {m : M α} {f : α → M β} (h : m.Sure cfg) (hf : ∀ a, (f a).Sure cfg) : (m >>= f).Sure cfg := fun s =>
  (h s).bind (fun a s' _ _ => hf a s') (fun _ _ _ _ => trivial) (fun _ _ _ => trivial)

theorem attempt {m : M α} (h : m.Sure cfg) : (M.attempt m).Sure cfg := fun s =>
  (h s).attempt (fun _ _ _ _ => trivial) (fun _ _ _ _ => trivial) (fun _ _ _ => trivial)

theorem after {m : M α} {c : M Unit} (h : m.Sure cfg) (hc : c.Sure cfg) : (M.after m c).Sure cfg := fun s =>
  (h s).after hc fun _ _ _ _ _ => trivial

theorem onFail {m : M α} {c : M Unit} (h : m.Sure cfg) (hc : c.Sure cfg) : (M.onFail m c).Sure cfg := by
  intro s r hr
  rw [M.wp_onFail]
  refine M.wp_mono (h s r hr) ?_
  rintro (a | e | _) r' s' ⟨h1, h2, h3, h4⟩
  · exact ⟨h1, h2, by simp, trivial⟩
  · rw [Res.elim_err]
    refine M.wp_mono (hc s' r' h1) ?_
    rintro _ r'' s'' ⟨k1, k2, _, _⟩
    exact ⟨k1, h2.trans k2, by simp, trivial⟩
  · rw [Res.elim_panic]
    refine M.wp_mono (hc s' r' h1) ?_
    rintro _ r'' s'' ⟨k1, k2, _, _⟩
    exact ⟨k1, h2.trans k2, fun e => (h3 e).mono k2, trivial⟩

end M.Sure

macro "sure_op" : tactic => `(tactic| first
  | exact M.Sure.pure _
  | exact M.Sure.pure' _
  | exact M.Sure.throw _
  | exact M.Sure.ofIo _
  | exact M.Sure.op _
  | assumption
  | refine M.Sure.bind ?_ (fun _ => ?_)
  | refine M.Sure.attempt ?_
  | refine M.Sure.after ?_ ?_
  | refine M.Sure.onFail ?_ ?_
  | split)

macro "sure_ops" : tactic => `(tactic| repeat sure_op)

theorem sure_outBytes (b : Bytes) : (outBytes b).Sure cfg := by unfold outBytes; sure_ops
theorem sure_writeOne (b : Bytes) : (writeOne b).Sure cfg := by
  unfold writeOne
  exact .bind (sure_outBytes _) (fun _ => sure_outBytes _)
theorem sure_writeChunks : ∀ cs, (writeChunks cs).Sure cfg
  | [] => .pure _
  | c :: cs => .bind (sure_writeOne c) (fun _ => sure_writeChunks cs)
theorem sure_send (m : Bytes) : (send m).Sure cfg := sure_writeChunks _
theorem sure_sendFlush : sendFlush.Sure cfg := by
  unfold sendFlush
  exact .bind (sure_outBytes _) (fun _ => by sure_ops)
theorem sure_sendDelim : sendDelim.Sure cfg := sure_outBytes _
theorem sure_sendAll : ∀ ms, (sendAll ms).Sure cfg
  | [] => .pure _
  | m :: ms => .bind (sure_send m) (fun _ => sure_sendAll ms)
theorem sure_sendError (c : Nat) (m : Bytes) : (sendError c m).Sure cfg := by
  unfold sendError
  exact .bind (sure_send _) fun _ => .bind sure_sendDelim fun _ => .bind (sure_send _) fun _ =>
    sure_sendFlush
theorem sure_copyOut (h : Option Ino) : (copyOut h).Sure cfg := by
  unfold copyOut
  refine .bind (.op _) (fun _ => ?_)
  split
  refine .bind (sure_sendAll _) (fun _ => ?_)
  sure_ops
theorem sure_sendStatus (st : Status) : (sendStatus st).Sure cfg := by
  unfold sendStatus
  refine .bind (sure_send _) (fun _ => ?_)
  split <;> split <;> (try split) <;> simp only [] <;>
    repeat first
    | exact sure_sendFlush
    | exact sure_sendDelim
    | exact sure_sendAll _
    | exact sure_copyOut _
    | exact .pure _
    | refine M.Sure.bind ?_ (fun _ => ?_)

theorem sure_readToDelim : readToDelim.Sure cfg :=
  .rdr (fun r => readToTypeF_le .delim _ r _ _ rfl) fun _ h => readToType_sure _ h
theorem sure_readToFlush : readToFlush.Sure cfg :=
  .rdr (fun r => readToTypeF_le .flush _ r _ _ rfl) fun _ h => readToType_sure _ h
theorem sure_readPacket : (M.rdr Rdr.readPacket).Sure cfg :=
  .rdr (fun _ => readPacket_le rfl) fun _ h => readPacket_sure h
theorem sure_readToFlushParse : readToFlushParse.Sure cfg := by
  unfold readToFlushParse
  have := sure_readToFlush (cfg := cfg)
  sure_ops

/-- `copyIn` has enough fuel: it does not run out, whatever is read. -/
theorem copyInF_sure (bufs : Nat → Nat) (ino : Ino) : ∀ (f i : Nat) (acc : Bytes) (r : Rdr) (s : List Event),
    r.checked = false → r.left < f → (copyInF bufs ino f i acc).wp Logic.hist r s (fun x r' s' =>
      r'.checked = false ∧ s <+: s' ∧ (x = .panic → Crash cfg s') ∧ True)
  | 0, _, _, _, _, _, h => by omega
  | f + 1, i, acc, r, s, hc, hf => by
    rw [copyInF, M.wp_bind, M.wp_rdr]
    show Res.elim (r.read (bufs i + 1)).1 _ _ _
    have h1 := read_sure (n := bufs i + 1) hc
    cases hx : r.read (bufs i + 1) with
    | mk x r1 =>
      rw [hx] at h1
      have h2 := read_le hx
      have hc1 : r1.checked = false := by rw [h2.checked, hc]
      cases x with
      | panic => exact absurd rfl h1
      | err e => exact ⟨hc1, List.prefix_refl _, by simp, trivial⟩
      | ok d =>
        simp only [Res.elim_ok]
        split
        · exact ⟨hc1, List.prefix_refl _, by simp, trivial⟩
        · rename_i hd
          have hl := read_left hx hd
          rw [M.wp_bind, M.wp_op]
          refine ⟨trivial, fun y _ => ?_⟩
          rw [Res.elim_ok, M.wp_bind, M.wp_ofIo]
          cases y with
          | error e => exact ⟨hc1, ⟨_, rfl⟩, by simp, trivial⟩
          | ok u =>
            simp only [Res.elim_ok]
            refine M.wp_mono (copyInF_sure bufs ino f (i + 1) _ r1 _ hc1 (by omega)) ?_
            rintro z r2 s2 ⟨k1, k2, k3, _⟩
            exact ⟨k1, (List.prefix_append _ _).trans k2, k3, trivial⟩

theorem sure_copyIn (bufs : Nat → Nat) (ino : Ino) : (copyIn bufs ino).Sure cfg := fun s r hr =>
  copyInF_sure bufs ino _ 0 [] r s hr (by unfold Rdr.left; omega)

theorem sure_dropFile (p : Path) : (dropFile p).Sure cfg := by unfold dropFile; sure_ops
theorem sure_oidNew (b : Bytes) : (oidNew b).Sure cfg := by unfold oidNew; sure_ops

theorem parseArgsAux_sure : ∀ (items : List Bytes) (m : Args), parseArgsAux m items ≠ .panic
  | [], _ => by simp [parseArgsAux]
  | item :: items, m => by
    unfold parseArgsAux
    repeat' split
    all_goals first | exact parseArgsAux_sure items _ | simp
theorem sure_parseArgs (items : List Bytes) : (M.ofRes (parseArgs items)).Sure cfg :=
  .ofRes (parseArgsAux_sure items [])
theorem parseInteger_sure (x : Bytes) : parseInteger x ≠ .panic := by
  unfold parseInteger
  split <;> simp
theorem sizeFromArgs_sure (a : Args) : sizeFromArgs a ≠ .panic := by
  unfold sizeFromArgs
  split
  · exact parseInteger_sure _
  · simp

theorem sure_startUpload (oid : Bytes) : (startUpload cfg oid).Sure cfg := by
  unfold startUpload
  refine .bind (.op _) (fun _ => .bind (.ofIo _) (fun _ => ?_))
  split
  exact .onFail (.bind (sure_copyIn _ _) fun _ => .pure _) (sure_dropFile _)
theorem sure_finishUpload (oid : Bytes) (p : Path) : (finishUpload cfg oid p).Sure cfg := by
  unfold finishUpload fixPermissions
  have := sure_dropFile (cfg := cfg) p
  sure_ops
theorem sure_checkUpload (oid : Bytes) (n : Nat) (d : Bytes) : (checkUpload cfg oid n d).Sure cfg := by
  unfold checkUpload oidNew
  sure_ops
theorem sure_putObject (oid : Bytes) : (putObject cfg oid).Sure cfg := by
  unfold putObject
  refine .bind (sure_oidNew _) fun _ => .bind sure_readToDelim fun _ => .bind (sure_parseArgs _) fun _ =>
    .bind (.ofRes (sizeFromArgs_sure _)) fun _ => .bind (sure_startUpload _) fun _ => ?_
  split
  exact .bind (.onFail (sure_checkUpload _ _ _) (sure_dropFile _)) fun _ => .bind (sure_finishUpload _ _) fun _ => .pure _

theorem sure_backendBatch : ∀ l, (backendBatch cfg l).Sure cfg
  | [] => .pure _
  | (oid, n) :: rest => by
    unfold backendBatch
    have := sure_backendBatch rest
    refine .bind (.op _) fun _ => ?_
    sure_ops
theorem parseBatchLine_sure (l : Bytes) : parseBatchLine l ≠ .panic := by
  unfold parseBatchLine
  repeat' split
  all_goals simp
theorem parseBatchLines_sure : ∀ l, parseBatchLines l ≠ .panic
  | [] => by simp [parseBatchLines]
  | l :: ls => by
    have h1 := parseBatchLine_sure l
    have h2 := parseBatchLines_sure ls
    unfold parseBatchLines
    repeat' split
    all_goals simp_all
theorem sure_batchCmd (p m : Bytes) : (batchCmd cfg p m).Sure cfg := by
  unfold batchCmd readBatch
  refine .bind ?_ fun _ => .pure _
  have h3 := fun x => M.Sure.bind (M.Sure.ofRes (cfg := cfg) (parseBatchLines_sure x)) (f := backendBatch cfg) fun _ => sure_backendBatch _
  refine .bind sure_readToDelim fun _ => .bind (sure_parseArgs _) fun _ => .bind sure_readToFlushParse fun _ => ?_
  split <;> (try split) <;> simp only [] <;>
    first
    | exact h3 _
    | exact .bind (.pure _) fun _ => h3 _
    | exact .bind (.throw _) fun _ => h3 _

theorem sure_verifyObject (oid : Bytes) : (verifyObject cfg oid).Sure cfg := by
  unfold verifyObject backendVerify
  refine .bind sure_readToFlush fun _ => .bind (sure_parseArgs _) fun _ => .bind (sure_oidNew _) fun _ =>
    .bind (.ofRes ?_) fun _ => ?_
  · split
    · exact parseInteger_sure _
    · simp
  · sure_ops

theorem sure_getObject (oid : Bytes) : (getObject cfg oid).Sure cfg := by
  unfold getObject backendDownload
  refine .bind sure_readToFlush fun _ => .bind (sure_parseArgs _) fun _ => .bind (sure_oidNew _) fun _ => ?_
  sure_ops

end Verif

namespace Verif
open Spec
variable {cfg : Cfg} {α β : Type}

/-! ### Locks -/

theorem M.Sure.at {m : M α} (h : m.Sure cfg) (s : List Event) {P : Res α → List Event → Prop}
    (hp : ∀ x s', s <+: s' → P x s') : m.SureI cfg s P := (h s).mono fun _ _ h _ => hp _ _ h

/-- One call, with what is known afterwards. -/
theorem M.SureI.op {s : List Event} (o : Op) {P : Res (Resp o) → List Event → Prop}
    (h : ∀ x : Resp o, P (.ok x) (s ++ [⟨o, x⟩])) : (M.op o).SureI cfg s P := fun r hr =>
  ⟨trivial, fun x _ => ⟨hr, ⟨_, rfl⟩, by simp, h x⟩⟩

theorem M.SureI.opBind {s : List Event} {o : Op} {f : Resp o → M β} {P : Res β → List Event → Prop}
    (h : ∀ x, (f x).SureI cfg (s ++ [⟨o, x⟩]) P) : (M.op o >>= f).SureI cfg s P := by
  intro r hr
  rw [M.wp_bind, M.wp_op]
  refine ⟨trivial, fun x _ => ?_⟩
  rw [Res.elim_ok]
  refine M.wp_mono (h x r hr) ?_
  rintro y r' s' ⟨a, b, c⟩
  exact ⟨a, (List.prefix_append _ _).trans b, c⟩

theorem M.SureI.pure {s : List Event} {a : α} {P : Res α → List Event → Prop} (h : P (.ok a) s) :
    (Pure.pure a : M α).SureI cfg s P := fun r hr => ⟨hr, List.prefix_refl _, by simp, h⟩

theorem M.SureI.throw {s : List Event} {e : Err} {P : Res α → List Event → Prop} (h : P (.err e) s) :
    (M.throw e : M α).SureI cfg s P := fun r hr => ⟨hr, List.prefix_refl _, by simp, h⟩

theorem M.SureI.ofIo {s : List Event} {y : Except IoErr α} {P : Res α → List Event → Prop}
    (h : P (match y with | .ok a => .ok a | .error e => .err (Err.ofIo e)) s) :
    (M.ofIo y).SureI cfg s P := by
  intro r hr
  rw [M.wp_ofIo]
  exact ⟨hr, List.prefix_refl _, by cases y <;> simp, h⟩

/-- Sequencing when failures need no conclusion. -/
theorem M.SureI.bindOk {m : M α} {f : α → M β} {s : List Event} {P : α → List Event → Prop}
    {P' : Res β → List Event → Prop} (h : m.SureI cfg s (fun x s' => ∀ a, x = .ok a → P a s'))
    (hf : ∀ a s', s <+: s' → P a s' → (f a).SureI cfg s' P')
    (he : ∀ x s', (∀ a, x ≠ .ok a) → P' x s') : (m >>= f).SureI cfg s P' :=
  M.SureI.bind h (fun a s' h1 h2 => hf a s' h1 (h2 a rfl)) (fun _ _ _ _ => he _ _ (by simp))
    (fun _ _ _ => he _ _ (by simp))

theorem surei_timestamp (s : List Event) :
    (timestamp cfg).SureI cfg s (fun x s' =>
      (∀ t, x = .ok t → Learnt cfg.timestamp s' t) ∧ ∀ e, x ≠ .err e) := by
  unfold timestamp
  split
  · rename_i t ht
    refine .pure ⟨fun t' e => ?_, by simp⟩
    cases e
    exact .inl ht
  · refine .op .now fun x => ⟨fun t e => ?_, by simp⟩
    cases e
    exact .inr (.inl (by simp))

theorem sure_timestamp : (timestamp cfg).Sure cfg := fun s => (surei_timestamp s).mono fun _ _ _ _ => trivial

theorem sure_userForFile (p : FPath) : (userForFile cfg p).Sure cfg := by
  unfold userForFile
  sure_ops

theorem parseI64_text {s : Bytes} {t : Int} (h : parseI64 s = some t) : IntText s t := by
  have key : ∀ (mx : Nat) (ds : Bytes) (n : Nat), ds ≠ [] → digitsFold mx 0 ds = some n → Dec ds n := by
    intro mx ds n hne hd
    have hp : parseNat mx (43 :: ds) = some n := by
      simp only [parseNat, if_true, if_neg hne, hd]
    rcases (parseNat_iff _ _ _).mp hp with ⟨_, h | ⟨u, h1, h2⟩⟩
    · exact absurd ((dec_iff _ _).mp h).2.1 (fun hh => absurd (hh 43 (by simp)) (by decide))
    · cases h1; exact h2
  unfold parseI64 at h
  split at h
  · cases h
  · rename_i c cs
    split at h
    · rename_i hc
      subst hc
      split at h
      · cases h
      · rename_i hne
        simp only [Option.map_eq_some_iff] at h
        obtain ⟨n, hn, rfl⟩ := h
        exact ⟨cs, n, key _ _ _ hne hn, .inr ⟨rfl, rfl⟩⟩
    · split at h
      · rename_i hc
        subst hc
        split at h
        · cases h
        · rename_i hne
          simp only [Option.map_eq_some_iff] at h
          obtain ⟨n, hn, rfl⟩ := h
          exact ⟨cs, n, key _ _ _ hne hn, .inl ⟨.inr rfl, rfl⟩⟩
      · simp only [Option.map_eq_some_iff] at h
        obtain ⟨n, hn, rfl⟩ := h
        exact ⟨c :: cs, n, key _ _ _ (by simp) hn, .inl ⟨.inl rfl, rfl⟩⟩

/-- The lock was found missing in `s'`, after `s`. -/
def GoneSince (root : Path) (id : Bytes) (s s' : List Event) : Prop :=
  ∃ a y b, s' = s ++ a ++ y :: b ∧ Gone root id y

theorem surei_lockFromId (id : Bytes) (s : List Event) : (lockFromId cfg id).SureI cfg s (fun x s' =>
    (∀ l, x = .ok (some l) → Learnt cfg.timestamp s' l.time) ∧
    (x = .ok none → GoneSince cfg.root id s s')) := by
  unfold lockFromId
  refine .opBind fun x => ?_
  cases x with
  | error e =>
    simp only []
    split
    · rename_i hk
      refine .pure ⟨by simp, fun _ => ⟨[], _, [], by rw [List.append_nil]; rfl, .mk hk⟩⟩
    · exact .throw ⟨by simp, by simp⟩
  | ok h =>
    simp only []
    refine .opBind fun ce => ?_
    obtain ⟨cs, e⟩ := ce
    cases e with
    | some e => exact .throw ⟨by simp, by simp⟩
    | none =>
      simp only []
      refine .bind (P := fun _ _ => True) ((sure_userForFile _).at _ fun _ _ _ => trivial) ?_
        (fun _ _ _ _ => ⟨by simp, by simp⟩) (fun _ _ _ => ⟨by simp, by simp⟩)
      intro user s3 h3 _
      split
      · exact .throw ⟨by simp, by simp⟩
      · rename_i t p hp
        refine .pure ⟨fun l e => ?_, by simp⟩
        cases e
        obtain ⟨ts, h1, _, h2⟩ := C31_record_roundtrip.2 _ _ _ hp
        obtain ⟨u, rfl⟩ := h3
        exact .inr (.inr ⟨h, cs, by simp, ts, p, h1, parseI64_text h2⟩)

theorem sure_lockFromId (id : Bytes) : (lockFromId cfg id).Sure cfg := fun s =>
  (surei_lockFromId id s).mono fun _ _ _ _ => trivial

theorem surei_lockFromPath (p : Bytes) (s : List Event) : (lockFromPath cfg p).SureI cfg s (fun x s' =>
    (∀ l, x = .ok (some l) → Learnt cfg.timestamp s' l.time) ∧
    (x = .ok none → GoneSince cfg.root (lockId cfg p) s s')) := by
  unfold lockFromPath
  refine .bind (surei_lockFromId _ s) ?_ (fun _ _ _ _ => ⟨by simp, by simp⟩) (fun _ _ _ => ⟨by simp, by simp⟩)
  rintro x s1 h1 ⟨h2, h3⟩
  cases x with
  | none => exact .pure ⟨by simp, fun _ => h3 rfl⟩
  | some l =>
    simp only []
    split
    · exact .throw ⟨by simp, by simp⟩
    · exact .pure ⟨fun l' e => by cases e; exact h2 _ rfl, by simp⟩

theorem surei_fmtTimestamp (l : LockInfo) (s : List Event) (h : Learnt cfg.timestamp s l.time) :
    (fmtTimestamp cfg l).SureI cfg s (fun _ _ => True) := by
  unfold fmtTimestamp
  split
  · exact .pure trivial
  · rename_i hf
    exact fun r hr => ⟨hr, List.prefix_refl _, fun _ => .inr ⟨l.time, hf, h⟩, trivial⟩

theorem surei_lockArgs (l : LockInfo) (s : List Event) (h : Learnt cfg.timestamp s l.time) :
    (lockArgs cfg l).SureI cfg s (fun _ _ => True) := by
  unfold lockArgs
  exact .bind (surei_fmtTimestamp l s h) (fun _ _ _ _ => .pure trivial) (fun _ _ _ _ => trivial) fun _ _ _ => trivial

theorem surei_lockSpec (o : Bool) (l : LockInfo) (s : List Event) (h : Learnt cfg.timestamp s l.time) :
    (lockSpec cfg o l).SureI cfg s (fun _ _ => True) := by
  unfold lockSpec
  refine .bind (surei_fmtTimestamp l s h) (fun _ _ _ _ => ?_) (fun _ _ _ _ => trivial) fun _ _ _ => trivial
  simp only []
  split <;> exact .pure trivial

/-- The lock, or its temporary file, was found to exist. -/
def FoundBy (root : Path) (id : Bytes) (s : List Event) : Prop := ∃ a x b, s = a ++ x :: b ∧ Found root id x

theorem FoundBy.mono {root : Path} {id : Bytes} {s s' : List Event} (h : FoundBy root id s) (hp : s <+: s') :
    FoundBy root id s' := by
  obtain ⟨a, x, b, rfl, h⟩ := h
  obtain ⟨u, rfl⟩ := hp
  exact ⟨a, x, b ++ u, by simp, h⟩

/-- An I/O error is not a conflict. -/
theorem ofIo_kind (e : IoErr) : (Err.ofIo e).kind ≠ .conflict := by simp [Err.ofIo]

/-- What is known about a failure to create a lock. -/
abbrev OnConflict (cfg : Cfg) (p : Bytes) (s : List Event) (e : Err) : Prop :=
  e.kind = .conflict → FoundBy cfg.root (lockId cfg p) s

theorem surei_lockWrite (p d : Bytes) (s : List Event) : (lockWrite cfg (lockTemp cfg p) d).SureI cfg s (fun x s' =>
    ∀ e, x = .err e → OnConflict cfg p s' e) := by
  unfold lockWrite
  refine .opBind fun x => ?_
  cases x with
  | error e =>
    simp only []
    split
    · rename_i hk
      refine .throw fun _ _ _ => ⟨s, _, [], rfl, ?_⟩
      have : ∀ q, q = lockTempFile cfg.root (lockId cfg p) →
          Found cfg.root (lockId cfg p) ⟨.createNew q cfg.uid, .error e⟩ := by
        rintro q rfl; exact .temp hk
      exact this _ (by simp [lockTemp, lockTempFile, locksDir])
    · refine .throw fun e he hk => ?_
      cases he
      exact absurd hk (ofIo_kind _)
  | ok ino =>
    simp only []
    refine .opBind fun y => .ofIo ?_
    intro e he hk
    cases y with
    | ok a => cases he
    | error e => cases he; exact absurd hk (ofIo_kind _)

theorem surei_lockPersist (p : Bytes) (s : List Event) :
    (lockPersist (lockTemp cfg p) (lockPath cfg p)).SureI cfg s (fun x s' => ∀ e, x = .err e → OnConflict cfg p s' e) := by
  unfold lockPersist
  refine .opBind fun x => ?_
  cases x with
  | ok a => exact .pure fun e he => by cases he
  | error e =>
    simp only []
    split
    · rename_i hk
      refine .throw fun _ _ _ => ⟨s, _, [], rfl, ?_⟩
      have : ∀ q q', q = lockTempFile cfg.root (lockId cfg p) → q' = lockFile cfg.root (lockId cfg p) →
          Found cfg.root (lockId cfg p) ⟨.link q q', .error e⟩ := by
        rintro q q' rfl rfl; exact .lock hk
      exact this _ _ (by simp [lockTemp, lockTempFile, locksDir]) (by simp [lockPath, lockFile, locksDir])
    · refine .throw fun e he hk => ?_
      cases he
      exact absurd hk (ofIo_kind _)

theorem surei_lockCreate (p : Bytes) (s : List Event) : (lockCreate cfg p).SureI cfg s (fun x s' =>
    (∀ l, x = .ok l → Learnt cfg.timestamp s' l.time) ∧ ∀ e, x = .err e → OnConflict cfg p s' e) := by
  unfold lockCreate
  refine .bind (surei_timestamp s) ?_ (fun e _ _ h => absurd rfl (h.2 e)) (fun _ _ _ => ⟨by simp, by simp⟩)
  intro t s1 _ _
  refine .bind (P := fun x s' => ∀ e, x = .err e → OnConflict cfg p s' e) ?_ ?_
    (fun e _ _ h => ⟨by simp, fun e' he => h e' (by cases he; rfl)⟩) (fun _ _ _ => ⟨by simp, by simp⟩)
  · refine .after (P := fun x s' => ∀ e, x = .err e → OnConflict cfg p s' e)
      ?_ (sure_dropFile _) (fun x s' s'' hs h e he hk => (h e he hk).mono hs)
    refine .bind (surei_lockWrite p _ s1) (fun _ s2 _ _ => surei_lockPersist p s2)
      (fun e _ _ h e' he => h e' (by cases he; rfl)) (fun _ _ _ => by simp)
  · intro _ s2 _ _
    unfold userForFile
    refine .bind (P := fun x _ => ∀ e, x ≠ .err e) (.opBind fun x => ?_) ?_
      (fun e _ _ h => absurd rfl (h e)) (fun _ _ _ => ⟨by simp, by simp⟩)
    · split <;> exact .pure (by simp)
    · intro u s3 _ _
      refine .bind (surei_timestamp s3) ?_ (fun e _ _ h => absurd rfl (h.2 e)) (fun _ _ _ => ⟨by simp, by simp⟩)
      intro t2 s4 _ h4
      exact .pure ⟨fun l hl => by cases hl; exact h4.1 _ rfl, by simp⟩

theorem sure_lockLoop (p : Bytes) : (lockLoop cfg p).Sure cfg := by
  intro s
  unfold lockLoop
  refine .bind (P := fun x s' => ∀ y, x = .ok y → match y with
    | .ok l => Learnt cfg.timestamp s' l.time
    | .error e => OnConflict cfg p s' e) (.attempt (surei_lockCreate p s) ?_ ?_ ?_) ?_
    (fun _ _ _ _ => trivial) (fun _ _ _ => trivial)
  · rintro a s' _ ⟨h, _⟩ y e
    cases e
    exact h _ rfl
  · rintro e s' _ ⟨_, h⟩ y e'
    cases e'
    exact h _ rfl
  · rintro s' _ _ y e
    cases e
  · intro y s1 _ h1
    have h1 := h1 y rfl
    cases y with
    | ok l =>
      simp only [] at h1 ⊢
      exact .bind (surei_lockArgs l s1 h1) (fun _ _ _ _ => .pure trivial) (fun _ _ _ _ => trivial) (fun _ _ _ => trivial)
    | error e =>
      simp only [] at h1 ⊢
      split
      · rename_i hk
        have h1 := h1 hk
        refine .bind (surei_lockFromPath p s1) ?_ (fun _ _ _ _ => trivial) (fun _ _ _ => trivial)
        rintro x s2 h2 ⟨h3, h4⟩
        cases x with
        | some l =>
          simp only []
          exact .bind (surei_lockArgs l s2 (h3 _ rfl)) (fun _ _ _ _ => .pure trivial) (fun _ _ _ _ => trivial) (fun _ _ _ => trivial)
        | none =>
          refine fun r hr => ⟨hr, List.prefix_refl _, fun _ => .inl ?_, trivial⟩
          obtain ⟨a, y, b, rfl, hg⟩ := h4 rfl
          obtain ⟨a', x, b', rfl, hf⟩ := h1
          exact ⟨lockId cfg p, a', x, b' ++ a, y, b, by simp, hf, hg⟩
      · exact .throw trivial

theorem sure_lockCmd : (lockCmd cfg).Sure cfg := by
  unfold lockCmd
  refine .bind sure_readToFlushParse fun _ => .bind (sure_parseArgs _) fun _ => ?_
  split
  · exact sure_lockLoop _
  · exact .throw _

theorem sure_listLocksForPath (p : Bytes) (c : Option Bytes) (o : Bool) : (listLocksForPath cfg p c o).Sure cfg := by
  intro s
  unfold listLocksForPath
  refine .bind (surei_lockFromPath p s) ?_ (fun _ _ _ _ => trivial) (fun _ _ _ => trivial)
  rintro x s2 h2 ⟨h3, _⟩
  cases x with
  | none => exact .pure trivial
  | some l =>
    simp only []
    have : ∀ b : Bool, (if b = true then Pure.pure (errStatus 404 b!"not found") else do
        let s ← lockSpec cfg o l
        Pure.pure (Status.newSuccess s) : M Status).SureI cfg s2 (fun _ _ => True) := by
      intro b
      cases b with
      | true => rw [if_pos rfl]; exact .pure trivial
      | false =>
        rw [if_neg (by simp)]
        exact .bind (surei_lockSpec o l s2 (h3 _ rfl)) (fun _ _ _ _ => .pure trivial)
          (fun _ _ _ _ => trivial) (fun _ _ _ => trivial)
    exact this _

theorem surei_collectLocks (c : Option Bytes) : ∀ (ns : List Bytes) (sk : Bool) (k : Nat) (s : List Event),
    (collectLocks cfg c sk k ns).SureI cfg s (fun x s' => ∀ ls, x = .ok ls → ∀ l ∈ ls, Learnt cfg.timestamp s' l.time)
  | ns, _, 0, s => by
    cases ns <;> exact .pure fun ls e l hl => by cases e; cases hl
  | [], _, _ + 1, s => .pure fun ls e l hl => by cases e; cases hl
  | n :: ns, sk, k + 1, s => by
    rw [collectLocks]
    refine .bind (P := fun x s' => ∀ l, x = .ok (.ok (some l)) → Learnt cfg.timestamp s' l.time)
      (.attempt (surei_lockFromId _ s) ?_ ?_ ?_) ?_ (fun _ _ _ _ => by simp) (fun _ _ _ => by simp)
    · rintro a s' _ ⟨h, _⟩ l e
      cases e
      exact h _ rfl
    · rintro e s' _ _ l h; cases h
    · rintro s' _ _ l h; cases h
    · intro y s1 _ h1
      split
      · rename_i l
        have h1 := h1 l rfl
        simp only []
        generalize (sk && _) = b
        cases b with
        | true => exact surei_collectLocks c ns true (k + 1) s1
        | false =>
          refine .bind (surei_collectLocks c ns false k s1) ?_ (fun _ _ _ _ => by simp) (fun _ _ _ => by simp)
          intro ls s2 h2 h3
          refine .pure fun ls' e l' hl' => ?_
          cases e
          rcases List.mem_cons.mp hl' with rfl | hl'
          · exact learnt_mono h1 h2
          · exact h3 _ rfl l' hl'
      · exact surei_collectLocks c ns sk (k + 1) s1

theorem surei_lockSpecs (o : Bool) : ∀ (ls : List LockInfo) (s : List Event),
    (∀ l ∈ ls, Learnt cfg.timestamp s l.time) → (lockSpecs cfg o ls).SureI cfg s (fun _ _ => True)
  | [], s, _ => .pure trivial
  | l :: ls, s, h => by
    rw [lockSpecs]
    refine .bind (surei_lockSpec o l s (h l (by simp))) ?_ (fun _ _ _ _ => trivial) (fun _ _ _ => trivial)
    intro _ s1 h1 _
    refine .bind (surei_lockSpecs o ls s1 fun l' hl' => learnt_mono (h l' (by simp [hl'])) h1) ?_
      (fun _ _ _ _ => trivial) (fun _ _ _ => trivial)
    exact fun _ _ _ _ => .pure trivial

theorem parseLimit_sure (a : Args) : parseLimit a ≠ .panic := by
  unfold parseLimit
  split
  · simp
  · rename_i h
    split at h
    · exact absurd h (parseInteger_sure _)
    · cases h
  · repeat' split
    all_goals simp

theorem sure_listLocks (o : Bool) : (listLocks cfg o).Sure cfg := by
  unfold listLocks iterLocks
  refine .bind sure_readToFlushParse fun _ => .bind (sure_parseArgs _) fun _ => .bind (.ofRes (parseLimit_sure _)) fun _ => ?_
  simp only []
  split
  · exact sure_listLocksForPath _ _ _
  · intro s
    refine .bind (P := fun x s' => ∀ ls, x = .ok ls → ∀ l ∈ ls, Learnt cfg.timestamp s' l.time) ?_ ?_
      (fun _ _ _ _ => trivial) (fun _ _ _ => trivial)
    · refine .opBind fun d => .bind (P := fun _ _ => True) ((M.Sure.ofIo _).at _ fun _ _ _ => trivial) ?_
        (fun _ _ _ _ => by simp) (fun _ _ _ => by simp)
      exact fun names s' _ _ => surei_collectLocks _ _ _ _ s'
    · intro ls s1 _ h1
      exact .bind (surei_lockSpecs o ls s1 (h1 ls rfl)) (fun _ _ _ _ => .pure trivial) (fun _ _ _ _ => trivial) (fun _ _ _ => trivial)

theorem sure_unlockCmd (id : Bytes) : (unlockCmd cfg id).Sure cfg := by
  unfold unlockCmd
  refine .bind sure_readToFlush fun _ => ?_
  split
  · exact .throw _
  · intro s
    refine .bind (surei_lockFromId id s) ?_ (fun _ _ _ _ => trivial) (fun _ _ _ => trivial)
    rintro x s1 _ ⟨h1, _⟩
    cases x with
    | none => exact .pure trivial
    | some l =>
      simp only []
      refine .bind (surei_lockArgs l s1 (h1 _ rfl)) ?_ (fun _ _ _ _ => trivial) (fun _ _ _ => trivial)
      intro a s2 _ _
      have : (lockUnlock cfg l).Sure cfg := by unfold lockUnlock; sure_ops
      refine M.Sure.bind (.attempt this) (fun y => ?_) s2
      cases y with
      | ok u => exact .pure _
      | error e => simp only []; sure_ops

theorem sure_dispatch (mode : Mode) (cmd : Bytes) (arg : Option Bytes) : (dispatch cfg mode cmd arg).Sure cfg := by
  have hv : versionCmd.Sure cfg := by
    unfold versionCmd
    exact .bind sure_readToFlush fun _ => .pure _
  unfold dispatch
  repeat' (first
    | split
    | exact .pure _
    | with_reducible exact hv
    | with_reducible exact sure_putObject _
    | with_reducible exact sure_lockCmd
    | with_reducible exact sure_unlockCmd _
    | with_reducible exact sure_batchCmd _ _
    | with_reducible exact sure_verifyObject _
    | with_reducible exact sure_getObject _
    | with_reducible exact sure_listLocks _)

theorem sure_turn (mode : Mode) : (turn cfg mode).Sure cfg := by
  unfold turn
  refine .bind (.attempt sure_readPacket) fun x => ?_
  split
  · split
    · exact .pure _
    · exact .throw _
  · split
    · exact .bind (sure_sendError _ _) fun _ => .pure _
    · split
      · exact .bind (sure_sendError _ _) fun _ => .pure _
      · simp only []
        split
        · exact .bind (sure_sendStatus _) fun _ => .pure _
        · refine .bind (.attempt (sure_dispatch _ _ _)) fun y => ?_
          split <;> exact .bind (sure_sendStatus _) fun _ => .pure _

theorem wp_hist_any {p : Prog α} {Q : α → Prop} (h : p.wp Logic.any () (fun a _ => Q a)) (s : List Event) :
    p.wp Logic.hist s (fun a _ => Q a) := by
  induction p generalizing s with
  | ret a => exact h
  | call o k ih => exact ⟨trivial, fun x _ => ih x (h.2 x trivial) _⟩

theorem surei_processF (mode : Mode) : ∀ (f : Nat) (r : Rdr) (s : List Event), r.checked = false →
    r.input.length < f → (processF cfg mode f).wp Logic.hist r s (fun x r' s' =>
      s <+: s' ∧ (x = .panic → Crash cfg s'))
  | 0, _, _, _, h => by omega
  | f + 1, r, s, hr, hf => by
    rw [processF, M.wp_bind]
    refine Prog.wp_mono (Prog.wp_and (sure_turn mode s r hr) (wp_hist_any (turn_again cfg mode r) s)) ?_
    rintro ⟨(t | e | _), r'⟩ s' ⟨⟨h1, h2, h3, _⟩, _, h5⟩
    · cases t with
      | done => exact ⟨h2, by simp⟩
      | again =>
        have h5 : r'.input.length + 4 ≤ r.input.length := h5 rfl
        refine Prog.wp_mono (surei_processF mode f r' s' h1 (by omega)) ?_
        exact fun _ _ h => ⟨h2.trans h.1, h.2⟩
    · exact ⟨h2, by simp⟩
    · exact ⟨h2, fun _ => h3 rfl⟩

theorem sure_runProgram (op : Bytes) (r : Rdr) (hr : r.checked = false) :
    (runProgram cfg op).wp Logic.hist r [] (fun x _ s => x = .panic → Crash cfg s) := by
  have hmk : ∀ ps, (mkdirs ps).Sure cfg := by
    intro ps
    induction ps with
    | nil => exact .pure _
    | cons p ps ih => exact .bind (.op _) fun _ => .bind (.ofIo _) fun _ => ih
  have hcap : sendCapabilities.Sure cfg := by unfold sendCapabilities; sure_ops
  unfold runProgram
  rw [M.wp_bind]
  refine M.wp_mono (hmk _ [] r hr) ?_
  rintro (_ | e | _) r0 s0 ⟨g1, g2, g3, _⟩
  on_goal 2 => exact fun h => by cases h
  on_goal 2 => exact fun _ => g3 rfl
  rw [Res.elim_ok, M.wp_bind]
  refine M.wp_mono (hcap s0 r0 g1) ?_
  rintro (_ | e | _) r' s' ⟨h1, h2, h3, _⟩
  · rw [Res.elim_ok]
    split
    · exact Prog.wp_mono (surei_processF _ _ r' s' h1 (Nat.lt_succ_self _)) fun _ _ h => h.2
    · split
      · exact Prog.wp_mono (surei_processF _ _ r' s' h1 (Nat.lt_succ_self _)) fun _ _ h => h.2
      · exact fun h => by cases h
  · exact fun h => by cases h
  · exact fun _ => h3 rfl

theorem sure_mainProg (op : Bytes) (r : Rdr) (hr : r.checked = false) :
    (mainProg cfg op r).wp Logic.hist [] (fun x s => x.code = 101 → Crash cfg s) := by
  unfold mainProg
  rw [Prog.wp_bind]
  refine Prog.wp_mono (sure_runProgram op r hr) ?_
  rintro ⟨(_ | e | _), r'⟩ s h
  · exact fun h => by cases h
  · intro h
    exfalso
    revert h
    show e.exitStatus.code ≠ 101
    cases e.exitStatus <;> decide
  · exact fun _ => h rfl

end Verif
