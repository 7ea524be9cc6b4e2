import Verif.Lemmas.Pktline
import Verif.Lemmas.Prog
/-! Consumption of input, and independence of the fuel the model passes to its loops. -/
namespace Verif

/-- A packet that breaks off. -/
def Partial (t : Bytes) : Prop := ∃ p v, Spec.Frame p v ∧ Packet.small p ∧ t <+: v ∧ t ≠ v

/-- If the bytes begin with proper packets, a whole number of these was consumed, or all of them and perhaps more; if
after them one breaks off, then all of it. -/
def Along (inp inp' : Bytes) : Prop :=
  ∀ ps w rest, (∀ p ∈ ps, Packet.small p) → Spec.Frames ps w → inp = w ++ rest →
    (∃ ps' w', ps' <:+ ps ∧ Spec.Frames ps' w' ∧ inp' = w' ++ rest) ∨ (inp' <:+ rest ∧ (Partial rest → inp' = []))

theorem Along.refl (a : Bytes) : Along a a := fun ps w _ _ hF hi => .inl ⟨ps, w, List.suffix_refl _, hF, hi⟩

theorem Along.trans {a b c : Bytes} (h1 : Along a b) (h2 : Along b c) (hs : c <:+ b) : Along a c := by
  intro ps w rest hsm hF hi
  rcases h1 ps w rest hsm hF hi with ⟨ps', w', h3, h4, h5⟩ | ⟨h, he⟩
  · rcases h2 ps' w' rest (fun p hp => hsm p (h3.subset hp)) h4 h5 with ⟨ps'', w'', h6, h7, h8⟩ | h
    · exact .inl ⟨ps'', w'', h6.trans h3, h7, h8⟩
    · exact .inr h
  · exact .inr ⟨hs.trans h, fun hp => by rw [he hp] at hs; exact List.suffix_nil.mp hs⟩

/-- `r'` comes after `r`: input was consumed from the front, packet by packet (buffered bytes may have changed). -/
structure Rdr.Le (r r' : Rdr) : Prop where
  fin : r'.fin = r.fin
  checked : r'.checked = r.checked
  suffix : r'.input <:+ r.input
  along : Along r.input r'.input

theorem Rdr.Le.refl (r : Rdr) : r.Le r := ⟨rfl, rfl, List.suffix_refl _, .refl _⟩
theorem Rdr.Le.trans {a b c : Rdr} (h1 : a.Le b) (h2 : b.Le c) : a.Le c :=
  ⟨h2.fin.trans h1.fin, h2.checked.trans h1.checked, h2.suffix.trans h1.suffix, h1.along.trans h2.along h2.suffix⟩
theorem Rdr.Le.len {a b : Rdr} (h : a.Le b) : b.input.length ≤ a.input.length := h.suffix.length_le

theorem readPacket_le {r r' : Rdr} {x : Res Packet} (h : r.readPacket = (x, r')) : r.Le r' := by
  have a := readPacket_adv h
  refine ⟨a.fin, a.checked, a.suffix, ?_⟩
  intro ps w rest hsm hF hi
  cases hF with
  | nil =>
    rw [List.nil_append] at hi
    refine .inr ⟨by rw [← hi]; exact a.suffix, ?_⟩
    rintro ⟨p, v, h1, _, h3, h4⟩
    rw [readPacket_truncated h1 r h3 h4 hi] at h
    cases h; rfl
  | @cons p ps w ws hf hF =>
    rw [readPacket_frame hf r (ws ++ rest) (by rw [hi, List.append_assoc])] at h
    cases h
    exact .inl ⟨ps, ws, List.suffix_cons _ _, hF, rfl⟩

theorem readOne_le {r r' : Rdr} {x : Res Packet} (h : r.readOne = (x, r')) : r.Le r' := by
  have a := readOne_adv h
  refine ⟨a.fin, a.checked, a.suffix, ?_⟩
  intro ps w rest hsm hF hi
  cases hF with
  | nil =>
    rw [List.nil_append] at hi
    refine .inr ⟨by rw [← hi]; exact a.suffix, ?_⟩
    rintro ⟨p, v, h1, h2, h3, h4⟩
    rw [readOne_truncated h1 h2 r h3 h4 hi] at h
    cases h; rfl
  | @cons p ps w ws hf hF =>
    rw [readOne_frame hf (hsm p (by simp)) r (ws ++ rest) (by rw [hi, List.append_assoc])] at h
    cases h
    exact .inl ⟨ps, ws, List.suffix_cons _ _, hF, rfl⟩

/-! ### Packets consume at least four bytes -/

theorem readExact_len {r r' : Rdr} {n : Nat} {d : Bytes} (h : r.readExact n = (.ok d, r')) :
    r'.input.length + n = r.input.length := by
  have := readExact_ok h
  rw [this.2.1, List.length_append]; omega

theorem readPacket_ok_len {r r' : Rdr} {p : Packet} (h : r.readPacket = (.ok p, r')) :
    r'.input.length + 4 ≤ r.input.length := by
  unfold Rdr.readPacket at h
  split at h
  · cases h
  · rename_i h1
    have a := readExact_len h1
    split at h
    · cases h
    · cases h
    · split at h
      · cases h; omega
      · split at h
        · cases h; omega
        · split at h
          · cases h
          · split at h
            · cases h
            · rename_i h2
              have := readExact_len h2
              cases h; omega

theorem readOne_ok_len {r r' : Rdr} {p : Packet} (h : r.readOne = (.ok p, r')) :
    r'.input.length + 4 + (p.data?.getD []).length ≤ r.input.length := by
  unfold Rdr.readOne at h
  split at h
  · cases h
  · rename_i h1
    have a := readExact_len h1
    split at h
    · cases h
    · cases h
    · split at h
      · cases h; simp [Packet.data?]; omega
      · split at h
        · cases h; simp [Packet.data?]; omega
        · split at h
          · cases h
          · split at h
            · cases h
            · split at h
              · cases h
              · rename_i h2
                have := readExact_len h2
                have := (readExact_ok h2).1
                cases h; simp [Packet.data?]; omega

theorem next_adv {r r' : Rdr} {x : Option (Res Packet)} (h : r.next = (x, r')) : r.Adv r' := by
  unfold Rdr.next at h
  split at h
  · rename_i h1; cases h; exact readPacket_adv h1
  · rename_i h1; split at h <;> (cases h; exact readPacket_adv h1)
  · rename_i h1; cases h; exact readPacket_adv h1

theorem next_ok_len {r r' : Rdr} {p : Packet} (h : r.next = (some (.ok p), r')) :
    r'.input.length + 4 ≤ r.input.length := by
  unfold Rdr.next at h
  split at h
  · rename_i h1; cases h; exact readPacket_ok_len h1
  · split at h <;> cases h
  · cases h

/-! ### Fuel of the reading loops -/

theorem Rdr.readLoop_fuel : ∀ (f g n : Nat) (r : Rdr), r.input.length < f → r.input.length < g →
    Rdr.readLoopF f n r = Rdr.readLoopF g n r
  | 0, _, _, _, h, _ => by omega
  | _, 0, _, _, _, h => by omega
  | f + 1, g + 1, n, r, hf, hg => by
    simp only [Rdr.readLoopF]
    split <;> try rfl
    rename_i r1 h1
    have := readOne_ok_len h1
    rw [Rdr.readLoop_fuel f g n r1 (by omega) (by omega)]

theorem readLoopF_le : ∀ (f n : Nat) (r r' : Rdr) (x : Res Bytes),
    Rdr.readLoopF f n r = (x, r') → r.Le r'
  | 0, _, _, _, _, h => by cases h; exact .refl _
  | f + 1, n, r, r', x, h => by
    simp only [Rdr.readLoopF] at h
    split at h
    · rename_i h1; cases h; exact readOne_le h1
    · rename_i h1; cases h; exact readOne_le h1
    · rename_i h1
      have a := readOne_le h1
      split at h
      · split at h
        · exact a.trans (readLoopF_le f n _ _ _ h)
        · cases h; exact a
      · split at h
        · exact a.trans (readLoopF_le f n _ _ _ h)
        · cases h; exact ⟨a.fin, a.checked, a.suffix, a.along⟩
    · rename_i h1; cases h; exact readOne_le h1
    · rename_i h1; cases h; exact readOne_le h1

theorem read_le {n : Nat} {r r' : Rdr} {x : Res Bytes} (h : r.read n = (x, r')) : r.Le r' := by
  unfold Rdr.read at h
  simp only at h
  split at h
  · cases h; exact ⟨rfl, rfl, List.suffix_refl _, .refl _⟩
  · exact readLoopF_le _ _ _ _ _ h

/-- Unread bytes: those still in the stream and those buffered. -/
def Rdr.left (r : Rdr) : Nat := r.input.length + r.pending.length

/-- A read that returns data leaves fewer bytes unread; no read adds any. -/
theorem readLoopF_left : ∀ (f n : Nat) (r r' : Rdr) (d : Bytes), r.input.length < f →
    (r.pending = [] ∨ n = 0) → Rdr.readLoopF f n r = (.ok d, r') →
    (d ≠ [] → r'.left < r.left)
  | 0, _, _, _, _, h, _, _ => by omega
  | f + 1, n, r, r', d, hf, hp, h => by
    intro hd
    simp only [Rdr.readLoopF] at h
    split at h
    · cases h; exact absurd rfl hd
    · cases h; exact absurd rfl hd
    · rename_i d' r1 h1
      have a := readOne_ok_len h1
      have ad := readOne_adv h1
      have hp1 : r1.pending = [] ∨ n = 0 := by rw [ad.pending]; exact hp
      have ll : r1.left < r.left := by
        simp only [Rdr.left, ad.pending]; omega
      simp only [Packet.data?, Option.getD_some] at a
      split at h
      · split at h
        · exact Nat.lt_trans (readLoopF_left f n _ _ _ (by omega) hp1 h hd) ll
        · cases h; exact ll
      · split at h
        · exact Nat.lt_trans (readLoopF_left f n _ _ _ (by omega) hp1 h hd) ll
        · cases h
          have : ((d'.drop n).length) ≤ d'.length := by simp
          simp only [Rdr.left] at *; omega
    · cases h
    · cases h

theorem read_left {n : Nat} {r r' : Rdr} {d : Bytes} (h : r.read n = (.ok d, r')) (hd : d ≠ []) :
    r'.left < r.left := by
  unfold Rdr.read at h
  simp only at h
  split at h
  · rename_i hk
    cases h
    have : 0 < min r.pending.length n := hk
    simp only [Rdr.left, List.length_drop]; omega
  · rename_i hk
    refine readLoopF_left _ _ _ _ _ (Nat.lt_succ_self _) ?_ h hd
    have hm : min r.pending.length n = 0 := by omega
    by_cases hn : n = 0
    · exact .inr hn
    · left
      have : r.pending.length = 0 := by omega
      exact List.length_eq_zero_iff.mp this

theorem readToTypeF_fuel (typ : Packet) : ∀ (f g : Nat) (r : Rdr), r.input.length < f →
    r.input.length < g → readToTypeF typ f r = readToTypeF typ g r
  | 0, _, _, h, _ => by omega
  | _, 0, _, _, h => by omega
  | f + 1, g + 1, r, hf, hg => by
    simp only [readToTypeF]
    split <;> try rfl
    rename_i h1
    have := next_ok_len h1
    rw [readToTypeF_fuel typ f g _ (by omega) (by omega)]

theorem next_le {r r' : Rdr} {x : Option (Res Packet)} (h : r.next = (x, r')) : r.Le r' := by
  unfold Rdr.next at h
  split at h
  · rename_i h1; cases h; exact readPacket_le h1
  · rename_i h1; split at h <;> (cases h; exact readPacket_le h1)
  · rename_i h1; cases h; exact readPacket_le h1

theorem readToTypeF_le (typ : Packet) : ∀ (f : Nat) (r r' : Rdr) (x : Res (List Bytes)),
    readToTypeF typ f r = (x, r') → r.Le r'
  | 0, _, _, _, h => by cases h; exact .refl _
  | f + 1, r, r', x, h => by
    simp only [readToTypeF] at h
    split at h
    · rename_i h1; cases h; exact next_le h1
    · rename_i h1; cases h; exact next_le h1
    · rename_i h1; cases h; exact next_le h1
    · rename_i h1
      have a := next_le h1
      split at h
      · cases h; exact a
      · split at h <;>
        · rename_i h2
          have := readToTypeF_le typ f _ _ _ h2
          cases h; exact a.trans this

theorem readToTypeF_adv (typ : Packet) : ∀ (f : Nat) (r r' : Rdr) (x : Res (List Bytes)),
    readToTypeF typ f r = (x, r') → r.Adv r'
  | 0, _, _, _, h => by cases h; exact .refl _
  | f + 1, r, r', x, h => by
    simp only [readToTypeF] at h
    split at h
    · rename_i h1; cases h; exact next_adv h1
    · rename_i h1; cases h; exact next_adv h1
    · rename_i h1; cases h; exact next_adv h1
    · rename_i h1
      have a := next_adv h1
      split at h
      · cases h; exact a
      · split at h <;>
        · rename_i h2
          have := readToTypeF_adv typ f _ _ _ h2
          cases h; exact a.trans this

/-! ### Programs consume input -/

/-- The logic that only follows the structure of a program. -/
def Logic.any : Logic Unit := ⟨fun _ _ => True, fun s _ _ => s, fun _ _ _ => True⟩

/-- On every execution the reader only moves forward. -/
def M.Fwd {α : Type} (m : M α) : Prop := ∀ r, m.wp Logic.any r () (fun _ r' _ => r.Le r')

namespace M.Fwd
variable {α β : Type}

theorem pure (a : α) : (Pure.pure a : M α).Fwd := fun r => Rdr.Le.refl r
theorem pure' (a : α) : (M.pure a : M α).Fwd := fun r => Rdr.Le.refl r
theorem throw (e : Err) : (M.throw e : M α).Fwd := fun r => Rdr.Le.refl r
theorem panic : (M.panic : M α).Fwd := fun r => Rdr.Le.refl r
theorem ofRes (x : Res α) : (M.ofRes x).Fwd := fun r => Rdr.Le.refl r
theorem op (o : Op) : (M.op o).Fwd := fun r => ⟨trivial, fun _ _ => Rdr.Le.refl r⟩
theorem ofIo (x : Except IoErr α) : (M.ofIo x).Fwd := by
  intro r; rw [M.wp_ofIo]; exact Rdr.Le.refl r
theorem rdr {f : Rdr → Res α × Rdr} (h : ∀ r : Rdr, r.Le (f r).2) : (M.rdr f).Fwd := fun r => h r

theorem bind {m : M α} {f : α → M β} (h : m.Fwd) (hf : ∀ a, (f a).Fwd) : (m >>= f).Fwd := by
  intro r
  rw [M.wp_bind]
  refine M.wp_mono (h r) ?_
  rintro (a | e | _) r' s' hr
  · exact M.wp_mono (hf a r') (fun _ _ _ => hr.trans)
  · exact hr
  · exact hr

theorem attempt {m : M α} (h : m.Fwd) : (M.attempt m).Fwd := by
  intro r
  rw [M.wp_attempt]
  refine M.wp_mono (h r) ?_
  rintro (a | e | _) r' s' hr <;> exact hr

theorem after {m : M α} {c : M Unit} (h : m.Fwd) (hc : c.Fwd) : (M.after m c).Fwd := by
  intro r
  rw [M.wp_after]
  refine M.wp_mono (h r) ?_
  intro x r' s' hr
  exact M.wp_mono (hc r') (fun _ _ _ => hr.trans)

theorem onFail {m : M α} {c : M Unit} (h : m.Fwd) (hc : c.Fwd) : (M.onFail m c).Fwd := by
  intro r
  rw [M.wp_onFail]
  refine M.wp_mono (h r) ?_
  rintro (a | e | _) r' s' hr
  · exact hr
  · exact M.wp_mono (hc r') (fun _ _ _ => hr.trans)
  · exact M.wp_mono (hc r') (fun _ _ _ => hr.trans)

end M.Fwd

/-- Decompose a goal `M.Fwd m` along the structure of `m`. -/
macro "fwd_op" : tactic => `(tactic| first
  | exact M.Fwd.pure _
  | exact M.Fwd.pure' _
  | exact M.Fwd.throw _
  | exact M.Fwd.panic
  | exact M.Fwd.ofRes _
  | exact M.Fwd.ofIo _
  | exact M.Fwd.op _
  | assumption
  | refine M.Fwd.bind ?_ (fun _ => ?_)
  | refine M.Fwd.attempt ?_
  | refine M.Fwd.after ?_ ?_
  | refine M.Fwd.onFail ?_ ?_
  | split)

macro "fwd_ops" : tactic => `(tactic| repeat fwd_op)

theorem fwd_readToDelim : readToDelim.Fwd :=
  M.Fwd.rdr (fun r => readToTypeF_le .delim _ r _ _ rfl)
theorem fwd_readToFlush : readToFlush.Fwd :=
  M.Fwd.rdr (fun r => readToTypeF_le .flush _ r _ _ rfl)
theorem fwd_read (n : Nat) : (M.rdr (Rdr.read n)).Fwd := M.Fwd.rdr (fun _ => read_le rfl)
theorem fwd_readPacket : (M.rdr Rdr.readPacket).Fwd := M.Fwd.rdr (fun _ => readPacket_le rfl)

theorem fwd_outBytes (b : Bytes) : (outBytes b).Fwd := by unfold outBytes; fwd_ops
theorem fwd_writeOne (b : Bytes) : (writeOne b).Fwd := by
  unfold writeOne
  exact .bind (fwd_outBytes _) (fun _ => fwd_outBytes _)
theorem fwd_writeChunks : ∀ cs, (writeChunks cs).Fwd
  | [] => .pure _
  | c :: cs => .bind (fwd_writeOne c) (fun _ => fwd_writeChunks cs)
theorem fwd_send (m : Bytes) : (send m).Fwd := fwd_writeChunks _
theorem fwd_sendFlush : sendFlush.Fwd := by
  unfold sendFlush
  exact .bind (fwd_outBytes _) (fun _ => by fwd_ops)
theorem fwd_sendDelim : sendDelim.Fwd := fwd_outBytes _
theorem fwd_sendAll : ∀ ms, (sendAll ms).Fwd
  | [] => .pure _
  | m :: ms => .bind (fwd_send m) (fun _ => fwd_sendAll ms)
theorem fwd_sendError (c : Nat) (m : Bytes) : (sendError c m).Fwd := by
  unfold sendError
  exact .bind (fwd_send _) fun _ => .bind fwd_sendDelim fun _ => .bind (fwd_send _) fun _ =>
    fwd_sendFlush
theorem fwd_copyOut (h : Option Ino) : (copyOut h).Fwd := by
  unfold copyOut
  refine .bind (.op _) (fun _ => ?_)
  split
  refine .bind (fwd_sendAll _) (fun _ => ?_)
  fwd_ops
theorem fwd_sendStatus (st : Status) : (sendStatus st).Fwd := by
  unfold sendStatus
  have h1 := fwd_sendAll
  have h2 := fwd_sendFlush
  have h3 := fwd_sendDelim
  have h4 := fwd_copyOut
  refine .bind (fwd_send _) (fun _ => ?_)
  split <;> split <;> (try split) <;> simp only [] <;>
    repeat first
    | exact h2
    | exact h3
    | exact h1 _
    | exact h4 _
    | exact .pure _
    | refine M.Fwd.bind ?_ (fun _ => ?_)

theorem fwd_copyInF (bufs : Nat → Nat) (ino : Ino) : ∀ f i acc, (copyInF bufs ino f i acc).Fwd
  | 0, _, _ => .panic
  | f + 1, i, acc => by
    unfold copyInF
    refine .bind (fwd_read _) (fun d => ?_)
    have ih := fwd_copyInF bufs ino f (i + 1) (acc ++ d)
    fwd_ops

theorem fwd_copyIn (bufs : Nat → Nat) (ino : Ino) : (copyIn bufs ino).Fwd := fun r =>
  fwd_copyInF bufs ino _ 0 [] r

theorem fwd_dropFile (p : Path) : (dropFile p).Fwd := by unfold dropFile; fwd_ops
theorem fwd_oidNew (b : Bytes) : (oidNew b).Fwd := by unfold oidNew; fwd_ops
theorem fwd_startUpload (cfg : Cfg) (oid : Bytes) : (startUpload cfg oid).Fwd := by
  unfold startUpload
  refine .bind (.op _) (fun _ => .bind (.ofIo _) (fun _ => ?_))
  split
  refine .onFail (.bind (fwd_copyIn _ _) (fun _ => .pure _)) (fwd_dropFile _)
theorem fwd_finishUpload (cfg : Cfg) (oid : Bytes) (p : Path) : (finishUpload cfg oid p).Fwd := by
  unfold finishUpload fixPermissions
  have := fwd_dropFile p
  fwd_ops
theorem fwd_checkUpload (cfg : Cfg) (oid : Bytes) (n : Nat) (d : Bytes) :
    (checkUpload cfg oid n d).Fwd := by
  unfold checkUpload oidNew
  fwd_ops
theorem fwd_putObject (cfg : Cfg) (oid : Bytes) : (putObject cfg oid).Fwd := by
  unfold putObject
  refine .bind (fwd_oidNew _) fun _ => .bind fwd_readToDelim fun _ => .bind (.ofRes _) fun _ =>
    .bind (.ofRes _) fun _ => .bind (fwd_startUpload _ _) fun _ => ?_
  split
  exact .bind (.onFail (fwd_checkUpload _ _ _ _) (fwd_dropFile _)) fun _ =>
    .bind (fwd_finishUpload _ _ _) fun _ => .pure _

theorem fwd_readToFlushParse : readToFlushParse.Fwd := by
  unfold readToFlushParse
  have := fwd_readToFlush
  fwd_ops

theorem fwd_backendBatch (cfg : Cfg) : ∀ l, (backendBatch cfg l).Fwd
  | [] => .pure _
  | (oid, n) :: rest => by
    unfold backendBatch
    have := fwd_backendBatch cfg rest
    fwd_ops

theorem fwd_readBatch (cfg : Cfg) : (readBatch cfg).Fwd := by
  unfold readBatch
  have h1 := fwd_readToDelim
  have h2 := fwd_readToFlushParse
  have h3 := fwd_backendBatch cfg
  refine .bind h1 fun _ => .bind (.ofRes _) fun _ => .bind h2 fun _ => ?_
  split <;> (try split) <;> simp only [] <;>
    first
    | exact .bind (.ofRes _) fun _ => h3 _
    | exact .bind (.pure _) fun _ => .bind (.ofRes _) fun _ => h3 _
    | exact .bind (.throw _) fun _ => .bind (.ofRes _) fun _ => h3 _

theorem fwd_batchCmd (cfg : Cfg) (p m : Bytes) : (batchCmd cfg p m).Fwd := by
  unfold batchCmd
  exact .bind (fwd_readBatch _) fun _ => .pure _

theorem fwd_verifyObject (cfg : Cfg) (oid : Bytes) : (verifyObject cfg oid).Fwd := by
  unfold verifyObject backendVerify
  refine .bind fwd_readToFlush fun _ => .bind (.ofRes _) fun _ => .bind (fwd_oidNew _) fun _ =>
    .bind (.ofRes _) fun _ => ?_
  fwd_ops

theorem fwd_getObject (cfg : Cfg) (oid : Bytes) : (getObject cfg oid).Fwd := by
  unfold getObject backendDownload
  refine .bind fwd_readToFlush fun _ => .bind (.ofRes _) fun _ => .bind (fwd_oidNew _) fun _ => ?_
  fwd_ops

theorem fwd_timestamp (cfg : Cfg) : (timestamp cfg).Fwd := by unfold timestamp; fwd_ops
theorem fwd_userForFile (cfg : Cfg) (p : FPath) : (userForFile cfg p).Fwd := by
  unfold userForFile; fwd_ops
theorem fwd_lockCreate (cfg : Cfg) (p : Bytes) : (lockCreate cfg p).Fwd := by
  unfold lockCreate lockWrite lockPersist
  have h1 := fwd_timestamp cfg
  have h2 := fwd_userForFile cfg (.exact (lockPath cfg p))
  have h3 := fwd_dropFile (lockTemp cfg p)
  fwd_ops
theorem fwd_lockFromId (cfg : Cfg) (id : Bytes) : (lockFromId cfg id).Fwd := by
  unfold lockFromId
  have h2 := fwd_userForFile cfg (.join (locksDir cfg.root) id)
  fwd_ops
theorem fwd_lockFromPath (cfg : Cfg) (p : Bytes) : (lockFromPath cfg p).Fwd := by
  unfold lockFromPath
  have := fwd_lockFromId cfg (lockId cfg p)
  fwd_ops
theorem fwd_fmtTimestamp (cfg : Cfg) (l : LockInfo) : (fmtTimestamp cfg l).Fwd := by
  unfold fmtTimestamp; fwd_ops
theorem fwd_lockArgs (cfg : Cfg) (l : LockInfo) : (lockArgs cfg l).Fwd := by
  unfold lockArgs
  exact .bind (fwd_fmtTimestamp _ _) fun _ => .pure _
theorem fwd_lockSpec (cfg : Cfg) (o : Bool) (l : LockInfo) : (lockSpec cfg o l).Fwd := by
  unfold lockSpec
  refine .bind (fwd_fmtTimestamp _ _) fun _ => ?_
  simp only []
  fwd_ops
theorem fwd_lockCmd (cfg : Cfg) : (lockCmd cfg).Fwd := by
  unfold lockCmd lockLoop
  have h1 := fwd_readToFlushParse
  have h2 := fwd_lockCreate cfg
  have h3 := fwd_lockFromPath cfg
  have h4 := fwd_lockArgs cfg
  repeat first
    | exact h2 _
    | exact h3 _
    | exact h4 _
    | fwd_op
theorem fwd_listLocksForPath (cfg : Cfg) (p : Bytes) (c : Option Bytes) (o : Bool) :
    (listLocksForPath cfg p c o).Fwd := by
  unfold listLocksForPath
  refine .bind (fwd_lockFromPath _ _) fun x => ?_
  cases x with
  | none => exact .pure _
  | some l =>
    simp only []
    have := fwd_lockSpec cfg o l
    repeat' (first | split | exact .pure _ | exact .bind this fun _ => .pure _)
theorem fwd_collectLocks (cfg : Cfg) (c : Option Bytes) : ∀ ns sk k, (collectLocks cfg c sk k ns).Fwd
  | _, _, 0 => by cases ‹List Bytes› <;> exact .pure _
  | [], _, _ + 1 => .pure _
  | n :: ns, sk, k + 1 => by
    unfold collectLocks
    have h1 := fwd_lockFromId cfg (utf8Lossy n)
    refine .bind (.attempt h1) fun x => ?_
    have a := fwd_collectLocks cfg c ns true (k + 1)
    have b := fwd_collectLocks cfg c ns false k
    have d := fwd_collectLocks cfg c ns sk (k + 1)
    split
    · simp only []
      generalize (sk && _) = q
      cases q
      · exact .bind b fun _ => .pure _
      · exact a
    · exact d
theorem fwd_lockSpecs (cfg : Cfg) (o : Bool) : ∀ ls, (lockSpecs cfg o ls).Fwd
  | [] => .pure _
  | l :: ls => by
    unfold lockSpecs
    exact .bind (fwd_lockSpec _ _ _) fun _ => .bind (fwd_lockSpecs cfg o ls) fun _ => .pure _
theorem fwd_listLocks (cfg : Cfg) (o : Bool) : (listLocks cfg o).Fwd := by
  unfold listLocks iterLocks
  refine .bind fwd_readToFlushParse fun _ => .bind (.ofRes _) fun _ => .bind (.ofRes _) fun _ => ?_
  simp only []
  split
  · exact fwd_listLocksForPath _ _ _ _
  · refine .bind (.bind (.op _) fun _ => .bind (.ofIo _) fun _ => fwd_collectLocks _ _ _ _ _) fun _ =>
      .bind (fwd_lockSpecs _ _ _) fun _ => .pure _
theorem fwd_unlockCmd (cfg : Cfg) (id : Bytes) : (unlockCmd cfg id).Fwd := by
  unfold unlockCmd lockUnlock
  have h1 := fwd_readToFlush
  have h2 := fwd_lockFromId cfg id
  have h4 := fwd_lockArgs cfg
  repeat first
    | exact h4 _
    | fwd_op
theorem fwd_versionCmd : versionCmd.Fwd := by
  unfold versionCmd
  exact .bind fwd_readToFlush fun _ => .pure _

theorem fwd_dispatch (cfg : Cfg) (mode : Mode) (cmd : Bytes) (arg : Option Bytes) :
    (dispatch cfg mode cmd arg).Fwd := by
  unfold dispatch
  repeat' first
    | split
    | exact fwd_versionCmd
    | exact fwd_batchCmd _ _ _
    | exact fwd_putObject _ _
    | exact fwd_verifyObject _ _
    | exact fwd_getObject _ _
    | exact fwd_unlockCmd _ _
    | exact fwd_lockCmd _
    | exact fwd_listLocks _ _
    | exact .pure _

end Verif
