import Verif.Lemmas.Shared
/-! Running code among other processes, without I/O errors of its own. -/
namespace Verif
open Spec

/-- An execution from the point of view of one process. -/
structure View (root : Path) (sha : Bytes → Bytes) where
  ρ : Execution
  i : Nat
  ow : Nat → Nat → Own
  next : Nat → Nat
  env : Env ρ i root sha ow
  isNext : IsNext ρ i next

variable {root : Path} {sha : Bytes → Bytes}

abbrev View.L (V : View root sha) : Logic Gh := Logic.among V.ρ V.i V.ow V.next
abbrev View.fs (V : View root sha) (n : Nat) : FS := (V.ρ.st n).fs

abbrev M.amid {α : Type} (V : View root sha) (m : M α) (r : Rdr) (g : Gh)
    (Q : Res α → Rdr → Gh → Prop) : Prop := m.wp V.L r g Q

/-- Between `a` and `b` the process prints `w` and leaves the objects and the locks alone. -/
structure View.Span (V : View root sha) (a b : Nat) (w : Bytes) : Prop where
  le : a ≤ b
  out : V.ρ.out V.i a b = w
  leaves : V.ρ.Leaves root V.i a b none
  locks : V.ρ.LeavesLocks root V.i a b none

theorem out_append (ρ : Execution) (i : Nat) {a b c : Nat} (h1 : a ≤ b) (h2 : b ≤ c) :
    ρ.out i a c = ρ.out i a b ++ ρ.out i b c := by
  unfold Execution.out
  rw [← List.flatMap_append]
  congr 1
  have := List.range'_append (s := a) (m := b - a) (n := c - b) (step := 1)
  rw [show a + 1 * (b - a) = b by omega, show b - a + (c - b) = c - a by omega] at this
  exact this.symm

theorem out_self (ρ : Execution) (i a : Nat) : ρ.out i a a = [] := by simp [Execution.out]
theorem out_succ (ρ : Execution) (i a : Nat) : ρ.out i a (a + 1) = ρ.printed i a := by
  simp [Execution.out]

theorem printed_idle {ρ : Execution} {i n : Nat} (h : ¬ ρ.By i n) : ρ.printed i n = [] := by
  unfold Execution.printed
  split
  · rename_i j b x e
    rw [if_neg]
    rintro rfl
    exact h ⟨_, e⟩
  · rfl

theorem out_idle {ρ : Execution} {i a n : Nat} (h : ρ.Until i a n) : ρ.out i a n = [] := by
  unfold Execution.out
  rw [List.flatMap_eq_nil_iff]
  intro k hk
  rw [List.mem_range'_1] at hk
  exact printed_idle (h.idle k hk.1 (by omega))

theorem Spec.Execution.Leaves.weaken {ρ : Execution} {i a b : Nat} {e : Option Nat} (h : ρ.Leaves root i a b none) :
    ρ.Leaves root i a b e := fun n h1 h2 _ h3 => h n h1 h2 (by simp) h3

theorem Spec.Execution.Leaves.trans {ρ : Execution} {i a b c : Nat} {e : Option Nat} (h : ρ.Leaves root i a b e)
    (h' : ρ.Leaves root i b c e) : ρ.Leaves root i a c e := fun n h1 h2 he h3 => by
  by_cases hb : n < b
  · exact h n h1 hb he h3
  · exact h' n (by omega) h2 he h3

theorem Spec.Execution.Until.leaves {ρ : Execution} {i a n : Nat} (h : ρ.Until i a n) : ρ.Leaves root i a n none :=
  fun k h1 h2 _ h3 => absurd h3 (h.idle k h1 h2)

theorem Spec.Execution.LeavesLocks.weaken {ρ : Execution} {i a b : Nat} {e : Option (Nat × Bytes)}
    (h : ρ.LeavesLocks root i a b none) : ρ.LeavesLocks root i a b e :=
  fun n h1 h2 h3 id h4 _ => h n h1 h2 h3 id h4 (by simp)

theorem Spec.Execution.LeavesLocks.trans {ρ : Execution} {i a b c : Nat} {e : Option (Nat × Bytes)}
    (h : ρ.LeavesLocks root i a b e) (h' : ρ.LeavesLocks root i b c e) : ρ.LeavesLocks root i a c e :=
  fun n h1 h2 => by
    by_cases hb : n < b
    · exact h n h1 hb
    · exact h' n (by omega) h2

theorem Spec.Execution.Until.leavesLocks {ρ : Execution} {i a n : Nat} (h : ρ.Until i a n) :
    ρ.LeavesLocks root i a n none := fun k h1 h2 h3 => absurd h3 (h.idle k h1 h2)

variable {V : View root sha}

theorem View.Span.refl (a : Nat) : V.Span a a [] :=
  ⟨Nat.le_refl _, out_self _ _ _, fun n h1 h2 => by omega, fun n h1 h2 => by omega⟩

theorem View.Span.trans {a b c : Nat} {v w : Bytes} (h1 : V.Span a b v) (h2 : V.Span b c w) :
    V.Span a c (v ++ w) :=
  ⟨Nat.le_trans h1.le h2.le, by rw [out_append _ _ h1.le h2.le, h1.out, h2.out], h1.leaves.trans h2.leaves,
    h1.locks.trans h2.locks⟩

theorem View.Span.trans0 {a b c : Nat} {w : Bytes} (h1 : V.Span a b []) (h2 : V.Span b c w) : V.Span a c w := by
  simpa using h1.trans h2

/-- The process, in state `g`, makes the call at moment `n`. -/
structure View.Call (V : View root sha) (g : Gh) (o : Op) (x : Resp o) (n : Nat) : Prop where
  unt : V.ρ.Until V.i g.now n
  own : V.ow (n + 1) V.i = g.own.upd o x
  made : MadeAt V.ρ V.i V.ow g.own n o x

theorem amid_op_bind {α : Type} {o : Op} {f : Resp o → M α} {r : Rdr} {g : Gh} {Q}
    (k : ∀ x n, V.Call g o x n → (f x).amid V r ⟨n + 1, g.own.upd o x⟩ Q) : (M.op o >>= f).amid V r g Q := by
  unfold M.amid
  rw [M.wp_bind, M.wp_op]
  exact ⟨trivial, fun x hx => k x _ ⟨hx.1, hx.2.1, hx.2.2⟩⟩

theorem amid_op {o : Op} {r : Rdr} {g : Gh} {Q : Res (Resp o) → Rdr → Gh → Prop}
    (k : ∀ x n, V.Call g o x n → Q (.ok x) r ⟨n + 1, g.own.upd o x⟩) : (M.op o).amid V r g Q := by
  unfold M.amid
  rw [M.wp_op]
  exact ⟨trivial, fun x hx => k x _ ⟨hx.1, hx.2.1, hx.2.2⟩⟩

theorem amid_bind {α β : Type} {m : M α} {f : α → M β} {r : Rdr} {g : Gh} {Q} {P : Res α → Rdr → Gh → Prop}
    (h : m.amid V r g P) (k : ∀ x r' g', P x r' g' → x.elim (fun a => (f a).amid V r' g' Q)
      (fun e => Q (.err e) r' g') (Q .panic r' g')) : (m >>= f).amid V r g Q := by
  unfold M.amid
  rw [M.wp_bind]
  exact M.wp_mono h k

theorem amid_mono {α : Type} {m : M α} {r : Rdr} {g : Gh} {Q Q' : Res α → Rdr → Gh → Prop}
    (h : m.amid V r g Q) (hq : ∀ a r s, Q a r s → Q' a r s) : m.amid V r g Q' := M.wp_mono h hq

theorem amid_rdr_bind {α β : Type} {h : Rdr → Res α × Rdr} {f : α → M β} {r r' : Rdr} {g : Gh} {Q} {a : α}
    (e : h r = (.ok a, r')) (k : (f a).amid V r' g Q) : (M.rdr h >>= f).amid V r g Q := by
  unfold M.amid
  rw [M.wp_bind, M.wp_rdr, e]
  exact k

theorem amid_ofRes_bind {α β : Type} {x : Res α} {f : α → M β} {r : Rdr} {g : Gh} {Q} {a : α}
    (h : x = .ok a) (k : (f a).amid V r g Q) : (M.ofRes x >>= f).amid V r g Q := by
  subst h; exact k

theorem amid_ofIo_bind {α β : Type} {f : α → M β} {r : Rdr} {g : Gh} {Q} {a : α}
    (k : (f a).amid V r g Q) : (M.ofIo (.ok a) >>= f).amid V r g Q := k

theorem amid_pure_bind {α β : Type} {f : α → M β} {r : Rdr} {g : Gh} {Q} {a : α}
    (k : (f a).amid V r g Q) : ((Pure.pure a : M α) >>= f).amid V r g Q := k

/-! ### Calls -/

theorem MadeAt.by {ρ : Execution} {i : Nat} {ow : Nat → Nat → Own} {s : Own} {n : Nat} {o : Op} {x : Resp o}
    (h : MadeAt ρ i ow s n o x) : ρ.By i n := by
  cases o <;> first | exact ⟨_, h.1⟩ | exact ⟨_, h.choose_spec⟩

/-- Not a write. -/
def Op.whole : Op → Bool
  | .write _ _ => false
  | _ => true

theorem MadeAt.lab {ρ : Execution} {i : Nat} {ow : Nat → Nat → Own} {s : Own} {n : Nat} {o : Op} {x : Resp o}
    (h : MadeAt ρ i ow s n o x) (hw : o.whole = true) : ρ.lab n = some (i, ⟨o, x⟩) ∧ ow n i = s := by
  cases o <;> first | exact h | cases hw

theorem View.Call.sem {g : Gh} {o : Op} {x : Resp o} {n : Nat} (h : V.Call g o x n) (hw : o.whole = true) :
    ∃ c : Choice, c.fault = none ∧ Verif.sem c (V.fs n) o = (V.fs (n + 1), x) :=
  V.env.calm (n + 1) n ⟨o, x⟩ (Nat.lt_succ_self n) (h.made.lab hw).1

theorem View.Call.write_ok {g : Gh} {ino : Ino} {b : Bytes} {x : Resp (.write ino b)} {n : Nat}
    (h : V.Call g (.write ino b) x n) : x = .ok () := by
  obtain ⟨b', hl⟩ := h.made
  obtain ⟨c, hc, hs⟩ := V.env.calm (n + 1) n _ (Nat.lt_succ_self n) hl
  simp only [Verif.sem, hc] at hs
  exact (congrArg Prod.snd hs).symm

/-- What a call prints. -/
def Op.prints : Op → Bytes
  | .out b => b
  | _ => []

/-- Not a rename. -/
def Op.keeps : Op → Bool
  | .rename _ _ => false
  | _ => true

theorem View.Call.printed {g : Gh} {o : Op} {x : Resp o} {n : Nat} (h : V.Call g o x n) :
    V.ρ.out V.i g.now (n + 1) = o.prints := by
  rw [out_append _ _ h.unt.le (Nat.le_succ n), out_idle h.unt, out_succ, List.nil_append]
  have hm := h.made
  unfold Execution.printed
  cases o <;> first
    | (rw [hm.1]; rfl)
    | (obtain ⟨b', hl⟩ := hm; rw [hl]; rfl)
    | (rw [hm.1]; simp [Op.prints])

theorem View.Call.leaves {g : Gh} {o : Op} {x : Resp o} {n : Nat} (h : V.Call g o x n) :
    V.ρ.Leaves root V.i g.now (n + 1) (some n) := by
  refine h.unt.leaves.weaken.trans fun k h1 h2 hne _ => ?_
  exact absurd (by rw [show k = n by omega]) hne

/-- The call is allowed, and does what it says. -/
theorem View.Call.may {g : Gh} {o : Op} {x : Resp o} {n : Nat} (h : V.Call g o x n) (hw : o.whole = true) :
    ∃ (cfg : Cfg) (c : Choice), cfg.root = root ∧ cfg.sha = sha ∧ (V.ow n V.i).may cfg o ∧
      Verif.sem c (V.fs n) o = (V.fs (n + 1), x) := by
  have hl := (h.made.lab hw).1
  have hm := V.env.move n
  rw [hl] at hm
  rcases hm with hm | ⟨_, _, hm⟩
  · generalize hs' : V.ρ.st (n + 1) = s' at hm
    generalize hw' : V.ow (n + 1) = ow' at hm
    cases hm with
    | call cfg i o k c hp h1 h2 hm => exact ⟨cfg, c, h1, h2, hm, by simp only [View.fs, hs']⟩
  · cases hm

theorem View.Call.leavesLocks {g : Gh} {o : Op} {x : Resp o} {n : Nat} (h : V.Call g o x n)
    {e : Option (Nat × Bytes)}
    (hl : ∀ id, IsOid id → e ≠ some (n, id) → V.ρ.lockAt root (n + 1) id = V.ρ.lockAt root n id) :
    V.ρ.LeavesLocks root V.i g.now (n + 1) e := by
  refine h.unt.leavesLocks.weaken.trans fun k h1 h2 _ id hid hne => ?_
  obtain rfl : k = n := by omega
  exact hl id hid hne

/-- No name of a lock changes, nor the content of the file. -/
theorem View.lockAt_eq {n : Nat} {id : Bytes}
    (h1 : (V.fs (n + 1)).get (lockFile root id) = (V.fs n).get (lockFile root id))
    (h2 : ∀ j, (V.fs n).get (lockFile root id) = some j → ((V.fs (n + 1)).inodes j).data = ((V.fs n).inodes j).data) :
    V.ρ.lockAt root (n + 1) id = V.ρ.lockAt root n id :=
  held_eq h1 fun j hj => ⟨h2 j hj, (V.env.uids n j ((V.env.inv n).bound _ _ hj)
    ((V.env.inv n).home _ _ (near_lockFile root id) hj)).1⟩

/-- Calls that change neither objects nor locks. -/
def Op.tame (o : Op) : Bool := o.keeps && o.mild

theorem View.Call.mild {g : Gh} {o : Op} {x : Resp o} {n : Nat} (h : V.Call g o x n) (ho : o.mild = true) (id : Bytes) :
    (V.fs (n + 1)).get (lockFile root id) = (V.fs n).get (lockFile root id) ∧
    V.ρ.lockAt root (n + 1) id = V.ρ.lockAt root n id := by
  have hw : o.whole = true := by cases o <;> first | rfl | exact absurd ho Bool.false_ne_true
  obtain ⟨cfg, c, rfl, h2, hm, hs⟩ := h.may hw
  have h1 := sem_mild (V.env.inv n) c hm ho id
  rw [hs] at h1
  refine ⟨h1, View.lockAt_eq h1 fun j hj => ?_⟩
  have := sem_data c (V.fs n) o j ((V.env.inv n).bound _ _ hj) (by
    intro b e; subst e; exact absurd hw Bool.false_ne_true)
  rw [hs] at this
  exact this

theorem View.Call.leaves_keeps {g : Gh} {o : Op} {x : Resp o} {n : Nat} (h : V.Call g o x n) (hk : o.keeps = true) :
    V.ρ.Leaves root V.i g.now (n + 1) none := by
  refine h.unt.leaves.trans fun k h1 h2 _ _ oid _ => ?_
  obtain rfl : k = n := by omega
  unfold Execution.objectsAt
  rw [objectFile_eq]
  rcases V.env.objs k oid with e | ⟨j, src, c, hl, _⟩
  · exact e
  · exfalso
    have hm := h.made
    have key : ∀ {o' : Op} {y : Resp o'}, V.ρ.lab k = some (V.i, ⟨o', y⟩) → o' = .rename src (objPath root oid) := by
      intro o' y hy
      rw [hy] at hl
      exact congrArg (fun q : Nat × Event => q.2.1) (Option.some.inj hl)
    cases o <;> first
      | exact Bool.false_ne_true hk
      | (have := key hm.1; cases this)
      | (obtain ⟨b', hl'⟩ := hm; have := key hl'; cases this)

theorem View.Call.span_of {g : Gh} {o : Op} {x : Resp o} {n : Nat} (h : V.Call g o x n) (hk : o.keeps = true)
    (hl : ∀ id, IsOid id → V.ρ.lockAt root (n + 1) id = V.ρ.lockAt root n id) :
    V.Span g.now (n + 1) o.prints :=
  ⟨Nat.le_succ_of_le h.unt.le, h.printed, h.leaves_keeps hk, h.leavesLocks fun id hid _ => hl id hid⟩

theorem View.Call.span {g : Gh} {o : Op} {x : Resp o} {n : Nat} (h : V.Call g o x n) (hk : o.tame = true) :
    V.Span g.now (n + 1) o.prints := by
  simp only [Op.tame, Bool.and_eq_true] at hk
  exact h.span_of hk.1 fun id _ => (h.mild hk.2 id).2

/-! ### Output -/

/-- `m` only writes `b`. -/
def M.Says (m : M Unit) (b : Bytes) : Prop :=
  ∀ ⦃root : Path⦄ ⦃sha : Bytes → Bytes⦄ (V : View root sha) r g, m.amid V r g (fun x r' g' => x = .ok () ∧ r' = r ∧
    g'.own = g.own ∧ V.Span g.now g'.now b)

theorem M.Says.pure : M.Says (Pure.pure ()) [] := fun _ _ _ _ _ => ⟨rfl, rfl, rfl, .refl _⟩

theorem M.Says.bind {m n : M Unit} {b c : Bytes} (h1 : m.Says b) (h2 : n.Says c) :
    M.Says (m >>= fun _ => n) (b ++ c) := by
  intro _ _ V r g
  refine amid_bind (h1 V r g) ?_
  rintro x r' g' ⟨rfl, rfl, h3, h4⟩
  simp only [Res.elim_ok]
  refine amid_mono (h2 V _ _) ?_
  rintro x r s ⟨h, h', h'', h'''⟩
  exact ⟨h, h', h''.trans h3, h4.trans h'''⟩

theorem M.Says.cast {m : M Unit} {b c : Bytes} (h : m.Says b) (e : b = c) : m.Says c := e ▸ h

theorem says_outBytes (b : Bytes) : (outBytes b).Says b := by
  intro _ _ V r g
  unfold outBytes
  refine amid_op_bind fun x n h => ?_
  obtain ⟨c, hc, hs⟩ := h.sem rfl
  simp only [sem, hc] at hs
  have hx := congrArg Prod.snd hs
  subst hx
  exact ⟨rfl, rfl, Own.upd_of_quiet _ rfl, h.span rfl⟩

theorem says_flush : (M.op .flush >>= fun r => M.ofIo r).Says [] := by
  intro _ _ V r g
  refine amid_op_bind fun x n h => ?_
  obtain ⟨c, hc, hs⟩ := h.sem rfl
  simp only [sem, hc] at hs
  have hx := congrArg Prod.snd hs
  subst hx
  exact ⟨rfl, rfl, Own.upd_of_quiet _ rfl, h.span rfl⟩

theorem says_writeOne (b : Bytes) : (writeOne b).Says (encData b) :=
  M.Says.bind (says_outBytes _) (says_outBytes _)

theorem says_writeChunks : ∀ cs, (writeChunks cs).Says ((cs.map encData).flatten)
  | [] => M.Says.pure
  | c :: cs => by
    rw [List.map_cons, List.flatten_cons]
    exact M.Says.bind (says_writeOne c) (says_writeChunks cs)

theorem says_send (m : Bytes) : (send m).Says (encMsg m) := says_writeChunks _

theorem says_sendAll : ∀ ms, (sendAll ms).Says (encMsgs ms)
  | [] => M.Says.pure
  | m :: ms => by
    have e : encMsgs (m :: ms) = encMsg m ++ encMsgs ms := by simp [encMsgs]
    rw [e]
    exact M.Says.bind (says_send m) (says_sendAll ms)

theorem says_sendFlush : sendFlush.Says b!"0000" :=
  M.Says.cast (M.Says.bind (says_outBytes b!"0000") says_flush) (by simp)

theorem says_sendDelim : sendDelim.Says b!"0001" := says_outBytes _

theorem says_sendCapabilities : sendCapabilities.Says (encMsg b!"version=1\n" ++ b!"0000") :=
  .bind (says_send _) says_sendFlush

theorem says_sendStatus (st : Status) (h : st.messages.isSome ∨ st.reader = none) :
    (sendStatus st).Says (replyWith st st.messages) := by
  obtain ⟨code, args, ms, rd⟩ := st
  have h1 := says_send (b!"status " ++ dec3 code ++ b!"\n")
  have h0 := says_sendFlush
  have hd := says_sendDelim
  cases ms with
  | some ms =>
    cases args with
    | none =>
      have := h1.bind (hd.bind ((says_sendAll ms).bind h0))
      refine M.Says.cast this ?_
      simp [replyWith, replyHead, encMsgs]
    | some as =>
      have := h1.bind ((says_sendAll as).bind (hd.bind ((says_sendAll ms).bind h0)))
      refine M.Says.cast this ?_
      simp [replyWith, replyHead]
  | none =>
    simp at h
    subst h
    cases args with
    | none =>
      have := h1.bind h0
      refine M.Says.cast this ?_
      simp [replyWith, replyHead, encMsgs]
    | some as =>
      have := h1.bind ((says_sendAll as).bind h0)
      refine M.Says.cast this ?_
      simp [replyWith, replyHead]

/-- Inode `j` holds `d` and is never written again. -/
def View.Fixed (V : View root sha) (n : Nat) (j : Ino) (d : Bytes) : Prop :=
  Sealed root (V.fs n) (V.ow n) j ∧ ((V.fs n).inodes j).data = d

theorem View.Fixed.later {a b : Nat} {j : Ino} {d : Bytes} (h : V.Fixed a j d) (hab : a ≤ b) : V.Fixed b j d := by
  obtain ⟨h1, h2⟩ := V.env.seal_le hab h.1
  exact ⟨h1, h2.trans h.2⟩

/-- Sending a file: some chunks that make up its content. -/
theorem amid_sendStatus_reader {st : Status} {i : Ino} (hm : st.messages = none) (hr : st.reader = some (some i))
    {r : Rdr} {g : Gh} {d : Bytes} (hf : V.Fixed g.now i d) :
    (sendStatus st).amid V r g (fun x r' g' => x = .ok () ∧ r' = r ∧ g'.own = g.own ∧
      ∃ cs, cs.flatten = d ∧ V.Span g.now g'.now (replyWith st (some cs))) := by
  obtain ⟨code, args, ms, rd⟩ := st
  subst hm hr
  have h1 := says_send (b!"status " ++ dec3 code ++ b!"\n")
  have body : ∀ r g, V.Fixed g.now i d → M.amid V (do sendDelim; copyOut (some i); sendFlush) r g
      (fun x r' g' => x = .ok () ∧ r' = r ∧ g'.own = g.own ∧ ∃ cs, cs.flatten = d ∧
        V.Span g.now g'.now (b!"0001" ++ encMsgs cs ++ b!"0000")) := by
    intro r g hf
    refine amid_bind (says_sendDelim V r g) ?_
    rintro x r' g' ⟨rfl, rfl, h2, h3⟩
    simp only [Res.elim_ok]
    refine amid_bind (P := fun x r'' g'' => x = .ok () ∧ r'' = r' ∧ g''.own = g.own ∧
      ∃ cs, cs.flatten = d ∧ V.Span g'.now g''.now (encMsgs cs)) ?_ ?_
    · unfold copyOut
      refine amid_op_bind fun x n h => ?_
      obtain ⟨c, hc, hs⟩ := h.sem rfl
      simp only [sem, hc] at hs
      have hx := congrArg Prod.snd hs
      subst hx
      have hfix := hf.later (Nat.le_trans h3.le h.unt.le)
      refine amid_bind (says_sendAll _ V _ _) ?_
      rintro x r2 g3 ⟨rfl, rfl, h4, h5⟩
      refine ⟨rfl, rfl, h4.trans (by rw [Own.upd_of_quiet _ rfl]; exact h2), _, ?_, (h.span rfl).trans0 h5⟩
      rw [cutChunks_flatten, hfix.2]
    · rintro x r2 g2 ⟨rfl, rfl, h4, cs, h5, h6⟩
      simp only [Res.elim_ok]
      refine amid_mono (says_sendFlush V _ _) ?_
      rintro x r3 g3 ⟨rfl, rfl, h7, h8⟩
      exact ⟨rfl, rfl, h7.trans h4, cs, h5, (h3.trans h6).trans h8⟩
  have fin : ∀ (b : Bytes) (as : List Bytes) (r : Rdr) (g g1 : Gh), V.Fixed g.now i d → g1.own = g.own →
      V.Span g.now g1.now b → replyHead ⟨code, some as, none, some (some i)⟩ = b →
      M.amid V (do sendDelim; copyOut (some i); sendFlush) r g1 (fun x r' g' => x = .ok () ∧ r' = r ∧
        g'.own = g.own ∧ ∃ cs, cs.flatten = d ∧
          V.Span g.now g'.now (replyWith ⟨code, some as, none, some (some i)⟩ (some cs))) := by
    intro b as r g g1 hf e1 e2 e3
    refine amid_mono (body r g1 (hf.later e2.le)) ?_
    rintro x r' g' ⟨h, h', h3, cs, h4, h5⟩
    refine ⟨h, h', h3.trans e1, cs, h4, ?_⟩
    have := e2.trans h5
    rw [replyWith, e3]
    simpa using this
  cases args with
  | none =>
    show M.amid V (send _ >>= fun _ => do sendDelim; copyOut (some i); sendFlush) r g _
    refine amid_bind (h1 V r g) ?_
    rintro x r' g' ⟨rfl, rfl, h2, h3⟩
    simp only [Res.elim_ok]
    refine amid_mono (fin _ [] _ g g' hf h2 h3 (by simp [replyHead, encMsgs])) ?_
    rintro x r2 g2 ⟨h, h', h4, cs, h5, h6⟩
    exact ⟨h, h', h4, cs, h5, by simpa [replyWith, replyHead, encMsgs] using h6⟩
  | some as =>
    show M.amid V (send _ >>= fun _ => sendAll as >>= fun _ => do sendDelim; copyOut (some i); sendFlush) r g _
    refine amid_bind (h1 V r g) ?_
    rintro x r' g' ⟨rfl, rfl, h2, h3⟩
    simp only [Res.elim_ok]
    refine amid_bind (says_sendAll as V _ _) ?_
    rintro x r2 g2 ⟨rfl, rfl, h4, h5⟩
    exact fin _ as _ g g2 hf (h4.trans h2) (h3.trans h5) (by simp [replyHead])

/-- `st` is the status for answer `a`, at moment `n`. -/
def View.StatusFor (V : View root sha) (st : Status) (a : Answer) (n : Nat) : Prop :=
  Means st a ∧ match a.body with
    | .none => st.messages = none ∧ st.reader = none
    | .lines ls => st.messages = some ls ∧ ∀ l ∈ ls, l ≠ []
    | .raw d => st.messages = none ∧ ∃ i, st.reader = some (some i) ∧ V.Fixed n i d

theorem amid_status {st : Status} {a : Answer} {r : Rdr} {g : Gh} (h : V.StatusFor st a g.now) :
    (sendStatus st).amid V r g (fun x r' g' => x = .ok () ∧ r' = r ∧ g'.own = g.own ∧
      ∃ b, V.Span g.now g'.now b ∧ Sends a b) := by
  obtain ⟨h1, h2⟩ := h
  cases hb : a.body with
  | none =>
    rw [hb] at h2
    refine amid_mono (says_sendStatus st (.inr h2.2) V r g) ?_
    rintro x r' g' ⟨e1, e2, e3, e4⟩
    exact ⟨e1, e2, e3, _, e4, sends_replyWith h1 (by rw [hb, h2.1]; rfl)⟩
  | lines ls =>
    rw [hb] at h2
    refine amid_mono (says_sendStatus st (.inl (by simp [h2.1])) V r g) ?_
    rintro x r' g' ⟨e1, e2, e3, e4⟩
    exact ⟨e1, e2, e3, _, e4, sends_replyWith h1 (by rw [hb, h2.1]; exact ⟨_, rfl, linesPackets_msgChunks _ h2.2⟩)⟩
  | raw d =>
    rw [hb] at h2
    obtain ⟨h3, i, h4, h5⟩ := h2
    refine amid_mono (amid_sendStatus_reader h3 h4 h5) ?_
    rintro x r' g' ⟨e1, e2, e3, cs, e4, e5⟩
    refine ⟨e1, e2, e3, _, e5, sends_replyWith h1 ?_⟩
    rw [hb]
    exact ⟨_, rfl, by rw [msgChunks_flatten, e4]⟩

end Verif
