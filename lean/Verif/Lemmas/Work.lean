import Verif.Lemmas.Fuel
import Verif.Spec.Work
/-!
Paying for calls: credit is spent on calls, and gained by reading input and by seeing names of files.
-/
namespace Verif

open Spec

/-- What calls cost. -/
structure Price where
  w : Op → Nat
  /-- The most any call but a write costs. -/
  a : Nat
  /-- What the clock may show. -/
  time : Int → Prop
  a_le : a ≤ 1
  call : ∀ o, (∀ i d, o ≠ .write i d) → w o ≤ a
  out : ∀ b, w (.out b) = 0
  flush : w .flush = 0
  write : ∀ i d, d ≠ [] → w (.write i d) ≤ d.length
  /-- The calls of a `lock` request are paid with its packets. -/
  lock : ∀ i t path, time t → 9 * a + w (.write i (lockRecord t path)) ≤ 31 + path.length

/-- The ghost state is the credit. -/
def Logic.pay (P : Price) : Logic Nat where
  pre s o := P.w o ≤ s
  upd s o x := s - P.w o + 3 * P.a * Event.names ⟨o, x⟩
  legal _ o x := match o, x with
    | .now, t => P.time t
    | _, _ => True

/-- The price of all calls together. -/
def paid (P : Price) (tr : List Event) : Nat := (tr.map fun e => P.w e.1).sum

variable {P : Price}

theorem pay_fold : ∀ {s : Nat} {tr : List Event}, (Logic.pay P).PreTr s tr →
    (Logic.pay P).fold s tr + paid P tr = s + 3 * P.a * listed tr
  | s, [], _ => rfl
  | s, e :: tr, h => by
    have ih := pay_fold h.2
    have hp : P.w e.1 ≤ s := h.1
    simp only [Logic.fold, paid, listed, List.map_cons, List.sum_cons, Nat.mul_add] at ih ⊢
    simp only [Logic.pay, show (⟨e.1, e.2⟩ : Event) = e from rfl] at ih ⊢
    omega

theorem pay_preTr {s : Nat} {tr : List Event} (h : (Logic.pay P).PreTr s tr) : paid P tr ≤ s + 3 * P.a * listed tr := by
  have := pay_fold h
  omega

/-- What remains of the credit. -/
def Res.rest {α : Type} (p : α → Nat) (q : Nat) : Res α → Nat
  | .ok a => p a
  | .err _ => q
  | .panic => q

/-- `m` can be paid with `c` and the bytes it reads; of this, `p` remains when it succeeds and `q` when it does not. -/
def M.Pays {α : Type} (P : Price) (m : M α) (c : Nat) (p : α → Nat) (q : Nat) : Prop :=
  ∀ a r s, c + a + r.left ≤ s → m.wp (Logic.pay P) r s (fun x r' s' => x.rest p q + a + r'.left ≤ s')

namespace M.Pays
variable {α β : Type} {c c' q q' : Nat} {p p' : α → Nat}

theorem mono {m : M α} (h : m.Pays P c p q) (hc : c ≤ c') (hp : ∀ a, p' a ≤ p a) (hq : q' ≤ q) : m.Pays P c' p' q' := by
  intro a r s hs
  refine M.wp_mono (h a r s (by omega)) ?_
  intro x r' s' h
  have : x.rest p' q' ≤ x.rest p q := by cases x <;> simp [Res.rest, hp, hq]
  omega

/-- Credit not needed remains. -/
theorem frame {m : M α} (h : m.Pays P c p q) (k : Nat) : m.Pays P (c + k) (fun a => p a + k) (q + k) := by
  intro a r s hs
  refine M.wp_mono (h (k + a) r s (by omega)) ?_
  intro x r' s' h
  have : x.rest (fun a => p a + k) (q + k) = x.rest p q + k := by cases x <;> rfl
  omega

theorem pure (a : α) (h : p a ≤ c) : (Pure.pure a : M α).Pays P c p q := by
  intro k r s hs
  show p a + k + r.left ≤ s
  omega
theorem throw (e : Err) (h : q ≤ c) : (M.throw e : M α).Pays P c p q := by
  intro k r s hs
  show q + k + r.left ≤ s
  omega
theorem panic (h : q ≤ c) : (M.panic : M α).Pays P c p q := by
  intro k r s hs
  show q + k + r.left ≤ s
  omega
theorem ofRes (x : Res α) (h : x.rest p q ≤ c) : (M.ofRes x).Pays P c p q := by
  intro k r s hs
  show x.rest p q + k + r.left ≤ s
  omega

theorem bind {m : M α} {f : α → M β} {p'' : β → Nat} (h : m.Pays P c p q) (hf : ∀ a, (f a).Pays P (p a) p'' q) :
    (m >>= f).Pays P c p'' q := by
  intro k r s hs
  rw [M.wp_bind]
  refine M.wp_mono (h k r s hs) ?_
  rintro (a | e | _) r' s' h
  · exact hf a k r' s' h
  · exact h
  · exact h

theorem attempt {m : M α} (h : m.Pays P c p q) {p'' : Except Err α → Nat} (hp : ∀ a, p'' (.ok a) ≤ p a)
    (he : ∀ e, p'' (.error e) ≤ q) (hq : q' ≤ q) : (M.attempt m).Pays P c p'' q' := by
  intro k r s hs
  rw [M.wp_attempt]
  refine M.wp_mono (h k r s hs) ?_
  rintro (a | e | _) r' s' h
  · have := hp a; simp only [Res.rest, Res.elim] at *; omega
  · have := he e; simp only [Res.rest, Res.elim] at *; omega
  · simp only [Res.rest, Res.elim] at *; omega

theorem onFail {m : M α} {k : M Unit} (h : m.Pays P c p q) (hk : k.Pays P q (fun _ => q') q') :
    (M.onFail m k).Pays P c p q' := by
  intro a r s hs
  rw [M.wp_onFail]
  refine M.wp_mono (h a r s hs) ?_
  rintro (x | e | _) r' s' h
  · exact h
  all_goals
    simp only [Res.elim]
    refine M.wp_mono (hk a r' s' h) ?_
    intro x r'' s'' h
    have : x.rest (fun _ => q') q' = q' := by cases x <;> rfl
    simp only [Res.rest] at *
    omega

theorem after {m : M α} {k : M Unit} (h : m.Pays P c (fun _ => q) q) (hk : k.Pays P q (fun _ => q') q') :
    (M.after m k).Pays P c (fun _ => q') q' := by
  intro a r s hs
  rw [M.wp_after]
  refine M.wp_mono (h a r s hs) ?_
  intro x r' s' h
  have hx : x.rest (fun _ => q) q = q := by cases x <;> rfl
  refine M.wp_mono (hk a r' s' (by omega)) ?_
  intro y r'' s'' h
  have hy : y.rest (fun _ => q') q' = q' := by cases y <;> rfl
  have hx : x.rest (fun _ => q') q' = q' := by cases x <;> rfl
  omega

/-- A call costs at most one. -/
theorem call {o : Op} (ho : ∀ i d, o ≠ .write i d) (c q : Nat) : (M.op o).Pays P (c + P.a) (fun _ => c) q := by
  intro a r s hs
  rw [M.wp_op]
  have := P.call o ho
  refine ⟨show P.w o ≤ s by omega, fun x _ => ?_⟩
  simp only [Res.rest, Logic.pay]
  omega

theorem op (o : Op) (c q : Nat) (ho : ∀ i d, o ≠ .write i d := by intro _ _ h; cases h) :
    (M.op o).Pays P (c + 1) (fun _ => c) q :=
  (call ho c q).mono (by have := P.a_le; omega) (fun _ => Nat.le_refl _) (Nat.le_refl _)

theorem wrote (i : Ino) (d : Bytes) (c q k : Nat) (h : P.w (.write i d) ≤ k) :
    (M.op (.write i d)).Pays P (c + k) (fun _ => c) q := by
  intro a r s hs
  rw [M.wp_op]
  refine ⟨show P.w (.write i d) ≤ s by omega, fun x _ => ?_⟩
  simp only [Res.rest, Logic.pay]
  omega

/-- The clock shows a possible time. -/
theorem now {f : Int → M β} {p : β → Nat} (h : ∀ t, P.time t → (f t).Pays P c p q) :
    (M.op .now >>= f).Pays P (c + P.a) p q := by
  intro a r s hs
  rw [M.wp_bind, M.wp_op]
  have := P.call .now (fun _ _ h => by cases h)
  have := P.a_le
  refine ⟨show P.w .now ≤ s by omega, fun t ht => ?_⟩
  refine h t ht a r _ ?_
  simp only [Logic.pay]
  omega

theorem readDir (d : Path) (c q : Nat) :
    (M.op (.readDir d)).Pays P (c + P.a) (fun x => match x with
      | .ok ns => 3 * P.a * ns.length + c
      | .error _ => c) q := by
  intro a r s hs
  rw [M.wp_op]
  have := P.call (.readDir d) (fun _ _ h => by cases h)
  refine ⟨show P.w (.readDir d) ≤ s by omega, fun x _ => ?_⟩
  simp only [Res.rest, Logic.pay]
  cases x with
  | error e => simp only [Event.names]; omega
  | ok ns => simp only [Event.names]; omega

/-- Writing to the client costs nothing. -/
theorem out (o : Op) (h : P.w o = 0) (c q : Nat) : (M.op o).Pays P c (fun _ => c) q := by
  intro a r s hs
  rw [M.wp_op]
  refine ⟨show P.w o ≤ s by omega, fun y _ => ?_⟩
  simp only [Res.rest, Logic.pay, h]
  omega

theorem ofIo (x : Except IoErr α) (hq : q ≤ c) : (M.ofIo x).Pays P c (fun _ => c) q := by
  cases x with
  | ok a => exact pure a (Nat.le_refl c)
  | error e => exact throw _ hq

theorem reads {f : Rdr → Res α × Rdr} (h : ∀ r, (f r).1.rest p q + (f r).2.left ≤ c + r.left) : (M.rdr f).Pays P c p q := by
  intro a r s hs
  have := h r
  rw [M.wp_rdr]
  omega

end M.Pays

/-- `m` costs nothing. -/
def M.Free {α : Type} (P : Price) (m : M α) : Prop := m.Pays P 0 (fun _ => 0) 0

theorem M.Free.pays {α : Type} {m : M α} (h : m.Free P) {c q : Nat} (hq : q ≤ c) : m.Pays P c (fun _ => c) q := by
  refine (M.Pays.frame h c).mono (by omega) (fun _ => by omega) (by omega)

namespace M.Free
variable {α β : Type}
theorem pure (a : α) : (Pure.pure a : M α).Free P := M.Pays.pure a (Nat.le_refl _)
theorem throw (e : Err) : (M.throw e : M α).Free P := M.Pays.throw e (Nat.le_refl _)
theorem panic : (M.panic : M α).Free P := M.Pays.panic (Nat.le_refl _)
theorem ofRes (x : Res α) : (M.ofRes x).Free P := M.Pays.ofRes x (by cases x <;> exact Nat.le_refl _)
theorem ofIo (x : Except IoErr α) : (M.ofIo x).Free P := M.Pays.ofIo x (Nat.le_refl _)
theorem bind {m : M α} {f : α → M β} (h : m.Free P) (hf : ∀ a, (f a).Free P) : (m >>= f).Free P := M.Pays.bind h hf
theorem attempt {m : M α} (h : m.Free P) : (M.attempt m).Free P :=
  M.Pays.attempt h (fun _ => Nat.le_refl _) (fun _ => Nat.le_refl _) (Nat.le_refl _)
end M.Free

/-! ### Writing to the client -/

theorem free_outBytes (b : Bytes) : (outBytes b).Free P :=
  M.Free.bind (M.Pays.out (.out b) (P.out b) 0 0) fun x => M.Free.ofIo x
theorem free_writeOne (b : Bytes) : (writeOne b).Free P := (free_outBytes _).bind fun _ => free_outBytes _
theorem free_writeChunks : ∀ cs, (writeChunks cs).Free P
  | [] => .pure _
  | c :: cs => (free_writeOne c).bind fun _ => free_writeChunks cs
theorem free_send (m : Bytes) : (send m).Free P := free_writeChunks _
theorem free_sendFlush : sendFlush.Free P :=
  (free_outBytes _).bind fun _ => M.Free.bind (M.Pays.out .flush P.flush 0 0) fun x => M.Free.ofIo x
theorem free_sendDelim : sendDelim.Free P := free_outBytes _
theorem free_sendAll : ∀ ms, (sendAll ms).Free P
  | [] => .pure _
  | m :: ms => (free_send m).bind fun _ => free_sendAll ms
theorem free_sendError (c : Nat) (m : Bytes) : (sendError c m).Free P :=
  (free_send _).bind fun _ => free_sendDelim.bind fun _ => (free_send _).bind fun _ => free_sendFlush

/-- What sending a reply costs: reading the file it is made of. -/
def Status.cost (st : Status) : Nat := if st.reader.isSome then 1 else 0

theorem pays_copyOut (h : Option Ino) : (copyOut h).Pays P 1 (fun _ => 0) 0 := by
  unfold copyOut
  refine M.Pays.bind (M.Pays.op _ 0 0) fun x => ?_
  obtain ⟨cs, e⟩ := x
  refine M.Free.bind (free_sendAll cs) fun _ => ?_
  cases e with
  | none => exact .pure _
  | some e => exact .throw _

theorem pays_sendStatus (st : Status) : (sendStatus st).Pays P st.cost (fun _ => 0) 0 := by
  unfold sendStatus
  refine M.Pays.bind ((free_send _).pays (Nat.zero_le _)) fun _ => ?_
  have tail : M.Pays P (do
      match st.messages with
      | some ms => do
        sendDelim
        sendAll ms
      | none =>
        match st.reader with
        | some h => do
          sendDelim
          copyOut h
        | none => pure ()
      sendFlush) st.cost (fun _ => 0) 0 := by
    split
    · exact M.Pays.bind (free_sendDelim.pays (Nat.zero_le _)) fun _ =>
        M.Pays.bind ((free_sendAll _).pays (Nat.zero_le _)) fun _ => free_sendFlush.mono (Nat.zero_le _)
          (fun _ => Nat.le_refl _) (Nat.le_refl _)
    · split
      · rename_i h hr
        rw [show st.cost = 1 by simp [Status.cost, hr]]
        exact M.Pays.bind (free_sendDelim.pays (Nat.zero_le _)) fun _ =>
          M.Pays.bind (pays_copyOut _) fun _ => free_sendFlush
      · exact M.Pays.mono free_sendFlush (Nat.zero_le _) (fun _ => Nat.le_refl _) (Nat.le_refl _)
  generalize st.args = args
  cases args with
  | some args => exact M.Pays.bind ((free_sendAll _).pays (Nat.zero_le _)) fun _ => tail
  | none => exact tail

/-! ### Reading -/

theorem readPacket_ok_data {r r' : Rdr} {p : Packet} (h : r.readPacket = (.ok p, r')) :
    r'.left + 4 + (p.data?.getD []).length ≤ r.left := by
  have hp := (readPacket_adv h).pending
  unfold Rdr.left
  rw [hp]
  unfold Rdr.readPacket at h
  split at h
  · cases h
  · rename_i h1
    have a := readExact_len h1
    split at h
    · cases h
    · cases h
    · split at h
      · cases h; simp [Packet.data?]; omega
      · split at h
        · cases h; simp [Packet.data?]; omega
        · split at h
          · cases h
          · split at h
            · cases h
            · rename_i h2
              have := readExact_len h2
              have := (readExact_ok h2).1
              cases h; simp [Packet.data?]; omega

theorem Rdr.Adv.left {r r' : Rdr} (h : r.Adv r') : r'.left ≤ r.left := by
  have := h.suffix.length_le
  simp only [Rdr.left, h.pending]
  omega

theorem next_ok_left {r r' : Rdr} {p : Packet} (h : r.next = (some (.ok p), r')) :
    r'.left + 4 + (p.data?.getD []).length ≤ r.left := by
  unfold Rdr.next at h
  split at h
  · rename_i h1; cases h; exact readPacket_ok_data h1
  · split at h <;> cases h
  · cases h

theorem readToTypeF_left (typ : Packet) : ∀ (f : Nat) (r r' : Rdr) (x : List Bytes),
    readToTypeF typ f r = (.ok x, r') → 4 * x.length + (x.map List.length).sum + r'.left ≤ r.left
  | 0, _, _, _, h => by cases h
  | f + 1, r, r', x, h => by
    simp only [readToTypeF] at h
    split at h
    · rename_i h1; cases h; have := (next_adv h1).left; simpa using this
    · cases h
    · cases h
    · rename_i h1
      have a := (next_adv h1).pending
      have b := next_ok_left h1
      split at h
      · cases h; have := (next_adv h1).left; simpa using this
      · split at h
        · rename_i h2
          have ih := readToTypeF_left typ f _ _ _ h2
          cases h
          simp only [List.length_cons, List.map_cons, List.sum_cons]
          omega
        · cases h
        · cases h

theorem pays_readToType (typ : Packet) (c q : Nat) (hq : q ≤ c) :
    (M.rdr (readToType typ)).Pays P c (fun ls => 4 * ls.length + (ls.map List.length).sum + c) q := by
  refine .reads fun r => ?_
  have a : (readToTypeF typ (r.input.length + 1) r).2.left ≤ r.left := (readToTypeF_adv typ _ r _ _ rfl).left
  have b := readToTypeF_left typ (r.input.length + 1) r
  unfold readToType
  revert a b
  generalize readToTypeF typ (r.input.length + 1) r = y
  obtain ⟨(x | e | _), r'⟩ := y
  · intro a b; have := b r' x rfl; simp only [Res.rest]; omega
  · intro a b; simp only [Res.rest] at a ⊢; omega
  · intro a b; simp only [Res.rest] at a ⊢; omega

theorem readLoopF_left_le : ∀ (f n : Nat) (r r' : Rdr) (x : Res Bytes), (r.pending = [] ∨ n = 0) →
    Rdr.readLoopF f n r = (x, r') → x.rest List.length 0 + r'.left ≤ r.left
  | 0, _, _, _, _, _, h => by cases h; simp [Res.rest]
  | f + 1, n, r, r', x, hp, h => by
    simp only [Rdr.readLoopF] at h
    split at h
    all_goals rename_i h1; have ad := readOne_adv h1; have al := ad.left
    · cases h; simpa [Res.rest] using al
    · cases h; simpa [Res.rest] using al
    · have a := readOne_ok_len h1
      have hp1 : _ ∨ n = 0 := hp.imp_left ad.pending.trans
      simp only [Packet.data?, Option.getD_some] at a
      split at h
      · split at h
        · exact Nat.le_trans (readLoopF_left_le f n _ _ _ hp1 h) ad.left
        · cases h
          have := ad.pending
          simp only [Rdr.left, Res.rest, this] at *; omega
      · split at h
        · exact Nat.le_trans (readLoopF_left_le f n _ _ _ hp1 h) ad.left
        · cases h
          simp only [Rdr.left, Res.rest, List.length_drop, List.length_take] at *; omega
    · cases h; simpa [Res.rest] using al
    · cases h; simpa [Res.rest] using al

theorem read_left_le {n : Nat} {r r' : Rdr} {x : Res Bytes} (h : r.read n = (x, r')) :
    x.rest List.length 0 + r'.left ≤ r.left := by
  unfold Rdr.read at h
  simp only at h
  split at h
  · cases h
    simp only [Rdr.left, Res.rest, List.length_drop, List.length_take]; omega
  · rename_i hk
    refine readLoopF_left_le _ _ _ _ _ ?_ h
    have hm : min r.pending.length n = 0 := by omega
    by_cases hn : n = 0
    · exact .inr hn
    · left
      have : r.pending.length = 0 := by omega
      exact List.length_eq_zero_iff.mp this

theorem pays_read (n c q : Nat) (hq : q ≤ c) :
    (M.rdr (Rdr.read n)).Pays P c (fun d => c + d.length) q := by
  refine .reads fun r => ?_
  have a : (r.read n).1.rest List.length 0 + (r.read n).2.left ≤ r.left := read_left_le rfl
  revert a
  generalize r.read n = y
  obtain ⟨(x | e | _), r'⟩ := y
  all_goals intro a; simp only [Res.rest] at a ⊢; omega

/-! ### Commands -/

theorem pays_dropFile (p : Path) (c q : Nat) (hq : q ≤ c) : (dropFile p).Pays P (c + P.a) (fun _ => c) q := by
  unfold dropFile
  exact .bind (.call (by intro _ _ h; cases h) c _) fun _ => .pure _ (Nat.le_refl _)

theorem pays_dropFile' (p : Path) (c q : Nat) (hq : q ≤ c) : (dropFile p).Pays P (c + 1) (fun _ => c) q :=
  (pays_dropFile p c q hq).mono (by have := P.a_le; omega) (fun _ => Nat.le_refl _) (Nat.le_refl _)

theorem free_oidNew (b : Bytes) : (oidNew b).Free P := by
  unfold oidNew
  split
  · exact .pure _
  · exact .throw _

theorem pays_copyInF (bufs : Nat → Nat) (ino : Ino) (c q : Nat) (hq : q ≤ c) :
    ∀ f i acc, (copyInF bufs ino f i acc).Pays P c (fun _ => c) q
  | 0, _, _ => .panic hq
  | f + 1, i, acc => by
    unfold copyInF
    refine .bind (pays_read _ c q hq) fun d => ?_
    split
    · exact .pure _ (Nat.le_add_right _ _)
    · rename_i hd
      exact .bind (.wrote ino d c q d.length (P.write ino d hd)) fun w => .bind (.ofIo w hq) fun _ =>
        pays_copyInF bufs ino c q hq f (i + 1) (acc ++ d)

theorem pays_copyIn (bufs : Nat → Nat) (ino : Ino) (c q : Nat) (hq : q ≤ c) :
    (copyIn bufs ino).Pays P c (fun _ => c) q := fun a r s hs => pays_copyInF bufs ino c q hq _ 0 [] a r s hs

theorem pays_startUpload (cfg : Cfg) (oid : Bytes) (c : Nat) :
    (startUpload cfg oid).Pays P (c + 2) (fun _ => c + 1) c := by
  unfold startUpload
  refine .bind (.op _ (c + 1) c) fun t => .bind (.ofIo t (Nat.le_succ _)) fun x => ?_
  obtain ⟨path, ino⟩ := x
  refine .onFail (q := c + 1) ?_ (pays_dropFile' path c c (Nat.le_refl _))
  exact .bind (pays_copyIn _ _ (c + 1) (c + 1) (Nat.le_refl _)) fun d => .pure _ (Nat.le_refl _)

theorem pays_finishUpload (cfg : Cfg) (oid : Bytes) (p : Path) : (finishUpload cfg oid p).Pays P 4 (fun _ => 0) 0 := by
  unfold finishUpload
  refine .bind (p := fun _ => 2) (.onFail (q := 1) ?_ (pays_dropFile' p 0 0 (Nat.le_refl _))) fun _ => ?_
  · refine .bind (.op _ 3 1) fun d => .bind (.ofIo d (by omega)) fun _ => .bind (.op _ 2 1) fun x => ?_
    cases x with
    | ok _ => exact .pure _ (Nat.le_refl _)
    | error e => exact .throw _ (by omega)
  · unfold fixPermissions
    exact .bind (.op _ 1 0) fun s => .bind (.ofIo s (by omega)) fun _ => .bind (.op _ 0 0) fun x => .ofIo x (Nat.le_refl _)

theorem free_checkUpload (cfg : Cfg) (oid : Bytes) (n : Nat) (d : Bytes) : (checkUpload cfg oid n d).Free P := by
  unfold checkUpload
  split
  · exact .throw _
  · split
    · exact .throw _
    · refine (free_oidNew _).bind fun _ => ?_
      split
      · exact .throw _
      · exact .pure _

theorem pays_putObject (cfg : Cfg) (oid : Bytes) : (putObject cfg oid).Pays P 6 Status.cost 0 := by
  unfold putObject
  refine .bind ((free_oidNew _).pays (Nat.zero_le _)) fun _ => .bind ((pays_readToType .delim 6 0 (by omega)).mono
    (p' := fun _ => 6) (Nat.le_refl _) (fun _ => by omega) (Nat.le_refl _)) fun _ => ?_
  refine .bind ((M.Free.ofRes _).pays (Nat.zero_le _)) fun _ => .bind ((M.Free.ofRes _).pays (Nat.zero_le _)) fun n => ?_
  refine .bind ((pays_startUpload cfg _ 4).mono (p' := fun _ => 5) (by omega) (fun _ => by omega) (by omega)) fun x => ?_
  obtain ⟨tmp, d⟩ := x
  refine .bind (p := fun _ => 5) (.onFail (q := 5) ((free_checkUpload _ _ _ _).pays (Nat.le_refl _))
    ((pays_dropFile' tmp 4 4 (Nat.le_refl _)).mono (q' := 0) (p' := fun _ => 0) (by omega) (fun _ => by omega)
      (by omega))) fun _ => ?_
  exact .bind ((pays_finishUpload _ _ _).mono (by omega) (fun _ => Nat.le_refl _) (Nat.le_refl _)) fun _ => .pure _ (Nat.le_refl _)

theorem pays_readToFlushParse (c q : Nat) (hq : q ≤ c) : readToFlushParse.Pays P c (fun ls => 4 * ls.length + (ls.map List.length).sum + c) q := by
  unfold readToFlushParse
  refine .bind (.attempt (pays_readToType .flush c c (Nat.le_refl _)) (p'' := fun x => match x with
    | .ok ls => 4 * ls.length + (ls.map List.length).sum + c | .error _ => c) (fun _ => Nat.le_refl _) (fun _ => Nat.le_refl _) hq) fun x => ?_
  cases x with
  | ok v => exact .pure _ (Nat.le_refl _)
  | error e => exact .throw _ hq

theorem pays_backendBatch (cfg : Cfg) (c q : Nat) (hq : q ≤ c) :
    ∀ l : List (Bytes × Nat), (backendBatch cfg l).Pays P (l.length + c) (fun _ => c) q
  | [] => .pure _ (by simp)
  | (oid, n) :: l => by
    unfold backendBatch
    refine .bind ((M.Pays.op _ (l.length + c) q).mono (p' := fun _ => l.length + c) (by simp only [List.length_cons]; omega)
      (fun _ => Nat.le_refl _) (Nat.le_refl _)) fun st => ?_
    exact .bind (pays_backendBatch cfg c q hq l) fun _ => .pure _ (Nat.le_refl _)

theorem parseBatchLines_length : ∀ {ls : List Bytes} {xs : List (Bytes × Nat)}, parseBatchLines ls = .ok xs →
    xs.length = ls.length
  | [], xs, h => by cases h; rfl
  | l :: ls, xs, h => by
    unfold parseBatchLines at h
    split at h
    · cases h
    · cases h
    · split at h
      · rename_i h2
        cases h
        simp [parseBatchLines_length h2]
      · cases h
      · cases h

theorem pays_readBatch (cfg : Cfg) : (readBatch cfg).Pays P 0 (fun _ => 0) 0 := by
  unfold readBatch
  refine .bind ((pays_readToType .delim 0 0 (by omega)).mono (p' := fun _ => 0) (by omega) (fun _ => by omega) (by omega))
    fun _ => .bind (M.Free.ofRes _) fun _ => .bind (pays_readToFlushParse 0 0 (Nat.le_refl _)) fun ls => ?_
  have tail : M.Pays P (do
      let oids ← M.ofRes (parseBatchLines ls)
      backendBatch cfg oids) (4 * ls.length + (ls.map List.length).sum + 0) (fun _ => 0) 0 := by
    refine .bind (p := fun xs => xs.length) (.ofRes _ ?_) fun xs => (pays_backendBatch cfg 0 0 (Nat.le_refl _) xs).mono
      (by omega) (fun _ => Nat.le_refl _) (Nat.le_refl _)
    cases h : parseBatchLines ls with
    | ok xs => simp only [Res.rest, parseBatchLines_length h]; omega
    | err e => simp only [Res.rest]; omega
    | panic => simp only [Res.rest]; omega
  split
  · split
    · exact tail
    · exact .bind (.throw _ (Nat.zero_le _)) fun _ => tail
  · exact tail

theorem pays_batchCmd (cfg : Cfg) (p m : Bytes) : (batchCmd cfg p m).Pays P 0 Status.cost 0 := by
  unfold batchCmd
  exact .bind (pays_readBatch cfg) fun _ => .pure _ (Nat.le_refl _)

theorem pays_readToFlush (c : Nat) : readToFlush.Pays P c (fun _ => c) 0 :=
  (pays_readToType .flush c 0 (Nat.zero_le _)).mono (Nat.le_refl _) (fun _ => Nat.le_add_left _ _) (Nat.le_refl _)

theorem pays_verifyObject (cfg : Cfg) (oid : Bytes) : (verifyObject cfg oid).Pays P 1 Status.cost 0 := by
  unfold verifyObject backendVerify
  refine .bind (pays_readToFlush 1) fun _ => .bind ((M.Free.ofRes _).pays (Nat.zero_le _)) fun _ =>
    .bind ((free_oidNew _).pays (Nat.zero_le _)) fun _ => .bind ((M.Free.ofRes _).pays (Nat.zero_le _)) fun _ =>
    .bind (.op _ 0 0) fun x => ?_
  cases x with
  | ok s => dsimp only; split <;> exact .pure _ (Nat.le_refl _)
  | error e =>
    dsimp only
    split
    · exact .pure _ (Nat.le_refl _)
    · exact .throw _ (Nat.le_refl _)

theorem pays_getObject (cfg : Cfg) (oid : Bytes) : (getObject cfg oid).Pays P 3 Status.cost 0 := by
  unfold getObject
  refine .bind (pays_readToFlush 3) fun _ => .bind ((M.Free.ofRes _).pays (Nat.zero_le _)) fun _ =>
    .bind ((free_oidNew _).pays (Nat.zero_le _)) fun oid => ?_
  have : (backendDownload cfg oid).Pays P 3 (fun _ => 1) 0 := by
    unfold backendDownload
    exact .bind (.op _ 2 0) fun h => .bind (.ofIo h (by omega)) fun h => .bind (.op _ 1 0) fun s =>
      .bind (.ofIo s (by omega)) fun s => .pure _ (Nat.le_refl _)
  refine .bind (.attempt this (p'' := fun x => match x with | .ok _ => 1 | .error _ => 0) (fun _ => Nat.le_refl _)
    (fun _ => Nat.le_refl _) (Nat.le_refl _)) fun x => ?_
  cases x with
  | ok x => obtain ⟨h, n⟩ := x; exact .pure _ (Nat.le_refl _)
  | error e =>
    dsimp only
    split
    · exact .pure _ (Nat.le_refl _)
    · exact .throw _ (Nat.le_refl _)

theorem pays_userForFile (cfg : Cfg) (p : FPath) (c q : Nat) : (userForFile cfg p).Pays P (c + P.a) (fun _ => c) q := by
  unfold userForFile
  refine .bind (.call (by intro _ _ h; cases h) c q) fun x => ?_
  cases x <;> exact .pure _ (Nat.le_refl _)

/-- The clock of the server shows possible times. -/
def Cfg.OnTime (P : Price) (cfg : Cfg) : Prop := ∀ t, cfg.timestamp = some t → P.time t

theorem pays_timestamp_bind {β : Type} (cfg : Cfg) (ht : cfg.OnTime P) {f : Int → M β} {p : β → Nat} {c q : Nat}
    (h : ∀ t, P.time t → (f t).Pays P c p q) : (timestamp cfg >>= f).Pays P (c + P.a) p q := by
  unfold timestamp
  cases hc : cfg.timestamp with
  | some t =>
    intro a r s hs
    rw [M.wp_bind]
    exact h t (ht t hc) a r s (by omega)
  | none => exact .now h

theorem pays_lockCreate (cfg : Cfg) (ht : cfg.OnTime P) (path : Bytes) (c k : Nat)
    (hk : ∀ i t, P.time t → P.w (.write i (lockRecord t path)) ≤ k) :
    (lockCreate cfg path).Pays P (c + 6 * P.a + k) (fun _ => c) c := by
  unfold lockCreate
  refine M.Pays.mono (pays_timestamp_bind cfg ht (c := c + 5 * P.a + k) (q := c) (p := fun _ => c) fun t htime => ?_)
    (by omega) (fun _ => Nat.le_refl _) (Nat.le_refl _)
  refine .bind (p := fun _ => c + 2 * P.a) ?_ fun _ => ?_
  · refine (M.Pays.after (q := c + 3 * P.a) (q' := c + 2 * P.a) (c := c + 5 * P.a + k) ?_
      ((pays_dropFile _ _ _ (Nat.le_refl _)).mono (by omega) (fun _ => Nat.le_refl _) (Nat.le_refl _))).mono
      (Nat.le_refl _) (fun _ => Nat.le_refl _) (by omega)
    refine .bind (p := fun _ => c + 4 * P.a) ?_ fun _ => ?_
    · unfold lockWrite
      refine .bind ((M.Pays.call (P := P) (by intro _ _ h; cases h) (c + 4 * P.a + k) (c + 3 * P.a)).mono (by omega)
        (fun _ => Nat.le_refl _) (Nat.le_refl _)) fun x => ?_
      cases x with
      | error e => dsimp only; split <;> exact .throw _ (by omega)
      | ok ino => exact .bind (.wrote ino _ (c + 4 * P.a) _ k (hk ino t htime)) fun w => .ofIo w (by omega)
    · unfold lockPersist
      refine .bind ((M.Pays.call (P := P) (by intro _ _ h; cases h) (c + 3 * P.a) (c + 3 * P.a)).mono (by omega)
        (fun _ => Nat.le_refl _) (Nat.le_refl _)) fun x => ?_
      cases x with
      | ok _ => exact .pure _ (Nat.le_refl _)
      | error e => dsimp only; split <;> exact .throw _ (by omega)
  · exact M.Pays.mono (.bind (pays_userForFile cfg _ (c + P.a) c) fun u =>
      pays_timestamp_bind cfg ht fun _ _ => .pure _ (Nat.le_refl _)) (by omega) (fun _ => Nat.le_refl _) (Nat.le_refl _)

theorem pays_lockFromId (cfg : Cfg) (id : Bytes) (c q : Nat) (hq : q ≤ c) :
    (lockFromId cfg id).Pays P (c + 3 * P.a) (fun _ => c) q := by
  unfold lockFromId
  refine .bind ((M.Pays.call (P := P) (by intro _ _ h; cases h) (c + 2 * P.a) q).mono (by omega)
    (fun _ => Nat.le_refl _) (Nat.le_refl _)) fun x => ?_
  cases x with
  | error e =>
    dsimp only
    split
    · exact .pure _ (by omega)
    · exact .throw _ (by omega)
  | ok h =>
    refine .bind ((M.Pays.call (P := P) (by intro _ _ h; cases h) (c + P.a) q).mono (by omega)
      (fun _ => Nat.le_refl _) (Nat.le_refl _)) fun x => ?_
    obtain ⟨cs, e⟩ := x
    cases e with
    | some e => exact .throw _ (by omega)
    | none =>
      refine .bind (pays_userForFile cfg _ c q) fun u => ?_
      split
      · exact .throw _ hq
      · exact .pure _ (Nat.le_refl _)

theorem pays_lockFromPath (cfg : Cfg) (p : Bytes) (c q : Nat) (hq : q ≤ c) :
    (lockFromPath cfg p).Pays P (c + 3 * P.a) (fun _ => c) q := by
  unfold lockFromPath
  refine .bind (pays_lockFromId cfg _ c q hq) fun x => ?_
  cases x with
  | none => exact .pure _ (Nat.le_refl _)
  | some l =>
    dsimp only
    split
    · exact .throw _ hq
    · exact .pure _ (Nat.le_refl _)

theorem free_fmtTimestamp (cfg : Cfg) (l : LockInfo) : (fmtTimestamp cfg l).Free P := by
  unfold fmtTimestamp
  split
  · exact .pure _
  · exact .panic
theorem free_lockArgs (cfg : Cfg) (l : LockInfo) : (lockArgs cfg l).Free P := by
  unfold lockArgs
  exact (free_fmtTimestamp cfg l).bind fun _ => .pure _
theorem free_lockSpec (cfg : Cfg) (o : Bool) (l : LockInfo) : (lockSpec cfg o l).Free P := by
  unfold lockSpec
  refine (free_fmtTimestamp cfg l).bind fun _ => ?_
  split <;> exact .pure _

/-- How many bytes arguments were sent as. -/
def Args.size (m : Args) : Nat := (m.map fun e => e.1.length + e.2.length + 2).sum

theorem splitEq_join : ∀ {b k v : Bytes}, splitEq b = some (k, v) → b = k ++ EQ :: v
  | [], k, v, h => by cases h
  | x :: b, k, v, h => by
    unfold splitEq at h
    split at h
    · rename_i hx; cases h; rw [hx]; rfl
    · cases hb : splitEq b with
      | none => rw [hb] at h; cases h
      | some y =>
        obtain ⟨k', v'⟩ := y
        rw [hb] at h
        cases h
        rw [splitEq_join hb]; rfl

theorem parseArgsAux_size : ∀ {ls : List Bytes} {m m' : Args}, parseArgsAux m ls = .ok m' →
    m'.size ≤ m.size + (ls.map List.length).sum ∧ m'.length = m.length + ls.length
  | [], m, m', h => by cases h; simp
  | l :: ls, m, m', h => by
    unfold parseArgsAux at h
    split at h
    · cases h
    · rename_i k v hs
      have hj := splitEq_join hs
      split at h
      · cases h
      rename_i hl
      split at h
      · cases h
      have hv : v ≠ [] := by
        rintro rfl
        exact hl (by rw [hj, List.getLast?_append]; show some EQ ≠ some NL; decide)
      have := List.length_pos_iff.mpr hv
      have ih := parseArgsAux_size h
      have hlen : l.length = k.length + v.length + 1 := by rw [hj]; simp; omega
      simp only [Args.size, List.map_cons, List.sum_cons, List.length_cons, List.length_dropLast] at ih ⊢
      omega

theorem get_size : ∀ {m : Args} {k v : Bytes}, Args.get m k = some v → k.length + v.length + 2 ≤ m.size
  | [], _, _, h => by cases h
  | (k', v') :: m, k, v, h => by
    unfold Args.get at h
    simp only [Args.size, List.map_cons, List.sum_cons]
    split at h
    · rename_i hk; cases h; subst hk; omega
    · have := get_size h; simp only [Args.size] at this; omega

theorem get_two_size : ∀ {m : Args} {k v k2 v2 : Bytes}, k ≠ k2 → Args.get m k = some v → Args.get m k2 = some v2 →
    k.length + v.length + 2 + (k2.length + v2.length + 2) ≤ m.size ∧ 2 ≤ m.length
  | [], _, _, _, _, _, h, _ => by cases h
  | (k', v') :: m, k, v, k2, v2, hne, h, h2 => by
    have len : ∀ {m : Args} {k v : Bytes}, Args.get m k = some v → 1 ≤ m.length := by
      intro m k v h; cases m with
      | nil => cases h
      | cons _ _ => simp
    unfold Args.get at h h2
    simp only [Args.size, List.map_cons, List.sum_cons, List.length_cons]
    split at h
    · rename_i hk
      rw [if_neg (fun h => hne (hk.symm.trans h))] at h2
      cases h; subst hk
      have := get_size h2
      have := len h2
      simp only [Args.size] at *; omega
    · split at h2
      · rename_i hk
        cases h2; subst hk
        have := get_size h
        have := len h
        simp only [Args.size] at *; omega
      · have := get_two_size hne h h2
        simp only [Args.size] at this; omega

/-- Arguments that name a path and a refname were sent with enough bytes to pay for a lock. -/
theorem parseArgs_pays {ls : List Bytes} {m : Args} {path ref : Bytes} (h : parseArgs ls = .ok m)
    (hp : Args.get m b!"path" = some path) (hr : Args.get m b!"refname" = some ref) :
    path.length + 23 ≤ 4 * ls.length + (ls.map List.length).sum := by
  have h1 := parseArgsAux_size h
  have h2 := get_two_size (by decide) hp hr
  have e1 : (b!"path").length = 4 := rfl
  have e2 : (b!"refname").length = 7 := rfl
  simp only [Args.size, List.map_nil, List.sum_nil, List.length_nil] at h1 h2
  omega

theorem pays_lockCmd (cfg : Cfg) (ht : cfg.OnTime P) : (lockCmd cfg).Pays P 8 Status.cost 0 := by
  unfold lockCmd
  refine .bind (pays_readToFlushParse 8 0 (by omega)) fun ls => ?_
  cases hpa : parseArgs ls with
  | err e => exact .throw _ (Nat.zero_le _)
  | panic => exact .panic (Nat.zero_le _)
  | ok args =>
  show M.Pays P (match Args.get args b!"path", Args.get args b!"refname" with
    | some path, some _ => lockLoop cfg path
    | _, _ => M.throw (Err.withMsg .missingData b!"both path and refname required")) _ _ _
  split
  · rename_i path _ hp hr
    have hb := parseArgs_pays hpa hp hr
    have hk : ∀ i t, P.time t → P.w (.write i (lockRecord t path)) ≤ 31 + path.length - 9 * P.a :=
      fun i t h => by have := P.lock i t path h; omega
    have ha := P.a_le
    unfold lockLoop
    refine .bind (.attempt ((pays_lockCreate cfg ht _ (3 * P.a) _ hk).mono
      (c' := 4 * ls.length + (ls.map List.length).sum + 8) (by omega)
      (fun _ => Nat.le_refl _) (Nat.le_refl _)) (p'' := fun _ => 3 * P.a) (fun _ => Nat.le_refl _)
      (fun _ => Nat.le_refl _) (Nat.zero_le _)) fun x => ?_
    cases x with
    | ok l => exact .bind ((free_lockArgs cfg l).pays (Nat.zero_le _)) fun _ => .pure _ (Nat.zero_le _)
    | error e =>
      dsimp only
      split
      · refine .bind ((pays_lockFromPath cfg _ 0 0 (Nat.le_refl _)).mono (by omega) (fun _ => Nat.le_refl _)
          (Nat.le_refl _)) fun x => ?_
        cases x with
        | some l => exact .bind (free_lockArgs cfg l) fun _ => .pure _ (Nat.le_refl _)
        | none => exact .panic (Nat.le_refl _)
      · exact .throw _ (Nat.zero_le _)
  · exact .throw _ (Nat.zero_le _)

theorem pays_collectLocks (cfg : Cfg) : ∀ (cur : Option Bytes) (ns : List Bytes) (sk : Bool) (k : Nat),
    (collectLocks cfg cur sk k ns).Pays P (3 * P.a * ns.length) (fun _ => 0) 0
  | _, _, _, 0 => by unfold collectLocks; exact .pure _ (Nat.zero_le _)
  | _, [], _, k + 1 => by unfold collectLocks; exact .pure _ (Nat.zero_le _)
  | cur, n :: ns, sk, k + 1 => by
    unfold collectLocks
    refine .bind (.attempt ((pays_lockFromId cfg _ (3 * P.a * ns.length) (3 * P.a * ns.length) (Nat.le_refl _)).mono
      (c' := 3 * P.a * (n :: ns).length) (by simp only [List.length_cons, Nat.mul_add]; omega) (fun _ => Nat.le_refl _) (Nat.le_refl _))
      (p'' := fun _ => 3 * P.a * ns.length) (fun _ => Nat.le_refl _) (fun _ => Nat.le_refl _) (Nat.zero_le _)) fun x => ?_
    have skip (o : Bool) (l : LockInfo) : M.Pays P (if o = true then collectLocks cfg cur true (k + 1) ns
        else do let ls ← collectLocks cfg cur false k ns; pure (l :: ls)) (3 * P.a * ns.length) (fun _ => 0) 0 := by
      cases o with
      | true => exact pays_collectLocks cfg cur ns _ _
      | false => exact .bind (pays_collectLocks cfg cur ns _ _) fun _ => .pure _ (Nat.zero_le _)
    rcases x with e | (_ | l)
    · exact pays_collectLocks cfg cur ns _ _
    · exact pays_collectLocks cfg cur ns _ _
    · exact skip _ l

theorem insertName_length (n : Bytes) : ∀ ns : List Bytes, (insertName n ns).length = ns.length + 1
  | [] => rfl
  | m :: ms => by
    unfold insertName
    split
    · simp [insertName_length n ms]
    · rfl
theorem sortNames_length : ∀ ns : List Bytes, (sortNames ns).length = ns.length
  | [] => rfl
  | n :: ns => by rw [sortNames, insertName_length, sortNames_length ns]; rfl

theorem free_lockSpecs (cfg : Cfg) (o : Bool) : ∀ ls, (lockSpecs cfg o ls).Free P
  | [] => .pure _
  | l :: ls => by
    unfold lockSpecs
    exact (free_lockSpec cfg o l).bind fun _ => (free_lockSpecs cfg o ls).bind fun _ => .pure _

theorem pays_listLocks (cfg : Cfg) (o : Bool) : (listLocks cfg o).Pays P 3 Status.cost 0 := by
  unfold listLocks
  refine .bind ((pays_readToFlushParse 3 0 (by omega)).mono (p' := fun _ => 3) (Nat.le_refl _) (fun _ => by omega)
    (Nat.le_refl _)) fun ls => .bind ((M.Free.ofRes _).pays (Nat.zero_le _)) fun args =>
    .bind ((M.Free.ofRes _).pays (Nat.zero_le _)) fun limit => ?_
  dsimp only
  split
  · unfold listLocksForPath
    refine .bind ((pays_lockFromPath cfg _ 0 0 (Nat.le_refl _)).mono (by have := P.a_le; omega)
      (fun _ => Nat.le_refl _) (Nat.le_refl _)) fun x => ?_
    cases x with
    | none => exact .pure _ (Nat.zero_le _)
    | some l =>
      have skip (b : Bool) : M.Pays P (if b = true then pure (errStatus 404 b!"not found")
          else do let s ← lockSpec cfg o l; pure (Status.newSuccess s)) 0 Status.cost 0 := by
        cases b with
        | true => exact .pure _ (Nat.zero_le _)
        | false => exact .bind (free_lockSpec cfg o l) fun _ => .pure _ (Nat.zero_le _)
      exact skip _
  · refine .bind (p := fun _ => 0) ?_ fun items => .bind (free_lockSpecs cfg o items) fun _ => .pure _ (Nat.zero_le _)
    unfold iterLocks
    refine .bind ((M.Pays.readDir _ 2 0).mono (by have := P.a_le; omega) (fun _ => Nat.le_refl _) (Nat.le_refl _))
      fun d => ?_
    refine .bind (p := fun ns => 3 * P.a * ns.length) ?_ fun ns => ?_
    · cases d with
      | error e => exact .throw _ (Nat.zero_le _)
      | ok ns => exact .pure ns (Nat.le_add_right _ _)
    · have := pays_collectLocks (P := P) cfg (Args.get args b!"cursor") (sortNames ns) true (limit + 1)
      rw [sortNames_length] at this
      exact this

theorem pays_unlockCmd (cfg : Cfg) (id : Bytes) : (unlockCmd cfg id).Pays P 4 Status.cost 0 := by
  unfold unlockCmd
  refine .bind (pays_readToFlush 4) fun _ => ?_
  split
  · exact .throw _ (Nat.zero_le _)
  · refine .bind ((pays_lockFromId cfg id 1 0 (by omega)).mono (by have := P.a_le; omega)
      (fun _ => Nat.le_refl _) (Nat.le_refl _)) fun x => ?_
    cases x with
    | none => exact .pure _ (Nat.zero_le _)
    | some l =>
      refine .bind ((free_lockArgs cfg l).pays (Nat.zero_le _)) fun args => ?_
      have : (lockUnlock cfg l).Pays P 1 (fun _ => 0) 0 := by
        unfold lockUnlock
        exact .bind (.op _ 0 0) fun x => .ofIo x (Nat.le_refl _)
      refine .bind (.attempt this (p'' := fun _ => 0) (fun _ => Nat.le_refl _) (fun _ => Nat.le_refl _) (Nat.le_refl _)) fun x => ?_
      cases x with
      | ok _ => exact .pure _ (Nat.le_refl _)
      | error e =>
        dsimp only
        split
        · exact .pure _ (Nat.le_refl _)
        · split
          · exact .pure _ (Nat.le_refl _)
          · exact .throw _ (Nat.le_refl _)

/-! ### The session -/

theorem pays_dispatch (cfg : Cfg) (ht : cfg.OnTime P) (mode : Mode) (cmd : Bytes) (arg : Option Bytes) :
    (dispatch cfg mode cmd arg).Pays P (4 + cmd.length) Status.cost 0 := by
  have le {m : M Status} {k : Nat} (h : m.Pays P k Status.cost 0) (hk : k ≤ 4 + cmd.length) :
      m.Pays P (4 + cmd.length) Status.cost 0 := h.mono hk (fun _ => Nat.le_refl _) (Nat.le_refl _)
  have er (n : Nat) (msg : Bytes) : M.Pays P (pure (errStatus n msg)) (4 + cmd.length) Status.cost 0 :=
    .pure _ (Nat.zero_le _)
  unfold dispatch
  split
  · split
    · refine le (k := 0) ?_ (Nat.zero_le _)
      unfold versionCmd
      exact .bind (pays_readToFlush 0) fun _ => .pure _ (Nat.zero_le _)
    · exact er _ _
  split
  · cases mode <;> exact le (pays_batchCmd cfg _ _) (Nat.zero_le _)
  cases arg with
  | some a =>
    dsimp only
    split
    · rename_i h; subst h
      split
      · exact le (pays_putObject cfg a) (by decide)
      · exact er _ _
    split
    · split
      · exact le (pays_verifyObject cfg a) (by omega)
      · exact er _ _
    split
    · split
      · exact le (pays_getObject cfg a) (by omega)
      · exact er _ _
    split
    · exact le (pays_unlockCmd cfg a) (by omega)
    · exact er _ _
  | none =>
    dsimp only
    split
    · rename_i h; obtain ⟨rfl, _⟩ := h
      exact le (pays_lockCmd cfg ht) (by decide)
    split
    · exact le (pays_listLocks cfg _) (by omega)
    · exact er _ _

theorem splitOn_head_length (sep : UInt8) : ∀ bs : Bytes, ((splitOn sep bs).head?.getD []).length ≤ bs.length
  | [] => Nat.le_refl _
  | b :: bs => by
    have ih := splitOn_head_length sep bs
    unfold splitOn
    split
    · exact Nat.zero_le _
    · split
      · simp
      · rename_i h
        rw [h] at ih
        simpa using ih

theorem commandWords_head_length (bs : Bytes) : ((commandWords bs).head?.getD []).length ≤ bs.length := by
  unfold commandWords
  refine Nat.le_trans (splitOn_head_length _ _) ?_
  split
  · simp
  · exact Nat.le_refl _

theorem pays_readPacket : (M.rdr Rdr.readPacket).Pays P 0 (fun p => 4 + (p.data?.getD []).length) 0 := by
  refine .reads fun r => ?_
  have a : r.readPacket.2.left ≤ r.left := (readPacket_adv rfl).left
  have b := fun p r' => readPacket_ok_data (r := r) (r' := r') (p := p)
  revert a b
  generalize r.readPacket = y
  obtain ⟨(p | e | _), r'⟩ := y
  · intro a b; have := b p r' rfl; simp only [Res.rest]; omega
  · intro a b; simp only [Res.rest] at a ⊢; omega
  · intro a b; simp only [Res.rest] at a ⊢; omega

theorem pays_turn (cfg : Cfg) (ht : cfg.OnTime P) (mode : Mode) : (turn cfg mode).Pays P 0 (fun _ => 0) 0 := by
  unfold turn
  refine .bind (.attempt pays_readPacket (p'' := fun x => match x with
    | .ok p => 4 + (p.data?.getD []).length | .error _ => 0) (fun _ => Nat.le_refl _) (fun _ => Nat.le_refl _)
    (Nat.le_refl _)) fun x => ?_
  cases x with
  | error e =>
    dsimp only
    split
    · exact .pure _ (Nat.le_refl _)
    · exact .throw _ (Nat.le_refl _)
  | ok p =>
    dsimp only
    cases p.data? with
    | none => exact .bind ((free_sendError _ _).pays (Nat.zero_le _)) fun _ => .pure _ (Nat.zero_le _)
    | some bs =>
      dsimp only [Option.getD_some]
      split
      · exact .bind ((free_sendError _ _).pays (Nat.zero_le _)) fun _ => .pure _ (Nat.zero_le _)
      split
      · exact .bind ((pays_sendStatus Status.success).mono (Nat.zero_le _) (fun _ => Nat.le_refl _)
          (Nat.le_refl _)) fun _ => .pure _ (Nat.zero_le _)
      · have hd := (pays_dispatch cfg ht mode ((commandWords bs).head?.getD []) (commandWords bs).tail.head?).mono
          (c' := 4 + bs.length) (by have := commandWords_head_length bs; omega) (fun _ => Nat.le_refl _) (Nat.le_refl _)
        refine .bind (.attempt hd (p'' := fun x => match x with | .ok st => st.cost | .error _ => 0)
          (fun _ => Nat.le_refl _) (fun _ => Nat.le_refl _) (Nat.le_refl _)) fun x => ?_
        cases x with
        | ok st => exact .bind (pays_sendStatus st) fun _ => .pure _ (Nat.le_refl _)
        | error e => exact .bind ((pays_sendStatus (errorStatus e)).mono (by unfold errorStatus; split <;> exact Nat.le_refl _)
            (fun _ => Nat.le_refl _) (Nat.le_refl _)) fun _ => .pure _ (Nat.le_refl _)

theorem pays_processF (cfg : Cfg) (ht : cfg.OnTime P) (mode : Mode) : ∀ f, (processF cfg mode f).Pays P 0 (fun _ => 0) 0
  | 0 => .panic (Nat.le_refl _)
  | f + 1 => by
    unfold processF
    refine .bind (pays_turn cfg ht mode) fun t => ?_
    cases t with
    | done => exact .pure _ (Nat.le_refl _)
    | again => exact pays_processF cfg ht mode f

theorem pays_mkdirs : ∀ ps : List Path, (mkdirs ps).Pays P (ps.length * P.a) (fun _ => 0) 0
  | [] => .pure _ (Nat.zero_le _)
  | p :: ps => by
    unfold mkdirs
    exact .bind ((M.Pays.call (by intro _ _ h; cases h) (ps.length * P.a) 0).mono
      (by simp only [List.length_cons, Nat.add_mul]; omega) (fun _ => Nat.le_refl _) (Nat.le_refl _)) fun x =>
      .bind (.ofIo x (Nat.zero_le _)) fun _ => pays_mkdirs ps

theorem pays_runProgram (cfg : Cfg) (ht : cfg.OnTime P) (operation : Bytes) : (runProgram cfg operation).Pays P (4 * P.a) (fun _ => 0) 0 := by
  have loop (mode : Mode) : (processCommands cfg mode).Pays P 0 (fun _ => 0) 0 :=
    fun a r s hs => pays_processF cfg ht mode _ a r s hs
  unfold runProgram
  refine .bind (pays_mkdirs _) fun _ => .bind (p := fun _ => 0) ?_ fun _ => ?_
  · unfold sendCapabilities
    exact (free_send _).bind fun _ => free_sendFlush
  · split
    · exact loop _
    · split
      · exact loop _
      · exact .throw _ (Nat.le_refl _)

/-- One for each call but output. -/
def Price.calls : Price where
  w o := match o with
    | .out _ | .flush => 0
    | _ => 1
  a := 1
  time _ := True
  a_le := Nat.le_refl _
  call o _ := by cases o <;> simp
  out _ := rfl
  flush := rfl
  write i d h := List.length_pos_iff.mpr h
  lock i t path _ := by dsimp only; omega

theorem paid_calls : ∀ tr, paid .calls tr = work tr
  | [] => rfl
  | ⟨o, x⟩ :: tr => by
    have ih := paid_calls tr
    unfold paid work at ih ⊢
    rw [List.map_cons, List.sum_cons, List.countP_cons, ih]
    cases o <;> simp [Price.calls, Event.isWork] <;> omega

/-- One for each byte written to files; the clock shows a number of at most 20 characters. -/
def Price.bytes : Price where
  w o := match o with
    | .write _ d => d.length
    | _ => 0
  a := 0
  time t := (intDec t).length ≤ 20
  a_le := Nat.zero_le _
  call o h := by
    cases o <;> first | exact Nat.zero_le _ | exact absurd rfl (h _ _)
  out _ := rfl
  flush := rfl
  write i d h := Nat.le_refl _
  lock i t path h := by
    have h : (intDec t).length ≤ 20 := h
    have e1 : (b!"v1").length = 2 := rfl
    have e2 : (b!":").length = 1 := rfl
    simp only [lockRecord, List.length_append, e1, e2]
    omega

theorem paid_bytes : ∀ tr, paid .bytes tr = bytesWritten tr
  | [] => rfl
  | ⟨o, x⟩ :: tr => by
    have ih := paid_bytes tr
    unfold paid bytesWritten at ih ⊢
    rw [List.map_cons, List.sum_cons, List.map_cons, List.sum_cons, ih]
    cases o <;> rfl

theorem natDec_length : ∀ k n : Nat, n < 10 ^ (k + 1) → (natDec n).length ≤ k + 1
  | 0, n, h => by rw [natDec_lt (by simpa using h)]; simp
  | k + 1, n, h => by
    by_cases hn : n < 10
    · rw [natDec_lt hn]; simp
    · rw [natDec_ge (by omega)]
      have := natDec_length k (n / 10) (by rw [Nat.pow_succ] at h; omega)
      simp only [List.length_append, List.length_singleton]
      omega

theorem intDec_length {t : Int} (h1 : -2 ^ 63 ≤ t) (h2 : t < 2 ^ 63) : (intDec t).length ≤ 20 := by
  cases t with
  | ofNat n =>
    have := natDec_length 18 n (by simp only [Int.ofNat_eq_natCast] at h2; omega)
    simp only [intDec]
    omega
  | negSucc n =>
    have := natDec_length 18 (n + 1) (by omega)
    simp only [intDec, List.length_append, List.length_singleton]
    omega

end Verif
