import Verif.Spec.Interactive
import Verif.Lemmas.Causal
import Verif.Props.Extent
/-! Property C58: replies reach a client that waits for them. -/
namespace Verif
open Spec

variable {cfg : Cfg} {mode : Mode} {r r' : Rdr} {tr : List Event}

/-! ### Flushing -/

/-- Successful executions end with a flush. -/
def M.Flushes {α : Type} (m : M α) : Prop :=
  ∀ r tr a r', (m r).Finished tr (.ok a, r') → ∃ t, tr = t ++ [⟨.flush, .ok ()⟩]

theorem M.Flushes.bind {α β : Type} {m : M α} {f : α → M β} (h : ∀ a, (f a).Flushes) : (m >>= f).Flushes := by
  intro r tr b r' hf
  obtain ⟨t1, t2, ⟨(a | e | _), r1⟩, rfl, h1, h2⟩ := Prog.finished_bind.mp hf
  · obtain ⟨t, rfl⟩ := h a _ _ _ _ h2
    exact ⟨t1 ++ t, by simp⟩
  · cases h2
  · cases h2

theorem M.Flushes.thenPure {α β : Type} {m : M α} {b : β} (h : m.Flushes) : (m >>= fun _ => Pure.pure b).Flushes := by
  intro r tr b r' hf
  obtain ⟨t1, t2, ⟨(a | e | _), r1⟩, rfl, h1, h2⟩ := Prog.finished_bind.mp hf
  · cases h2
    simpa using h _ _ _ _ h1
  · cases h2
  · cases h2

theorem M.Flushes.apply {α : Type} {m : M α} {r r' : Rdr} {tr : List Event} {a : α}
    (hf : (m r).Finished tr (.ok a, r')) (h : m.Flushes) : ∃ t, tr = t ++ [⟨.flush, .ok ()⟩] := h _ _ _ _ hf

theorem flushes_sendFlush : sendFlush.Flushes := by
  unfold sendFlush
  refine .bind fun _ => ?_
  intro r tr b r' hf
  obtain ⟨t1, t2, ⟨(a | e | _), r1⟩, rfl, h1, h2⟩ := Prog.finished_bind.mp hf
  · cases h1 with
    | call h1 =>
      cases h1
      cases a with
      | error e => cases h2
      | ok u => cases h2; exact ⟨[], rfl⟩
  · cases h2
  · cases h2

theorem flushes_sendError (c : Nat) (m : Bytes) : (sendError c m).Flushes := by
  unfold sendError
  exact .bind fun _ => .bind fun _ => .bind fun _ => flushes_sendFlush

theorem flushes_sendStatus (st : Status) : (sendStatus st).Flushes := by
  unfold sendStatus
  refine .bind fun _ => ?_
  split <;> split <;> (try split) <;> simp only [] <;>
    repeat first
    | exact flushes_sendFlush
    | refine M.Flushes.bind (fun _ => ?_)

theorem flushes_sendCapabilities : sendCapabilities.Flushes := by
  unfold sendCapabilities
  exact .bind fun _ => flushes_sendFlush

theorem turn_flushes {t : Turn} (h : (turn cfg mode r).Finished tr (.ok t, r')) :
    t = .done ∧ tr = [] ∨ ∃ t, tr = t ++ [⟨.flush, .ok ()⟩] := by
  unfold turn at h
  obtain ⟨t1, t2, ⟨(x | e | _), r1⟩, rfl, h1, h2⟩ := Prog.finished_bind.mp h
  · have e1 : t1 = [] := by
      obtain ⟨s1, s2, ⟨y, r2⟩, rfl, h3, h4⟩ := Prog.finished_bind.mp h1
      have : s1 = [] := by
        have : M.rdr Rdr.readPacket r = .ret (r.readPacket) := rfl
        rw [this] at h3
        generalize r.readPacket = q at h3
        cases h3; rfl
      subst this
      cases y <;> cases h4 <;> rfl
    subst e1
    cases x with
    | error e =>
      simp only at h2
      split at h2
      · cases h2; exact .inl ⟨rfl, rfl⟩
      · cases h2
    | ok pkt =>
      refine .inr (M.Flushes.apply h2 ?_)
      simp only
      split
      · exact .thenPure (flushes_sendError _ _)
      · split
        · exact .thenPure (flushes_sendError _ _)
        · split
          · exact .thenPure (flushes_sendStatus _)
          · refine .bind fun y => ?_
            split <;> exact .thenPure (flushes_sendStatus _)
  · cases h2
  · cases h2

/-! ### What the client receives -/

theorem receivedAfter_flush : ∀ (t : List Event) (buf : Bytes) (t2 : List Event), (∀ e ∈ t, e.OutOk) →
    receivedAfter buf (t ++ ⟨.flush, .ok ()⟩ :: t2) = buf ++ output t ++ received t2
  | [], buf, t2, _ => by simp [receivedAfter, output, received]
  | ⟨o, x⟩ :: t, buf, t2, h => by
    have ih := fun b => receivedAfter_flush t b t2 fun e he => h e (by simp [he])
    have h0 := h ⟨o, x⟩ (by simp)
    cases o with
    | out b =>
      have : x = .ok () := h0
      subst this
      simp [receivedAfter, output, ih]
    | flush =>
      have : x = .ok () := h0
      subst this
      have := ih []
      simp only [List.nil_append] at this
      simp [receivedAfter, output, this]
    | _ => simpa [receivedAfter, output] using ih buf

/-- A sequence of calls that ends with a flush. -/
def Flushed (t : List Event) : Prop := ∃ t', t = t' ++ [⟨.flush, .ok ()⟩]

theorem Flushed.append {t1 t2 : List Event} (h : Flushed t2) : Flushed (t1 ++ t2) := by
  obtain ⟨t, rfl⟩ := h
  exact ⟨t1 ++ t, by simp⟩

theorem received_flushed {t : List Event} (h : Flushed t) (ho : ∀ e ∈ t, e.OutOk) : received t = output t := by
  obtain ⟨t, rfl⟩ := h
  unfold received
  rw [receivedAfter_flush t [] [] (fun e he => ho e (by simp [he])), output_append]
  simp [output, received, receivedAfter]

/-- **C58**, one turn: whatever the client sends and whatever the OS answers, when the server goes on to
the next command it has flushed all it wrote. -/
theorem C58_flushed {t : Turn} (h : (turn cfg mode r).Finished tr (.ok t, r')) (ho : ∀ e ∈ tr, e.OutOk) :
    received tr = output tr ∧ (t = .again → IsReply (received tr)) := by
  rcases turn_flushes h with ⟨rfl, rfl⟩ | hf
  · exact ⟨rfl, by simp⟩
  · have e := received_flushed hf ho
    refine ⟨e, ?_⟩
    rintro rfl
    rw [e]
    exact C36_one_reply cfg mode r r' tr h ho

/-! ### Complete requests are consumed exactly -/

/-- A turn on a complete request does the same whatever follows. -/
theorem turn_same {ps : List Packet} {u v : Bytes} (hs : Extent mode ps) (hF : Frames ps u)
    (hi : r.input = u ++ v) (hp : r.pending = []) (hv : v ≠ []) {y : Res Turn} (h : (turn cfg mode r).Finished tr (y, r'))
    (hc : ∀ e ∈ tr, e.CopyOk) (v' : Bytes) (fin : IoErr) :
    (turn cfg mode { r with input := u ++ v', fin := fin }).Finished tr (y, { r with input := v', fin := fin }) := by
  obtain ⟨rfl, _⟩ := turn_extent hs hF hi hp h hc
  obtain ⟨s', ⟨a, ha, rfl⟩, hf⟩ := (causal_turn cfg mode r tr y _ h).2 v v' fin { r with input := u ++ v', fin := fin } hv
    (List.suffix_refl _) ⟨u, hi, rfl⟩
  have : a = [] := by simpa using ha
  subst this
  exact hf

/-- **C58**, one request: when the server goes on after a complete request, it has consumed exactly the
request, the reply has been flushed, and it did the same whatever the client sends later. -/
theorem C58_request {ps : List Packet} {u v : Bytes} {t : Turn} (hs : Extent mode ps) (hF : Frames ps u)
    (hi : r.input = u ++ v) (hp : r.pending = []) (hv : v ≠ []) (h : (turn cfg mode r).Finished tr (.ok t, r'))
    (hc : ∀ e ∈ tr, e.CopyOk) (ho : ∀ e ∈ tr, e.OutOk) :
    IsReply (received tr) ∧ t = .again ∧ r' = { r with input := v } ∧
      ∀ v' fin, (turn cfg mode { r with input := u ++ v', fin := fin }).Finished tr
        (.ok .again, { r with input := v', fin := fin }) := by
  obtain ⟨h1, h2⟩ := turn_extent hs hF hi hp h hc
  obtain rfl : t = .again := by cases t <;> simp_all
  exact ⟨(C58_flushed h ho).2 rfl, rfl, h1, turn_same hs hF hi hp hv h hc⟩

/-! ### The session -/

theorem loop_session {n : Nat} {u v : Bytes} (hs : Sent mode n u) (hv : v ≠ []) : ∀ {r r' : Rdr} {tr : List Event}
    {y : Res Unit}, r.input = u ++ v → r.pending = [] → (processCommands cfg mode r).Finished tr (y, r') →
    (∀ e ∈ tr, e.OutOk) → (∀ e ∈ tr, e.CopyOk) →
    (∃ (t1 t2 : List Event) (reps : List Bytes), tr = t1 ++ t2 ∧ reps.length = n ∧ (∀ w ∈ reps, IsReply w) ∧
      output t1 = reps.flatten ∧ (t1 = [] ∨ Flushed t1) ∧ ∀ v' fin t3 z,
        (processCommands cfg mode { r with input := v', fin := fin }).Finished t3 z →
        (processCommands cfg mode { r with input := u ++ v', fin := fin }).Finished (t1 ++ t3) z) ∨
    ((∀ a, y ≠ .ok a) ∧ ∀ v' fin, ∃ r'', (processCommands cfg mode { r with input := u ++ v', fin := fin }).Finished tr (y, r'')) := by
  induction hs with
  | nil =>
    intro r r' tr y hi hp h ho hc
    exact .inl ⟨[], tr, [], rfl, rfl, by simp, rfl, .inl rfl, fun v' fin t3 z h => h⟩
  | @cons n ps w u hq hF _ ih =>
    intro r r' tr y hi hp h ho hc
    rw [C40_loop] at h
    obtain ⟨ta, tb, ⟨y1, r1⟩, rfl, h1, h2⟩ := Prog.finished_bind.mp h
    have hi' : r.input = w ++ (u ++ v) := by rw [hi, List.append_assoc]
    have hne : u ++ v ≠ [] := by simp [hv]
    have hca : ∀ e ∈ ta, e.CopyOk := fun e he => hc e (by simp [he])
    have hoa : ∀ e ∈ ta, e.OutOk := fun e he => ho e (by simp [he])
    obtain ⟨rfl, hd⟩ := turn_extent hq hF hi' hp h1 hca
    have same := fun v' => turn_same hq hF hi' hp hne h1 hca (u ++ v')
    cases y1 with
    | ok t =>
      obtain rfl : t = .again := by cases t <;> simp_all
      simp only at h2
      have step : ∀ v' fin t3 z, (processCommands cfg mode { r with input := u ++ v', fin := fin }).Finished t3 z →
          (processCommands cfg mode { r with input := w ++ u ++ v', fin := fin }).Finished (ta ++ t3) z := by
        intro v' fin t3 z hz
        rw [C40_loop, List.append_assoc]
        exact Prog.finished_bind.mpr ⟨ta, t3, _, rfl, same v' fin, hz⟩
      rcases ih (r := { r with input := u ++ v }) rfl hp h2 (fun e he => ho e (by simp [he]))
        (fun e he => hc e (by simp [he])) with ⟨t1, t2, reps, rfl, k1, k2, k3, k4, k5⟩ | ⟨k1, k2⟩
      · refine .inl ⟨ta ++ t1, t2, output ta :: reps, by simp, by simp [k1], ?_, ?_, .inr ?_, ?_⟩
        · simp only [List.mem_cons]
          rintro x (rfl | hx)
          · exact C36_one_reply cfg mode r _ ta h1 hoa
          · exact k2 x hx
        · rw [output_append, k3]; rfl
        · have fa : Flushed ta := by
            rcases turn_flushes h1 with ⟨h, _⟩ | h
            · cases h
            · exact h
          rcases k4 with rfl | k4
          · simpa using fa
          · exact k4.append
        · intro v' fin t3 z hz
          rw [List.append_assoc ta]
          exact step _ _ _ _ (k5 v' fin t3 z hz)
      · refine .inr ⟨k1, fun v' fin => ?_⟩
        obtain ⟨r'', hr⟩ := k2 v' fin
        exact ⟨r'', step _ _ _ _ hr⟩
    | err e =>
      cases h2
      refine .inr ⟨by simp, fun v' fin => ⟨{ r with input := u ++ v', fin := fin }, ?_⟩⟩
      rw [C40_loop, List.append_assoc]
      exact Prog.finished_bind.mpr ⟨ta, [], _, rfl, same v' fin, .ret⟩
    | panic =>
      cases h2
      refine .inr ⟨by simp, fun v' fin => ⟨{ r with input := u ++ v', fin := fin }, ?_⟩⟩
      rw [C40_loop, List.append_assoc]
      exact Prog.finished_bind.mpr ⟨ta, [], _, rfl, same v' fin, .ret⟩

/-- Programs that do not look at the reader. -/
def M.Blind {α : Type} (m : M α) : Prop := ∀ r s tr y r', (m r).Finished tr (y, r') → r' = r ∧ (m s).Finished tr (y, s)

theorem M.Blind.bind {α β : Type} {m : M α} {f : α → M β} (h : m.Blind) (hf : ∀ a, (f a).Blind) : (m >>= f).Blind := by
  intro r s tr y r' hfin
  obtain ⟨t1, t2, ⟨z, r1⟩, rfl, h1, h2⟩ := Prog.finished_bind.mp hfin
  obtain ⟨rfl, k2⟩ := h r s _ _ _ h1
  cases z with
  | ok a =>
    obtain ⟨rfl, k4⟩ := hf a _ s _ _ _ h2
    exact ⟨rfl, Prog.finished_bind.mpr ⟨t1, t2, (.ok a, s), rfl, k2, k4⟩⟩
  | err e =>
    cases h2
    exact ⟨rfl, Prog.finished_bind.mpr ⟨t1, [], (.err e, s), rfl, k2, .ret⟩⟩
  | panic =>
    cases h2
    exact ⟨rfl, Prog.finished_bind.mpr ⟨t1, [], (.panic, s), rfl, k2, .ret⟩⟩

theorem M.Blind.op (o : Op) : (M.op o).Blind := by
  intro r s tr y r' h
  cases h with
  | call h => cases h; exact ⟨rfl, .call .ret⟩

theorem M.Blind.pure {α : Type} (a : α) : (Pure.pure a : M α).Blind := by
  intro r s tr y r' h
  cases h; exact ⟨rfl, .ret⟩

theorem M.Blind.ofIo {α : Type} (x : Except IoErr α) : (M.ofIo x).Blind := by
  intro r s tr y r' h
  cases x <;> (cases h; exact ⟨rfl, .ret⟩)

theorem blind_mkdirs : ∀ ps, (mkdirs ps).Blind
  | [] => .pure _
  | p :: ps => by
    unfold mkdirs
    exact .bind (.op _) fun _ => .bind (.ofIo _) fun _ => blind_mkdirs ps

theorem blind_outBytes (b : Bytes) : (outBytes b).Blind := by
  unfold outBytes
  exact .bind (.op _) fun _ => .ofIo _

theorem blind_writeChunks : ∀ cs, (writeChunks cs).Blind
  | [] => .pure _
  | _ :: cs => .bind (.bind (blind_outBytes _) fun _ => blind_outBytes _) fun _ => blind_writeChunks cs

theorem blind_sendCapabilities : sendCapabilities.Blind := by
  unfold sendCapabilities sendFlush
  exact .bind (blind_writeChunks _) fun _ => .bind (blind_outBytes _) fun _ => .bind (.op _) fun _ => .ofIo _

/-! ### Executions of one program -/

section
variable {α : Type} {p : Prog α} {t s : List Event} {a b : α}

theorem Prog.Did.prefix (h : p.Did (t ++ s)) : p.Did t := by
  induction t generalizing p with
  | nil => exact .nil
  | cons e t ih => cases h with | call h => exact .call (ih h)

theorem Prog.Did.other {o : Op} {x : Resp o} (h : p.Did (t ++ [⟨o, x⟩])) (x' : Resp o) : p.Did (t ++ [⟨o, x'⟩]) := by
  induction t generalizing p with
  | nil => cases h; exact .call .nil
  | cons e t ih => cases h with | call h => exact .call (ih h)

theorem Prog.Did.op_eq {e e' : Event} (h : p.Did (t ++ [e])) (h' : p.Did (t ++ [e'])) : e.1 = e'.1 := by
  induction t generalizing p with
  | nil => cases h; cases h'; rfl
  | cons e t ih =>
    cases h with
    | call h => cases h' with | call h' => exact ih h h'

theorem Prog.Finished.not_did {e : Event} (h : p.Finished t a) : ¬ p.Did (t ++ e :: s) := by
  induction h with
  | ret => intro h; cases h
  | call _ ih => intro h; cases h with | call h => exact ih h

theorem Prog.Finished.unique (h : p.Finished t a) (h' : p.Finished t b) : a = b := by
  induction h with
  | ret => cases h'; rfl
  | call _ ih => cases h' with | call h => exact ih h

theorem Prog.Did.complete (h : p.Did t) : ∃ s a, p.Finished (t ++ s) a ∧ (∀ e ∈ s, e.OutOk) ∧ ∀ e ∈ s, e.CopyOk := by
  induction h with
  | nil => exact exists_finished _
  | call _ ih =>
    obtain ⟨s, a, h, k⟩ := ih
    exact ⟨s, a, .call h, k⟩

/-- Another program given the same responses as long as it makes the same calls. -/
theorem Prog.Finished.follow (h : p.Finished t a) (q : Prog α) (ho : ∀ e ∈ t, e.OutOk) (hc : ∀ e ∈ t, e.CopyOk) :
    ∃ t1 s b, t1 <+: t ∧ q.Finished (t1 ++ s) b ∧ (∀ e ∈ t1 ++ s, e.OutOk) ∧ (∀ e ∈ t1 ++ s, e.CopyOk) ∧
      ∀ t2, t2 <+: t → q.Did t2 → t2.length ≤ t1.length := by
  induction h generalizing q with
  | ret =>
    obtain ⟨s, b, h1, h2, h3⟩ := exists_finished q
    exact ⟨[], s, b, List.prefix_refl _, h1, h2, h3, fun t2 ht _ => ht.length_le⟩
  | @call o k x tr a hf ih =>
    have stop : (∀ k', q ≠ .call o k') → ∃ t1 s b, t1 <+: ⟨o, x⟩ :: tr ∧ q.Finished (t1 ++ s) b ∧ (∀ e ∈ t1 ++ s, e.OutOk) ∧
        (∀ e ∈ t1 ++ s, e.CopyOk) ∧ ∀ t2, t2 <+: ⟨o, x⟩ :: tr → q.Did t2 → t2.length ≤ t1.length := by
      intro hq
      obtain ⟨s, b, h1, h2, h3⟩ := exists_finished q
      refine ⟨[], s, b, List.nil_prefix, h1, h2, h3, fun t2 ht hd => ?_⟩
      cases hd with
      | nil => exact Nat.le_refl _
      | @call o' k' x' tr' hd =>
        cases (List.cons_prefix_cons.mp ht).1
        exact absurd rfl (hq k')
    cases q with
    | ret b => exact stop (by simp)
    | call o' k' =>
      by_cases ho' : o' = o
      · subst ho'
        obtain ⟨t1, s, b, h1, h2, h3, h4, h5⟩ := ih (k' x) (fun e he => ho e (by simp [he])) (fun e he => hc e (by simp [he]))
        refine ⟨⟨o', x⟩ :: t1, s, b, List.cons_prefix_cons.mpr ⟨rfl, h1⟩, .call h2, ?_, ?_, ?_⟩
        · simp only [List.cons_append, List.mem_cons]
          rintro e (rfl | he)
          · exact ho _ (by simp)
          · exact h3 e he
        · simp only [List.cons_append, List.mem_cons]
          rintro e (rfl | he)
          · exact hc _ (by simp)
          · exact h4 e he
        · intro t2 ht hd
          cases hd with
          | nil => simp
          | @call _ _ x' tr' hd =>
            obtain ⟨e, h6⟩ := List.cons_prefix_cons.mp ht
            cases e
            simpa using h5 _ h6 hd
      · exact stop fun k'' h => by cases h; exact ho' rfl

end

/-- After the calls `t`, whatever the client sends after `u`, the `n` requests have been answered; if it
sends nothing more the server ends there, without error if the input ends and with an error if the
connection breaks. -/
def Answered (cfg : Cfg) (mode : Mode) (checked : Bool) (n : Nat) (u : Bytes) (t : List Event) : Prop :=
  (∃ reps : List Bytes, reps.length = n ∧ (∀ w ∈ reps, IsReply w) ∧ received t = b!"000eversion=1\n0000" ++ reps.flatten) ∧
  (∀ v fin, (onInput cfg mode checked u v fin).Did t) ∧
  ∀ fin, ∃ x, (onInput cfg mode checked u [] fin).Finished t x ∧ (x.code = 0 ↔ fin.kind = .unexpectedEof)

/-- The end of `mainProg`. -/
def exitProg (x : Res Unit × Rdr) : Prog Exit :=
  match x.1 with
  | .ok _ => .ret ⟨ExitStatus.success.code, []⟩
  | .err e => .ret ⟨e.exitStatus.code, e.display ++ b!"\n"⟩
  | .panic => .ret ⟨101, []⟩

theorem mainProg_eq (cfg : Cfg) (op : Bytes) (r : Rdr) : mainProg cfg op r = (runProgram cfg op r).bind exitProg := rfl

theorem runProgram_mode (cfg : Cfg) (mode : Mode) : runProgram cfg (modeWord mode) =
    (createDirectories cfg >>= fun _ => sendCapabilities >>= fun _ => processCommands cfg mode) := by
  cases mode <;> rfl

theorem processCommands_end {fin : IoErr} (hi : r.input = []) (hf : r.fin = fin) : processCommands cfg mode r =
    .ret (if fin.kind = .unexpectedEof then .ok () else .err (Err.ofIo fin), { r with input := [] }) := by
  have h : r.readPacket = (.err (Err.ofIo fin), { r with input := [] }) := by
    unfold Rdr.readPacket Rdr.readExact
    rw [if_neg (by simp [hi]), hf]
  split
  · rename_i hk
    exact C40_eof cfg mode r _ (Err.ofIo fin) h hk
  · rename_i hk
    exact C40_bad_header cfg mode r _ (Err.ofIo fin) h hk

theorem main_session {n : Nat} {u v : Bytes} {fin : IoErr} {checked : Bool} {x : Exit} (hs : Sent mode n u) (hv : v ≠ [])
    (h : (onInput cfg mode checked u v fin).Finished tr x) (ho : ∀ e ∈ tr, e.OutOk) (hc : ∀ e ∈ tr, e.CopyOk) :
    (∃ t1 t2, tr = t1 ++ t2 ∧ Answered cfg mode checked n u t1) ∨
    (x.code ≠ 0 ∧ ∀ v' fin', (onInput cfg mode checked u v' fin').Finished tr x) := by
  unfold Answered
  unfold onInput at h ⊢
  simp only [mainProg_eq, runProgram_mode] at h ⊢
  obtain ⟨tp, tx, ⟨y, r3⟩, rfl, h1, h2⟩ := Prog.finished_bind.mp h
  have etx : tx = [] := by rcases y with a | e | _ <;> cases h2 <;> rfl
  subst etx
  simp only [List.append_nil] at ho hc ⊢
  have bad : (∀ a, y ≠ .ok a) → (∀ v' fin', ∃ r'', ((createDirectories cfg >>= fun _ => sendCapabilities >>= fun _ =>
      processCommands cfg mode) (.new (u ++ v') fin' checked)).Finished tp (y, r'')) →
      x.code ≠ 0 ∧ ∀ v' fin', (((createDirectories cfg >>= fun _ => sendCapabilities >>= fun _ =>
      processCommands cfg mode) (.new (u ++ v') fin' checked)).bind exitProg).Finished tp x := by
    intro hy hall
    refine ⟨?_, fun v' fin' => ?_⟩
    · rcases y with a | e | _
      · exact absurd rfl (hy a)
      · cases h2
        show e.exitStatus.code ≠ 0
        unfold Err.exitStatus
        split <;> decide
      · cases h2
        decide
    · obtain ⟨r'', hr⟩ := hall v' fin'
      have := (Prog.finished_bind (f := exitProg)).mpr ⟨tp, [], _, rfl, hr, h2⟩
      simpa using this
  obtain ⟨ta, tb, ⟨y1, r1⟩, rfl, h3, h4⟩ := Prog.finished_bind.mp h1
  have bl1 : (createDirectories cfg).Blind := blind_mkdirs _
  obtain ⟨rfl, -⟩ := bl1 _ (.new [] fin checked) _ _ _ h3
  have same1 := fun s => (bl1 _ s _ _ _ h3).2
  have oa : output ta = [] := by
    have hl : (Logic.out false).LegalTr [] ta :=
      Logic.legalTr_of_forall fun e he s => ⟨ho e (by simp [he]), fun h => by cases h⟩
    have := Prog.wp_finished (wp_mkdirs_out false [] _ _) h3 hl
    rw [Logic.out_fold] at this
    simpa using this
  rcases y1 with _ | e | _
  · obtain ⟨tc, td, ⟨y2, r2⟩, rfl, h5, h6⟩ := Prog.finished_bind.mp h4
    obtain ⟨rfl, -⟩ := blind_sendCapabilities _ (.new [] fin checked) _ _ _ h5
    have same2 := fun s => (blind_sendCapabilities _ s _ _ _ h5).2
    have hl : (Logic.out false).LegalTr [] tc :=
      Logic.legalTr_of_forall fun e he s => ⟨ho e (by simp [he]), fun h => by cases h⟩
    have em := Prog.wp_finished (emits_sendCapabilities false _ []) h5 hl
    rw [Logic.out_fold] at em
    obtain ⟨e1, -, e2⟩ := em
    simp only [List.nil_append] at e1 e2
    subst e1
    have fc : Flushed tc := flushes_sendCapabilities _ _ _ _ h5
    have whole : ∀ {v' fin' t z}, (processCommands cfg mode (.new (u ++ v') fin' checked)).Finished t z →
        ((createDirectories cfg >>= fun _ => sendCapabilities >>= fun _ =>
          processCommands cfg mode) (.new (u ++ v') fin' checked)).Finished (ta ++ (tc ++ t)) z := fun hz =>
      Prog.finished_bind.mpr ⟨ta, _, (_, _), rfl, same1 _, Prog.finished_bind.mpr ⟨tc, _, (_, _), rfl, same2 _, hz⟩⟩
    rcases loop_session hs hv (r := .new (u ++ v) fin checked) rfl rfl h6 (fun e he => ho e (by simp [he]))
      (fun e he => hc e (by simp [he])) with ⟨t1, t2, reps, rfl, k1, k2, k3, k4, k5⟩ | ⟨k1, k2⟩
    · refine .inl ⟨ta ++ (tc ++ t1), t2, by simp, ⟨reps, k1, k2, ?_⟩, ?_, ?_⟩
      · have ff : Flushed (ta ++ (tc ++ t1)) := by
          refine Flushed.append ?_
          rcases k4 with rfl | k4
          · simpa using fc
          · exact k4.append
        rw [received_flushed ff fun e he => ho e (by
          simp only [List.mem_append] at he ⊢
          rcases he with h | h | h <;> simp [h])]
        rw [output_append, output_append, oa, e2, k3]
        rfl
      · intro v' fin'
        obtain ⟨t3, z, hz, -, -⟩ := exists_finished (processCommands cfg mode (.new v' fin' checked))
        have hw := whole (k5 v' fin' t3 z hz)
        have e : ta ++ (tc ++ (t1 ++ t3)) = (ta ++ (tc ++ t1)) ++ t3 := by simp
        rw [e] at hw
        have := (Prog.did_bind (f := exitProg)).mpr (.inl hw.did)
        exact Prog.Did.prefix this
      · intro fin'
        have e := processCommands_end (cfg := cfg) (mode := mode) (r := .new [] fin' checked) (fin := fin') rfl rfl
        by_cases hk : fin'.kind = .unexpectedEof
        · rw [if_pos hk] at e
          have := whole (k5 [] fin' [] (.ok (), .new [] fin' checked) (by
            show (processCommands cfg mode (.new [] fin' checked)).Finished _ _
            rw [e]; exact .ret))
          simp only [List.append_nil] at this
          have := (Prog.finished_bind (f := exitProg)).mpr ⟨_, [], _, rfl, this, .ret⟩
          exact ⟨_, by simpa using this, by simp [hk, ExitStatus.code]⟩
        · rw [if_neg hk] at e
          have := whole (k5 [] fin' [] (.err (Err.ofIo fin'), .new [] fin' checked) (by
            show (processCommands cfg mode (.new [] fin' checked)).Finished _ _
            rw [e]; exact .ret))
          simp only [List.append_nil] at this
          have := (Prog.finished_bind (f := exitProg)).mpr ⟨_, [], _, rfl, this, .ret⟩
          exact ⟨_, by simpa using this, by simp [hk, Err.ofIo, Err.exitStatus, ExitStatus.code]⟩
    · refine .inr (bad k1 fun v' fin' => ?_)
      obtain ⟨r'', hr⟩ := k2 v' fin'
      exact ⟨r'', whole hr⟩
  · cases h4
    exact .inr (bad (by simp) fun v' fin' => ⟨_, Prog.finished_bind.mpr ⟨ta, [], (_, _), rfl, same1 _, .ret⟩⟩)
  · cases h4
    exact .inr (bad (by simp) fun v' fin' => ⟨_, Prog.finished_bind.mpr ⟨ta, [], (_, _), rfl, same1 _, .ret⟩⟩)

/-- **C58**, sessions: whatever the OS answers (as long as output and the writing of uploads succeed),
the server answers the complete requests it has been sent, and flushes the answers, without knowing what
the client sends next; or it ends with an error, again without knowing. -/
theorem C58_session {n : Nat} {u v : Bytes} {fin : IoErr} {checked : Bool} {x : Exit} (hs : Sent mode n u)
    (h : (onInput cfg mode checked u v fin).Finished tr x) (ho : ∀ e ∈ tr, e.OutOk) (hc : ∀ e ∈ tr, e.CopyOk) :
    (∃ t1 t2, tr = t1 ++ t2 ∧ Answered cfg mode checked n u t1) ∨
    (x.code ≠ 0 ∧ ∀ v' fin', (onInput cfg mode checked u v' fin').Finished tr x) := by
  obtain ⟨t, s, y, ⟨t', rfl⟩, h2, h3, h4, h5⟩ := h.follow (onInput cfg mode checked u [0] fin) ho hc
  -- a sequence of calls that both programs make is one that is made here
  have key : ∀ t1, (onInput cfg mode checked u v fin).Did t1 → t1 <+: t ++ s → t1 <+: t := by
    intro t1 hd hp
    rcases List.prefix_or_prefix_of_prefix hp (List.prefix_append t s) with h | ⟨a, rfl⟩
    · exact h
    · cases a with
      | nil => simp
      | cons e a =>
        exfalso
        have hd1 : (onInput cfg mode checked u v fin).Did (t ++ [e]) := Prog.Did.prefix (s := a) (by simpa using hd)
        cases t' with
        | nil =>
          simp only [List.append_nil] at h
          exact h.not_did hd1
        | cons e' t' =>
          have hd2 : (onInput cfg mode checked u v fin).Did (t ++ [e']) :=
            Prog.Did.prefix (s := t') (by simpa using h.did)
          have hq : (onInput cfg mode checked u [0] fin).Did (t ++ [e]) := by
            obtain ⟨b, hb⟩ := hp
            refine Prog.Did.prefix (s := a ++ b) ?_
            have := h2.did
            rw [← hb] at this
            simpa using this
          have e1 := hd1.op_eq hd2
          obtain ⟨o, z⟩ := e
          obtain ⟨o', z'⟩ := e'
          simp only at e1
          subst e1
          have := h5 (t ++ [⟨o, z'⟩]) (by simp) (hq.other z')
          simp only [List.length_append, List.length_cons, List.length_nil] at this
          omega
  rcases main_session hs (by simp) h2 h3 h4 with ⟨t1, t2, e, ha⟩ | ⟨h6, h7⟩
  · obtain ⟨t3, rfl⟩ := key t1 (ha.2.1 v fin) ⟨t2, e.symm⟩
    exact .inl ⟨t1, t3 ++ t', by simp, ha⟩
  · have k := key (t ++ s) (h7 v fin).did (List.prefix_refl _)
    have hs' : s = [] := by
      have := k.length_le
      simp only [List.length_append] at this
      exact List.length_eq_zero_iff.mp (by omega)
    subst hs'
    simp only [List.append_nil] at h7
    have ht' : t' = [] := by
      cases t' with
      | nil => rfl
      | cons e t' => exact absurd h.did (h7 v fin).not_did
    subst ht'
    simp only [List.append_nil] at h ⊢
    cases (h7 v fin).unique h
    exact .inr ⟨h6, h7⟩

/-- **C58**, no deadlock: when the server waits for its client, everything the client has asked for has
been answered, and the answers have been flushed. -/
theorem C58_waiting {n : Nat} {u : Bytes} {checked : Bool} (hs : Sent mode n u) (hw : Waiting cfg mode checked u tr)
    (ho : ∀ e ∈ tr, e.OutOk) (hc : ∀ e ∈ tr, e.CopyOk) : ∃ reps : List Bytes, reps.length = n ∧ (∀ w ∈ reps, IsReply w) ∧
      received tr = b!"000eversion=1\n0000" ++ reps.flatten := by
  obtain ⟨s, x, h1, h2, h3⟩ := (hw.did [0] eofErr).complete
  have more : ∀ {e : Event} {a : List Event}, (∀ v fin, (onInput cfg mode checked u v fin).Did (tr ++ e :: a)) → False := by
    intro e a h
    exact hw.call ⟨e.1, fun v fin => ⟨e.2, Prog.Did.prefix (s := a) (by simpa using h v fin)⟩⟩
  rcases C58_session hs h1 (by
      simp only [List.mem_append]
      rintro e (h | h)
      · exact ho e h
      · exact h2 e h) (by
      simp only [List.mem_append]
      rintro e (h | h)
      · exact hc e h
      · exact h3 e h) with ⟨t1, t2, e, ha⟩ | ⟨-, h6⟩
  · rcases List.append_eq_append_iff.mp e with ⟨a, rfl, -⟩ | ⟨a, rfl, -⟩
    · cases a with
      | nil => simpa using ha.1
      | cons e a => exact (more ha.2.1).elim
    · cases a with
      | nil => simpa using ha.1
      | cons e a =>
        obtain ⟨x, hx, -⟩ := ha.2.2 eofErr
        exact absurd (hw.did [] eofErr) hx.not_did
  · cases s with
    | nil =>
      simp only [List.append_nil] at h6
      exact (hw.ends ⟨x, h6⟩).elim
    | cons e s => exact (more fun v fin => (h6 v fin).did).elim

/-- The point where everything has been answered is one where the server waits. -/
theorem Answered.waiting {n : Nat} {u : Bytes} {checked : Bool} (h : Answered cfg mode checked n u tr) :
    Waiting cfg mode checked u tr := by
  obtain ⟨-, h1, h2⟩ := h
  refine ⟨h1, ?_, ?_⟩
  · rintro ⟨o, h⟩
    obtain ⟨x, hx, -⟩ := h2 eofErr
    obtain ⟨y, hy⟩ := h [] eofErr
    exact hx.not_did hy
  · rintro ⟨x, h⟩
    obtain ⟨a, ha, ha'⟩ := h2 eofErr
    obtain ⟨b, hb, hb'⟩ := h2 ⟨.other 104, []⟩
    cases (h [] eofErr).unique ha
    cases (h [] ⟨.other 104, []⟩).unique hb
    have := hb'.mp (ha'.mpr rfl)
    cases this

namespace Tests

/-- An upload, a command that is not known, and a request for a lock. -/
def three : Bytes := enc putX ++ (enc [.data b!"hello\n"] ++ (enc (lockOf b!"f") ++ []))

theorem three_sent : Sent .upload 3 three := by
  refine .cons (put_extent putX_encodes) (frames_enc putX (by decide)) (.cons (ps := [.data b!"hello\n"]) (.single ?_) (frames_enc [.data b!"hello\n"] (by decide))
    (.cons (shaped_extent (.args (l := b!"lock") (ws := [b!"lock"]) (items := [b!"path=f\n", b!"refname=refs/heads/main\n"])
      ⟨b!"lock", .one (by decide), by decide, .inr ⟨rfl, by decide⟩⟩ .lock)) (frames_enc (lockOf b!"f") (by decide)) .nil))
  rintro ⟨l, w, he, hl, h⟩
  cases he
  have hw : [b!"hello"] = w := (commandLine_words hl).1
  generalize hm : Mode.upload = m at h
  cases h with
  | args h => cases h <;> simp at hw
  | _ => simp at hw

def threeEvents : List Event := (onInput Tests.cfg .upload false three [] eofErr).events calm ⟨fs0, [], 0⟩

end Tests

open Tests in
/-- A session as in `C58_session`: the three requests are answered, so that there is a point where the
server waits, as in `C58_waiting`. -/
example : ∃ t, Waiting Tests.cfg .upload false three t ∧ (∀ e ∈ t, e.OutOk) ∧ (∀ e ∈ t, e.CopyOk) ∧ 20 < t.length := by
  have h : (onInput Tests.cfg .upload false three [] eofErr).Finished threeEvents
      ((onInput Tests.cfg .upload false three [] eofErr).run calm ⟨fs0, [], 0⟩).1 := Prog.run_finished _ _ _
  have ho : ∀ e ∈ threeEvents, e.OutOk := fun e he => Event.outOk_of (List.all_eq_true.mp
    (show threeEvents.all Event.outOkB = true by decide +kernel) e he)
  have hc : ∀ e ∈ threeEvents, e.CopyOk := copyOkB_ok (by decide +kernel)
  have hx : ((onInput Tests.cfg .upload false three [] eofErr).run calm ⟨fs0, [], 0⟩).1 = ⟨0, []⟩ := by decide +kernel
  rcases C58_session three_sent h ho hc with ⟨t1, t2, e, ha⟩ | ⟨h1, _⟩
  · obtain ⟨x, hx, -⟩ := ha.2.2 eofErr
    have : t2 = [] := by
      cases t2 with
      | nil => rfl
      | cons e' t2 =>
        rw [e] at h
        exact absurd h.did hx.not_did
    subst this
    simp only [List.append_nil] at e
    subst e
    exact ⟨_, ha.waiting, ho, hc, by decide +kernel⟩
  · rw [hx] at h1
    exact absurd rfl h1

/-- Bytes that were not flushed do not count as received. -/
example : received [⟨.out b!"ab", .ok ()⟩, ⟨.flush, .ok ()⟩, ⟨.out b!"c", .ok ()⟩] = b!"ab" := rfl

end Verif
