import Verif.Spec.Server
import Verif.Lemmas.Output
import Verif.Lemmas.Fuel
/-! Running code alone, without I/O errors. -/
namespace Verif
open Spec

/-- The logic whose states are worlds and whose responses are those of the environment `ch`. -/
def Logic.run (ch : Nat → Choice) : Logic World where
  pre _ _ := True
  upd w o _ := ⟨(sem (ch w.tick) w.fs o).1, w.out ++ emitted (ch w.tick) o, w.tick + 1⟩
  legal w o x := x = (sem (ch w.tick) w.fs o).2

theorem Prog.wp_run {α : Type} (ch : Nat → Choice) (p : Prog α) (w : World) (Q : α → World → Prop) :
    p.wp (Logic.run ch) w Q ↔ Q (p.run ch w).1 (p.run ch w).2 := by
  induction p generalizing w with
  | ret a => rfl
  | call o k ih =>
    simp only [Prog.wp, Prog.run, Logic.run, true_and, forall_eq]
    exact ih _ _

/-- No call fails. -/
def Calm (ch : Nat → Choice) : Prop := ∀ n, (ch n).fault = none

/-- `m` can be run from `r` and `w` with the given outcome. -/
abbrev M.runs {α : Type} (ch : Nat → Choice) (m : M α) (r : Rdr) (w : World)
    (Q : Res α → Rdr → World → Prop) : Prop := m.wp (Logic.run ch) r w Q

variable {ch : Nat → Choice}

theorem runs_op_bind {α : Type} {o : Op} {f : Resp o → M α} {r : Rdr} {w : World} {Q}
    {fs' : FS} {x : Resp o} (h : sem (ch w.tick) w.fs o = (fs', x)) (he : ∀ c, emitted c o = [])
    (k : ∀ w', w'.fs = fs' → w'.out = w.out → (f x).runs ch r w' Q) : (M.op o >>= f).runs ch r w Q := by
  unfold M.runs
  rw [M.wp_bind, M.wp_op]
  refine ⟨trivial, fun y hy => ?_⟩
  have hy : y = (sem (ch w.tick) w.fs o).2 := hy
  rw [h] at hy
  subst hy
  refine k _ ?_ ?_
  · simp [Logic.run, h]
  · simp [Logic.run, he]

theorem runs_bind {α β : Type} {m : M α} {f : α → M β} {r : Rdr} {w : World} {Q} {P : Res α → Rdr → World → Prop}
    (h : m.runs ch r w P) (k : ∀ x r' w', P x r' w' → x.elim (fun a => (f a).runs ch r' w' Q)
      (fun e => Q (.err e) r' w') (Q .panic r' w')) : (m >>= f).runs ch r w Q := by
  unfold M.runs
  rw [M.wp_bind]
  exact M.wp_mono h k

/-- Sequencing after a success. -/
theorem runs_seq {α β : Type} {m : M α} {f : α → M β} {r : Rdr} {w : World} {Q} {P : α → Rdr → World → Prop}
    (h : m.runs ch r w (fun x r' w' => ∃ a, x = .ok a ∧ P a r' w'))
    (k : ∀ a r' w', P a r' w' → (f a).runs ch r' w' Q) : (m >>= f).runs ch r w Q := by
  refine runs_bind h ?_
  rintro x r' w' ⟨a, rfl, hp⟩
  exact k a r' w' hp

theorem runs_mono {α : Type} {m : M α} {r : Rdr} {w : World} {Q Q' : Res α → Rdr → World → Prop}
    (h : m.runs ch r w Q) (hq : ∀ a r s, Q a r s → Q' a r s) : m.runs ch r w Q' := M.wp_mono h hq

theorem runs_rdr_bind {α β : Type} {g : Rdr → Res α × Rdr} {f : α → M β} {r r' : Rdr} {w : World} {Q} {a : α}
    (h : g r = (.ok a, r')) (k : (f a).runs ch r' w Q) : (M.rdr g >>= f).runs ch r w Q := by
  unfold M.runs
  rw [M.wp_bind, M.wp_rdr, h]
  exact k

theorem runs_ofRes_bind {α β : Type} {x : Res α} {f : α → M β} {r : Rdr} {w : World} {Q} {a : α}
    (h : x = .ok a) (k : (f a).runs ch r w Q) : (M.ofRes x >>= f).runs ch r w Q := by
  subst h; exact k

theorem runs_ofIo_bind {α β : Type} {f : α → M β} {r : Rdr} {w : World} {Q} {a : α}
    (k : (f a).runs ch r w Q) : (M.ofIo (.ok a) >>= f).runs ch r w Q := k

theorem runs_pure_bind {α β : Type} {f : α → M β} {r : Rdr} {w : World} {Q} {a : α}
    (k : (f a).runs ch r w Q) : ((Pure.pure a : M α) >>= f).runs ch r w Q := k

/-! ### Output -/

/-- `m` only writes `b`. -/
def M.Prints (m : M Unit) (b : Bytes) : Prop :=
  ∀ ch r w, Calm ch → m.runs ch r w (fun x r' w' => x = .ok () ∧ r' = r ∧ w'.fs = w.fs ∧ w'.out = w.out ++ b)

theorem M.Prints.pure : M.Prints (Pure.pure ()) [] := fun _ _ _ _ => ⟨rfl, rfl, rfl, by simp⟩

theorem M.Prints.bind {m n : M Unit} {b c : Bytes} (h1 : m.Prints b) (h2 : n.Prints c) :
    M.Prints (m >>= fun _ => n) (b ++ c) := by
  intro ch r w hc
  refine runs_bind (h1 ch r w hc) ?_
  rintro x r' w' ⟨rfl, rfl, h3, h4⟩
  simp only [Res.elim_ok]
  refine runs_mono (h2 ch _ _ hc) ?_
  rintro x r s ⟨h, h', h'', h'''⟩
  exact ⟨h, h', h''.trans h3, by rw [h''', h4, List.append_assoc]⟩

theorem M.Prints.cast {m : M Unit} {b c : Bytes} (h : m.Prints b) (e : b = c) : m.Prints c := e ▸ h

theorem prints_outBytes (b : Bytes) : (outBytes b).Prints b := by
  intro ch r w hc
  unfold outBytes M.runs
  rw [M.wp_bind, M.wp_op]
  refine ⟨trivial, fun x hx => ?_⟩
  have hx : x = (sem (ch w.tick) w.fs (.out b)).2 := hx
  simp only [sem, hc w.tick] at hx
  subst hx
  exact ⟨rfl, rfl, by simp [Logic.run, sem, hc w.tick], by simp [Logic.run, emitted, hc w.tick]⟩

theorem prints_flush : (M.op .flush >>= fun r => M.ofIo r).Prints [] := by
  intro ch r w hc
  refine runs_op_bind (fs' := w.fs) (x := .ok ()) (by simp only [sem, hc w.tick]) (fun _ => rfl) ?_
  intro w' h1 h2
  exact ⟨rfl, rfl, h1, by simp [h2]⟩

theorem prints_writeOne (b : Bytes) : (writeOne b).Prints (encData b) :=
  M.Prints.bind (prints_outBytes _) (prints_outBytes _)

theorem prints_writeChunks : ∀ cs, (writeChunks cs).Prints ((cs.map encData).flatten)
  | [] => M.Prints.pure
  | c :: cs => by
    rw [List.map_cons, List.flatten_cons]
    exact M.Prints.bind (prints_writeOne c) (prints_writeChunks cs)

theorem prints_send (m : Bytes) : (send m).Prints (encMsg m) := prints_writeChunks _

theorem prints_sendAll : ∀ ms, (sendAll ms).Prints (encMsgs ms)
  | [] => M.Prints.pure
  | m :: ms => by
    have e : encMsgs (m :: ms) = encMsg m ++ encMsgs ms := by simp [encMsgs]
    rw [e]
    exact M.Prints.bind (prints_send m) (prints_sendAll ms)

theorem prints_sendFlush : sendFlush.Prints b!"0000" :=
  M.Prints.cast (M.Prints.bind (prints_outBytes b!"0000") prints_flush) (by simp)

theorem prints_sendDelim : sendDelim.Prints b!"0001" := prints_outBytes _

theorem prints_sendCapabilities : sendCapabilities.Prints (encMsg b!"version=1\n" ++ b!"0000") :=
  .bind (prints_send _) prints_sendFlush

theorem prints_sendStatus (st : Status) (h : st.messages.isSome ∨ st.reader = none) :
    (sendStatus st).Prints (replyWith st st.messages) := by
  obtain ⟨code, args, ms, rd⟩ := st
  have h1 := prints_send (b!"status " ++ dec3 code ++ b!"\n")
  have h0 := prints_sendFlush
  have hd := prints_sendDelim
  cases ms with
  | some ms =>
    cases args with
    | none =>
      have := h1.bind (hd.bind ((prints_sendAll ms).bind h0))
      refine M.Prints.cast this ?_
      simp [replyWith, replyHead, encMsgs]
    | some as =>
      have := h1.bind ((prints_sendAll as).bind (hd.bind ((prints_sendAll ms).bind h0)))
      refine M.Prints.cast this ?_
      simp [replyWith, replyHead]
  | none =>
    simp at h
    subst h
    cases args with
    | none =>
      have := h1.bind h0
      refine M.Prints.cast this ?_
      simp [replyWith, replyHead, encMsgs]
    | some as =>
      have := h1.bind ((prints_sendAll as).bind h0)
      refine M.Prints.cast this ?_
      simp [replyWith, replyHead]

theorem cutChunks_flatten : ∀ (ns : List Nat) (s : Bytes), (cutChunks ns s).flatten = s
  | [], s => by unfold cutChunks; split <;> simp_all
  | n :: ns, s => by
    unfold cutChunks
    split
    · simp_all
    · simp [cutChunks_flatten ns]

/-- Sending a file: some chunks that make up its content. -/
theorem runs_sendStatus_reader {st : Status} {i : Ino} (hm : st.messages = none) (hr : st.reader = some (some i))
    {r : Rdr} {w : World} (hc : Calm ch) :
    (sendStatus st).runs ch r w (fun x r' w' => x = .ok () ∧ r' = r ∧ w'.fs = w.fs ∧
      ∃ cs, cs.flatten = (w.fs.inodes i).data ∧ w'.out = w.out ++ replyWith st (some cs)) := by
  obtain ⟨code, args, ms, rd⟩ := st
  subst hm hr
  have h1 := prints_send (b!"status " ++ dec3 code ++ b!"\n")
  have body : ∀ r w, M.runs ch (do sendDelim; copyOut (some i); sendFlush) r w
      (fun x r' w' => x = .ok () ∧ r' = r ∧ w'.fs = w.fs ∧ ∃ cs, cs.flatten = (w.fs.inodes i).data ∧
        w'.out = w.out ++ (b!"0001" ++ encMsgs cs ++ b!"0000")) := by
    intro r w
    refine runs_bind (prints_sendDelim ch r w hc) ?_
    rintro x r' w' ⟨rfl, rfl, h2, h3⟩
    simp only [Res.elim_ok]
    refine runs_bind (P := fun x r'' w'' => x = .ok () ∧ r'' = r' ∧ w''.fs = w.fs ∧
      ∃ cs, cs.flatten = (w.fs.inodes i).data ∧ w''.out = w'.out ++ encMsgs cs) ?_ ?_
    · unfold copyOut
      refine runs_op_bind (o := .readAll (some i)) (fs' := w'.fs)
        (x := (cutChunks (ch w'.tick).chunks (w'.fs.inodes i).data, none))
        (by simp only [sem, hc w'.tick]) (fun _ => rfl) ?_
      intro w2 e1 e2
      refine runs_bind (prints_sendAll _ ch _ w2 hc) ?_
      rintro x r2 w3 ⟨rfl, rfl, h4, h5⟩
      refine ⟨rfl, rfl, by rw [h4, e1, h2], _, ?_, by rw [h5, e2]⟩
      rw [cutChunks_flatten, h2]
    · rintro x r2 w2 ⟨rfl, rfl, h4, cs, h5, h6⟩
      simp only [Res.elim_ok]
      refine runs_mono (prints_sendFlush ch _ _ hc) ?_
      rintro x r3 w3 ⟨rfl, rfl, h7, h8⟩
      exact ⟨rfl, rfl, h7.trans h4, cs, h5, by rw [h8, h6, h3]; simp⟩
  have fin : ∀ (b : Bytes) (as : List Bytes) (r : Rdr) (w w1 : World), w1.fs = w.fs → w1.out = w.out ++ b →
      replyHead ⟨code, some as, none, some (some i)⟩ = b →
      M.runs ch (do sendDelim; copyOut (some i); sendFlush) r w1 (fun x r' w' => x = .ok () ∧ r' = r ∧
        w'.fs = w.fs ∧ ∃ cs, cs.flatten = (w.fs.inodes i).data ∧
          w'.out = w.out ++ replyWith ⟨code, some as, none, some (some i)⟩ (some cs)) := by
    intro b as r w w1 e1 e2 e3
    refine runs_mono (body r w1) ?_
    rintro x r' w' ⟨h, h', h3, cs, h4, h5⟩
    refine ⟨h, h', h3.trans e1, cs, by rw [h4, e1], ?_⟩
    rw [h5, e2, replyWith, e3]
    simp
  cases args with
  | none =>
    show M.runs ch (send _ >>= fun _ => do sendDelim; copyOut (some i); sendFlush) r w _
    refine runs_bind (h1 ch r w hc) ?_
    rintro x r' w' ⟨rfl, rfl, h2, h3⟩
    simp only [Res.elim_ok]
    refine runs_mono (fin _ [] _ w w' h2 h3 (by simp [replyHead, encMsgs])) ?_
    rintro x r2 w2 ⟨h, h', h4, cs, h5, h6⟩
    exact ⟨h, h', h4, cs, h5, by rw [h6]; simp [replyWith, replyHead, encMsgs]⟩
  | some as =>
    show M.runs ch (send _ >>= fun _ => sendAll as >>= fun _ => do sendDelim; copyOut (some i); sendFlush) r w _
    refine runs_bind (h1 ch r w hc) ?_
    rintro x r' w' ⟨rfl, rfl, h2, h3⟩
    simp only [Res.elim_ok]
    refine runs_bind (prints_sendAll as ch _ _ hc) ?_
    rintro x r2 w2 ⟨rfl, rfl, h4, h5⟩
    exact fin _ as _ w w2 (h4.trans h2) (by rw [h5, h3, List.append_assoc]) (by simp [replyHead])

/-! ### Answers -/

theorem linePackets_chunksF : ∀ (f : Nat) (l : Bytes), l ≠ [] → l.length ≤ f →
    LinePackets l (chunksF f maxPacketLen l)
  | 0, l, h, hl => absurd (List.length_eq_zero_iff.mp (by omega)) h
  | f + 1, l, h, hl => by
    have e : chunksF (f + 1) maxPacketLen l = l.take maxPacketLen :: chunksF f maxPacketLen (l.drop maxPacketLen) := by
      cases l with
      | nil => exact absurd rfl h
      | cons x xs => rw [chunksF]; simp
    rw [e]
    by_cases hs : l.length ≤ 65516
    · have e1 : l.take maxPacketLen = l := List.take_of_length_le hs
      have e2 : l.drop maxPacketLen = [] := List.drop_of_length_le hs
      rw [e1, e2]
      have : chunksF f maxPacketLen [] = [] := by cases f <;> rfl
      rw [this]
      exact .short hs
    · have hk : maxPacketLen = 65516 := rfl
      conv => lhs; rw [← List.take_append_drop maxPacketLen l]
      refine .long (by rw [List.length_take]; omega) ?_ (linePackets_chunksF f _ ?_ ?_)
      · intro h0
        have := congrArg List.length h0
        simp only [List.length_drop, List.length_nil] at this
        omega
      · intro h0
        have := congrArg List.length h0
        simp only [List.length_drop, List.length_nil] at this
        omega
      · rw [List.length_drop]; omega

theorem linesPackets_msgChunks : ∀ (ls : List Bytes), (∀ l ∈ ls, l ≠ []) → LinesPackets ls (msgChunks ls)
  | [], _ => .nil
  | l :: ls, h => by
    have : msgChunks (l :: ls) = chunks maxPacketLen l ++ msgChunks ls := by simp [msgChunks]
    rw [this]
    refine .cons (linePackets_chunksF _ l (h l (by simp)) (Nat.le_refl _))
      (linesPackets_msgChunks ls fun m hm => h m (by simp [hm]))

/-- A status as an answer. -/
structure Means (st : Status) (a : Answer) : Prop where
  code : st.code = a.code
  ok : a.code ∈ statusCodes
  args : st.args.getD [] = a.args
  argsNe : ∀ l ∈ a.args, l ≠ []

theorem sends_replyWith {st : Status} {a : Answer} (h : Means st a) {data : Option (List Bytes)}
    (hd : BodyPackets a.body (data.map msgChunks)) : Sends a (replyWith st data) := by
  obtain ⟨r, h1, h2, h3, h4, h5⟩ := reply_replyWith st data (h.code ▸ h.ok)
  refine ⟨r, h1, h5, h2.trans h.code, ?_, by rw [h4]; exact hd⟩
  rw [h3, h.args]
  exact linesPackets_msgChunks _ h.argsNe

/-- Sending a status without a reader. -/
theorem runs_answer {st : Status} {a : Answer} (h : Means st a)
    (hb : match a.body with
      | .none => st.messages = none ∧ st.reader = none
      | .lines ls => st.messages = some ls ∧ ∀ l ∈ ls, l ≠ []
      | .raw _ => False) {r : Rdr} {w : World} (hc : Calm ch) :
    (sendStatus st).runs ch r w (fun x r' w' => x = .ok () ∧ r' = r ∧ w'.fs = w.fs ∧
      ∃ b, w'.out = w.out ++ b ∧ Sends a b) := by
  have hp : st.messages.isSome ∨ st.reader = none := by
    split at hb
    · exact .inr hb.2
    · exact .inl (by simp [hb.1])
    · exact hb.elim
  refine runs_mono (prints_sendStatus st hp ch r w hc) ?_
  rintro x r' w' ⟨h1, h2, h3, h4⟩
  refine ⟨h1, h2, h3, _, h4, sends_replyWith h ?_⟩
  split at hb
  · rename_i e; rw [e, hb.1]; rfl
  · rename_i ls e; rw [e, hb.1]; exact ⟨_, rfl, linesPackets_msgChunks _ hb.2⟩
  · exact hb.elim

/-- Sending an object. -/
theorem runs_answer_raw {st : Status} {a : Answer} (h : Means st a) {i : Ino} {d : Bytes}
    (hb : a.body = .raw d) (hm : st.messages = none) (hr : st.reader = some (some i))
    {r : Rdr} {w : World} (hd : (w.fs.inodes i).data = d) (hc : Calm ch) :
    (sendStatus st).runs ch r w (fun x r' w' => x = .ok () ∧ r' = r ∧ w'.fs = w.fs ∧
      ∃ b, w'.out = w.out ++ b ∧ Sends a b) := by
  refine runs_mono (runs_sendStatus_reader hm hr hc) ?_
  rintro x r' w' ⟨h1, h2, h3, cs, h4, h5⟩
  refine ⟨h1, h2, h3, _, h5, sends_replyWith h ?_⟩
  rw [hb]
  exact ⟨_, rfl, by rw [msgChunks_flatten, h4, hd]⟩

/-! ### Reading requests -/

theorem next_frame {p : Packet} {w : Bytes} (hf : Frame p w) (r : Rdr) (rest : Bytes)
    (hi : r.input = w ++ rest) : r.next = (some (.ok p), { r with input := rest }) := by
  simp only [Rdr.next, readPacket_frame hf r rest hi]

theorem readToTypeF_frames (typ : Packet) (ht : typ = .flush ∨ typ = .delim) : ∀ (ds : List Bytes) (f : Nat) (r : Rdr) (w rest : Bytes),
    Frames (ds.map .data ++ [typ]) w → r.input = w ++ rest → ds.length < f →
    readToTypeF typ f r = (.ok ds, { r with input := rest })
  | _, 0, _, _, _, _, _, h => by omega
  | [], f + 1, r, w, rest, hF, hi, _ => by
    cases hF with
    | cons hf hn =>
      cases hn
      rw [List.append_nil] at hi
      simp only [readToTypeF, next_frame hf r rest hi, if_true]
  | d :: ds, f + 1, r, w, rest, hF, hi, hl => by
    simp only [List.map_cons, List.cons_append] at hF
    generalize hps : ds.map Packet.data ++ [typ] = ps at hF
    cases hF with
    | @cons _ _ w1 ws hf hF =>
      rw [List.append_assoc] at hi
      have hne : Packet.data d ≠ typ := by rcases ht with rfl | rfl <;> simp
      have ih := readToTypeF_frames typ ht ds f { r with input := ws ++ rest } ws rest (hps ▸ hF) rfl
        (by simp only [List.length_cons] at hl; omega)
      simp only [readToTypeF, next_frame hf r _ hi, if_neg hne, ih, Packet.data?, Option.getD_some]

theorem readToType_frames {typ : Packet} (ht : typ = .flush ∨ typ = .delim) {ds : List Bytes} {r : Rdr}
    {w rest : Bytes} (hF : Frames (ds.map .data ++ [typ]) w) (hi : r.input = w ++ rest) :
    readToType typ r = (.ok ds, { r with input := rest }) := by
  refine readToTypeF_frames typ ht ds _ r w rest hF hi ?_
  have := frames_length hF
  rw [hi]; simp at this ⊢; omega

end Verif
