import Verif.Spec.Reply
import Verif.Lemmas.Prog
import Verif.Lemmas.OpsUsed
import Verif.Props.Pktline
import Verif.Props.Parsing
/-! What the server writes. -/
namespace Verif
open Spec

/-- Follows standard output. With `ro`, failing reads of file contents are excluded. -/
def Logic.out (ro : Bool) : Logic Bytes where
  pre _ _ := True
  upd s o _ := match o with
    | .out b => s ++ b
    | _ => s
  legal _ o x := Event.OutOk ⟨o, x⟩ ∧ (ro = true → Event.ReadOk ⟨o, x⟩)

theorem Logic.out_fold (ro : Bool) : ∀ (tr : List Event) (s : Bytes),
    (Logic.out ro).fold s tr = s ++ output tr
  | [], s => by simp [Logic.fold, output]
  | ⟨o, x⟩ :: tr, s => by
    simp only [Logic.fold]
    rw [Logic.out_fold ro tr]
    cases o <;> simp [Logic.out, output]

/-- `m` succeeds, does not touch the reader, and writes exactly `b`. -/
def M.Emits (m : M Unit) (b : Bytes) : Prop :=
  ∀ ro r s, m.wp (Logic.out ro) r s (fun x r' s' => x = .ok () ∧ r' = r ∧ s' = s ++ b)

theorem M.Emits.pure : M.Emits (Pure.pure ()) [] := fun _ _ _ => ⟨rfl, rfl, by simp⟩

theorem M.Emits.bind {m n : M Unit} {b c : Bytes} (h1 : m.Emits b) (h2 : n.Emits c) :
    M.Emits (m >>= fun _ => n) (b ++ c) := by
  intro ro r s
  rw [M.wp_bind]
  refine M.wp_mono (h1 ro r s) ?_
  rintro x r' s' ⟨rfl, rfl, rfl⟩
  simp only [Res.elim_ok]
  refine M.wp_mono (h2 ro _ _) ?_
  rintro x r s ⟨h, h', h''⟩
  exact ⟨h, h', by rw [h'', List.append_assoc]⟩

theorem emits_outBytes (b : Bytes) : (outBytes b).Emits b := by
  intro ro r s
  unfold outBytes
  rw [M.wp_bind, M.wp_op]
  refine ⟨trivial, fun x hx => ?_⟩
  have : x = .ok () := hx.1
  subst this
  exact ⟨rfl, rfl, rfl⟩

theorem emits_writeOne (b : Bytes) : (writeOne b).Emits (encData b) :=
  M.Emits.bind (emits_outBytes _) (emits_outBytes _)

theorem emits_writeChunks : ∀ cs, (writeChunks cs).Emits ((cs.map encData).flatten)
  | [] => M.Emits.pure
  | c :: cs => by
    rw [List.map_cons, List.flatten_cons]
    exact M.Emits.bind (emits_writeOne c) (emits_writeChunks cs)

/-- Wire form of a message: as many packets as needed. -/
def encMsg (m : Bytes) : Bytes := (writeStream m).1
def encMsgs (ms : List Bytes) : Bytes := (ms.map encMsg).flatten

theorem emits_send (m : Bytes) : (send m).Emits (encMsg m) := emits_writeChunks _

theorem emits_sendAll : ∀ ms, (sendAll ms).Emits (encMsgs ms)
  | [] => M.Emits.pure
  | m :: ms => by
    have e : encMsgs (m :: ms) = encMsg m ++ encMsgs ms := by simp [encMsgs]
    rw [e]
    exact M.Emits.bind (emits_send m) (emits_sendAll ms)

theorem emits_sendFlush : sendFlush.Emits b!"0000" := by
  intro ro r s
  unfold sendFlush
  rw [M.wp_bind]
  refine M.wp_mono (emits_outBytes b!"0000" ro r s) ?_
  rintro x r' s' ⟨rfl, rfl, rfl⟩
  simp only [Res.elim_ok]
  rw [M.wp_bind, M.wp_op]
  refine ⟨trivial, fun x hx => ?_⟩
  have : x = .ok () := hx.1
  subst this
  exact ⟨rfl, rfl, rfl⟩

theorem emits_sendDelim : sendDelim.Emits b!"0001" := emits_outBytes _

theorem emits_sendError (c : Nat) (m : Bytes) : (sendError c m).Emits
    (encMsg (b!"status " ++ dec3 c ++ b!"\n") ++ (b!"0001" ++ (encMsg (m ++ b!"\n") ++ b!"0000"))) :=
  .bind (emits_send _) (.bind emits_sendDelim (.bind (emits_send _) emits_sendFlush))

theorem emits_sendCapabilities : sendCapabilities.Emits (encMsg b!"version=1\n" ++ b!"0000") :=
  .bind (emits_send _) emits_sendFlush

/-- First part of a reply. -/
def replyHead (st : Status) : Bytes :=
  encMsg (b!"status " ++ dec3 st.code ++ b!"\n") ++ encMsgs (st.args.getD [])

/-- The whole reply, with the given data messages. -/
def replyWith (st : Status) (data : Option (List Bytes)) : Bytes :=
  replyHead st ++ (match data with
    | none => []
    | some ms => b!"0001" ++ encMsgs ms) ++ b!"0000"

theorem M.Emits.cast {m : M Unit} {b c : Bytes} (h : m.Emits b) (e : b = c) : m.Emits c := e ▸ h

theorem emits_sendStatus (st : Status) (h : st.messages.isSome ∨ st.reader = none) :
    (sendStatus st).Emits (replyWith st st.messages) := by
  obtain ⟨code, args, ms, rd⟩ := st
  have h1 := emits_send (b!"status " ++ dec3 code ++ b!"\n")
  have h0 := emits_sendFlush
  have hd := emits_sendDelim
  cases ms with
  | some ms =>
    cases args with
    | none =>
      have := h1.bind (hd.bind ((emits_sendAll ms).bind h0))
      refine M.Emits.cast this ?_
      simp [replyWith, replyHead, encMsgs]
    | some as =>
      have := h1.bind ((emits_sendAll as).bind (hd.bind ((emits_sendAll ms).bind h0)))
      refine M.Emits.cast this ?_
      simp [replyWith, replyHead]
  | none =>
    simp at h
    subst h
    cases args with
    | none =>
      have := h1.bind h0
      refine M.Emits.cast this ?_
      simp [replyWith, replyHead, encMsgs]
    | some as =>
      have := h1.bind ((emits_sendAll as).bind h0)
      refine M.Emits.cast this ?_
      simp [replyWith, replyHead]

theorem wp_copyOut (ro : Bool) (h : Option Ino) (r : Rdr) (s : Bytes) :
    (copyOut h).wp (Logic.out ro) r s (fun x r' s' => r' = r ∧ ∃ cs, s' = s ++ encMsgs cs ∧
      (x = .ok () ∨ ro = false ∧ ∃ e, x = .err e)) := by
  unfold copyOut
  rw [M.wp_bind, M.wp_op]
  refine ⟨trivial, fun x hx => ?_⟩
  obtain ⟨cs, e⟩ := x
  simp only [Res.elim_ok]
  rw [M.wp_bind]
  refine M.wp_mono (emits_sendAll cs ro r _) ?_
  rintro x r' s' ⟨rfl, rfl, rfl⟩
  simp only [Res.elim_ok]
  cases e with
  | none => exact ⟨rfl, cs, rfl, .inl rfl⟩
  | some e =>
    refine ⟨rfl, cs, rfl, .inr ⟨?_, _, rfl⟩⟩
    cases ro with
    | false => rfl
    | true => have := hx.2 rfl; cases this

/-- Sending any status: a complete reply, or (after a failed file read) one cut before its final
flush. -/
theorem wp_sendStatus (ro : Bool) (st : Status) (r : Rdr) (s : Bytes) :
    (sendStatus st).wp (Logic.out ro) r s (fun x r' s' => r' = r ∧ ∃ data,
      (x = .ok () ∧ s' = s ++ replyWith st data) ∨
      (ro = false ∧ (∃ e, x = .err e) ∧ s' ++ b!"0000" = s ++ replyWith st data)) := by
  by_cases h : st.messages.isSome ∨ st.reader = none
  · refine M.wp_mono (emits_sendStatus st h ro r s) ?_
    rintro x r' s' ⟨rfl, rfl, rfl⟩
    exact ⟨rfl, _, .inl ⟨rfl, rfl⟩⟩
  · obtain ⟨code, args, ms, rd⟩ := st
    simp only [not_or] at h
    obtain ⟨hm, hr⟩ := h
    cases ms with
    | some _ => simp at hm
    | none =>
      cases rd with
      | none => exact absurd rfl hr
      | some h =>
        have h1 := emits_send (b!"status " ++ dec3 code ++ b!"\n")
        have body : ∀ s0, M.wp (Logic.out ro) (do sendDelim; copyOut h; sendFlush) r s0
            (fun x r' s' => r' = r ∧ ∃ cs,
              (x = .ok () ∧ s' = s0 ++ (b!"0001" ++ encMsgs cs ++ b!"0000")) ∨
              (ro = false ∧ (∃ e, x = .err e) ∧ s' ++ b!"0000" = s0 ++ (b!"0001" ++ encMsgs cs ++ b!"0000"))) := by
          intro s0
          rw [M.wp_bind]
          refine M.wp_mono (emits_sendDelim ro r s0) ?_
          rintro x r' s' ⟨rfl, rfl, rfl⟩
          simp only [Res.elim_ok]
          rw [M.wp_bind]
          refine M.wp_mono (wp_copyOut ro h _ _) ?_
          rintro x r' s' ⟨rfl, cs, rfl, (rfl | ⟨hro, e, rfl⟩)⟩
          · simp only [Res.elim_ok]
            refine M.wp_mono (emits_sendFlush ro _ _) ?_
            rintro x r' s' ⟨rfl, rfl, rfl⟩
            exact ⟨rfl, cs, .inl ⟨rfl, by simp⟩⟩
          · exact ⟨rfl, cs, .inr ⟨hro, ⟨_, rfl⟩, by simp⟩⟩
        cases args with
        | none =>
          show M.wp _ (send _ >>= fun _ => do sendDelim; copyOut h; sendFlush) r s _
          rw [M.wp_bind]
          refine M.wp_mono (h1 ro r s) ?_
          rintro x r' s' ⟨rfl, rfl, rfl⟩
          simp only [Res.elim_ok]
          refine M.wp_mono (body _) ?_
          rintro x r' s' ⟨rfl, cs, hc⟩
          refine ⟨rfl, some cs, ?_⟩
          simpa [replyWith, replyHead, encMsgs] using hc
        | some as =>
          show M.wp _ (send _ >>= fun _ => sendAll as >>= fun _ => do sendDelim; copyOut h; sendFlush) r s _
          rw [M.wp_bind]
          refine M.wp_mono (h1 ro r s) ?_
          rintro x r' s' ⟨rfl, rfl, rfl⟩
          simp only [Res.elim_ok]
          rw [M.wp_bind]
          refine M.wp_mono (emits_sendAll as ro _ _) ?_
          rintro x r' s' ⟨rfl, rfl, rfl⟩
          simp only [Res.elim_ok]
          refine M.wp_mono (body _) ?_
          rintro x r' s' ⟨rfl, cs, hc⟩
          refine ⟨rfl, some cs, ?_⟩
          simpa [replyWith, replyHead] using hc

/-! ### Replies are well formed -/

def msgChunks (ms : List Bytes) : List Bytes := (ms.map (chunks maxPacketLen)).flatten

theorem encMsgs_eq (ms : List Bytes) : encMsgs ms = ((msgChunks ms).map encData).flatten := by
  induction ms with
  | nil => rfl
  | cons m ms ih =>
    have : encMsgs (m :: ms) = encMsg m ++ encMsgs ms := by simp [encMsgs]
    rw [this, ih]
    simp [msgChunks, encMsg, writeStream]

theorem msgChunks_ok (ms : List Bytes) : PayloadsOk (msgChunks ms) := by
  intro d hd
  simp only [msgChunks, List.mem_flatten, List.mem_map] at hd
  obtain ⟨l, ⟨m, _, rfl⟩, hd⟩ := hd
  exact (chunks_spec maxPacketLen (by decide) m).2 d hd

theorem msgChunks_flatten (ms : List Bytes) : (msgChunks ms).flatten = ms.flatten := by
  induction ms with
  | nil => rfl
  | cons m ms ih =>
    have : msgChunks (m :: ms) = chunks maxPacketLen m ++ msgChunks ms := by simp [msgChunks]
    rw [this, List.flatten_append, ih, (chunks_spec maxPacketLen (by decide) m).1]
    simp

theorem frames_encMsgs (ms : List Bytes) : Frames ((msgChunks ms).map .data) (encMsgs ms) := by
  rw [encMsgs_eq]
  exact frames_map_encData _ fun c hc => by have := (msgChunks_ok ms c hc).2; omega

theorem chunks_short (m : Bytes) (h1 : m ≠ []) (h2 : m.length ≤ 65516) : chunks maxPacketLen m = [m] := by
  cases m with
  | nil => exact absurd rfl h1
  | cons x xs =>
    have e1 : (x :: xs).take maxPacketLen = x :: xs := List.take_of_length_le h2
    have e2 : (x :: xs).drop maxPacketLen = [] := List.drop_of_length_le h2
    simp only [chunks, List.length_cons, chunksF, e1, e2]
    cases xs.length <;> rfl

theorem encMsg_short (m : Bytes) (h1 : m ≠ []) (h2 : m.length ≤ 65516) : encMsg m = encData m := by
  simp [encMsg, writeStream, chunks_short m h1 h2]

theorem frame_encMsg (m : Bytes) (h1 : m ≠ []) (h2 : m.length ≤ 65516) :
    Frame (.data m) (encMsg m) := by
  rw [encMsg_short m h1 h2]
  exact frame_encPacket (.data m) (by intro d e; cases e; omega)

def statusCodes : List Nat := [200, 201, 400, 403, 404, 409, 500]

theorem dec3_ok (n : Nat) (h : n ∈ statusCodes) : (dec3 n).length = 3 ∧ Dec (dec3 n) n := by
  simp only [statusCodes, List.mem_cons, List.not_mem_nil, or_false] at h
  rcases h with rfl | rfl | rfl | rfl | rfl | rfl | rfl <;>
    exact ⟨by decide +kernel, (dec_iff _ _).mpr (by decide +kernel)⟩

theorem reply_replyWith (st : Status) (data : Option (List Bytes)) (h : st.code ∈ statusCodes) :
    ∃ r : Reply, r.Ok ∧ r.code = st.code ∧ r.args = msgChunks (st.args.getD []) ∧
      r.data = data.map msgChunks ∧ Frames r.packets (replyWith st data) := by
  have hs := dec3_ok st.code h
  have hlen : (b!"status " ++ dec3 st.code ++ b!"\n").length = 11 := by simp [hs.1]
  have h1 := frame_encMsg (b!"status " ++ dec3 st.code ++ b!"\n") (by simp) (by rw [hlen]; omega)
  have h2 := frames_encMsgs (st.args.getD [])
  refine ⟨⟨st.code, dec3 st.code, msgChunks (st.args.getD []), data.map msgChunks⟩,
    ⟨h, hs, msgChunks_ok _, ?_⟩, rfl, rfl, rfl, ?_⟩
  · intro ds hd
    simp only [Option.map_eq_some_iff] at hd
    obtain ⟨ms, _, rfl⟩ := hd
    exact msgChunks_ok ms
  · have hh : Frames (.data (b!"status " ++ dec3 st.code ++ b!"\n") ::
        (msgChunks (st.args.getD [])).map .data) (replyHead st) := Frames.cons h1 h2
    have hf : Frames [Packet.flush] b!"0000" := frame_singleton .flush
    cases data with
    | none => 
      have := frames_append hh hf
      simpa [Reply.packets, replyWith] using this
    | some ms =>
      have := frames_append hh (frames_append (Frames.cons .delim (frames_encMsgs ms)) hf)
      simpa [Reply.packets, replyWith] using this

theorem isReply_replyWith (st : Status) (data : Option (List Bytes)) (h : st.code ∈ statusCodes) :
    IsReply (replyWith st data) := by
  obtain ⟨r, h1, _, _, _, h2⟩ := reply_replyWith st data h
  exact ⟨r, h1, h2⟩

theorem isReply_error (c : Nat) (m : Bytes) (h : c ∈ statusCodes) :
    IsReply (encMsg (b!"status " ++ dec3 c ++ b!"\n") ++ (b!"0001" ++ (encMsg (m ++ b!"\n") ++ b!"0000"))) := by
  have := isReply_replyWith ⟨c, none, some [m ++ b!"\n"], none⟩ (some [m ++ b!"\n"]) h
  simpa [replyWith, replyHead, encMsgs] using this

/-! ### Status codes -/

/-- Whatever `m` returns satisfies `Q`. -/
def M.Post {α : Type} (m : M α) (Q : α → Prop) : Prop :=
  ∀ (σ : Type) (L : Logic σ) r s, (∀ s o, L.pre s o) → m.wp L r s (fun x _ _ => ∀ a, x = .ok a → Q a)

namespace M.Post
variable {α β : Type} {Q : α → Prop}
theorem pure {a : α} (h : Q a) : (Pure.pure a : M α).Post Q := fun _ _ _ _ _ b hb => by cases hb; exact h
theorem throw (e : Err) : (M.throw e : M α).Post Q := fun _ _ _ _ _ b hb => by cases hb
theorem panic : (M.panic : M α).Post Q := fun _ _ _ _ _ b hb => by cases hb

theorem any (m : M α) : m.Post (fun _ => True) := by
  intro σ L r s hL
  show Prog.wp L (m r) s _
  generalize m r = p
  induction p generalizing s with
  | ret a => intro b _; trivial
  | call o k ih => exact ⟨hL s o, fun x _ => ih x _⟩

theorem bind {m : M β} {f : β → M α} (hf : ∀ b, (f b).Post Q) : (m >>= f).Post Q := by
  intro σ L r s hL
  rw [M.wp_bind]
  refine M.wp_mono (any m σ L r s hL) ?_
  rintro (a | e | _) r' s' _
  · exact hf a σ L r' s' hL
  · intro b hb; cases hb
  · intro b hb; cases hb

theorem ite {p : Prop} [Decidable p] {m n : M α} (hm : m.Post Q) (hn : n.Post Q) :
    (if p then m else n).Post Q := by
  split
  · exact hm
  · exact hn
end M.Post

abbrev CodeOk (st : Status) : Prop := st.code ∈ statusCodes

theorem c200 : 200 ∈ statusCodes := by decide
theorem c201 : 201 ∈ statusCodes := by decide
theorem c400 : 400 ∈ statusCodes := by decide
theorem c403 : 403 ∈ statusCodes := by decide
theorem c404 : 404 ∈ statusCodes := by decide
theorem c409 : 409 ∈ statusCodes := by decide
theorem c500 : 500 ∈ statusCodes := by decide

macro "code_ok" : tactic => `(tactic| (
  refine M.Post.pure ?_
  first | exact c200 | exact c201 | exact c400 | exact c403 | exact c404 | exact c409 | exact c500))

theorem post_lockLoop (cfg : Cfg) (p : Bytes) : (lockLoop cfg p).Post CodeOk := by
  unfold lockLoop
  refine .bind fun _ => ?_
  split
  · refine .bind fun _ => ?_
    code_ok
  · refine .ite ?_ (.throw _)
    refine .bind fun x => ?_
    cases x with
    | none => exact .panic
    | some l =>
      refine .bind fun _ => ?_
      code_ok

theorem post_version : versionCmd.Post CodeOk := by
  unfold versionCmd
  refine .bind fun _ => ?_
  code_ok

theorem post_batch (cfg : Cfg) (a b : Bytes) : (batchCmd cfg a b).Post CodeOk := by
  unfold batchCmd
  refine .bind fun _ => ?_
  code_ok

theorem post_put (cfg : Cfg) (a : Bytes) : (putObject cfg a).Post CodeOk := by
  unfold putObject
  refine .bind fun _ => .bind fun _ => .bind fun _ => .bind fun _ => .bind fun _ => ?_
  split
  refine .bind fun _ => .bind fun _ => ?_
  code_ok

theorem post_verify (cfg : Cfg) (a : Bytes) : (verifyObject cfg a).Post CodeOk := by
  unfold verifyObject backendVerify
  refine .bind fun _ => .bind fun _ => .bind fun _ => .bind fun _ => .bind fun _ => ?_
  repeat' (first | split | exact .throw _ | code_ok)

theorem post_get (cfg : Cfg) (a : Bytes) : (getObject cfg a).Post CodeOk := by
  unfold getObject
  refine .bind fun _ => .bind fun _ => .bind fun _ => .bind fun _ => ?_
  repeat' (first | split | exact .throw _ | code_ok)

theorem post_unlock (cfg : Cfg) (a : Bytes) : (unlockCmd cfg a).Post CodeOk := by
  unfold unlockCmd
  refine .bind fun _ => ?_
  split
  · exact .throw _
  refine .bind fun _ => ?_
  split
  · code_ok
  refine .bind fun _ => .bind fun _ => ?_
  repeat' (first | split | exact .throw _ | code_ok)

theorem post_lock (cfg : Cfg) : (lockCmd cfg).Post CodeOk := by
  unfold lockCmd
  refine .bind fun _ => .bind fun _ => ?_
  split
  · exact post_lockLoop _ _
  · exact .throw _

theorem post_listPath (cfg : Cfg) (p : Bytes) (c : Option Bytes) (o : Bool) :
    (listLocksForPath cfg p c o).Post CodeOk := by
  unfold listLocksForPath
  refine .bind fun x => ?_
  cases x with
  | none => code_ok
  | some l =>
    refine .ite ?_ ?_
    · code_ok
    · refine .bind fun _ => ?_
      code_ok

theorem post_list (cfg : Cfg) (o : Bool) : (listLocks cfg o).Post CodeOk := by
  unfold listLocks
  refine .bind fun _ => .bind fun _ => .bind fun _ => ?_
  simp only []
  split
  · exact post_listPath _ _ _ _
  · refine .bind fun _ => .bind fun _ => ?_
    code_ok

theorem post_dispatch (cfg : Cfg) (mode : Mode) (cmd : Bytes) (arg : Option Bytes) :
    (dispatch cfg mode cmd arg).Post CodeOk := by
  unfold dispatch
  repeat' (first
    | split
    | exact post_version
    | exact post_batch _ _ _
    | exact post_put _ _
    | exact post_verify _ _
    | exact post_get _ _
    | exact post_unlock _ _
    | exact post_lock _
    | exact post_list _ _
    | code_ok)

theorem codeOk_errorStatus (e : Err) : CodeOk (errorStatus e) := by
  unfold errorStatus
  split
  · exact c400
  · exact c500

end Verif
