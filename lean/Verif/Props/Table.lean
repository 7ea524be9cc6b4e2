import Verif.Spec.Table
import Verif.Props.Interactive
import Verif.Props.Utf8
/-! Property C67: every packet where a command is expected begins a request of the mode, or is refused by itself. -/
namespace Verif
open Spec

variable {cfg : Cfg} {mode : Mode} {r r1 r' : Rdr} {p : Packet} {code : Nat} {msg : Bytes}

/-- The reply to a packet that is refused. -/
def refusal (code : Nat) (msg : Bytes) : List Packet :=
  [.data (b!"status " ++ decimal code ++ b!"\n"), .delim, .data msg, .flush]

/-- Sending a refusal. -/
structure Refuses (m : M Unit) (code : Nat) (msg : Bytes) : Prop where
  only : m.All (fun o => o.outputs = true)
  emits : m.Emits ((refusal code msg).map encPacket).flatten
  framed : Frames (refusal code msg) ((refusal code msg).map encPacket).flatten

theorem refuses_status {code : Nat} {msg : Bytes}
    (h : replyWith (errStatus code msg) (errStatus code msg).messages = ((refusal code (msg ++ b!"\n")).map encPacket).flatten)
    (hf : Frames (refusal code (msg ++ b!"\n")) ((refusal code (msg ++ b!"\n")).map encPacket).flatten) :
    Refuses (sendStatus (errStatus code msg)) code (msg ++ b!"\n") :=
  ⟨C41_only_output _ rfl, (emits_sendStatus _ (.inl rfl)).cast h, hf⟩

theorem all_sendError (code : Nat) (msg : Bytes) : (sendError code msg).All (fun o => o.outputs = true) := by
  have h := C41_only_output ⟨code, none, some [msg ++ b!"\n"], none⟩ rfl
  have ob : ∀ b, (outBytes b).All (fun o => o.outputs = true) := fun b => by
    unfold outBytes; exact .bind (.op rfl) fun _ => .ofIo _
  have wc : ∀ cs, (writeChunks cs).All (fun o => o.outputs = true) := by
    intro cs
    induction cs with
    | nil => exact .pure _
    | cons c cs ih => exact .bind (.bind (ob _) fun _ => ob _) fun _ => ih
  have sf : sendFlush.All (fun o => o.outputs = true) := by
    unfold sendFlush
    exact .bind (ob _) fun _ => .bind (.op rfl) fun _ => .ofIo _
  exact .bind (wc _) fun _ => .bind (ob _) fun _ => .bind (wc _) fun _ => sf

theorem refuses_error {code : Nat} {msg : Bytes}
    (h : encMsg (b!"status " ++ dec3 code ++ b!"\n") ++ (b!"0001" ++ (encMsg (msg ++ b!"\n") ++ b!"0000")) =
      ((refusal code (msg ++ b!"\n")).map encPacket).flatten)
    (hf : Frames (refusal code (msg ++ b!"\n")) ((refusal code (msg ++ b!"\n")).map encPacket).flatten) :
    Refuses (sendError code msg) code (msg ++ b!"\n") :=
  ⟨all_sendError _ _, (emits_sendError _ _).cast h, hf⟩

/-- How a line is refused whose dispatch is a failure. -/
theorem turn_status {l cmd : Bytes} {args : List Bytes} {st : Status}
    (h : r.readPacket = (.ok (.data l), r1)) (hl : CommandLine l (cmd :: args))
    (hq : ¬ (cmd = b!"quit" ∧ args = [])) (hd : dispatch cfg mode cmd args.head? = pure st) :
    turn cfg mode r = (sendStatus st >>= fun _ => pure .again : M Turn) r1 := by
  obtain ⟨hw, hne⟩ := commandLine_words hl
  rw [turn_data cfg mode r r1 l hne h]
  simp only [hw, List.head?_cons, Option.getD_some, List.tail_cons, hd]
  rw [if_neg (by simpa using hq)]
  rfl

/-- What a turn does with a packet that is refused. -/
theorem turn_refused (h : Refused mode p code msg) (hr : r.readPacket = (.ok p, r1)) :
    ∃ m : M Unit, turn cfg mode r = (m >>= fun _ => pure .again : M Turn) r1 ∧ Refuses m code msg := by
  have err : Refuses (sendError 400 b!"unknown command") 400 b!"unknown command\n" :=
    refuses_error (msg := b!"unknown command") (by decide +kernel) (frames_list (by simp [refusal]; decide +kernel))
  have sta : Refuses (sendStatus (errStatus 400 b!"unknown command")) 400 b!"unknown command\n" :=
    refuses_status (msg := b!"unknown command") (by decide +kernel) (frames_list (by simp [refusal]; decide +kernel))
  cases h with
  | flush =>
    refine ⟨_, ?_, err⟩
    show Prog.bind (Prog.bind (.ret (r.readPacket)) _) _ = _
    rw [hr]; rfl
  | delim =>
    refine ⟨_, ?_, err⟩
    show Prog.bind (Prog.bind (.ret (r.readPacket)) _) _ = _
    rw [hr]; rfl
  | empty =>
    refine ⟨_, ?_, refuses_error (msg := b!"no command provided") (by decide +kernel)
      (frames_list (by simp [refusal]; decide +kernel))⟩
    show Prog.bind (Prog.bind (.ret (r.readPacket)) _) _ = _
    rw [hr]; rfl
  | blank =>
    refine ⟨_, ?_, sta⟩
    rw [turn_data cfg mode r r1 _ (by decide) hr]
    rfl
  | @version l ws hl hn =>
    refine ⟨_, turn_status (st := errStatus 400 b!"unknown version") hr hl (by simp) ?_,
      refuses_status (msg := b!"unknown version") (by decide +kernel) (frames_list (by simp [refusal]; decide +kernel))⟩
    unfold dispatch
    rw [if_pos rfl, if_neg hn]
  | @notAllowed l cmd x more hl ho =>
    refine ⟨_, turn_status (st := errStatus 403 b!"not allowed") hr hl (by simp) ?_,
      refuses_status (msg := b!"not allowed") (by decide +kernel) (frames_list (by simp [refusal]; decide +kernel))⟩
    cases ho <;> rfl
  | @unknown l cmd args hl hn hv ho =>
    refine ⟨_, turn_status (st := errStatus 400 b!"unknown command") hr hl ?_ ?_, sta⟩
    · rintro ⟨rfl, rfl⟩
      exact hn .quit
    · unfold dispatch
      rw [if_neg hv]
      cases args with
      | nil =>
        have hb : cmd ≠ b!"batch" := fun e => hn (by rw [e]; exact .batch)
        have hll : cmd ≠ b!"list-lock" := fun e => hn (by rw [e]; exact .args .listLocks)
        have hk : ¬ (cmd = b!"lock" ∧ mode = .upload) := by rintro ⟨rfl, rfl⟩; exact hn (.args .lock)
        simp only [hb, hll, hk, false_and, if_false, List.head?_nil]
      | cons x more =>
        have h1 : cmd ≠ b!"put-object" := by
          rintro rfl
          cases mode with
          | upload => exact hn .put
          | download => exact ho ⟨by simp, .put⟩
        have h2 : cmd ≠ b!"verify-object" := by
          rintro rfl
          cases mode with
          | upload => exact hn (.args .verify)
          | download => exact ho ⟨by simp, .verify⟩
        have h3 : cmd ≠ b!"get-object" := by
          rintro rfl
          cases mode with
          | upload => exact ho ⟨by simp, .get⟩
          | download => exact hn (.args .get)
        have h4 : ¬ (cmd = b!"unlock" ∧ mode = .upload) := by rintro ⟨rfl, rfl⟩; exact hn (.args .unlock)
        simp only [h1, h2, h3, h4, List.head?_cons, reduceCtorEq, and_false, if_false]

/-- **C67**, the reply: a packet that is refused gets exactly this reply, and nothing more of the input is taken. -/
theorem C67_reply (h : Refused mode p code msg) (hr : r.readPacket = (.ok p, r1)) {tr : List Event} {x : Res Turn}
    (hf : (turn cfg mode r).Finished tr (x, r')) (ho : ∀ e ∈ tr, e.OutOk) :
    x = .ok .again ∧ r' = r1 ∧
      Frames [.data (b!"status " ++ decimal code ++ b!"\n"), .delim, .data msg, .flush] (output tr) := by
  obtain ⟨m, hm, hs⟩ := turn_refused (cfg := cfg) h hr
  rw [hm] at hf
  have hw : (m >>= fun _ => (pure Turn.again : M Turn)).wp (Logic.out false) r1 [] (fun x r s => x = .ok .again ∧
      r = r1 ∧ s = ((refusal code msg).map encPacket).flatten) := by
    rw [M.wp_bind]
    refine M.wp_mono (hs.emits false r1 []) ?_
    intro x r s h
    rw [h.1, Res.elim_ok]
    exact ⟨rfl, h.2.1, h.2.2.trans (List.nil_append _)⟩
  have h6 := Prog.wp_finished hw hf (Logic.legalTr_of_forall fun e he s => ⟨ho e he, fun h => by cases h⟩)
  rw [Logic.out_fold, List.nil_append] at h6
  refine ⟨h6.1, h6.2.1, ?_⟩
  rw [h6.2.2]
  exact hs.framed

/-- **C67**, no effect: whatever the OS answers, and wherever the server is stopped, nothing but output happens for a
packet that is refused. -/
theorem C67_untouched (h : Refused mode p code msg) (hr : r.readPacket = (.ok p, r1)) {tr : List Event}
    (hd : (turn cfg mode r).Did tr) : ∀ e ∈ tr, e.1.outputs = true := by
  obtain ⟨m, hm, hs⟩ := turn_refused (cfg := cfg) h hr
  rw [hm] at hd
  exact Prog.All.did (P := fun o => o.outputs = true) ((M.All.bind hs.only fun _ => .pure _ : (m >>= fun _ =>
    (pure Turn.again : M Turn)).All _) r1) hd

/-- **C67**, the table: every packet where a command is expected begins a request of the mode or is refused, never
both, and the refusal is determined. -/
theorem C67_table (mode : Mode) (p : Packet) :
    (Opens mode p ∨ ∃ code msg, Refused mode p code msg) ∧
    (∀ code msg, Refused mode p code msg → ¬ Opens mode p ∧ ∀ code' msg', Refused mode p code' msg' →
      code' = code ∧ msg' = msg) := by
  classical
  have notMore : ∀ {mode : Mode} {cmd x : Bytes} {more : List Bytes}, OtherMode mode cmd →
      ¬ NeedsMore mode (cmd :: x :: more) := by
    intro mode cmd x more ho hn
    generalize hws : cmd :: x :: more = ws at hn
    cases ho <;> (cases hn with
      | args h => cases h <;> revert hws <;> simp
      | _ => revert hws; simp)
  have verMore : ∀ {mode : Mode} {ws : List Bytes}, ws.head? ≠ some b!"1" → ¬ NeedsMore mode (b!"version" :: ws) := by
    intro mode ws h hn
    generalize hws : b!"version" :: ws = v at hn
    cases hn with
    | args h' =>
      cases h' with
      | version => simp only [List.cons.injEq, true_and] at hws; rw [hws] at h; exact h rfl
      | _ => revert hws; simp
    | _ => revert hws; simp
  have verOther : ∀ {mode : Mode}, ¬ OtherMode mode b!"version" := by
    intro mode h
    generalize hv : b!"version" = v at h
    cases h <;> (revert hv; decide)
  constructor
  · cases p with
    | flush => exact .inr ⟨_, _, .flush⟩
    | delim => exact .inr ⟨_, _, .delim⟩
    | data l =>
      by_cases h0 : l = []
      · subst h0; exact .inr ⟨_, _, .empty⟩
      by_cases h1 : l = b!"\n"
      · subst h1; exact .inr ⟨_, _, .blank⟩
      obtain ⟨cmd, args, hl⟩ := commandLine_exists h0 h1
      by_cases hn : NeedsMore mode (cmd :: args)
      · exact .inl ⟨l, _, rfl, hl, hn⟩
      right
      by_cases hv : cmd = b!"version"
      · subst hv
        refine ⟨_, _, .version hl fun h => hn ?_⟩
        cases args with
        | nil => cases h
        | cons x more => cases h; exact .args .version
      by_cases ho : args ≠ [] ∧ OtherMode mode cmd
      · obtain ⟨ha, ho⟩ := ho
        cases args with
        | nil => exact absurd rfl ha
        | cons x more => exact ⟨_, _, .notAllowed hl ho⟩
      · exact ⟨_, _, .unknown hl hn hv ho⟩
  · intro code msg h
    constructor
    · rintro ⟨l, ws, rfl, hl, hn⟩
      cases h with
      | empty => exact no_empty hl
      | blank => exact no_blank hl
      | version h1 h2 => rw [commandLine_unique hl h1] at hn; exact verMore h2 hn
      | notAllowed h1 h2 => rw [commandLine_unique hl h1] at hn; exact notMore h2 hn
      | unknown h1 h2 _ _ => rw [commandLine_unique hl h1] at hn; exact h2 hn
    · intro code' msg' h'
      cases h with
      | flush => cases h'; exact ⟨rfl, rfl⟩
      | delim => cases h'; exact ⟨rfl, rfl⟩
      | empty =>
        cases h' with
        | empty => exact ⟨rfl, rfl⟩
        | version h1 _ => exact absurd h1 no_empty
        | notAllowed h1 _ => exact absurd h1 no_empty
        | unknown h1 _ _ _ => exact absurd h1 no_empty
      | blank =>
        cases h' with
        | blank => exact ⟨rfl, rfl⟩
        | version h1 _ => exact absurd h1 no_blank
        | notAllowed h1 _ => exact absurd h1 no_blank
        | unknown h1 _ _ _ => exact absurd h1 no_blank
      | version h1 h2 =>
        cases h' with
        | empty => exact absurd h1 no_empty
        | blank => exact absurd h1 no_blank
        | version _ _ => exact ⟨rfl, rfl⟩
        | notAllowed h3 h4 => cases commandLine_unique h1 h3; exact absurd h4 verOther
        | unknown h3 _ h4 _ => cases commandLine_unique h1 h3; exact absurd rfl h4
      | notAllowed h1 h2 =>
        cases h' with
        | empty => exact absurd h1 no_empty
        | blank => exact absurd h1 no_blank
        | version h3 _ => cases commandLine_unique h1 h3; exact absurd h2 verOther
        | notAllowed _ _ => exact ⟨rfl, rfl⟩
        | unknown h3 _ _ h4 => cases commandLine_unique h1 h3; exact absurd ⟨by simp, h2⟩ h4
      | unknown h1 h2 h3 h4 =>
        cases h' with
        | empty => exact absurd h1 no_empty
        | blank => exact absurd h1 no_blank
        | version h5 _ => cases commandLine_unique h1 h5; exact absurd rfl h3
        | notAllowed h5 h6 => cases commandLine_unique h1 h5; exact absurd ⟨by simp, h6⟩ h4
        | unknown _ _ _ _ => exact ⟨rfl, rfl⟩

/-! ### Examples -/

namespace Tests

/-- A download from a server for uploads. -/
example : Refused .upload (.data b!"get-object x\n") 403 b!"not allowed\n" :=
  .notAllowed (line_two (a := b!"get-object") (b := b!"x") (by decide) (by decide)) .get
/-- Taking a lock needs no argument; with one, it is unknown. -/
example : Refused .upload (.data b!"lock x\n") 400 b!"unknown command\n" :=
  .unknown (line_two (a := b!"lock") (b := b!"x") (by decide) (by decide))
    (by intro h; generalize hw : [b!"lock", b!"x"] = ws at h; cases h with
      | args h => cases h <;> (revert hw; simp)
      | _ => revert hw; simp)
    (by decide) (by rintro ⟨_, h⟩; generalize hw : b!"lock" = w at h; cases h; (revert hw; decide))
example : Refused .download (.data b!"version 2\n") 400 b!"unknown version\n" :=
  .version (line_two (a := b!"version") (b := b!"2") (by decide) (by decide)) (by decide)
example : Opens .download (.data b!"get-object x\n") :=
  ⟨_, _, rfl, line_two (a := b!"get-object") (b := b!"x") (by decide) (by decide), .args .get⟩
/-- The reply in one of these cases. -/
example : ((turn Tests.cfg .upload (Rdr.new b!"0011get-object x\n0000" eofErr false)).run Tests.calm ⟨Tests.fsA, [], 0⟩).2.out =
    b!"000fstatus 403\n00010010not allowed\n0000" := by decide +kernel

end Tests

end Verif
