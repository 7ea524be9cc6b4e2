import Verif.Lemmas.ServeList
/-! One turn of the command loop, and whole sessions, run alone without I/O errors. -/
namespace Verif
open Spec

variable {ch : Nat → Choice} {cfg : Cfg} {s : Store} {mode : Mode}

theorem commandWords_line {x l : Bytes} (h : IsLine x l) (hx : x.getLast? ≠ some NL) :
    commandWords l = splitOn SP x := by
  unfold commandWords
  rcases h with rfl | rfl
  · rw [if_neg hx]
  · have : (x ++ b!"\n").getLast? = some NL := by rw [List.getLast?_concat]; rfl
    rw [if_pos this, List.dropLast_concat]

theorem isLine_ne {x l : Bytes} (h : IsLine x l) (hx : x ≠ []) : l ≠ [] := by
  rcases h with rfl | rfl
  · exact hx
  · simp

/-- `cmd oid` as a command line. -/
theorem words_oid {cmd oid l : Bytes} (ho : IsOid oid) (hc : (32 : UInt8) ∉ cmd)
    (h : IsLine (cmd ++ b!" " ++ oid) l) : commandWords l = [cmd, oid] ∧ l ≠ [] := by
  have hne : oid ≠ [] := by intro e; have := ho.1; rw [e] at this; simp at this
  have hlast : (cmd ++ b!" " ++ oid).getLast? ≠ some NL := by
    rw [List.getLast?_append, List.getLast?_eq_some_getLast hne]
    simp only [Option.some_or, ne_eq, Option.some.injEq]
    intro e
    exact oid_notin ho (x := NL) (by decide) (e ▸ List.getLast_mem hne)
  refine ⟨?_, isLine_ne h (by simp)⟩
  rw [commandWords_line h hlast]
  have : cmd ++ b!" " ++ oid = cmd ++ 32 :: oid := by simp
  rw [this, SP, splitOn_append 32 cmd _ hc, splitOn_none 32 oid (isOid_nosp ho)]

/-- What a turn has to do for request `q`. -/
def Turned (cfg : Cfg) (mode : Mode) (ch : Nat → Choice) (s : Store) (q : Request) (tn : Turn) (r' : Rdr) (out : Bytes)
    (x : Res Turn) (r : Rdr) (w : World) : Prop :=
  x = .ok tn ∧ r = r' ∧ ∃ t t' b, Clock cfg ch t ∧ Clock cfg ch t' ∧ w.out = out ++ b ∧
    Sends (answer cfg mode s t t' q).1 b ∧ Rep cfg (answer cfg mode s t t' q).2 w.fs ∧ Ready cfg w.fs

/-- A command served by a handler. -/
theorem turn_handled {q : Request} {l rest1 : Bytes} {hw : Bytes} {r r' : Rdr} {w : World} {cmd : Bytes}
    {args : List Bytes} (hc : Calm ch) (hf : Frame (.data l) hw) (hi : r.input = hw ++ rest1) (hl : l ≠ [])
    (hwords : commandWords l = cmd :: args) (hq : cmd ≠ b!"quit")
    (hd : (dispatch cfg mode cmd args.head?).runs ch { r with input := rest1 } w
      (Handled cfg mode ch s q r' w.out)) :
    (turn cfg mode).runs ch r w (Turned cfg mode ch s q .again r' w.out) := by
  unfold turn
  refine runs_bind (P := fun x r2 w2 => x = .ok (.ok (.data l)) ∧ r2 = { r with input := rest1 } ∧ w2 = w) ?_ ?_
  · unfold M.runs
    rw [M.wp_attempt, M.wp_rdr, readPacket_frame hf r rest1 hi]
    exact show _ ∧ _ ∧ _ from ⟨rfl, rfl, rfl⟩
  rintro x r2 w ⟨rfl, rfl, rfl⟩
  simp only [Res.elim_ok, Packet.data?, hl, if_false, hwords, List.head?_cons, Option.getD_some, List.tail_cons, hq,
    false_and]
  refine runs_bind (P := fun x r2 w2 => ∃ y, Handled cfg mode ch s q r' w.out y r2 w2 ∧
    x = match y with | .ok st => .ok (.ok st) | .err e => .ok (.error e) | .panic => .panic) ?_ ?_
  · unfold M.runs
    rw [M.wp_attempt]
    refine M.wp_mono hd ?_
    rintro (st | e | _) r2 w2 h <;> exact ⟨_, h, rfl⟩
  rintro x r2 w2 ⟨y, ⟨rfl, e1, t, t', st, ht, ht', hy, hr, hrd, hst⟩, rfl⟩
  have fin : (sendStatus st >>= fun _ => (pure Turn.again : M Turn)).runs ch r2 w2
      (Turned cfg mode ch s q .again r2 w.out) := by
    refine runs_bind (runs_status hst hc) ?_
    rintro x r3 w3 ⟨rfl, rfl, f1, b, f2, f3⟩
    exact ⟨rfl, rfl, t, t', b, ht, ht', by rw [f2, e1], f3, by rw [f1]; exact hr, by rw [f1]; exact hrd⟩
  cases y with
  | ok st' => cases hy; exact fin
  | err e => cases hy; exact fin
  | panic => cases hy

/-- Only `quit` ends the loop. -/
def turnOf : Request → Turn
  | .quit => .done
  | _ => .again

/-- An upload; what is left in the buffer counts as part of its data. -/
theorem runs_turn_put {oid data : Bytes} {n : Nat} {ps : List Packet} {wire rest : Bytes} {r : Rdr} {w : World}
    (hc : Calm ch) (hsha : ∀ b, (cfg.sha b).length = 32) (he : Encodes (.put oid n data) ps) (hF : Frames ps wire)
    (hi : r.input = wire ++ rest) (hr : Rep cfg s w.fs) (hd : Ready cfg w.fs) :
    (turn cfg .upload).runs ch r w (Turned cfg .upload ch s (.put oid n (r.pending ++ data)) .again
      { r with input := rest, pending := [] } w.out) := by
  cases he with
  | @put l kv oid sz data n ds ho hl ha hs hn hds hdata =>
    obtain ⟨v, u, rfl, hv, hu⟩ := frames_split (ps := [Packet.data l]) (by simpa using hF)
    have hu : Frames ((argPackets kv ++ [.delim]) ++ (ds.map .data ++ [.flush])) u := by simpa using hu
    obtain ⟨u1, u2, rfl, hu1, hu2⟩ := frames_split hu
    rw [List.append_assoc, List.append_assoc] at hi
    obtain ⟨h1, h2⟩ := words_oid (cmd := b!"put-object") ho (by decide) hl
    subst hdata
    exact turn_handled hc (frames_singleton hv) hi h2 h1 (by decide)
      (runs_put (r := { r with input := u1 ++ (u2 ++ rest) }) (.inl rfl) hc hsha ho ha hs hn hds hu1 hu2 rfl hr hd)

/-- **One request.** -/
theorem runs_turn {q : Request} {ps : List Packet} {wire rest : Bytes} {r : Rdr} {w : World}
    (hc : Calm ch) (hsha : ∀ b, (cfg.sha b).length = 32) (hclk : ∀ t, Clock cfg ch t → TimeOk cfg t)
    (he : Encodes q ps) (hF : Frames ps wire) (hi : r.input = wire ++ rest) (hp : r.pending = [])
    (hal : Allowed mode q) (hr : Rep cfg s w.fs) (hd : Ready cfg w.fs) :
    (turn cfg mode).runs ch r w
      (Turned cfg mode ch s q (turnOf q) { r with input := rest } w.out) := by
  cases he with
  | @version l kv hl =>
    obtain ⟨v, u, rfl, hv, hu⟩ := frames_split (ps := [Packet.data l]) hF
    rw [List.append_assoc] at hi
    refine turn_handled hc (frames_singleton hv) hi (isLine_ne hl (by simp))
      (cmd := b!"version") (args := [b!"1"]) ?_ (by decide) ?_
    · rw [commandWords_line hl (by decide)]; decide
    · exact runs_version hu rfl hr hd
  | @quit l hl =>
    obtain ⟨t, ht⟩ := clock_exists cfg ch
    have hf := frames_singleton hF
    unfold turn
    refine runs_bind (P := fun x r2 w2 => x = .ok (.ok (.data l)) ∧ r2 = { r with input := rest } ∧ w2 = w) ?_ ?_
    · unfold M.runs
      rw [M.wp_attempt, M.wp_rdr, readPacket_frame hf r rest hi]
      exact show _ ∧ _ ∧ _ from ⟨rfl, rfl, rfl⟩
    rintro x r2 w2 ⟨rfl, rfl, rfl⟩
    have hw : commandWords l = [b!"quit"] := by
      rw [commandWords_line hl (by decide)]; decide
    have hne : l ≠ [] := isLine_ne hl (by simp)
    simp only [Res.elim_ok, Packet.data?, hne, if_false, hw, List.head?_cons, Option.getD_some, List.tail_cons,
      List.head?_nil, and_self, if_true]
    refine runs_bind (runs_status (st := Status.success) (a := ⟨200, [], .none⟩)
      ⟨⟨rfl, c200, rfl, by simp⟩, rfl, rfl⟩ hc) ?_
    rintro x r3 w3 ⟨rfl, rfl, f1, b, f2, f3⟩
    exact ⟨rfl, rfl, t, t, b, ht, ht, f2, f3, by rw [f1]; exact hr, by rw [f1]; exact hd⟩
  | @batch l kv items ls hl ha hh hb =>
    obtain ⟨v, u, rfl, hv, hu⟩ := frames_split (ps := [Packet.data l]) (by simpa using hF)
    have hu : Frames ((argPackets kv ++ [.delim]) ++ (ls.map .data ++ [.flush])) u := by simpa using hu
    obtain ⟨u1, u2, rfl, hu1, hu2⟩ := frames_split hu
    rw [List.append_assoc, List.append_assoc] at hi
    refine turn_handled hc (frames_singleton hv) hi (isLine_ne hl (by simp))
      (cmd := b!"batch") (args := []) ?_ (by decide) ?_
    · rw [commandWords_line hl (by decide)]; decide
    · cases mode with
      | upload => exact runs_batch hc ha hh hb hu1 hu2 rfl hr hd rfl
      | download => exact runs_batch hc ha hh hb hu1 hu2 rfl hr hd rfl
  | put h1 h2 h3 h4 h5 h6 h7 =>
    have hm : mode = .upload := hal
    subst hm
    have e : ({ r with input := rest, pending := [] } : Rdr) = { r with input := rest } := by rw [← hp]
    have hput := runs_turn_put hc hsha (.put h1 h2 h3 h4 h5 h6 h7) hF hi hr hd
    simp only [hp, List.nil_append] at hput
    rwa [e] at hput
  | @verify l kv oid sz n ho hl ha hs hn =>
    obtain ⟨v, u, rfl, hv, hu⟩ := frames_split (ps := [Packet.data l]) hF
    rw [List.append_assoc] at hi
    obtain ⟨h1, h2⟩ := words_oid (cmd := b!"verify-object") ho (by decide) hl
    have hm : mode = .upload := hal
    subst hm
    exact turn_handled hc (frames_singleton hv) hi h2 h1 (by decide)
      (runs_verify hc ho ha hs hn hu rfl hr hd)
  | @get l kv oid ho hl ha =>
    obtain ⟨v, u, rfl, hv, hu⟩ := frames_split (ps := [Packet.data l]) hF
    rw [List.append_assoc] at hi
    obtain ⟨h1, h2⟩ := words_oid (cmd := b!"get-object") ho (by decide) hl
    have hm : mode = .download := hal
    subst hm
    exact turn_handled hc (frames_singleton hv) hi h2 h1 (by decide)
      (runs_get hc ho ha hu rfl hr hd)
  | @lock l kv path ref hl ha hpa href =>
    obtain ⟨v, u, rfl, hv, hu⟩ := frames_split (ps := [Packet.data l]) hF
    rw [List.append_assoc] at hi
    have hm : mode = .upload := hal
    subst hm
    refine turn_handled hc (frames_singleton hv) hi (isLine_ne hl (by simp))
      (cmd := b!"lock") (args := []) ?_ (by decide) (runs_lock hc hsha hclk ha hpa href hu rfl hr hd)
    rw [commandWords_line hl (by decide)]; decide
  | @listLocks l kv path cursor limit hl ha hlim hpa hcur =>
    obtain ⟨v, u, rfl, hv, hu⟩ := frames_split (ps := [Packet.data l]) hF
    rw [List.append_assoc] at hi
    refine turn_handled hc (frames_singleton hv) hi (isLine_ne hl (by simp))
      (cmd := b!"list-lock") (args := []) ?_ (by decide) (runs_listLocks hc hsha ha hlim hpa hcur hu rfl hr hd)
    rw [commandWords_line hl (by decide)]; decide
  | @unlock l kv id hid hl =>
    obtain ⟨v, u, rfl, hv, hu⟩ := frames_split (ps := [Packet.data l]) hF
    rw [List.append_assoc] at hi
    obtain ⟨h1, h2⟩ := words_oid (cmd := b!"unlock") hid (by decide) hl
    have hm : mode = .upload := hal
    subst hm
    exact turn_handled hc (frames_singleton hv) hi h2 h1 (by decide)
      (runs_unlock hc hid hu rfl hr hd)

end Verif
