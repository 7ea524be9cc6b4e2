import Verif.Lemmas.Meaning
/-! Properties C72 and C73: what the server answers to anything it is sent, and on what its answers depend. -/
namespace Verif
open Spec

variable {cfg : Cfg} {mode : Mode} {ch : Nat → Choice} {s : Store} {r r1 r' : Rdr}

/-! ### Denials -/

theorem M.bind_bind {α β γ : Type} (m : M α) (f : α → M β) (g : β → M γ) :
    ((m >>= f) >>= g) = (m >>= fun a => f a >>= g) := by
  funext r
  show Prog.bind (Prog.bind _ _) _ = Prog.bind _ _
  rw [Prog.bind_assoc]
  congr 1
  funext x
  obtain ⟨a | e | _, r'⟩ := x <;> rfl

theorem M.bind_unit (m : M Unit) : (m >>= fun _ => (pure () : M Unit)) = m := by
  funext r
  show Prog.bind _ _ = _
  conv_rhs => rw [← Prog.bind_ret (m r)]
  congr 1
  funext x
  obtain ⟨a | e | _, r'⟩ := x <;> rfl

theorem sendError_eq (code : Nat) (msg : Bytes) : sendError code msg = sendStatus (Status.failure code (msg ++ b!"\n")) := by
  have h1 : sendAll [msg ++ b!"\n"] = send (msg ++ b!"\n") := M.bind_unit _
  have h2 : sendStatus (Status.failure code (msg ++ b!"\n")) =
      (send (b!"status " ++ dec3 code ++ b!"\n") >>= fun _ => sendDelim >>= fun _ => sendAll [msg ++ b!"\n"] >>= fun _ => sendFlush) := rfl
  rw [h2, h1]
  rfl

/-- What a turn does when its command ends without a call. -/
theorem turn_ret {l cmd : Bytes} {args : List Bytes} {e : Err} {st : Status}
    (h : r.readPacket = (.ok (.data l), r1)) (hl : CommandLine l (cmd :: args))
    (hq : ¬ (cmd = b!"quit" ∧ args = [])) (hd : dispatch cfg mode cmd args.head? r1 = .ret (.err e, r'))
    (he : errorStatus e = st) :
    turn cfg mode r = (sendStatus st >>= fun _ => pure .again : M Turn) r' := by
  obtain ⟨hw, hne⟩ := commandLine_words hl
  rw [turn_data cfg mode r r1 l hne h]
  simp only [hw, List.head?_cons, Option.getD_some, List.tail_cons]
  rw [if_neg (by simpa using hq)]
  show Prog.bind (Prog.bind (dispatch cfg mode cmd args.head? r1) _) _ = _
  rw [hd, ← he]
  rfl

/-- A packet refused by itself. -/
theorem turn_refused_eq {p : Packet} {code : Nat} {msg : Bytes} (h : Refused mode p code msg) (hr : r.readPacket = (.ok p, r1)) :
    turn cfg mode r = (sendStatus (Status.failure code msg) >>= fun _ => pure .again : M Turn) r1 := by
  cases h with
  | flush =>
    show Prog.bind (Prog.bind (.ret (r.readPacket)) _) _ = _
    rw [hr]
    exact congrArg (fun m : M Unit => (m >>= fun _ => pure .again : M Turn) r1) (sendError_eq 400 b!"unknown command")
  | delim =>
    show Prog.bind (Prog.bind (.ret (r.readPacket)) _) _ = _
    rw [hr]
    exact congrArg (fun m : M Unit => (m >>= fun _ => pure .again : M Turn) r1) (sendError_eq 400 b!"unknown command")
  | empty =>
    show Prog.bind (Prog.bind (.ret (r.readPacket)) _) _ = _
    rw [hr]
    exact congrArg (fun m : M Unit => (m >>= fun _ => pure .again : M Turn) r1) (sendError_eq 400 b!"no command provided")
  | blank =>
    rw [turn_data cfg mode r r1 _ (by decide) hr]
    rfl
  | @version l ws hl hn =>
    refine turn_status (st := errStatus 400 b!"unknown version") hr hl (by simp) ?_
    unfold dispatch
    rw [if_pos rfl, if_neg hn]
  | @notAllowed l cmd x more hl ho =>
    refine turn_status (st := errStatus 403 b!"not allowed") hr hl (by simp) ?_
    cases ho <;> rfl
  | @unknown l cmd args hl hn hv ho =>
    refine turn_status (st := errStatus 400 b!"unknown command") hr hl ?_ ?_
    · rintro ⟨rfl, rfl⟩
      exact hn .quit
    · unfold dispatch
      rw [if_neg hv]
      cases args with
      | nil =>
        have hb : cmd ≠ b!"batch" := fun e => hn (by rw [e]; exact .batch)
        have hll : cmd ≠ b!"list-lock" := fun e => hn (by rw [e]; exact .args .listLocks)
        have hk : ¬ (cmd = b!"lock" ∧ mode = .upload) := by rintro ⟨rfl, rfl⟩; exact hn (.args .lock)
        simp only [hb, hll, hk, false_and, if_false, List.head?_nil]
      | cons x more =>
        have h1 : cmd ≠ b!"put-object" := by
          rintro rfl
          cases mode with
          | upload => exact hn .put
          | download => exact ho ⟨by simp, .put⟩
        have h2 : cmd ≠ b!"verify-object" := by
          rintro rfl
          cases mode with
          | upload => exact hn (.args .verify)
          | download => exact ho ⟨by simp, .verify⟩
        have h3 : cmd ≠ b!"get-object" := by
          rintro rfl
          cases mode with
          | upload => exact ho ⟨by simp, .get⟩
          | download => exact hn (.args .get)
        have h4 : ¬ (cmd = b!"unlock" ∧ mode = .upload) := by rintro ⟨rfl, rfl⟩; exact hn (.args .unlock)
        simp only [h1, h2, h3, h4, List.head?_cons, reduceCtorEq, and_false, if_false]

theorem rdr_ret {α β : Type} {f : Rdr → Res α × Rdr} {g : α → M β} {a : α} (h : f r = (.ok a, r1)) :
    (M.rdr f >>= g) r = g a r1 := by
  have h' : M.rdr f r = .ret (.ok a, r1) := by
    unfold M.rdr
    rw [h]
  change M.bind _ _ _ = _
  unfold M.bind
  rw [h']
  rfl

theorem ofRes_ret {α β : Type} {x : Res α} {g : α → M β} {a : α} (h : x = .ok a) : (M.ofRes x >>= g) r = g a r := by
  rw [h]; rfl

theorem ofRes_err {α β : Type} {x : Res α} {g : α → M β} {e : Err} (h : x = .err e) :
    (M.ofRes x >>= g) r = .ret (.err e, r) := by
  rw [h]; rfl

theorem flushParse_ret {β : Type} {g : List Bytes → M β} {v : List Bytes} (h : readToType .flush r = (.ok v, r1)) :
    (readToFlushParse >>= g) r = g v r1 := by
  show Prog.bind (Prog.bind (Prog.bind (.ret (readToType .flush r)) _) _) _ = _
  rw [h]
  rfl

theorem oidNew_ret {β : Type} {g : Bytes → M β} {o : Bytes} (h : IsOid o) : (oidNew o >>= g) r = g o r := by
  have : oidNew o = pure o := by simp [oidNew, (oidValid_iff o).mpr h]
  rw [this]; rfl

theorem oidNew_err {β : Type} {g : Bytes → M β} {o : Bytes} (h : ¬ IsOid o) :
    (oidNew o >>= g) r = .ret (.err (Err.simple .invalidLFSOid), r) := by
  have : oidNew o = M.throw (Err.simple .invalidLFSOid) := by
    unfold oidNew
    rw [if_neg fun hv => h ((oidValid_iff o).mp hv)]
  rw [this]; rfl

/-- A request that makes no sense: no call is made but for the reply, which is determined. -/
theorem turn_denied {ps : List Packet} {code : Nat} {msg u rest : Bytes} (h : Denied mode ps code msg) (hF : Frames ps u)
    (hi : r.input = u ++ rest) :
    turn cfg mode r = (sendStatus (Status.failure code msg) >>= fun _ => pure .again : M Turn) { r with input := rest } := by
  have first : ∀ {l : Bytes} {qs : List Packet}, ps = .data l :: qs → ∃ v u', u = v ++ u' ∧ Frames qs u' ∧
      r.readPacket = (.ok (.data l), { r with input := u' ++ rest }) := by
    rintro l qs rfl
    obtain ⟨v, u', rfl, hv, hu⟩ := frames_split (ps := [Packet.data l]) (by simpa using hF)
    exact ⟨v, u', rfl, hu, readPacket_frame (frames_singleton hv) r (u' ++ rest) (by rw [hi, List.append_assoc])⟩
  cases h with
  | single hr => exact turn_refused_eq hr (readPacket_frame (frames_singleton hF) r rest hi)
  | @args l ws items code msg hl hc hra hn hb =>
    obtain ⟨v, u', rfl, hu, hrd⟩ := first rfl
    obtain ⟨e, he, hst⟩ := parse_badArgs hb
    have h1 := readToType_any (r := { r with input := u' ++ rest }) hu hn rfl
    cases hc with
    | version => exact absurd rfl hra.1
    | unlock => exact absurd rfl hra.2
    | verify =>
      refine turn_ret hrd hl (by simp) ?_ hst
      show verifyObject cfg _ _ = _
      unfold verifyObject readToFlush
      rw [rdr_ret h1, ofRes_err he]
    | get =>
      refine turn_ret hrd hl (by simp) ?_ hst
      show getObject cfg _ _ = _
      unfold getObject readToFlush
      rw [rdr_ret h1, ofRes_err he]
    | lock =>
      refine turn_ret hrd hl (by decide) ?_ hst
      show lockCmd cfg _ = _
      unfold lockCmd
      rw [flushParse_ret h1, ofRes_err he]
    | listLocks =>
      refine turn_ret hrd hl (by decide) ?_ hst
      show listLocks cfg _ _ = _
      unfold listLocks
      rw [flushParse_ret h1, ofRes_err he]
  | @oid l cmd x more kv hl hc hx ha =>
    obtain ⟨v, u', rfl, hu, hrd⟩ := first rfl
    have h1 := readToType_any (r := { r with input := u' ++ rest }) hu (by simp [argPackets]) rfl
    rw [argPackets_data] at h1
    obtain ⟨m, hm, _⟩ := C09_args_exact kv ha
    rcases hc with ⟨rfl, rfl⟩ | ⟨rfl, rfl⟩
    · refine turn_ret hrd hl (by simp) ?_ (e := Err.simple .invalidLFSOid) rfl
      show verifyObject cfg _ _ = _
      unfold verifyObject readToFlush
      rw [rdr_ret h1, ofRes_ret hm, oidNew_err hx]
    · refine turn_ret hrd hl (by simp) ?_ (e := Err.simple .invalidLFSOid) rfl
      show getObject cfg _ _ = _
      unfold getObject readToFlush
      rw [rdr_ret h1, ofRes_ret hm, oidNew_err hx]
  | @verify l oid msg more kv hmode hl ho ha hb =>
    subst hmode
    obtain ⟨v, u', rfl, hu, hrd⟩ := first rfl
    have h1 := readToType_any (r := { r with input := u' ++ rest }) hu (by simp [argPackets]) rfl
    rw [argPackets_data] at h1
    obtain ⟨m, hm, hg⟩ := C09_args_exact kv ha
    obtain ⟨e, he, hst⟩ := parse_badSize (hg _) hb
    refine turn_ret hrd hl (by simp) ?_ hst
    show verifyObject cfg _ _ = _
    unfold verifyObject readToFlush
    rw [rdr_ret h1, ofRes_ret hm, oidNew_ret ho]
    unfold backendVerify
    exact ofRes_err he
  | @lock l kv hmode hl ha hn =>
    subst hmode
    obtain ⟨v, u', rfl, hu, hrd⟩ := first rfl
    have h1 := readToType_any (r := { r with input := u' ++ rest }) hu (by simp [argPackets]) rfl
    rw [argPackets_data] at h1
    obtain ⟨m, hm, hg⟩ := C09_args_exact kv ha
    refine turn_ret hrd hl (by decide) ?_ (e := Err.withMsg .missingData b!"both path and refname required") rfl
    show lockCmd cfg _ = _
    unfold lockCmd
    rw [flushParse_ret h1, ofRes_ret hm, hg, hg]
    rcases hn with hn | hn
    · rw [hn]; rfl
    · rw [hn]; cases lookup kv b!"path" <;> rfl
  | @limit l s kv hl ha hs hn =>
    obtain ⟨v, u', rfl, hu, hrd⟩ := first rfl
    have h1 := readToType_any (r := { r with input := u' ++ rest }) hu (by simp [argPackets]) rfl
    rw [argPackets_data] at h1
    obtain ⟨m, hm, hg⟩ := C09_args_exact kv ha
    obtain ⟨e, he, hst⟩ := parse_badInteger hn
    refine turn_ret hrd hl (by decide) ?_ hst
    show listLocks cfg _ _ = _
    unfold listLocks
    rw [flushParse_ret h1, ofRes_ret hm]
    refine ofRes_err ?_
    unfold parseLimit
    rw [hg, hs]
    simp only [he]
  | @noLimit l s kv hl ha hs hn =>
    obtain ⟨v, u', rfl, hu, hrd⟩ := first rfl
    have h1 := readToType_any (r := { r with input := u' ++ rest }) hu (by simp [argPackets]) rfl
    rw [argPackets_data] at h1
    obtain ⟨m, hm, hg⟩ := C09_args_exact kv ha
    refine turn_ret hrd hl (by decide) ?_ (e := Err.withMsg .notAllowed b!"bizarre request for no data") rfl
    show listLocks cfg _ _ = _
    unfold listLocks
    rw [flushParse_ret h1, ofRes_ret hm]
    refine ofRes_err ?_
    unfold parseLimit
    rw [hg, hs]
    simp only [num_parse hn, if_true]
  | @unlock l id more items hmode hl hid hn =>
    subst hmode
    obtain ⟨v, u', rfl, hu, hrd⟩ := first rfl
    have h1 := readToType_any (r := { r with input := u' ++ rest }) hu hn rfl
    refine turn_ret hrd hl (by simp) ?_ (e := Err.withMsg .corruptData b!"invalid or corrupt ID") rfl
    show unlockCmd cfg _ _ = _
    unfold unlockCmd readToFlush
    have hv : utf8Valid id = false := by
      cases hb : utf8Valid id with
      | true => exact absurd (utf8Valid_iff.mp hb) hid
      | false => rfl
    rw [rdr_ret h1, hv]
    rfl
  | @batchArgs l as code msg hl hn hb =>
    obtain ⟨v, u', rfl, hu, hrd⟩ := first rfl
    obtain ⟨e, he, hst⟩ := parse_badArgs hb
    have h1 := readToType_any (r := { r with input := u' ++ rest }) hu hn rfl
    refine turn_ret hrd hl (by decide) ?_ hst
    have key : ∀ p q, batchCmd cfg p q { r with input := u' ++ rest } = .ret (.err e, { r with input := rest }) := by
      intro p q
      unfold batchCmd readBatch readToDelim
      show Prog.bind ((M.rdr _ >>= _) _) _ = _
      rw [rdr_ret h1, ofRes_err he]
      rfl
    cases mode <;> exact key _ _
  | @hashAlgo l a t kv items hl ha hs hne ht hn =>
    obtain ⟨v, u', rfl, hu, hrd⟩ := first rfl
    have hu : Frames ((argPackets kv ++ [.delim]) ++ (items ++ [.flush])) u' := by simpa using hu
    obtain ⟨u1, u2, rfl, hu1, hu2⟩ := frames_split hu
    have h1 := readToType_any (r := { r with input := u1 ++ u2 ++ rest }) hu1 (argPackets_delim kv)
      (show u1 ++ u2 ++ rest = u1 ++ (u2 ++ rest) by rw [List.append_assoc])
    have h2 := readToType_any (r := { r with input := u2 ++ rest }) hu2 hn rfl
    rw [argPackets_data] at h1
    obtain ⟨m, hm, hg⟩ := C09_args_exact kv ha
    have ht := lossy_iff.mp ht
    subst ht
    refine turn_ret hrd hl (by decide) ?_
      (e := Err.withMsg .notAllowed (utf8Lossy a ++ b!" is not a permitted hash algorithm")) ?_
    · have key : ∀ p q, batchCmd cfg p q { r with input := u1 ++ u2 ++ rest } =
          .ret (.err (Err.withMsg .notAllowed (utf8Lossy a ++ b!" is not a permitted hash algorithm")), { r with input := rest }) := by
        intro p q
        unfold batchCmd readBatch readToDelim
        show Prog.bind ((M.rdr _ >>= _) _) _ = _
        rw [rdr_ret h1, ofRes_ret hm, flushParse_ret h2, hg, hs]
        simp only [hne, if_false]
        rfl
      cases mode <;> exact key _ _
    · show Status.failure 400 (b!"error: " ++ (b!"not allowed" ++ b!": " ++
        (utf8Lossy a ++ b!" is not a permitted hash algorithm")) ++ b!"\n") = _
      simp
  | @batchLine l kv its ls p rst code msg hl ha hh hls hp hb hn =>
    obtain ⟨v, u', rfl, hu, hrd⟩ := first rfl
    have hu : Frames ((argPackets kv ++ [.delim]) ++ ((ls.map .data ++ p :: rst) ++ [.flush])) u' := by simpa using hu
    obtain ⟨u1, u2, rfl, hu1, hu2⟩ := frames_split hu
    have h1 := readToType_any (r := { r with input := u1 ++ u2 ++ rest }) hu1 (argPackets_delim kv)
      (show u1 ++ u2 ++ rest = u1 ++ (u2 ++ rest) by rw [List.append_assoc])
    have h2 := readToType_any (r := { r with input := u2 ++ rest }) hu2 (by simp [hn, Ne.symm hp]) rfl
    have hmap : (ls.map Packet.data ++ p :: rst).map (fun p => p.data?.getD []) =
        ls ++ payload p :: rst.map (fun p => p.data?.getD []) := by
      rw [List.map_append, List.map_map, List.map_cons, getD_payload]
      congr 1
      exact List.map_id _
    rw [argPackets_data] at h1
    rw [hmap] at h2
    obtain ⟨m, hm, hg⟩ := C09_args_exact kv ha
    obtain ⟨e, he, hst⟩ := parse_badLines hls (rest := rst.map (fun p => p.data?.getD [])) hb
    refine turn_ret hrd hl (by decide) ?_ hst
    have key : ∀ p q, batchCmd cfg p q { r with input := u1 ++ u2 ++ rest } = .ret (.err e, { r with input := rest }) := by
      intro p q
      unfold batchCmd readBatch readToDelim
      show Prog.bind ((M.rdr _ >>= _) _) _ = _
      rw [rdr_ret h1, ofRes_ret hm, flushParse_ret h2, hg]
      cases hx : lookup kv b!"hash-algo" with
      | none =>
        show Prog.bind ((M.ofRes _ >>= _) _) _ = _
        rw [ofRes_err he]
        rfl
      | some x =>
        have := hh x hx
        subst this
        simp only [if_true]
        show Prog.bind ((M.ofRes _ >>= _) _) _ = _
        rw [ofRes_err he]
        rfl
    cases mode <;> exact key _ _
  | @putOid l oid more hmode hl ho =>
    subst hmode
    obtain ⟨v, u', rfl, hu, hrd⟩ := first rfl
    cases hu
    refine turn_ret hrd hl (by simp) ?_ (e := Err.simple .invalidLFSOid) rfl
    show putObject cfg _ _ = _
    unfold putObject
    exact oidNew_err ho
  | @putArgs l oid more as code msg hmode hl ho hn hb =>
    subst hmode
    obtain ⟨v, u', rfl, hu, hrd⟩ := first rfl
    obtain ⟨e, he, hst⟩ := parse_badArgs hb
    have h1 := readToType_any (r := { r with input := u' ++ rest }) hu hn rfl
    refine turn_ret hrd hl (by simp) ?_ hst
    show putObject cfg _ _ = _
    unfold putObject readToDelim
    rw [oidNew_ret ho, rdr_ret h1, ofRes_err he]
  | @putSize l oid msg more kv hmode hl ho ha hb =>
    subst hmode
    obtain ⟨v, u', rfl, hu, hrd⟩ := first rfl
    have h1 := readToType_any (r := { r with input := u' ++ rest }) hu (argPackets_delim kv) rfl
    rw [argPackets_data] at h1
    obtain ⟨m, hm, hg⟩ := C09_args_exact kv ha
    obtain ⟨e, he, hst⟩ := parse_badSize (hg _) hb
    refine turn_ret hrd hl (by simp) ?_ hst
    show putObject cfg _ _ = _
    unfold putObject readToDelim
    rw [oidNew_ret ho, rdr_ret h1, ofRes_ret hm]
    exact ofRes_err he

theorem badArgs_code {items : List Packet} {code : Nat} {msg : Bytes} (h : BadArgs items code msg) :
    (code = 400 ∨ code = 403 ∨ code = 500) ∧ msg ≠ [] := by
  cases h <;> simp

theorem badSize_msg {x msg : Bytes} {o : Option Bytes} (h : BadSize x o msg) : msg ≠ [] := by
  cases h <;> simp

theorem badLine_code {x : Bytes} {code : Nat} {msg : Bytes} (h : BadLine x code msg) :
    (code = 400 ∨ code = 403 ∨ code = 500) ∧ msg ≠ [] := by
  cases h <;> simp

theorem denied_code {ps : List Packet} {code : Nat} {msg : Bytes} (h : Denied mode ps code msg) :
    (code = 400 ∨ code = 403 ∨ code = 500) ∧ msg ≠ [] := by
  cases h with
  | single h => cases h <;> simp
  | args _ _ _ _ h => exact badArgs_code h
  | verify _ _ _ _ h => exact ⟨by simp, badSize_msg h⟩
  | batchArgs _ _ h => exact badArgs_code h
  | batchLine _ _ _ _ _ h _ => exact badLine_code h
  | putArgs _ _ _ _ h => exact badArgs_code h
  | putSize _ _ _ _ h => exact ⟨by simp, badSize_msg h⟩
  | _ => simp

theorem denied_means {ps : List Packet} {code : Nat} {msg : Bytes} (h : Denied mode ps code msg) :
    Means (Status.failure code msg) (denial code msg) := by
  refine ⟨rfl, ?_, rfl, by simp [denial]⟩
  show code ∈ statusCodes
  rcases (denied_code h).1 with rfl | rfl | rfl <;> decide

/-- **C72**, nonsense: a request that makes no sense is answered by the error for it, whatever the file system does, and
the server goes on behind it. -/
theorem C72_reply {ps : List Packet} {code : Nat} {msg u rest : Bytes} {tr : List Event} {x : Res Turn}
    (h : Denied mode ps code msg) (hF : Frames ps u) (hi : r.input = u ++ rest)
    (hf : (turn cfg mode r).Finished tr (x, r')) (ho : ∀ e ∈ tr, e.OutOk) :
    x = .ok .again ∧ r' = { r with input := rest } ∧ Sends (denial code msg) (output tr) := by
  rw [turn_denied h hF hi] at hf
  have hw : (sendStatus (Status.failure code msg) >>= fun _ => (pure Turn.again : M Turn)).wp (Logic.out false)
      { r with input := rest } [] (fun x r1 s => x = .ok .again ∧ r1 = { r with input := rest } ∧
        s = replyWith (Status.failure code msg) (some [msg])) := by
    rw [M.wp_bind]
    refine M.wp_mono (emits_sendStatus (Status.failure code msg) (.inr rfl) false { r with input := rest } []) ?_
    intro x r s h
    rw [h.1, Res.elim_ok]
    exact ⟨rfl, h.2.1, h.2.2.trans (List.nil_append _)⟩
  have h6 := Prog.wp_finished hw hf (Logic.legalTr_of_forall fun e he s => ⟨ho e he, fun h => by cases h⟩)
  rw [Logic.out_fold, List.nil_append] at h6
  refine ⟨h6.1, h6.2.1, ?_⟩
  rw [h6.2.2]
  exact sends_replyWith (denied_means h) ⟨_, rfl, linesPackets_msgChunks _ (by simpa using (denied_code h).2)⟩

/-- **C72**, nonsense: wherever the server is stopped, nothing but output happens for a request that makes no sense. -/
theorem C72_untouched {ps : List Packet} {code : Nat} {msg u rest : Bytes} {tr : List Event}
    (h : Denied mode ps code msg) (hF : Frames ps u) (hi : r.input = u ++ rest) (hd : (turn cfg mode r).Did tr) :
    ∀ e ∈ tr, e.1.outputs = true := by
  rw [turn_denied h hF hi] at hd
  exact Prog.All.did (P := fun o => o.outputs = true) ((M.All.bind (C41_only_output _ rfl) fun _ => .pure _ :
    (sendStatus (Status.failure code msg) >>= fun _ => (pure Turn.again : M Turn)).All _) _) hd

/-! ### Requests that make sense -/

theorem runs_congr {α : Type} {m m' : M α} {r r' : Rdr} {w : World} {Q : Res α → Rdr → World → Prop} (h : m r = m' r')
    (hm : m'.runs ch r' w Q) : m.runs ch r w Q := by
  unfold M.runs M.wp at hm ⊢
  rw [h]
  exact hm

/-- The reader before a flush. -/
theorem flush_again (r : Rdr) (rest : Bytes) : readToType .flush { r with input := b!"0000" ++ rest } = (.ok [], { r with input := rest }) := by
  have h : Frames [Packet.flush] b!"0000" := .cons .flush .nil
  simpa using readToType_any (ps := []) (r := { r with input := b!"0000" ++ rest }) h (by simp) rfl

/-- **One request.** -/
theorem runs_turn_means {q : Request} {ps : List Packet} {wire rest : Bytes} {w : World}
    (hc : Calm ch) (hsha : ∀ b, (cfg.sha b).length = 32) (hclk : ∀ t, Clock cfg ch t → TimeOk cfg t)
    (he : Spec.Means mode ps q) (hF : Frames ps wire) (hi : r.input = wire ++ rest) (hp : r.pending = [])
    (hr : Rep cfg s w.fs) (hd : Ready cfg w.fs) :
    (turn cfg mode).runs ch r w (Turned cfg mode ch s q .again { r with input := rest } w.out) := by
  have none : Frames (argPackets [] ++ [.flush]) b!"0000" := .cons .flush .nil
  cases he with
  | @version _ l more items hl hn =>
    obtain ⟨v, u, rfl, hv, hu⟩ := frames_split (ps := [Packet.data l]) (by simpa using hF)
    rw [List.append_assoc] at hi
    obtain ⟨h1, h2⟩ := commandLine_words hl
    refine turn_handled hc (frames_singleton hv) hi h2 h1 (by decide) ?_
    refine runs_congr (m' := versionCmd) (r' := { r with input := b!"0000" ++ rest }) ?_
      (runs_version (r := { r with input := b!"0000" ++ rest }) none rfl hr hd)
    show versionCmd _ = _
    unfold versionCmd readToFlush
    rw [rdr_ret (readToType_any (r := { r with input := u ++ rest }) hu hn rfl), rdr_ret (flush_again r rest)]
  | @batch _ l kv items ls hl ha hh hb =>
    obtain ⟨v, u, rfl, hv, hu⟩ := frames_split (ps := [Packet.data l]) (by simpa using hF)
    have hu : Frames ((argPackets kv ++ [.delim]) ++ (ls.map .data ++ [.flush])) u := by simpa using hu
    obtain ⟨u1, u2, rfl, hu1, hu2⟩ := frames_split hu
    rw [List.append_assoc, List.append_assoc] at hi
    obtain ⟨h1, h2⟩ := commandLine_words hl
    refine turn_handled hc (frames_singleton hv) hi h2 h1 (by decide) ?_
    cases mode with
    | upload => exact runs_batch hc ha hh hb hu1 hu2 rfl hr hd rfl
    | download => exact runs_batch hc ha hh hb hu1 hu2 rfl hr hd rfl
  | @put l more kv oid sz n ds t hl ho ha hs hn hds ht =>
    obtain ⟨v, u, rfl, hv, hu⟩ := frames_split (ps := [Packet.data l]) (by simpa using hF)
    have hu : Frames ((argPackets kv ++ [.delim]) ++ (ds.map .data ++ [t])) u := by simpa using hu
    obtain ⟨u1, u2, rfl, hu1, hu2⟩ := frames_split hu
    rw [List.append_assoc, List.append_assoc] at hi
    obtain ⟨h1, h2⟩ := commandLine_words hl
    have e : ({ r with input := rest, pending := [] } : Rdr) = { r with input := rest } := by rw [← hp]
    have hput := runs_put (mode := .upload) (ch := ch) (cfg := cfg) (s := s) (w := w)
      (r := { r with input := u1 ++ (u2 ++ rest) }) ht hc hsha ho ha hs hn hds hu1 hu2 rfl hr hd
    simp only [hp, List.nil_append] at hput
    rw [← hp] at hput
    exact turn_handled hc (frames_singleton hv) hi h2 h1 (by decide) hput
  | @verify l more kv oid sz n hl ho ha hs hn =>
    obtain ⟨v, u, rfl, hv, hu⟩ := frames_split (ps := [Packet.data l]) hF
    rw [List.append_assoc] at hi
    obtain ⟨h1, h2⟩ := commandLine_words hl
    exact turn_handled hc (frames_singleton hv) hi h2 h1 (by decide) (runs_verify hc ho ha hs hn hu rfl hr hd)
  | @get l more kv oid hl ho ha =>
    obtain ⟨v, u, rfl, hv, hu⟩ := frames_split (ps := [Packet.data l]) hF
    rw [List.append_assoc] at hi
    obtain ⟨h1, h2⟩ := commandLine_words hl
    exact turn_handled hc (frames_singleton hv) hi h2 h1 (by decide) (runs_get hc ho ha hu rfl hr hd)
  | @lock l kv path ref hl ha hpa href =>
    obtain ⟨v, u, rfl, hv, hu⟩ := frames_split (ps := [Packet.data l]) hF
    rw [List.append_assoc] at hi
    obtain ⟨h1, h2⟩ := commandLine_words hl
    exact turn_handled hc (frames_singleton hv) hi h2 h1 (by decide) (runs_lock hc hsha hclk ha hpa href hu rfl hr hd)
  | @listLocks _ l kv limit hl ha hlim =>
    obtain ⟨v, u, rfl, hv, hu⟩ := frames_split (ps := [Packet.data l]) hF
    rw [List.append_assoc] at hi
    obtain ⟨h1, h2⟩ := commandLine_words hl
    exact turn_handled hc (frames_singleton hv) hi h2 h1 (by decide) (runs_listLocks hc hsha ha hlim rfl rfl hu rfl hr hd)
  | @unlock l id more items hl hid hn =>
    obtain ⟨v, u, rfl, hv, hu⟩ := frames_split (ps := [Packet.data l]) (by simpa using hF)
    rw [List.append_assoc] at hi
    obtain ⟨h1, h2⟩ := commandLine_words hl
    refine turn_handled hc (frames_singleton hv) hi h2 h1 (by decide) ?_
    refine runs_congr (m' := unlockCmd cfg id) (r' := { r with input := b!"0000" ++ rest }) ?_
      (runs_unlock (r := { r with input := b!"0000" ++ rest }) hc hid none rfl hr hd)
    show unlockCmd cfg id _ = _
    unfold unlockCmd readToFlush
    rw [rdr_ret (readToType_any (r := { r with input := u ++ rest }) hu hn rfl), rdr_ret (flush_again r rest)]

/-- What a turn does with anything the client may say. -/
def TurnReplied (cfg : Cfg) (mode : Mode) (ch : Nat → Choice) (s : Store) (q : Said) (tn : Turn) (r' : Rdr) (out : Bytes)
    (x : Res Turn) (r : Rdr) (w : World) : Prop :=
  x = .ok tn ∧ r = r' ∧ ∃ t t' b, Clock cfg ch t ∧ Clock cfg ch t' ∧ w.out = out ++ b ∧
    Sends (reply cfg mode s t t' q).1 b ∧ Rep cfg (reply cfg mode s t t' q).2 w.fs ∧ Ready cfg w.fs

theorem runs_turn_denied {code : Nat} {msg : Bytes} {ps : List Packet} {wire rest : Bytes} {w : World}
    (hc : Calm ch) (he : Denied mode ps code msg) (hF : Frames ps wire) (hi : r.input = wire ++ rest)
    (hr : Rep cfg s w.fs) (hd : Ready cfg w.fs) :
    (turn cfg mode).runs ch r w (TurnReplied cfg mode ch s (.nonsense code msg) .again { r with input := rest } w.out) := by
  obtain ⟨t, ht⟩ := clock_exists cfg ch
  refine runs_congr (turn_denied he hF hi) ?_
  refine runs_bind (runs_status (st := Status.failure code msg) (a := denial code msg)
    ⟨denied_means he, rfl, by simpa using (denied_code he).2⟩ hc) ?_
  rintro x r3 w3 ⟨rfl, rfl, f1, b, f2, f3⟩
  exact ⟨rfl, rfl, t, t, b, ht, ht, f2, f3, by rw [f1]; exact hr, by rw [f1]; exact hd⟩

theorem runs_turn_quit {l wire rest : Bytes} {w : World} (hc : Calm ch) (hl : CommandLine l [b!"quit"])
    (hF : Frames [.data l] wire) (hi : r.input = wire ++ rest) (hr : Rep cfg s w.fs) (hd : Ready cfg w.fs) :
    (turn cfg mode).runs ch r w (Turned cfg mode ch s .quit .done { r with input := rest } w.out) := by
  obtain ⟨t, ht⟩ := clock_exists cfg ch
  obtain ⟨h1, h2⟩ := commandLine_words hl
  refine runs_congr (m' := sendStatus Status.success >>= fun _ => pure .done) (r' := { r with input := rest }) ?_ ?_
  · rw [turn_data cfg mode r _ l h2 (readPacket_frame (frames_singleton hF) r rest hi)]
    simp only [h1, List.head?_cons, Option.getD_some, List.tail_cons, List.head?_nil, and_self, if_true]
  refine runs_bind (runs_status (st := Status.success) (a := ⟨200, [], .none⟩)
    ⟨⟨rfl, c200, rfl, by simp⟩, rfl, rfl⟩ hc) ?_
  rintro x r3 w3 ⟨rfl, rfl, f1, b, f2, f3⟩
  exact ⟨rfl, rfl, t, t, b, ht, ht, f2, f3, by rw [f1]; exact hr, by rw [f1]; exact hd⟩

/-! ### Sessions -/

theorem means_ne {ps : List Packet} {q : Request} (h : Spec.Means mode ps q) : ps ≠ [] := by cases h <;> simp
theorem denied_ne {ps : List Packet} {code : Nat} {msg : Bytes} (h : Denied mode ps code msg) : ps ≠ [] := by
  cases h <;> simp

theorem runs_talk (hc : Calm ch) (hsha : ∀ b, (cfg.sha b).length = 32)
    (hclk : ∀ t, Clock cfg ch t → TimeOk cfg t) {qs : List Said} {wire : Bytes} (hs : Talk mode qs wire) :
    ∀ (s : Store) (f : Nat) (r : Rdr) (w : World), r.input = wire → r.pending = [] →
    r.fin.kind = .unexpectedEof → wire.length < f → Rep cfg s w.fs → Ready cfg w.fs →
    (processF cfg mode f).runs ch r w (fun x _ w' => x = .ok () ∧ ∃ ws s', w'.out = w.out ++ ws.flatten ∧
      Conversation cfg mode ch s qs ws s' ∧ Rep cfg s' w'.fs ∧ Ready cfg w'.fs) := by
  have step : ∀ {q : Said} {qs : List Said} {w1 ws : Bytes}, 4 ≤ w1.length →
      (∀ (s : Store) (r : Rdr) (w : World), r.input = w1 ++ ws → r.pending = [] → Rep cfg s w.fs → Ready cfg w.fs →
        (turn cfg mode).runs ch r w (TurnReplied cfg mode ch s q .again { r with input := ws } w.out)) →
      (∀ (s : Store) (f : Nat) (r : Rdr) (w : World), r.input = ws → r.pending = [] →
        r.fin.kind = .unexpectedEof → ws.length < f → Rep cfg s w.fs → Ready cfg w.fs →
        (processF cfg mode f).runs ch r w (fun x _ w' => x = .ok () ∧ ∃ ws s', w'.out = w.out ++ ws.flatten ∧
          Conversation cfg mode ch s qs ws s' ∧ Rep cfg s' w'.fs ∧ Ready cfg w'.fs)) →
      (∀ (s : Store) (f : Nat) (r : Rdr) (w : World), r.input = w1 ++ ws → r.pending = [] →
        r.fin.kind = .unexpectedEof → (w1 ++ ws).length < f → Rep cfg s w.fs → Ready cfg w.fs →
        (processF cfg mode f).runs ch r w (fun x _ w' => x = .ok () ∧ ∃ ws s', w'.out = w.out ++ ws.flatten ∧
          Conversation cfg mode ch s (q :: qs) ws s' ∧ Rep cfg s' w'.fs ∧ Ready cfg w'.fs)) := by
    intro q qs w1 ws hlen one ih s f r w hi hp hfin hf hr hd
    obtain ⟨f, rfl⟩ : ∃ g, f = g + 1 := ⟨f - 1, by omega⟩
    rw [processF]
    refine runs_bind (one s r w hi hp hr hd) ?_
    rintro x r' w' ⟨rfl, rfl, t, t', b, ht, ht', h1, h2, h3, h4⟩
    simp only [Res.elim_ok]
    refine runs_mono (ih _ f _ w' rfl hp hfin (by simp only [List.length_append] at hf; omega) h3 h4) ?_
    rintro x r2 w2 ⟨rfl, b2, s2, g1, g2, g3, g4⟩
    refine ⟨rfl, b :: b2, s2, by rw [g1, h1, List.append_assoc, List.flatten_cons], ?_, g3, g4⟩
    exact .cons ht ht' rfl h2 g2
  have long : ∀ {ps : List Packet} {w : Bytes}, ps ≠ [] → Frames ps w → 4 ≤ w.length := by
    intro ps w hne hF
    have := frames_length hF
    have := List.length_pos_iff.mpr hne
    omega
  induction hs with
  | eof =>
    intro s f r w hi hp hfin hf hr hd
    obtain ⟨f, rfl⟩ : ∃ g, f = g + 1 := ⟨f - 1, by omega⟩
    rw [processF]
    refine runs_bind (runs_turn_eof hi hfin) ?_
    rintro x r' w' ⟨rfl, rfl, rfl⟩
    exact ⟨rfl, [], s, by simp, .nil, hr, hd⟩
  | @quit l w1 rest hl hF =>
    intro s f r w hi hp hfin hf hr hd
    obtain ⟨f, rfl⟩ : ∃ g, f = g + 1 := ⟨f - 1, by omega⟩
    rw [processF]
    refine runs_bind (runs_turn_quit hc hl hF hi hr hd) ?_
    rintro x r' w' ⟨rfl, rfl, t, t', b, ht, ht', h1, h2, h3, h4⟩
    exact ⟨rfl, [b], _, by simpa using h1, .cons ht ht' rfl h2 .nil, h3, h4⟩
  | ask he hF _ ih =>
    exact step (long (means_ne he) hF) (fun s r w hi hp hr hd => runs_turn_means hc hsha hclk he hF hi hp hr hd) ih
  | nonsense he hF _ ih =>
    exact step (long (denied_ne he) hF) (fun s r w hi hp hr hd => runs_turn_denied hc he hF hi hr hd) ih

theorem runs_program_talk (hc : Calm ch) (hsha : ∀ b, (cfg.sha b).length = 32)
    (hclk : ∀ t, Clock cfg ch t → TimeOk cfg t) {qs : List Said} {w : World} (hs : Talk mode qs r.input)
    (hp : r.pending = []) (hfin : r.fin.kind = .unexpectedEof) (hr : Rep cfg s w.fs) :
    (runProgram cfg (Mode.operation mode)).runs ch r w (fun x _ w' => x = .ok () ∧ ∃ ws s',
      w'.out = w.out ++ b!"000eversion=1\n0000" ++ ws.flatten ∧
      Conversation cfg mode ch s qs ws s' ∧ Rep cfg s' w'.fs ∧ Ready cfg w'.fs) := by
  unfold runProgram
  refine runs_bind (runs_createDirectories hc hr) ?_
  rintro x r' w1 ⟨rfl, rfl, e1, hr1, hd1⟩
  simp only [Res.elim_ok]
  refine runs_bind (prints_sendCapabilities ch r' w1 hc) ?_
  rintro x r2 w2 ⟨rfl, rfl, e2, e3⟩
  have hcap : encMsg b!"version=1\n" ++ b!"0000" = b!"000eversion=1\n0000" := by decide
  rw [hcap] at e3
  simp only [Res.elim_ok]
  have main := runs_talk hc hsha hclk hs s (r2.input.length + 1) r2 w2 rfl hp hfin (by omega)
    (by rw [e2]; exact hr1) (by rw [e2]; exact hd1)
  have main' : (processF cfg mode (r2.input.length + 1)).runs ch r2 w2 (fun x _ w' => x = .ok () ∧ ∃ ws s',
      w'.out = w.out ++ b!"000eversion=1\n0000" ++ ws.flatten ∧
      Conversation cfg mode ch s qs ws s' ∧ Rep cfg s' w'.fs ∧ Ready cfg w'.fs) := by
    refine runs_mono main ?_
    rintro x r3 w3 ⟨h1, ws, s', h2, h3⟩
    exact ⟨h1, ws, s', by rw [h2, e3, e1], h3⟩
  cases mode with
  | upload => exact main'
  | download => exact main'

/-- **C72.** Whatever the client sends, request after request, sensible or not: it gets one reply for each, in order. The
reply to a request is that of the simple server. The reply to nonsense says what is wrong, and the store stays as it is.
What is missing: an `unlock` whose argument is no ID, see `C72_refuted`. -/
theorem C72_session_partial (hc : ∀ n, (ch n).fault = none) (hsha : ∀ b, (cfg.sha b).length = 32)
    (hclk : ∀ t, Clock cfg ch t → TimeOk cfg t) {qs : List Said} {w : World} (hs : Talk mode qs r.input)
    (hr : Rep cfg s w.fs) (hp : r.pending = []) (hfin : r.fin.kind = .unexpectedEof) :
    ((mainProg cfg (Mode.operation mode) r).run ch w).1 = ⟨0, []⟩ ∧
    ∃ ws s', ((mainProg cfg (Mode.operation mode) r).run ch w).2.out = w.out ++ b!"000eversion=1\n0000" ++ ws.flatten ∧
      Conversation cfg mode ch s qs ws s' ∧ Rep cfg s' ((mainProg cfg (Mode.operation mode) r).run ch w).2.fs := by
  refine main_run (Q := fun w' => ∃ ws s', w'.out = w.out ++ b!"000eversion=1\n0000" ++ ws.flatten ∧
    Conversation cfg mode ch s qs ws s' ∧ Rep cfg s' w'.fs) ?_
  refine runs_mono (runs_program_talk hc hsha hclk hs hp hfin hr) ?_
  rintro x r' w' ⟨rfl, b, s', h1, h2, h3, _⟩
  exact ⟨rfl, b, s', h1, h2, h3⟩

/-! ### Every request is one or the other -/

theorem limit_total {kv : List (Bytes × Bytes)} : (∃ n, LimitArg kv n) ∨ (∃ s, lookup kv b!"limit" = some s ∧ ¬ ∃ n, Num s n) ∨
    ∃ s, lookup kv b!"limit" = some s ∧ Num s 0 := by
  classical
  cases h : lookup kv b!"limit" with
  | none => exact .inl ⟨none, h⟩
  | some x =>
    by_cases hn : ∃ n, Num x n
    · obtain ⟨n, hn⟩ := hn
      cases n with
      | zero => exact .inr (.inr ⟨x, rfl, hn⟩)
      | succ n => exact .inl ⟨some (n + 1), by omega, x, h, hn⟩
    · exact .inr (.inl ⟨x, rfl, hn⟩)

theorem size_total (missing : Bytes) (o : Option Bytes) : (∃ s n, o = some s ∧ Num s n) ∨ ∃ msg, BadSize missing o msg := by
  classical
  cases o with
  | none => exact .inr ⟨_, .missing⟩
  | some s =>
    by_cases hn : ∃ n, Num s n
    · obtain ⟨n, hn⟩ := hn
      exact .inl ⟨s, n, rfl, hn⟩
    · exact .inr ⟨_, .wrong hn⟩

/-- **C72.** Whatever packets the server takes together as a request (`Extent`; see C38), they are a request that it knows,
or they are denied; except for `unlock` with an argument that is no ID. -/
theorem C72_total {ps : List Packet} (h : Extent mode ps) :
    (∃ q, Spec.Means mode ps q) ∨ (∃ code msg, Denied mode ps code msg) ∨ (mode = .upload ∧ OddUnlock ps) := by
  classical
  cases h with
  | @single p h =>
    rcases (C67_table mode p).1 with h' | ⟨code, msg, h'⟩
    · exact absurd h' h
    · exact .inr (.inl ⟨_, _, .single h'⟩)
  | @args l ws items hl ha hn =>
    have bad : ReadsArgs ws → (∃ kv, ArgsOk kv ∧ items = argPackets kv) ∨ ∃ code msg, Denied mode (.data l :: items ++ [.flush]) code msg := by
      intro hr
      rcases args_total items with h | ⟨code, msg, h⟩
      · exact .inl h
      · exact .inr ⟨code, msg, .args hl ha hr hn h⟩
    cases ha with
    | version => exact .inl ⟨_, .version hl hn⟩
    | @unlock x more =>
      by_cases hx : IsOid x
      · exact .inl ⟨_, .unlock hl hx hn⟩
      · by_cases ht : Text x
        · exact .inr (.inr ⟨rfl, .mk hl hx ht hn⟩)
        · exact .inr (.inl ⟨_, _, .unlock rfl hl ht hn⟩)
    | @verify x more =>
      rcases bad ⟨by simp, by simp⟩ with ⟨kv, hkv, rfl⟩ | h
      swap
      · exact .inr (.inl h)
      by_cases hx : IsOid x
      swap
      · exact .inr (.inl ⟨_, _, .oid hl (.inl ⟨rfl, rfl⟩) hx hkv⟩)
      rcases size_total b!"missing required header" (lookup kv b!"size") with ⟨s, n, hs, hn⟩ | ⟨msg, h⟩
      · exact .inl ⟨_, .verify hl hx hkv hs hn⟩
      · exact .inr (.inl ⟨_, _, .verify rfl hl hx hkv h⟩)
    | @get x more =>
      rcases bad ⟨by simp, by simp⟩ with ⟨kv, hkv, rfl⟩ | h
      swap
      · exact .inr (.inl h)
      by_cases hx : IsOid x
      · exact .inl ⟨_, .get hl hx hkv⟩
      · exact .inr (.inl ⟨_, _, .oid hl (.inr ⟨rfl, rfl⟩) hx hkv⟩)
    | lock =>
      rcases bad ⟨by simp, by simp⟩ with ⟨kv, hkv, rfl⟩ | h
      swap
      · exact .inr (.inl h)
      cases h1 : lookup kv b!"path" with
      | none => exact .inr (.inl ⟨_, _, .lock rfl hl hkv (.inl h1)⟩)
      | some p =>
        cases h2 : lookup kv b!"refname" with
        | none => exact .inr (.inl ⟨_, _, .lock rfl hl hkv (.inr h2)⟩)
        | some q => exact .inl ⟨_, .lock hl hkv h1 h2⟩
    | listLocks =>
      rcases bad ⟨by simp, by simp⟩ with ⟨kv, hkv, rfl⟩ | h
      swap
      · exact .inr (.inl h)
      rcases limit_total (kv := kv) with ⟨n, h⟩ | ⟨s, h1, h2⟩ | ⟨s, h1, h2⟩
      · exact .inl ⟨_, .listLocks hl hkv h⟩
      · exact .inr (.inl ⟨_, _, .limit hl hkv h1 h2⟩)
      · exact .inr (.inl ⟨_, _, .noLimit hl hkv h1 h2⟩)
  | @batch l as items hl ha hn =>
    obtain ⟨kv, hkv, rfl⟩ := ha
    by_cases hh : ∀ a, lookup kv b!"hash-algo" = some a → a = b!"sha256"
    swap
    · obtain ⟨a, ha⟩ := not_forall.mp hh
      obtain ⟨ha, hne⟩ := Classical.not_imp.mp ha
      exact .inr (.inl ⟨_, _, .hashAlgo hl hkv ha hne (lossy_iff.mpr rfl) hn⟩)
    rcases lines_total items with ⟨its, ls, h1, rfl⟩ | ⟨its, ls, p, rest, code, msg, h1, rfl, h2⟩
    · exact .inl ⟨_, .batch hl hkv hh h1⟩
    · refine .inr (.inl ⟨code, msg, ?_⟩)
      simp only [List.mem_append, List.mem_cons, not_or] at hn
      simpa using Denied.batchLine hl hkv hh h1 (Ne.symm hn.2.1) h2 hn.2.2
  | @batchArgs l as hl hn ha =>
    rcases args_total as with h | ⟨code, msg, h⟩
    · exact absurd h ha
    · exact .inr (.inl ⟨_, _, .batchArgs hl hn h⟩)
  | @put l oid more ds as t hm hl ho ha hds ht =>
    subst hm
    obtain ⟨kv, s, n, hkv, rfl, hs, hn⟩ := ha
    exact .inl ⟨_, .put hl ho hkv hs hn hds ht⟩
  | @putArgs l oid more as hm hl ho hn ha =>
    rcases args_total as with ⟨kv, hkv, rfl⟩ | ⟨code, msg, h⟩
    · rcases size_total b!"missing required size header" (lookup kv b!"size") with ⟨s, n, hs, hn⟩ | ⟨msg, h⟩
      · exact absurd ⟨kv, s, n, hkv, rfl, hs, hn⟩ ha
      · exact .inr (.inl ⟨_, _, .putSize hm hl ho hkv h⟩)
    · exact .inr (.inl ⟨_, _, .putArgs hm hl ho hn h⟩)
  | putOid hm hl ho => exact .inr (.inl ⟨_, _, .putOid hm hl ho⟩)

/-! ### On what the replies depend -/

/-- The same server with another directory, another `umask` and another buffer. -/
abbrev elsewhere (cfg : Cfg) (root : Path) (umask : Nat) (bufs : Nat → Nat) : Cfg :=
  { cfg with root := root, umask := umask, copyBuf := bufs }

theorem reply_elsewhere {root : Path} {umask : Nat} {bufs : Nat → Nat} {t t' : Int} (q : Said) :
    reply (elsewhere cfg root umask bufs) mode s t t' q = reply cfg mode s t t' q := by
  cases q with
  | nonsense => rfl
  | ask q =>
    cases q with
    | listLocks path => cases path <;> rfl
    | _ => rfl

theorem reply_clock {t t' u u' : Int} {q : Said} (h : ∀ p, q ≠ .ask (.lock p)) :
    reply cfg mode s t t' q = reply cfg mode s u u' q := by
  cases q with
  | nonsense => rfl
  | ask q =>
    cases q with
    | listLocks path => cases path <;> rfl
    | lock p => exact absurd rfl (h p)
    | _ => rfl

theorem reply_raw {t t' : Int} {q : Said} (h : ∀ o, q ≠ .ask (.get o)) (b : Bytes) :
    (reply cfg mode s t t' q).1.body ≠ .raw b := by
  cases q with
  | nonsense => simp [reply, denial]
  | ask q =>
    cases q with
    | get o => exact absurd rfl (h o)
    | listLocks path => cases path <;> simp only [reply, answer] <;> (repeat' split) <;> simp [notFound, clash, badRequest]
    | _ => simp only [reply, answer] <;> (repeat' split) <;> simp [notFound, clash, badRequest]

theorem clock_unique {cfg : Cfg} {ch ch' : Nat → Choice} {t t' : Int} (h : cfg.timestamp.isSome) (h1 : Clock cfg ch t)
    (h2 : Clock cfg ch' t') : t = t' := by
  rcases h1 with h1 | ⟨h1, _⟩
  · rcases h2 with h2 | ⟨h2, _⟩
    · exact Option.some.inj (h1.symm.trans h2)
    · rw [h2] at h; cases h
  · rw [h1] at h; cases h

theorem answers_same {ch' : Nat → Choice} {root : Path} {umask : Nat} {bufs : Nat → Nat} {qs : List Said} {ws ws' : List Bytes}
    {s1 s2 : Store} (h : Conversation cfg mode ch s qs ws s1) (h' : Conversation (elsewhere cfg root umask bufs) mode ch' s qs ws' s2)
    (ht : cfg.timestamp.isSome ∨ ∀ p, .ask (.lock p) ∉ qs) :
    s1 = s2 ∧ (∃ as : List Answer, List.Forall₂ Sends as ws ∧ List.Forall₂ Sends as ws') ∧
    ((∀ o, .ask (.get o) ∉ qs) → ws = ws') := by
  induction h generalizing ws' with
  | nil => cases h'; exact ⟨rfl, ⟨[], .nil, .nil⟩, fun _ => rfl⟩
  | @cons s s' s'' q qs t t' a w ws c1 c2 hr hs _ ih =>
    cases h' with
    | @cons _ s3 _ _ _ u u' a' w' ws' d1 d2 hr' hs' h' =>
      have e : (a, s') = (a', s3) := by
        refine hr.symm.trans (Eq.trans ?_ ((reply_elsewhere q).symm.trans hr'))
        rcases ht with ht | ht
        · have e1 : t = u := clock_unique ht c1 d1
          have e2 : t' = u' := clock_unique ht c2 d2
          rw [e1, e2]
        · exact reply_clock fun p hp => ht p (by simp [hp])
      obtain ⟨rfl, rfl⟩ := Prod.mk.inj e
      obtain ⟨h1, ⟨as, h2, h3⟩, h4⟩ := ih h' (ht.imp_right fun h p hp => h p (by simp [hp]))
      refine ⟨h1, ⟨a :: as, .cons hs h2, .cons hs' h3⟩, fun hg => ?_⟩
      have hraw : ∀ b, a.body ≠ .raw b := by
        have := reply_raw (cfg := cfg) (mode := mode) (s := s) (t := t) (t' := t') (q := q) fun o ho => hg o (by simp [ho])
        rw [hr] at this
        exact this
      rw [sends_unique hraw hs hs', h4 fun o ho => hg o (by simp [ho])]

theorem talk_noGet {qs : List Said} {w : Bytes} (h : Talk .upload qs w) (o : Bytes) : Said.ask (.get o) ∉ qs := by
  generalize hm : Mode.upload = m at h
  induction h with
  | eof => simp
  | quit => simp
  | ask he _ _ ih =>
    intro hm'
    rcases List.mem_cons.mp hm' with e | h'
    · cases e
      cases he
      cases hm
    · exact ih h'
  | nonsense _ _ _ ih => simpa using ih

/-- **C72.** The replies depend on the requests, the store and the clock, and on nothing else. Take two servers for
repositories that hold the same objects and locks: whatever else is on the two disks, wherever they are, whatever their
modes, buffers and file descriptors, and however the clients cut the same requests into packets; the clients get the same
answers. In upload mode they are the same bytes (an object may be cut into packets in several ways).

The clock matters for `lock` only. What is missing: an `unlock` whose argument is no ID, see `C72_refuted`. -/
theorem C72_same_partial {ch' : Nat → Choice} {root : Path} {umask : Nat} {bufs : Nat → Nat} {qs : List Said} {w w' : World}
    (hc : ∀ n, (ch n).fault = none) (hc' : ∀ n, (ch' n).fault = none) (hsha : ∀ b, (cfg.sha b).length = 32)
    (hclk : ∀ t, Clock cfg ch t → TimeOk cfg t) (hclk' : ∀ t, Clock cfg ch' t → TimeOk cfg t)
    (ht : cfg.timestamp.isSome ∨ ∀ p, .ask (.lock p) ∉ qs)
    (hs : Talk mode qs r.input) (hs' : Talk mode qs r'.input)
    (hr : Rep cfg s w.fs) (hr' : Rep (elsewhere cfg root umask bufs) s w'.fs)
    (hp : r.pending = []) (hp' : r'.pending = []) (hfin : r.fin.kind = .unexpectedEof) (hfin' : r'.fin.kind = .unexpectedEof) :
    ∃ (as : List Answer) (ws ws' : List Bytes),
      ((mainProg cfg (Mode.operation mode) r).run ch w).2.out = w.out ++ b!"000eversion=1\n0000" ++ ws.flatten ∧
      ((mainProg (elsewhere cfg root umask bufs) (Mode.operation mode) r').run ch' w').2.out =
        w'.out ++ b!"000eversion=1\n0000" ++ ws'.flatten ∧
      as.length = qs.length ∧ List.Forall₂ Sends as ws ∧ List.Forall₂ Sends as ws' ∧ (mode = .upload → ws = ws') := by
  obtain ⟨-, ws, s1, h1, h2, -⟩ := C72_session_partial hc hsha hclk hs hr hp hfin
  obtain ⟨-, ws', s2, h1', h2', -⟩ := C72_session_partial (cfg := elsewhere cfg root umask bufs) hc' hsha hclk' hs' hr' hp' hfin'
  obtain ⟨-, ⟨as, h3, h4⟩, h5⟩ := answers_same h2 h2' ht
  have hlen : ∀ {s s' : Store} {qs : List Said} {ws : List Bytes}, Conversation cfg mode ch s qs ws s' → ws.length = qs.length := by
    intro s s' qs ws h
    induction h with
    | nil => rfl
    | cons _ _ _ _ _ ih => simp [ih]
  have flen : ∀ {as : List Answer} {ws : List Bytes}, List.Forall₂ Sends as ws → as.length = ws.length := by
    intro as ws h
    induction h with
    | nil => rfl
    | cons _ _ ih => simp [ih]
  refine ⟨as, ws, ws', h1, h1', by rw [(flen h3), hlen h2], h3, h4, ?_⟩
  rintro rfl
  exact h5 fun o => talk_noGet hs o

end Verif
